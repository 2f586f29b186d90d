import Verif.Spec.CodeSections
import Verif.Proofs.CodeStyles
import Verif.Props.Code
import Verif.Proofs.MergeInside

/-! # Property C147: sections of code -/

namespace Verif.Text
open Spec

/-- The number of characters that a text shows. -/
def width : List Tok → Nat
  | [] => 0
  | .text s :: ts => s.length + width ts
  | .newline n :: ts => n + width ts
  | .opn _ :: ts => width ts
  | .close :: ts => width ts

theorem openings_append (a b : List Tok) : ∀ pos, openings pos (a ++ b) = openings pos a ++ openings (pos + width a) b := by
  induction a with
  | nil => intro pos; simp [openings, width]
  | cons t a ih =>
    intro pos
    cases t <;> simp [openings, width, ih, Nat.add_assoc]

theorem openings_simplify {a b : List Tok} (h : Simplify a b) (pos : Nat) : openings pos a = openings pos b := by
  cases h <;> simp [openings_append, openings, Nat.add_assoc, Nat.add_comm, Nat.add_left_comm]

theorem openings_simplifies {a b : List Tok} (h : Simplifies a b) (pos : Nat) : openings pos a = openings pos b := by
  induction h with
  | refl => rfl
  | step h _ ih => rw [openings_simplify h, ih]

theorem openings_dropNl (n : Nat) (l : List Tok) (pos : Nat) : openings pos (dropNl n l) = openings (pos + n) l := by
  unfold dropNl; split
  · rename_i h; simp [h]
  · rfl

theorem openings_dropTx (v : Str) (l : List Tok) (pos : Nat) : openings pos (dropTx v l) = openings (pos + v.length) l := by
  unfold dropTx; split
  · rename_i h; simp [h]
  · rfl

/-- In the merged list the blocks of a stream begin where they begin in the stream. -/
theorem run_openings {s : MState} {ms : List MTok} (h : Run s ms) : ∀ pos, openings pos (proj false ms) = openings pos s.l1 ∧
    openings pos (proj true ms) = openings pos s.l2 := by
  induction h with
  | done h1 h2 => intro pos; rw [h1, h2]; exact ⟨rfl, rfl⟩
  | step hs _ ih =>
    intro pos
    cases hs with
    | close1 => have := ih pos; simpa [proj, openings] using this
    | close2 => have := ih pos; simpa [proj, openings] using this
    | opn1 => have := ih pos; simp only [proj, openings]; exact ⟨by simp [openings, this.1], by simp [this.2]⟩
    | opn2 => have := ih pos; simp only [proj, openings]; exact ⟨by simp [this.1], by simp [openings, this.2]⟩
    | @nl v1 v2 =>
      have := ih (pos + min v1 v2)
      simp only [openings_dropNl] at this
      simp only [proj, openings]
      rw [this.1, this.2]
      constructor <;> congr 1 <;> omega
    | @tx v1 v2 =>
      have := ih (pos + (if v1.length ≤ v2.length then v1 else v2).length)
      simp only [openings_dropTx, List.length_drop] at this
      simp only [proj, openings]
      rw [this.1, this.2]
      constructor <;> congr 1 <;> split <;> omega

theorem openings_closes (k : Nat) (l : List Tok) (pos : Nat) : openings pos (List.replicate k .close ++ l) = openings pos l := by
  induction k with
  | zero => rfl
  | succ k ih => simpa [List.replicate_succ, openings] using ih

theorem openings_opens (l : List Str) (r : List Tok) (pos : Nat) : openings pos (l.map .opn ++ r) = l.map (fun n => (pos, n)) ++ openings pos r := by
  induction l with
  | nil => rfl
  | cons a l ih => simp [openings, ih]

theorem emit_sublist (ms : List MTok) : ∀ (opened : List (Bool × Str)) (r : List Tok) (pos : Nat), PlainOnly ms → mergeEmit opened ms = .ok r →
    (openings pos (proj true ms)).Sublist (openings pos r) := by
  induction ms with
  | nil =>
    intro opened r pos _ h
    exact List.nil_sublist _
  | cons m ms ih =>
    intro opened r pos hp h
    have hp' : PlainOnly ms := fun t ht => hp t (List.mem_cons_of_mem _ ht)
    match m, hp, h with
    | .plain t, hp, h =>
      simp only [mergeEmit] at h
      split at h
      · rename_i r' hr'
        injection h with h; subst h
        rcases hp t (List.mem_cons_self ..) with ⟨s, rfl⟩ | ⟨n, rfl⟩
        · exact ih _ _ _ hp' hr'
        · exact ih _ _ _ hp' hr'
      · cases h
    | .block i (.opn name), hp, h =>
      simp only [mergeEmit] at h
      split at h
      · rename_i r' hr'
        injection h with h; subst h
        have := ih _ _ pos hp' hr'
        cases i
        · simpa [proj, openings] using this.cons (pos, name)
        · simpa [proj, openings] using this
      · cases h
    | .block i .close, hp, h =>
      simp only [mergeEmit] at h
      split at h
      · cases h
      · rename_i reopen opened' hc
        split at h
        · rename_i r' hr'
          injection h with h; subst h
          rw [List.append_assoc, openings_closes, openings_opens]
          have := ih _ _ pos hp' hr'
          cases i <;> simpa [proj, openings] using this.trans (List.sublist_append_right _ _)
        · cases h
    | .block i (.text s), hp, h => simp [mergeEmit] at h
    | .block i (.newline k), hp, h => simp [mergeEmit] at h

theorem emit_first (n : Str) (ms : List MTok) : ∀ (opened : List (Bool × Str)) (r : List Tok) (pos : Nat), PlainOnly ms → mergeEmit opened ms = .ok r →
    (∀ x ∈ opened, x.2 ≠ n) → MTok.block false (.opn n) ∉ ms →
    (openings pos r).find? (fun x => decide (x.2 = n)) = (openings pos (proj true ms)).find? (fun x => decide (x.2 = n)) := by
  induction ms with
  | nil =>
    intro opened r pos _ h _ _
    simp only [mergeEmit] at h
    split at h
    · injection h with h; subst h; rfl
    · cases h
  | cons m ms ih =>
    intro opened r pos hp h ho hm
    have hp' : PlainOnly ms := fun t ht => hp t (List.mem_cons_of_mem _ ht)
    have hm' : MTok.block false (.opn n) ∉ ms := fun ht => hm (List.mem_cons_of_mem _ ht)
    match m, hp, h, hm with
    | .plain t, hp, h, _ =>
      simp only [mergeEmit] at h
      split at h
      · rename_i r' hr'
        injection h with h; subst h
        rcases hp t (List.mem_cons_self ..) with ⟨s, rfl⟩ | ⟨k, rfl⟩
        · exact ih _ _ _ hp' hr' ho hm'
        · exact ih _ _ _ hp' hr' ho hm'
      · cases h
    | .block i (.opn name), hp, h, hm =>
      simp only [mergeEmit] at h
      split at h
      · rename_i r' hr'
        injection h with h; subst h
        by_cases hn : name = n
        · subst hn
          cases i
          · exact absurd (List.mem_cons_self ..) hm
          · simp [proj, openings]
        · have := ih _ _ pos hp' hr' (by
            intro x hx
            rcases List.mem_cons.mp hx with rfl | hx
            · exact hn
            · exact ho x hx) hm'
          cases i <;> simpa [proj, openings, hn] using this
      · cases h
    | .block i .close, hp, h, _ =>
      simp only [mergeEmit] at h
      split at h
      · cases h
      · rename_i reopen opened' hc
        obtain ⟨h1, h2⟩ := Verif.Highlight.closeBlock_names hc
        split at h
        · rename_i r' hr'
          injection h with h; subst h
          rw [List.append_assoc, openings_closes, openings_opens, List.find?_append]
          have hnone : (reopen.map (fun m => (pos, m))).find? (fun x => decide (x.2 = n)) = none := by
            rw [List.find?_eq_none]
            intro x hx
            obtain ⟨m, hm, rfl⟩ := List.mem_map.mp hx
            obtain ⟨j, hj⟩ := h1 m hm
            simpa using ho _ hj
          rw [hnone, Option.none_or]
          have := ih _ _ pos hp' hr' (fun x hx => ho x (h2 x hx)) hm'
          cases i <;> simpa [proj, openings] using this
        · cases h
    | .block i (.text s), hp, h, _ => simp [mergeEmit] at h
    | .block i (.newline k), hp, h, _ => simp [mergeEmit] at h

theorem filter_none {l : List Str} {n : Str} (pos : Nat) (h : n ∉ l) : ((l.map (fun m => (pos, m))).filter (fun x => decide (x.2 = n))) = [] := by
  rw [List.filter_eq_nil_iff]
  intro x hx
  obtain ⟨m, hm, rfl⟩ := List.mem_map.mp hx
  simpa using fun e : m = n => h (e ▸ hm)

/-- If nothing of the first stream is closed around something of the second, no section of the second is opened again. -/
theorem emit_exact (n : Str) (ms : List MTok) : ∀ (opened : List (Bool × Str)) (r : List Tok) (pos : Nat), PlainOnly ms → mergeEmit opened ms = .ok r →
    (false, n) ∉ opened → MTok.block false (.opn n) ∉ ms → Nest (opened.map (·.1)) ms → openingsOf n pos r = openingsOf n pos (proj true ms) := by
  induction ms with
  | nil =>
    intro opened r pos _ h _ _ _
    simp only [mergeEmit] at h
    split at h
    · injection h with h; subst h; rfl
    · cases h
  | cons m ms ih =>
    intro opened r pos hp h ho hm hn
    have hp' : PlainOnly ms := fun t ht => hp t (List.mem_cons_of_mem _ ht)
    have hm' : MTok.block false (.opn n) ∉ ms := fun ht => hm (List.mem_cons_of_mem _ ht)
    match m, hp, h, hm, hn with
    | .plain t, hp, h, _, hn =>
      simp only [mergeEmit] at h
      split at h
      · rename_i r' hr'
        injection h with h; subst h
        rcases hp t (List.mem_cons_self ..) with ⟨s, rfl⟩ | ⟨k, rfl⟩
        · exact ih _ _ _ hp' hr' ho hm' hn
        · exact ih _ _ _ hp' hr' ho hm' hn
      · cases h
    | .block i (.opn name), hp, h, hm, hn =>
      simp only [mergeEmit] at h
      split at h
      · rename_i r' hr'
        injection h with h; subst h
        have hf : (false, n) ∉ (i, name) :: opened := by
          intro hx
          rcases List.mem_cons.mp hx with hx | hx
          · injection hx with h1 h2
            subst h1 h2
            exact hm (List.mem_cons_self ..)
          · exact ho hx
        have := ih _ _ pos hp' hr' hf hm' hn
        cases i
        · have hne : name ≠ n := fun e => hf (by simp [e])
          simpa [openingsOf, proj, openings, hne] using this
        · by_cases hne : name = n
          · simpa [openingsOf, proj, openings, hne] using this
          · simpa [openingsOf, proj, openings, hne] using this
      · cases h
    | .block false .close, hp, h, _, hn =>
      obtain ⟨hh, hn⟩ := hn
      match opened, hh with
      | (false, name) :: rest, _ =>
        simp only [mergeEmit, closeBlock, if_true] at h
        split at h
        · rename_i r' hr'
          injection h with h; subst h
          have := ih _ _ pos hp' hr' (fun hx => ho (List.mem_cons_of_mem _ hx)) hm' hn
          simpa [openingsOf, proj, openings] using this
        · cases h
    | .block true .close, hp, h, _, hn =>
      simp only [mergeEmit] at h
      split at h
      · cases h
      · rename_i reopen opened' hc
        obtain ⟨h1, h2⟩ := closeBlock_erase hc
        split at h
        · rename_i r' hr'
          injection h with h; subst h
          have hf : (false, n) ∉ opened' := fun hx => ho ((Verif.Highlight.closeBlock_names hc).2 _ hx)
          have := ih _ _ pos hp' hr' hf hm' (by rw [h1]; exact hn)
          simp only [openingsOf] at this ⊢
          rw [List.append_assoc, openings_closes, openings_opens, List.filter_append, filter_none pos (fun hx => ho (h2 n hx)), List.nil_append, this]
          simp [proj, openings]
        · cases h
    | .block i (.text s), hp, h, _, _ => simp [mergeEmit] at h
    | .block i (.newline k), hp, h, _, _ => simp [mergeEmit] at h

/-- Blocks of the first stream in the merged list are in the first stream. -/
theorem run_first {s : MState} {ms : List MTok} (h : Run s ms) (n : Str) : MTok.block false (.opn n) ∈ ms → Tok.opn n ∈ s.l1 := by
  induction h with
  | done => simp
  | step hs _ ih =>
    intro hm
    rcases List.mem_cons.mp hm with hm | hm
    · subst hm
      cases hs
      simp
    · exact (Verif.Highlight.step_opn hs n).1 (ih hm)

theorem merge_openings {t1 t2 r : List Tok} (h : tokensMerge t1 t2 = .ok r) (pos : Nat) : (openings pos t2).Sublist (openings pos r) ∧
    ∀ n, Tok.opn n ∉ t1 → (openings pos r).find? (fun x => decide (x.2 = n)) = (openings pos t2).find? (fun x => decide (x.2 = n)) := by
  unfold tokensMerge at h
  split at h
  · cases h
  · rename_i ms hms
    split at h
    · cases h
    · rename_i r0 hr0
      have hrun := mergeLoop_run (by unfold mergeHelper at hms; exact hms)
      have ho := (run_openings hrun pos).2
      have hs := openings_simplifies (normalize_simplifies h) pos
      have hp := run_plainOnly hrun
      rw [← hs, ← ho]
      exact ⟨emit_sublist ms [] r0 pos hp hr0, fun n hn => emit_first n ms [] r0 pos hp hr0 (by simp) (fun hm => hn (run_first hrun n hm))⟩

theorem merge_whole {t1 t2 r : List Tok} (h : tokensMerge t1 t2 = .ok r) (b1 : SimpleMarkup false t1) (b2 : SimpleMarkup false t2)
    (hne : ∀ y ∈ sections 0 [] t2, y.1 < y.2) (hcut : NoCut (sections 0 [] t1) (sections 0 [] t2)) (pos : Nat) (n : Str) (hn : Tok.opn n ∉ t1) :
    openingsOf n pos r = openingsOf n pos t2 := by
  unfold tokensMerge at h
  split at h
  · cases h
  · rename_i ms hms
    split at h
    · cases h
    · rename_i r0 hr0
      have hl : mergeLoop (t1.length + t2.length + 1) ⟨t1, t2, 0, 0, [], []⟩ = .ok ms := by unfold mergeHelper at hms; exact hms
      have hrun := mergeLoop_run hl
      have hnest := whole_loop _ _ hne hcut _ [] 0 _ ms (.none b1 b2) (by rw [(extents_eq t1 0).1 b1]; exact List.Subset.refl _)
        (by rw [(extents_eq t2 0).1 b2]; exact List.Subset.refl _) hl
      have := emit_exact n ms [] r0 pos (run_plainOnly hrun) hr0 (by simp) (fun hm => hn (run_first hrun n hm)) hnest
      unfold openingsOf at this ⊢
      rw [← openings_simplifies (normalize_simplifies h) pos, this, (run_openings hrun pos).2]

theorem merge_inside {t1 t2 r : List Tok} (h : tokensMerge t1 t2 = .ok r) (b1 : SimpleMarkup false t1) (b2 : Balanced t2) (c2 : Clean t2)
    (hne : ∀ y ∈ sections 0 [] t2, y.1 < y.2) (hcr : ∀ x ∈ sections 0 [] t1, ∀ y ∈ sections 0 [] t2, ¬ Crosses y x) (pos : Nat) (n : Str)
    (hn : Tok.opn n ∉ t1) : openingsOf n pos r = openingsOf n pos t2 := by
  unfold tokensMerge at h
  split at h
  · cases h
  · rename_i ms hms
    split at h
    · cases h
    · rename_i r0 hr0
      have hl : mergeLoop (t1.length + t2.length + 1) ⟨t1, t2, 0, 0, [], []⟩ = .ok ms := by unfold mergeHelper at hms; exact hms
      have hrun := mergeLoop_run hl
      have hso : Solid t2 := by
        intro t ht
        constructor
        · intro e; subst e; exact (c2.1 _ ht).1 rfl
        · intro e; subst e; exact absurd (c2.2 _ ht) (by decide)
      have hnest := inside_loop _ _ hne hcr _ (List.replicate 0 true) 0 _ ms (.out 0 b1 (depth_of_balanced b2 0) hso)
        (by rw [(extents_eq t1 0).1 b1]; exact List.Subset.refl _) (fun y hy => (extentsK_sub t2 0 [] (depth_of_balanced b2 0)).1 y hy) hl
      have := emit_exact n ms [] r0 pos (run_plainOnly hrun) hr0 (by simp) (fun hm => hn (run_first hrun n hm)) hnest
      unfold openingsOf at this ⊢
      rw [← openings_simplifies (normalize_simplifies h) pos, this, (run_openings hrun pos).2]

/-- The claim: in highlighted code the sections with a name of the user begin where they were written, and there are no others. -/
def SectionsKept : Prop :=
  ∀ (lx : Lexer), Honours lx → ∀ (tabsize : Nat) (escapeChar : Str) (x b e : Char), Delims escapeChar x b e → ∀ (text : Str) (lead : Nat) (body : Str)
    (p : List Tok), untab tabsize text = List.replicate lead '\n' ++ body → body.head? ≠ some '\n' → parseText (some x) b e body = .ok p →
    '\r' ∉ chars p → (chars p).head? ≠ some '﻿' → stripNl (chars p) = chars p →
    ∃ r, boxCode (some lx) true false tabsize escapeChar text = .ok r ∧
      ∀ n, ¬ "pygments-".toList <+: n → openingsOf n 0 r = openingsOf n lead p

/-- A lexer for which the first three characters are a name and the rest is something else. -/
def threeLexer : Lexer := fun code =>
  if (stripNl code).length < 3 then [("Token.Name".toList, stripNl code ++ ['\n'])]
  else [("Token.Name".toList, (stripNl code).take 3), ("Token.Text".toList, (stripNl code).drop 3 ++ ['\n'])]

theorem threeLexer_honours : Honours threeLexer := by
  constructor
  · intro code _ _
    unfold threeLexer
    split
    · simp
    · simp only [List.flatMap_cons, List.flatMap_nil, List.append_nil, ← List.append_assoc, List.take_append_drop]
  · intro code v hv
    unfold threeLexer at hv
    split at hv
    · obtain rfl := List.mem_singleton.mp hv; simp
    · rename_i hl
      rcases List.mem_cons.mp hv with rfl | hv
      · intro h
        have h' := congrArg List.length h
        rw [List.length_take, List.length_nil] at h'
        omega
      · obtain rfl := List.mem_singleton.mp hv; simp

/-- **C147 is false.** In `fo~#x{o b}ar` the section `#x` begins inside the token `foo` and goes on behind it. In the shown code it is two sections, so that
`inline_box("#x")` is around the first part only. -/
theorem C147_sections_false : ¬ SectionsKept := by
  intro h
  obtain ⟨r, hr, hn⟩ := h threeLexer threeLexer_honours 4 ['~'] '~' '{' '}' (.one '~') "fo~#x{o b}ar".toList 0 "fo~#x{o b}ar".toList
    [.text "fo".toList, .opn "#x".toList, .text "o b".toList, .close, .text "ar".toList] (by decide +kernel) (by decide) (by decide +kernel) (by decide) (by decide)
    (by decide +kernel)
  have h1 := hn "#x".toList (by decide)
  have h2 : (match boxCode (some threeLexer) true false 4 ['~'] "fo~#x{o b}ar".toList with
    | .ok r => openingsOf "#x".toList 0 r
    | .error _ => []) = [2, 3] := by decide +kernel
  rw [hr] at h2
  exact absurd (h2.symm.trans h1) (by decide +kernel)

/-- **C147 (partial).** No section is lost: the sections written begin in the shown code at the same characters and in the same order, and the first section with
a name begins where the first one was written. Missing: there may be more sections (C147_sections_false). -/
theorem C147_sections_partial (lx : Lexer) (hx : Honours lx) (tabsize : Nat) (escapeChar : Str) (x b e : Char) (hd : Delims escapeChar x b e) (text : Str)
    (lead : Nat) (body : Str) (p : List Tok) (ht : untab tabsize text = List.replicate lead '\n' ++ body) (hb : body.head? ≠ some '\n')
    (hp : parseText (some x) b e body = .ok p) (hcr : '\r' ∉ chars p) (hbom : (chars p).head? ≠ some '﻿') (hs : stripNl (chars p) = chars p) :
    ∃ r, boxCode (some lx) true false tabsize escapeChar text = .ok r ∧ (openings lead p).Sublist (openings 0 r) ∧
      ∀ n, ¬ "pygments-".toList <+: n → (openingsOf n 0 r).head? = (openingsOf n lead p).head? := by
  obtain ⟨h, m, k, _, _, _, _, _, hm, _, _, hbc, hh, _⟩ := (code_styles lx hx tabsize escapeChar x b e hd text lead body p ht hb hp hcr hbom).2 hs
  refine ⟨_, hbc, ?_⟩
  have hr : openings 0 (if lead = 0 then m else .newline lead :: m) = openings lead m := by
    split
    · rename_i h0; rw [h0]
    · simp [openings]
  obtain ⟨h1, h2⟩ := merge_openings hm lead
  refine ⟨by rw [hr]; exact h1, fun n hn => ?_⟩
  have := h2 n (fun ho => by
    obtain ⟨v, _, _, e⟩ := Verif.Highlight.opened_highlight hh n ho
    exact hn ⟨v.1, e.symm⟩)
  simp only [openingsOf, hr, List.head?_map, List.head?_filter, this]

/-- **C147 (partial), the claim.** If the markup is not nested, no section is empty and no section that begins inside a coloured token goes on behind its end,
the sections in the shown code are exactly those written. -/
theorem C147_whole_partial (lx : Lexer) (hx : Honours lx) (tabsize : Nat) (escapeChar : Str) (x b e : Char) (hd : Delims escapeChar x b e) (text : Str)
    (lead : Nat) (body : Str) (p : List Tok) (ht : untab tabsize text = List.replicate lead '\n' ++ body) (hb : body.head? ≠ some '\n')
    (hp : parseText (some x) b e body = .ok p) (hcr : '\r' ∉ chars p) (hbom : (chars p).head? ≠ some '﻿') (hs : stripNl (chars p) = chars p)
    (hnest : maxNesting 0 p ≤ 1) (hne : ∀ y ∈ sections 0 [] p, y.1 < y.2)
    (hcut : ∀ h, highlightCode lx (chars p) = .ok h → NoCut (sections 0 [] h) (sections 0 [] p)) :
    ∃ r, boxCode (some lx) true false tabsize escapeChar text = .ok r ∧ ∀ n, ¬ "pygments-".toList <+: n → openingsOf n 0 r = openingsOf n lead p := by
  obtain ⟨h, m, k, hb1, hc1, hn1, _, _, hm, _, _, hbc, hh, _⟩ := (code_styles lx hx tabsize escapeChar x b e hd text lead body p ht hb hp hcr hbom).2 hs
  obtain ⟨b2, c2⟩ := parse_balanced_clean hp
  refine ⟨_, hbc, fun n hn => ?_⟩
  have := merge_whole hm (simple_of h false (depth_of_balanced hb1 0) hn1 hc1) (simple_of p false (depth_of_balanced b2 0) hnest c2) hne (hcut h hh) lead n
    (fun ho => by
      obtain ⟨v, _, _, e⟩ := Verif.Highlight.opened_highlight hh n ho
      exact hn ⟨v.1, e.symm⟩)
  rw [← this]
  unfold openingsOf
  split
  · rename_i h0; rw [h0]
  · simp [openings]

/-- The hypotheses are met: the first section ends with its token, the second begins and ends inside a token, the third has the same name. -/
example : parseText (some '~') '{' '}' "fo~#x{o} b~#y{a}~#x{r}".toList = .ok [.text "fo".toList, .opn "#x".toList, .text "o".toList, .close, .text " b".toList,
      .opn "#y".toList, .text "a".toList, .close, .opn "#x".toList, .text "r".toList, .close] ∧
    highlightCode threeLexer "foo bar".toList = .ok [.opn "pygments-Token.Name".toList, .text "foo".toList, .close, .opn "pygments-Token.Text".toList,
      .text " bar".toList, .close] ∧
    NoCut [(0, 3), (3, 7)] [(2, 3), (5, 6), (6, 7)] ∧
    (match boxCode (some threeLexer) true false 4 ['~'] "fo~#x{o} b~#y{a}~#x{r}".toList with
      | .ok r => openingsOf "#x".toList 0 r
      | .error _ => []) = [2, 6] :=
  ⟨by decide +kernel, by decide +kernel, by unfold NoCut; decide, by decide +kernel⟩

/-- **C147 (partial), the claim for nested markup.** If no section is empty and none that begins inside a coloured token reaches to its end, the sections in the
shown code are exactly those written. -/
theorem C147_nested_partial (lx : Lexer) (hx : Honours lx) (tabsize : Nat) (escapeChar : Str) (x b e : Char) (hd : Delims escapeChar x b e) (text : Str)
    (lead : Nat) (body : Str) (p : List Tok) (ht : untab tabsize text = List.replicate lead '\n' ++ body) (hb : body.head? ≠ some '\n')
    (hp : parseText (some x) b e body = .ok p) (hcr : '\r' ∉ chars p) (hbom : (chars p).head? ≠ some '﻿') (hs : stripNl (chars p) = chars p)
    (hne : ∀ y ∈ sections 0 [] p, y.1 < y.2)
    (hcut : ∀ h, highlightCode lx (chars p) = .ok h → ∀ x ∈ sections 0 [] h, ∀ y ∈ sections 0 [] p, ¬ Crosses y x) :
    ∃ r, boxCode (some lx) true false tabsize escapeChar text = .ok r ∧ ∀ n, ¬ "pygments-".toList <+: n → openingsOf n 0 r = openingsOf n lead p := by
  obtain ⟨h, m, k, hb1, hc1, hn1, _, _, hm, _, _, hbc, hh, _⟩ := (code_styles lx hx tabsize escapeChar x b e hd text lead body p ht hb hp hcr hbom).2 hs
  obtain ⟨b2, c2⟩ := parse_balanced_clean hp
  refine ⟨_, hbc, fun n hn => ?_⟩
  have := merge_inside hm (simple_of h false (depth_of_balanced hb1 0) hn1 hc1) b2 c2 hne (hcut h hh) lead n
    (fun ho => by
      obtain ⟨v, _, _, e⟩ := Verif.Highlight.opened_highlight hh n ho
      exact hn ⟨v.1, e.symm⟩)
  rw [← this]
  unfold openingsOf
  split
  · rename_i h0; rw [h0]
  · simp [openings]

/-- The hypotheses are met: `#a` is around both tokens, `#x` around the first one and inside the second one. -/
example : parseText (some '~') '{' '}' "~#a{~#x{foo} ~#x{b~#y{a}}r}".toList = .ok [.opn "#a".toList, .opn "#x".toList, .text "foo".toList, .close,
      .text " ".toList, .opn "#x".toList, .text "b".toList, .opn "#y".toList, .text "a".toList, .close, .close, .text "r".toList, .close] ∧
    sections 0 [] [.opn "#a".toList, .opn "#x".toList, .text "foo".toList, .close, .text " ".toList, .opn "#x".toList, .text "b".toList, .opn "#y".toList,
      .text "a".toList, .close, .close, .text "r".toList, .close] = [(0, 3), (5, 6), (4, 6), (0, 7)] ∧
    (∀ x ∈ [(0, 3), (3, 7)], ∀ y ∈ [(0, 3), (5, 6), (4, 6), (0, 7)], ¬ Crosses y x) ∧
    (match boxCode (some threeLexer) true false 4 ['~'] "~#a{~#x{foo} ~#x{b~#y{a}}r}".toList with
      | .ok r => openingsOf "#x".toList 0 r
      | .error _ => []) = [0, 4] :=
  ⟨by decide +kernel, by decide +kernel, by decide +kernel, by decide +kernel⟩

/-- An empty section has to be excluded: behind one at the beginning of a token, a section that is longer than the token is shown as two sections. -/
theorem C147_empty_false :
    parseText (some '~') '{' '}' "~#a{}~#x{foo b}ar".toList =
      .ok [.opn "#a".toList, .close, .opn "#x".toList, .text "foo b".toList, .close, .text "ar".toList] ∧
    NoCut [(0, 3), (3, 7)] [(0, 0), (0, 5)] ∧
    (match boxCode (some threeLexer) true false 4 ['~'] "~#a{}~#x{foo b}ar".toList with
      | .ok r => openingsOf "#x".toList 0 r
      | .error _ => []) = [0, 3] :=
  ⟨by decide +kernel, by unfold NoCut; decide, by decide +kernel⟩

/-- With nested sections those that end with their token have to be excluded: `#b` ends with its token inside of `#a`, which began with an earlier token, and gets a second section without text
(the stacks of both texts are compared from their outermost blocks, textparser.py:219). -/
theorem C147_nested_false :
    parseText (some '~') '{' '}' "~#a{foo b~#b{ar}}".toList =
      .ok [.opn "#a".toList, .text "foo b".toList, .opn "#b".toList, .text "ar".toList, .close, .close] ∧
    sections 0 [] [.opn "#a".toList, .text "foo b".toList, .opn "#b".toList, .text "ar".toList, .close, .close] = [(5, 7), (0, 7)] ∧
    NoCut [(0, 3), (3, 7)] [(5, 7), (0, 7)] ∧
    (match boxCode (some threeLexer) true false 4 ['~'] "~#a{foo b~#b{ar}}".toList with
      | .ok r => openingsOf "#b".toList 0 r
      | .error _ => []) = [5, 7] :=
  ⟨by decide +kernel, by decide +kernel, by unfold NoCut; decide, by decide +kernel⟩

/-- The hypotheses are met, with the code of the counterexample behind an empty line: both parts are there, and the first one begins where the section was
written. -/
example : Honours threeLexer ∧ Delims ['~'] '~' '{' '}' ∧ untab 4 "\nfo~#x{o b}ar".toList = List.replicate 1 '\n' ++ "fo~#x{o b}ar".toList ∧
    parseText (some '~') '{' '}' "fo~#x{o b}ar".toList =
      .ok [.text "fo".toList, .opn "#x".toList, .text "o b".toList, .close, .text "ar".toList] ∧
    stripNl "foo bar".toList = "foo bar".toList ∧
    openings 1 [.text "fo".toList, .opn "#x".toList, .text "o b".toList, .close, .text "ar".toList] = [(3, "#x".toList)] ∧
    (match boxCode (some threeLexer) true false 4 ['~'] "\nfo~#x{o b}ar".toList with
      | .ok r => openingsOf "#x".toList 0 r
      | .error _ => []) = [3, 4] :=
  ⟨threeLexer_honours, .one '~', by decide +kernel, by decide +kernel, by decide +kernel, by decide +kernel, by decide +kernel⟩

end Verif.Text
