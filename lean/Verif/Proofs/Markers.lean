import Verif.Spec.Markers
import Verif.Props.DrawStyle

/-! # Lemmas for C138 -/

namespace Verif.Markers
open Spec Verif.Text Verif.Text.Spec Verif.Style Verif.Xml.Spec Verif.Cairo.Spec

/-! ### the tokens -/

theorem unmark_append {ts : List Tok} (hb : Balanced ts) : ∃ r, Balanced r ∧ ∀ bs rest, unmark bs (ts ++ rest) = r ++ unmark bs rest := by
  induction hb with
  | nil => exact ⟨[], .nil, fun _ _ => rfl⟩
  | text s ts _ ih =>
    obtain ⟨r, h1, h2⟩ := ih
    refine ⟨.text s :: r, .text _ _ h1, fun bs rest => ?_⟩
    cases bs <;> simp [unmark, h2]
  | newline n ts _ ih =>
    obtain ⟨r, h1, h2⟩ := ih
    refine ⟨.newline n :: r, .newline _ _ h1, fun bs rest => ?_⟩
    cases bs <;> simp [unmark, h2]
  | block s inner ts _ _ ih1 ih2 =>
    obtain ⟨r1, h1, h2⟩ := ih1
    obtain ⟨r2, h3, h4⟩ := ih2
    by_cases hm : isMarker s = true
    · refine ⟨r1 ++ r2, ?_, fun bs rest => ?_⟩
      · clear h2 h4
        induction h1 with
        | nil => exact h3
        | text s ts _ ih => exact .text _ _ ih
        | newline s ts _ ih => exact .newline _ _ ih
        | block s i ts h _ _ ih =>
          have : Balanced (.opn s :: i ++ .close :: (ts ++ r2)) := .block _ _ _ h ih
          simpa using this
      · have e : Tok.opn s :: inner ++ Tok.close :: ts ++ rest = Tok.opn s :: (inner ++ Tok.close :: (ts ++ rest)) := by simp
        rw [e]
        cases bs <;> simp [unmark, hm, h2, h4]
    · refine ⟨.opn s :: r1 ++ .close :: r2, .block _ _ _ h1 h3, fun bs rest => ?_⟩
      have e : Tok.opn s :: inner ++ Tok.close :: ts ++ rest = Tok.opn s :: (inner ++ Tok.close :: (ts ++ rest)) := by simp
      rw [e]
      cases bs <;> simp [unmark, hm, h2, h4]

theorem balanced_unmark {ts : List Tok} (hb : Balanced ts) : Balanced (unmark [] ts) := by
  obtain ⟨r, h1, h2⟩ := unmark_append hb
  have := h2 [] []
  rw [List.append_nil] at this
  rw [this]
  simpa [unmark] using h1

theorem join_close (a b : List Tok) : joinTexts (a ++ .close :: b) = joinTexts a ++ .close :: joinTexts b := by
  induction a with
  | nil => rfl
  | cons t a ih =>
    cases t with
    | text s =>
      simp only [List.cons_append, joinTexts, ih]
      cases h : joinTexts a with
      | nil => rfl
      | cons x l => cases x <;> rfl
    | newline n => simp [joinTexts, ih]
    | opn n => simp [joinTexts, ih]
    | close => simp [joinTexts, ih]

theorem join_text (s : Str) (ts : List Tok) : (∃ s' r, joinTexts ts = .text s' :: r ∧ joinTexts (.text s :: ts) = .text (s ++ s') :: r) ∨
    joinTexts (.text s :: ts) = .text s :: joinTexts ts := by
  simp only [joinTexts]
  cases h : joinTexts ts with
  | nil => exact .inr rfl
  | cons x l =>
    cases x with
    | text s' => exact .inl ⟨s', l, rfl, rfl⟩
    | newline n => exact .inr rfl
    | opn n => exact .inr rfl
    | close => exact .inr rfl

theorem balanced_join {ts : List Tok} (hb : Balanced ts) : Balanced (joinTexts ts) := by
  induction hb with
  | nil => exact .nil
  | text s ts _ ih =>
    rcases join_text s ts with ⟨s', r, h1, h2⟩ | h
    · rw [h2]
      rw [h1] at ih
      cases ih with
      | text _ _ h => exact .text _ _ h
    · rw [h]; exact .text _ _ ih
  | newline n ts _ ih => exact .newline _ _ ih
  | block s inner ts _ _ ih1 ih2 =>
    have : joinTexts (.opn s :: inner ++ .close :: ts) = .opn s :: joinTexts inner ++ .close :: joinTexts ts := by
      show Tok.opn s :: joinTexts (inner ++ .close :: ts) = _
      rw [join_close]; rfl
    rw [this]
    exact .block _ _ _ ih1 ih2

theorem opn_unmark {n : Str} : ∀ {ts : List Tok} {bs : List Bool}, Tok.opn n ∈ unmark bs ts → Tok.opn n ∈ ts ∧ isMarker n = false
  | [], bs, h => by cases bs <;> cases h
  | .opn m :: ts, bs, h => by
    rw [unmark.eq_def] at h
    simp only at h
    split at h
    · obtain ⟨h1, h2⟩ := opn_unmark h
      exact ⟨.tail _ h1, h2⟩
    · rename_i hm
      rcases List.mem_cons.mp h with h | h
      · injection h with h; subst h
        exact ⟨List.mem_cons_self, by simpa using hm⟩
      · obtain ⟨h1, h2⟩ := opn_unmark h
        exact ⟨.tail _ h1, h2⟩
  | .close :: ts, bs, h => by
    match bs with
    | true :: bs => obtain ⟨h1, h2⟩ := opn_unmark (bs := bs) h; exact ⟨.tail _ h1, h2⟩
    | false :: bs =>
      rcases List.mem_cons.mp h with h | h
      · cases h
      · obtain ⟨h1, h2⟩ := opn_unmark (bs := bs) h; exact ⟨.tail _ h1, h2⟩
    | [] =>
      rcases List.mem_cons.mp h with h | h
      · cases h
      · obtain ⟨h1, h2⟩ := opn_unmark (bs := []) h; exact ⟨.tail _ h1, h2⟩
  | .text s :: ts, bs, h => by
    have h : Tok.opn n ∈ Tok.text s :: unmark bs ts := by cases bs <;> exact h
    rcases List.mem_cons.mp h with h | h
    · cases h
    · obtain ⟨h1, h2⟩ := opn_unmark h; exact ⟨.tail _ h1, h2⟩
  | .newline k :: ts, bs, h => by
    have h : Tok.opn n ∈ Tok.newline k :: unmark bs ts := by cases bs <;> exact h
    rcases List.mem_cons.mp h with h | h
    · cases h
    · obtain ⟨h1, h2⟩ := opn_unmark h; exact ⟨.tail _ h1, h2⟩

theorem text_unmark {s : Str} : ∀ {ts : List Tok} {bs : List Bool}, Tok.text s ∈ unmark bs ts → Tok.text s ∈ ts
  | [], bs, h => by cases bs <;> cases h
  | .opn m :: ts, bs, h => by
    rw [unmark.eq_def] at h
    simp only at h
    split at h
    · exact .tail _ (text_unmark h)
    · rcases List.mem_cons.mp h with h | h
      · cases h
      · exact .tail _ (text_unmark h)
  | .close :: ts, bs, h => by
    match bs with
    | true :: bs => exact .tail _ (text_unmark (bs := bs) h)
    | false :: bs =>
      rcases List.mem_cons.mp h with h | h
      · cases h
      · exact .tail _ (text_unmark (bs := bs) h)
    | [] =>
      rcases List.mem_cons.mp h with h | h
      · cases h
      · exact .tail _ (text_unmark (bs := []) h)
  | .text s' :: ts, bs, h => by
    have h : Tok.text s ∈ Tok.text s' :: unmark bs ts := by cases bs <;> exact h
    rcases List.mem_cons.mp h with h | h
    · rw [h]; exact List.mem_cons_self
    · exact .tail _ (text_unmark h)
  | .newline k :: ts, bs, h => by
    have h : Tok.text s ∈ Tok.newline k :: unmark bs ts := by cases bs <;> exact h
    rcases List.mem_cons.mp h with h | h
    · cases h
    · exact .tail _ (text_unmark h)

theorem opn_join {n : Str} {ts : List Tok} (h : Tok.opn n ∈ joinTexts ts) : Tok.opn n ∈ ts := by
  induction ts with
  | nil => exact h
  | cons t ts ih =>
    cases t with
    | text s =>
      rcases join_text s ts with ⟨s', r, h1, h2⟩ | h2
      · rw [h2] at h
        rw [h1] at ih
        rcases List.mem_cons.mp h with h | h
        · cases h
        · exact .tail _ (ih (.tail _ h))
      · rw [h2] at h
        rcases List.mem_cons.mp h with h | h
        · cases h
        · exact .tail _ (ih h)
    | newline k =>
      rcases List.mem_cons.mp h with h | h
      · cases h
      · exact .tail _ (ih h)
    | opn m =>
      rcases List.mem_cons.mp h with h | h
      · rw [h]; exact List.mem_cons_self
      · exact .tail _ (ih h)
    | close =>
      rcases List.mem_cons.mp h with h | h
      · cases h
      · exact .tail _ (ih h)

theorem plain_join {ts : List Tok} (h : ∀ s, Tok.text s ∈ ts → Plain s) : ∀ s, Tok.text s ∈ joinTexts ts → Plain s := by
  induction ts with
  | nil => intro s hs; cases hs
  | cons t ts ih =>
    have ih := ih (fun s hs => h s (.tail _ hs))
    intro s hs
    cases t with
    | text s0 =>
      have h0 := h s0 List.mem_cons_self
      rcases join_text s0 ts with ⟨s', r, h1, h2⟩ | h2
      · rw [h2] at hs
        rw [h1] at ih
        rcases List.mem_cons.mp hs with hs | hs
        · injection hs with hs; subst hs
          have h3 := ih s' List.mem_cons_self
          intro c hc
          rcases List.mem_append.mp hc with hc | hc
          · exact h0 c hc
          · exact h3 c hc
        · exact ih s (.tail _ hs)
      · rw [h2] at hs
        rcases List.mem_cons.mp hs with hs | hs
        · injection hs with hs; subst hs; exact h0
        · exact ih s hs
    | newline k =>
      rcases List.mem_cons.mp hs with hs | hs
      · cases hs
      · exact ih s hs
    | opn m =>
      rcases List.mem_cons.mp hs with hs | hs
      · cases hs
      · exact ih s hs
    | close =>
      rcases List.mem_cons.mp hs with hs | hs
      · cases hs
      · exact ih s hs

theorem lineTexts_ne (ts : List Tok) : ∃ l ls, lineTexts ts = l :: ls := by
  induction ts with
  | nil => exact ⟨_, _, rfl⟩
  | cons t ts ih =>
    obtain ⟨l, ls, h⟩ := ih
    cases t with
    | text s => exact ⟨_, _, by simp only [lineTexts, h]; rfl⟩
    | newline n => exact ⟨_, _, rfl⟩
    | opn n => exact ⟨l, ls, h⟩
    | close => exact ⟨l, ls, h⟩

theorem lines_join (ts : List Tok) : lineTexts (joinTexts ts) = lineTexts ts ∧ breaks (joinTexts ts) = breaks ts := by
  induction ts with
  | nil => exact ⟨rfl, rfl⟩
  | cons t ts ih =>
    obtain ⟨ih1, ih2⟩ := ih
    cases t with
    | text s =>
      rcases join_text s ts with ⟨s', r, h1, h2⟩ | h2
      · rw [h1] at ih1 ih2
        rw [h2]
        obtain ⟨l, ls, hl⟩ := lineTexts_ne r
        simp only [lineTexts, breaks, hl] at ih1 ih2 ⊢
        rw [← ih1, ih2]
        simp
      · rw [h2]; simp only [lineTexts, breaks, ih1, ih2]; exact ⟨trivial, trivial⟩
    | newline n => simp only [joinTexts, lineTexts, breaks, ih1, ih2]; exact ⟨trivial, trivial⟩
    | opn n => exact ⟨ih1, ih2⟩
    | close => exact ⟨ih1, ih2⟩

theorem lines_unmark (ts : List Tok) : ∀ bs, lineTexts (unmark bs ts) = lineTexts ts ∧ breaks (unmark bs ts) = breaks ts := by
  induction ts with
  | nil => intro bs; cases bs <;> exact ⟨rfl, rfl⟩
  | cons t ts ih =>
    intro bs
    cases t with
    | text s =>
      have : unmark bs (.text s :: ts) = .text s :: unmark bs ts := by cases bs <;> rfl
      rw [this]
      simp only [lineTexts, breaks, (ih bs).1, (ih bs).2]; exact ⟨trivial, trivial⟩
    | newline n =>
      have : unmark bs (.newline n :: ts) = .newline n :: unmark bs ts := by cases bs <;> rfl
      rw [this]
      simp only [lineTexts, breaks, (ih bs).1, (ih bs).2]; exact ⟨trivial, trivial⟩
    | opn n =>
      rw [unmark.eq_def]
      simp only
      split
      · exact ih _
      · exact ih _
    | close =>
      match bs with
      | true :: bs => exact ih bs
      | false :: bs => exact ih bs
      | [] => exact ih []

theorem lines_without (ts : List Tok) : lineTexts (without ts) = lineTexts ts ∧ breaks (without ts) = breaks ts :=
  ⟨(lines_join _).1.trans (lines_unmark ts []).1, (lines_join _).2.trans (lines_unmark ts []).2⟩

/-! ### the stack of styles -/

/-- The stack without the entries of markers. -/
def dropM {α : Type} : List Bool → List α → List α
  | true :: bs, _ :: st => dropM bs st
  | false :: bs, s :: st => s :: dropM bs st
  | _, st => st

/-- Markers are not applied. -/
def Masked : List Bool → List (Option TextStyle) → Prop
  | [], _ => True
  | _ :: _, [] => False
  | b :: bs, s :: st => (b = true → s = none) ∧ Masked bs st

theorem innermost_drop : ∀ {bs : List Bool} {st : List (Option TextStyle)} (tl), Masked bs st → innermost (dropM bs st ++ tl) = innermost (st ++ tl)
  | [], st, tl, _ => rfl
  | true :: bs, s :: st, tl, h => by
    obtain ⟨h1, h2⟩ := h
    rw [h1 rfl]
    show innermost (dropM bs st ++ tl) = innermost (st ++ tl)
    exact innermost_drop tl h2
  | false :: bs, s :: st, tl, h => by
    cases s with
    | none =>
      show innermost (dropM bs st ++ tl) = innermost (st ++ tl)
      exact innermost_drop tl h.2
    | some s => rfl

theorem look_drop (base : TextStyle) : ∀ {bs : List Bool} {st : List (Option TextStyle)}, Masked bs st → look base (dropM bs st) = look base st
  | [], st, _ => rfl
  | true :: bs, s :: st, h => by
    obtain ⟨h1, h2⟩ := h
    rw [h1 rfl]
    show look base (dropM bs st) = look base st
    exact look_drop base h2
  | false :: bs, s :: st, h => by
    have := look_drop base (show Masked bs st from h.2)
    cases s with
    | none => exact this
    | some s => simp only [dropM, look, this]

theorem applied_drop {bs : List Bool} {st : List (Option TextStyle)} (tl) (h : Masked bs st) (s : TextStyle) : applied (dropM bs st ++ tl) s = applied (st ++ tl) s := by
  simp only [applied, innermost_drop tl h]

theorem styled_unmark (styles : Str → Option TextStyle) (base : TextStyle) (ts : List Tok) : ∀ (bs : List Bool) (st : List (Option TextStyle)) (e : Bool), Masked bs st →
    styledChars (noMarkers styles) base (dropM bs st) e (unmark bs ts) = styledChars (noMarkers styles) base st e ts := by
  induction ts with
  | nil => intro bs st e _; cases bs <;> rfl
  | cons t ts ih =>
    intro bs st e hm
    cases t with
    | text s =>
      have : unmark bs (.text s :: ts) = .text s :: unmark bs ts := by cases bs <;> rfl
      rw [this]
      simp only [styledChars, look_drop base hm, ih bs st _ hm]
    | newline n =>
      have : unmark bs (.newline n :: ts) = .newline n :: unmark bs ts := by cases bs <;> rfl
      rw [this]
      simp only [styledChars, look_drop base hm, ih bs st _ hm]
    | opn n =>
      rw [unmark.eq_def]
      simp only
      by_cases h : isMarker n = true
      · rw [if_pos h]
        have hn : noMarkers styles n = none := by simp only [noMarkers]; rw [if_pos (by simpa [isMarker] using h)]
        have := ih (true :: bs) (none :: st) e ⟨fun _ => rfl, hm⟩
        simp only [dropM] at this
        rw [this]
        simp only [styledChars, hn]; rfl
      · rw [if_neg h]
        have := ih (false :: bs) ((noMarkers styles n).bind (applied (st ++ [some base])) :: st) e ⟨(fun h => nomatch h), hm⟩
        simp only [dropM] at this
        have e1 : applied (dropM bs st ++ [some base]) = applied (st ++ [some base]) := funext fun s => applied_drop _ hm s
        simp only [styledChars, e1, this]
    | close =>
      match bs, st, hm with
      | [], st, _ => exact ih [] st.tail e trivial
      | true :: bs, s :: st, hm => exact ih bs st e hm.2
      | false :: bs, s :: st, hm => exact ih bs st e hm.2

theorem styled_join (styles : Str → Option TextStyle) (base : TextStyle) (ts : List Tok) : ∀ (st : List (Option TextStyle)) (e : Bool),
    styledChars styles base st e (joinTexts ts) = styledChars styles base st e ts := by
  induction ts with
  | nil => intro st e; rfl
  | cons t ts ih =>
    intro st e
    cases t with
    | text s =>
      rcases join_text s ts with ⟨s', r, h1, h2⟩ | h2
      · rw [h2]
        simp only [styledChars]
        rw [← ih, h1]
        simp only [styledChars, List.map_append, List.append_assoc]
        congr 3
        cases s <;> cases s' <;> simp
      · rw [h2]; simp only [styledChars, ih]
    | newline n => simp only [joinTexts, styledChars, ih]
    | opn n => simp only [joinTexts, styledChars, ih]
    | close => simp only [joinTexts, styledChars, ih]

/-! ### SVG -/

/-- No style is closed that is not open. -/
def Deep : Nat → List Tok → Prop
  | _, [] => True
  | d, .opn _ :: ts => Deep (d + 1) ts
  | 0, .close :: _ => False
  | d + 1, .close :: ts => Deep d ts
  | d, .text _ :: ts => Deep d ts
  | d, .newline _ :: ts => Deep d ts

theorem deep_of {ts : List Tok} (hb : Balanced ts) : ∀ d rest, Deep d rest → Deep d (ts ++ rest) := by
  induction hb with
  | nil => intro d rest h; exact h
  | text s ts _ ih => intro d rest h; have := ih d rest h; cases d <;> exact this
  | newline n ts _ ih => intro d rest h; have := ih d rest h; cases d <;> exact this
  | block s inner ts _ _ ih1 ih2 =>
    intro d rest h
    have e : Tok.opn s :: inner ++ Tok.close :: ts ++ rest = Tok.opn s :: (inner ++ Tok.close :: (ts ++ rest)) := by simp
    rw [e]
    have : Deep (d + 1) (inner ++ Tok.close :: (ts ++ rest)) := ih1 (d + 1) _ (ih2 d rest h)
    cases d <;> exact this

theorem masked_length : ∀ {bs : List Bool} {st : List (Option TextStyle)}, Masked bs st → bs.length ≤ st.length
  | [], _, _ => Nat.zero_le _
  | _ :: _, _ :: _, h => by simpa using masked_length h.2

theorem attrs_drop (fmt : Rat → Str) (tl : List (List (Str × Str))) : ∀ {bs : List Bool} {xs : List (Option TextStyle)}, Masked bs xs →
    ((dropM bs xs).map (optAttrs fmt) ++ tl).filter (fun a => !a.isEmpty) = (xs.map (optAttrs fmt) ++ tl).filter (fun a => !a.isEmpty)
  | [], _, _ => rfl
  | true :: bs, s :: xs, h => by
    obtain ⟨h1, h2⟩ := h
    rw [h1 rfl]
    have := attrs_drop fmt tl h2
    simpa [dropM, optAttrs] using this
  | false :: bs, s :: xs, h => by
    have := attrs_drop fmt tl h.2
    simp only [dropM, List.map_cons, List.cons_append, List.filter_cons, this]

theorem expected_unmark (fmt : Rat → Str) (styles : Str → Option TextStyle) (hs : ∀ n, isMarker n = true → styles n = none) (base : TextStyle) (ts : List Tok) :
    ∀ (bs : List Bool) (xs : List (Option TextStyle)) (line), Masked bs xs → bs.length = xs.length → Deep bs.length ts →
    visible (expected fmt styles base (dropM bs xs ++ [some base]) line (unmark bs ts)) = visible (expected fmt styles base (xs ++ [some base]) line ts) := by
  induction ts with
  | nil => intro bs xs line _ _ _; cases bs <;> rfl
  | cons t ts ih =>
    intro bs xs line hm hlen hd
    cases t with
    | text s =>
      have : unmark bs (.text s :: ts) = .text s :: unmark bs ts := by cases bs <;> rfl
      rw [this]
      have hd' : Deep bs.length ts := by revert hd; cases bs.length <;> exact id
      have h1 := ih bs xs line hm hlen hd'
      simp only [visible] at h1
      simp only [expected, visible, List.map_append, List.map_map, h1, List.dropLast_concat]
      congr 1
      apply List.map_congr_left
      intro c _
      simp only [Function.comp]
      rw [attrs_drop fmt [line] hm]
    | newline n =>
      have : unmark bs (.newline n :: ts) = .newline n :: unmark bs ts := by cases bs <;> rfl
      rw [this]
      have hd' : Deep bs.length ts := by revert hd; cases bs.length <;> exact id
      exact ih bs xs _ hm hlen hd'
    | opn n =>
      rw [unmark.eq_def]
      simp only
      have hd' : Deep (bs.length + 1) ts := by revert hd; cases bs.length <;> exact id
      by_cases h : isMarker n = true
      · rw [if_pos h]
        have := ih (true :: bs) (none :: xs) line ⟨fun _ => rfl, hm⟩ (by simp [hlen]) hd'
        simp only [dropM] at this
        rw [this]
        simp only [expected, hs n h]; rfl
      · rw [if_neg h]
        have := ih (false :: bs) ((styles n).bind (applied (xs ++ [some base])) :: xs) line ⟨(fun h => nomatch h), hm⟩ (by simp [hlen]) hd'
        simp only [dropM] at this
        have e1 : applied (dropM bs xs ++ [some base]) = applied (xs ++ [some base]) := funext fun s => applied_drop _ hm s
        simp only [expected, e1]
        exact this
    | close =>
      match bs, xs, hm, hlen, hd with
      | [], _, _, _, hd => exact hd.elim
      | true :: bs, s :: xs, hm, hlen, hd => exact ih bs xs line hm.2 (by simpa using hlen) hd
      | false :: bs, s :: xs, hm, hlen, hd => exact ih bs xs line hm.2 (by simpa using hlen) hd

theorem expected_join (fmt : Rat → Str) (styles : Str → Option TextStyle) (base : TextStyle) (ts : List Tok) : ∀ (st : List (Option TextStyle)) (line),
    expected fmt styles base st line (joinTexts ts) = expected fmt styles base st line ts := by
  induction ts with
  | nil => intro st e; rfl
  | cons t ts ih =>
    intro st e
    cases t with
    | text s =>
      rcases join_text s ts with ⟨s', r, h1, h2⟩ | h2
      · rw [h2]
        simp only [expected]
        rw [← ih, h1]
        simp only [expected, List.map_append, List.append_assoc]
      · rw [h2]; simp only [expected, ih]
    | newline n => simp only [joinTexts, expected, ih]
    | opn n => simp only [joinTexts, expected, ih]
    | close => simp only [joinTexts, expected, ih]

theorem head_drop : ∀ {bs : List Bool} {st : List (Option TextStyle)}, Masked bs st → (dropM bs st).head? = some none → st.head? = some none
  | [], _, _, h => h
  | true :: _, _ :: _, hm, _ => by rw [hm.1 rfl]; rfl
  | false :: _, _ :: _, _, h => h

theorem drop_nil {α : Type} (bs : List Bool) : dropM bs ([] : List α) = [] := by
  match bs with
  | [] => rfl
  | true :: _ => rfl
  | false :: _ => rfl

theorem mem_drop {α : Type} {a : α} : ∀ {bs : List Bool} {st : List α}, a ∈ dropM bs st → a ∈ st
  | [], _, h => h
  | bs, [], h => by rw [drop_nil] at h; exact h
  | true :: bs, x :: st, h => .tail _ (mem_drop (bs := bs) h)
  | false :: bs, x :: st, h => by
    rcases List.mem_cons.mp h with h | h
    · rw [h]; exact List.mem_cons_self
    · exact .tail _ (mem_drop h)

theorem calm_unmark {styles : Str → Option TextStyle} (hs : ∀ n, isMarker n = true → styles n = none) (ts : List Tok) :
    ∀ (bs : List Bool) (st : List (Option TextStyle)), Masked bs st → Calm styles st ts → BreaksApplied styles st ts →
    Calm styles (dropM bs st) (unmark bs ts) ∧ BreaksApplied styles (dropM bs st) (unmark bs ts) := by
  induction ts with
  | nil => intro bs st _ _ _; cases bs <;> exact ⟨trivial, trivial⟩
  | cons t ts ih =>
    intro bs st hm hc hb
    cases t with
    | text s =>
      have : unmark bs (.text s :: ts) = .text s :: unmark bs ts := by cases bs <;> rfl
      rw [this]
      exact ih bs st hm hc hb
    | newline n =>
      have : unmark bs (.newline n :: ts) = .newline n :: unmark bs ts := by cases bs <;> rfl
      rw [this]
      obtain ⟨h1, h2⟩ := ih bs st hm hc hb.2
      exact ⟨h1, fun s hs => hb.1 s (mem_drop hs), h2⟩
    | opn n =>
      rw [unmark.eq_def]
      simp only
      by_cases h : isMarker n = true
      · rw [if_pos h]
        simp only [Calm, BreaksApplied, hs n h, Option.bind_none] at hc hb
        exact ih (true :: bs) (none :: st) ⟨fun _ => rfl, hm⟩ hc.2 hb
      · rw [if_neg h]
        have e1 : applied (dropM bs st) = applied st := funext fun s => by simpa using applied_drop [] hm s
        have e2 : innermost (dropM bs st) = innermost st := by simpa using innermost_drop [] hm
        obtain ⟨h1, h2⟩ := ih (false :: bs) ((styles n).bind (applied st) :: st) ⟨(fun h => nomatch h), hm⟩ hc.2 hb
        simp only [Calm, BreaksApplied, e1, e2]
        exact ⟨⟨fun s t hh => hc.1 s t (head_drop hm hh), h1⟩, h2⟩
    | close =>
      match bs, st, hm with
      | [], st, _ => exact ih [] st.tail trivial hc hb
      | true :: bs, s :: st, hm => exact ih bs st hm.2 hc hb
      | false :: bs, s :: st, hm => exact ih bs st hm.2 hc hb

theorem calm_join {styles : Str → Option TextStyle} (ts : List Tok) : ∀ st, Calm styles st ts → BreaksApplied styles st ts →
    Calm styles st (joinTexts ts) ∧ BreaksApplied styles st (joinTexts ts) := by
  induction ts with
  | nil => intro st h1 h2; exact ⟨h1, h2⟩
  | cons t ts ih =>
    intro st hc hb
    cases t with
    | text s =>
      have h := ih st hc hb
      rcases join_text s ts with ⟨s', r, h1, h2⟩ | h2
      · rw [h2]; rw [h1] at h; exact h
      · rw [h2]; exact h
    | newline n => exact ⟨(ih st hc hb.2).1, hb.1, (ih st hc hb.2).2⟩
    | opn n => exact ⟨⟨hc.1, (ih _ hc.2 hb).1⟩, (ih _ hc.2 hb).2⟩
    | close => exact ih _ hc hb

theorem safe_unmark {styles : Str → Option TextStyle} (hs : ∀ n, isMarker n = true → styles n = none) (ts : List Tok) :
    ∀ (bs : List Bool) (prev : List Rat) (good : List Bool), SafeBreaks styles prev good ts → SafeBreaks styles prev (dropM bs good) (unmark bs ts) := by
  induction ts with
  | nil => intro bs _ _ _; cases bs <;> trivial
  | cons t ts ih =>
    intro bs prev good h
    cases t with
    | text s =>
      have : unmark bs (.text s :: ts) = .text s :: unmark bs ts := by cases bs <;> rfl
      rw [this]
      exact ih bs prev good h
    | newline n =>
      have : unmark bs (.newline n :: ts) = .newline n :: unmark bs ts := by cases bs <;> rfl
      rw [this]
      refine ⟨?_, ih bs prev good h.2⟩
      rw [List.all_eq_true]
      intro x hx
      exact List.all_eq_true.mp h.1 x (mem_drop hx)
    | opn n =>
      rw [unmark.eq_def]
      simp only
      by_cases hm : isMarker n = true
      · rw [if_pos hm]
        simp only [SafeBreaks, hs n hm] at h
        exact ih (true :: bs) prev (false :: good) h
      · rw [if_neg hm]
        cases hn : styles n with
        | none =>
          simp only [SafeBreaks, hn] at h ⊢
          exact ih (false :: bs) prev (false :: good) h
        | some s =>
          simp only [SafeBreaks, hn] at h ⊢
          exact ih (false :: bs) _ (_ :: good) h
    | close =>
      match bs, good with
      | [], good => exact ih [] prev good.tail h
      | true :: bs, [] => have := ih bs prev [] h; rw [drop_nil] at this ⊢; exact this
      | false :: bs, [] => have := ih bs prev [] h; rw [drop_nil] at this ⊢; exact this
      | true :: bs, s :: good => exact ih bs prev good h
      | false :: bs, s :: good => exact ih bs prev good h

theorem safe_join {styles : Str → Option TextStyle} (ts : List Tok) : ∀ prev good, SafeBreaks styles prev good ts → SafeBreaks styles prev good (joinTexts ts) := by
  induction ts with
  | nil => intro _ _ h; exact h
  | cons t ts ih =>
    intro prev good h
    cases t with
    | text s =>
      have h := ih prev good h
      rcases join_text s ts with ⟨s', r, h1, h2⟩ | h2
      · rw [h2]; rw [h1] at h; exact h
      · rw [h2]; exact h
    | newline n => exact ⟨h.1, ih _ _ h.2⟩
    | opn n =>
      simp only [joinTexts, SafeBreaks] at h ⊢
      split at h
      · exact ih _ _ h
      · exact ih _ _ h
    | close => exact ih _ _ h

/-- The open styles, for texts with styles of the same priority: those that are not markers are applied. -/
def Steady (p : Rat) : List Bool → List (Option TextStyle) → Prop
  | [], st => ∃ b, st = [some b] ∧ b.priority = p
  | _ :: _, [] => False
  | b :: bs, s :: st => (if b then s = none else ∃ t, s = some t ∧ t.priority = p) ∧ Steady p bs st

theorem steady_innermost {p : Rat} : ∀ {bs : List Bool} {st : List (Option TextStyle)}, Steady p bs st → ∃ t, innermost st = some t ∧ t.priority = p
  | [], st, ⟨b, h, hp⟩ => ⟨b, by rw [h]; rfl, hp⟩
  | true :: bs, s :: st, h => by
    obtain ⟨h1, h2⟩ := h
    have h1 : s = none := h1
    rw [h1]
    show ∃ t, innermost st = some t ∧ t.priority = p
    exact steady_innermost h2
  | false :: bs, s :: st, h => by
    obtain ⟨⟨t, rfl, ht⟩, -⟩ := h
    exact ⟨t, rfl, ht⟩

theorem steady_all {p : Rat} : ∀ {bs : List Bool} {st : List (Option TextStyle)}, Steady p bs st → (∀ b ∈ bs, b = false) → ∀ s ∈ st, s ≠ none
  | [], st, ⟨b, h, _⟩, _, s, hs => by rw [h, List.mem_singleton] at hs; rw [hs]; simp
  | true :: bs, _, _, h, _, _ => by cases h true List.mem_cons_self
  | false :: bs, x :: st, h, hall, s, hs => by
    rcases List.mem_cons.mp hs with hs | hs
    · obtain ⟨⟨t, rfl, _⟩, -⟩ := h
      rw [hs]; simp
    · exact steady_all h.2 (fun b hb => hall b (.tail _ hb)) s hs

/-- Styles of the same priority and line breaks outside markers: what C58 and C59 need. -/
theorem calm_of {styles : Str → Option TextStyle} {p : Rat} (hp : ∀ n s, styles n = some s → s.priority = p) (hs : ∀ n, isMarker n = true → styles n = none) (ts : List Tok) :
    ∀ (bs : List Bool) (st : List (Option TextStyle)) (prev : List Rat), (∀ n, Tok.opn n ∈ ts → styles n = none → isMarker n = true) → Deep bs.length ts → BreaksOutside bs ts →
    Steady p bs st → (∀ q ∈ prev, q = p) → Calm styles st ts ∧ BreaksApplied styles st ts ∧ SafeBreaks styles prev (bs.map (!·) ++ [true]) ts := by
  induction ts with
  | nil => intros; exact ⟨trivial, trivial, trivial⟩
  | cons t ts ih =>
    intro bs st prev hn hd hb hst hprev
    have hn' : ∀ n, Tok.opn n ∈ ts → styles n = none → isMarker n = true := fun n h => hn n (.tail _ h)
    cases t with
    | text s =>
      have hd' : Deep bs.length ts := by revert hd; cases bs.length <;> exact id
      exact ih bs st prev hn' hd' hb hst hprev
    | newline n =>
      have hd' : Deep bs.length ts := by revert hd; cases bs.length <;> exact id
      obtain ⟨h1, h2, h3⟩ := ih bs st prev hn' hd' hb.2 hst hprev
      refine ⟨h1, ⟨steady_all hst hb.1, h2⟩, ⟨?_, h3⟩⟩
      rw [List.all_eq_true]
      intro x hx
      rcases List.mem_append.mp hx with hx | hx
      · obtain ⟨b, hb1, rfl⟩ := List.mem_map.mp hx
        rw [hb.1 b hb1]; rfl
      · rw [List.mem_singleton.mp hx]; rfl
    | opn n =>
      have hd' : Deep (bs.length + 1) ts := by revert hd; cases bs.length <;> exact id
      cases hsn : styles n with
      | none =>
        have hm := hn n List.mem_cons_self hsn
        have hb' : BreaksOutside (true :: bs) ts := by have := hb; simp only [BreaksOutside, hm] at this; exact this
        obtain ⟨h1, h2, h3⟩ := ih (true :: bs) (none :: st) prev hn' hd' hb' ⟨rfl, hst⟩ hprev
        simp only [Calm, BreaksApplied, SafeBreaks, hsn]
        exact ⟨⟨(fun s t _ h => nomatch h), h1⟩, h2, h3⟩
      | some s =>
        have hm : isMarker n = false := by
          cases h : isMarker n with
          | false => rfl
          | true => rw [hs n h] at hsn; cases hsn
        have hsp := hp n s hsn
        obtain ⟨t, ht, htp⟩ := steady_innermost hst
        have ha : applied st s = some s := by simp only [applied, ht]; rw [if_pos (by rw [htp, hsp]; exact Rat.le_refl)]
        have hb' : BreaksOutside (false :: bs) ts := by have := hb; simp only [BreaksOutside, hm] at this; exact this
        obtain ⟨h1, h2, h3⟩ := ih (false :: bs) (some s :: st) (s.priority :: prev) hn' hd' hb' ⟨⟨s, rfl, hsp⟩, hst⟩
          (by intro q hq; rcases List.mem_cons.mp hq with hq | hq; exact hq.trans hsp; exact hprev q hq)
        simp only [Calm, BreaksApplied, SafeBreaks, hsn, Option.bind_some, ha]
        refine ⟨⟨fun s' t' _ h h' => ?_, h1⟩, h2, ?_⟩
        · injection h with h; subst h
          rw [ht] at h'; injection h' with h'; subst h'
          rw [htp, hsp]
        · have : prev.all (· ≤ s.priority) = true := by
            rw [List.all_eq_true]
            intro q hq
            rw [hprev q hq, hsp]; simp
          rw [this]
          exact h3
    | close =>
      match bs, st, hd, hb, hst with
      | [], _, hd, _, _ => exact hd.elim
      | b :: bs, s :: st, hd, hb, hst =>
        obtain ⟨h1, h2, h3⟩ := ih bs st prev hn' hd hb hst.2 hprev
        exact ⟨h1, h2, h3⟩

theorem visible_asRead {l1 l2 : List (Char × List Attrs)} (h : visible l1 = visible l2) : visible (asRead l1) = visible (asRead l2) := by
  have key : ∀ l, visible (asRead l) = asRead (visible l) := by
    intro l
    simp only [visible, asRead, List.map_map]
    apply List.map_congr_left
    intro c _
    simp only [Function.comp, List.filter_map]
    congr 2
    apply List.filter_congr
    intro a _
    cases a <;> rfl
  rw [key, key, h]

end Verif.Markers
