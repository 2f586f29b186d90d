import Verif.Spec.Theme
import Verif.Proofs.CairoText
import Verif.Proofs.DrawStyle
import Verif.Proofs.Code
import Mathlib.Data.List.Nodup

/-! # Proofs about the colours of code -/

namespace Verif.Highlight
open Spec Verif.Text Verif.Text.Spec Verif.Style Verif.Xml.Spec Verif.Cairo.Spec

/-- The open styles for open names, without the style of the text. -/
def stackOf (styles : Str → Option TextStyle) (base : TextStyle) : List Str → List (Option TextStyle)
  | [] => []
  | n :: ns => (styles n).bind (applied (stackOf styles base ns ++ [some base])) :: stackOf styles base ns

theorem seen_append {α : Type} (a b : List (Char × α)) : seen (a ++ b) = seen a ++ seen b := List.filter_append ..

theorem seen_breakText {α : Type} (x : α) : ∀ (n : Nat) (e : Bool), seen ((breakText n e).map (fun c => (c, x))) = []
  | 0, e => by cases e <;> rfl
  | n + 1, true => by
    have ih := seen_breakText x n true
    simp only [breakText, List.map_cons, seen, List.filter_cons] at *
    simpa [visible] using ih
  | n + 1, false => by
    have ih := seen_breakText x n true
    simp only [breakText, List.map_cons, seen, List.filter_cons] at *
    simpa [visible] using ih

theorem seen_newlines (st : List Str) (n : Nat) : seen (List.replicate n (mark st '\n')) = [] := by
  induction n with
  | zero => rfl
  | succ n ih =>
    rw [List.replicate_succ, seen, List.filter_cons]
    rw [if_neg (by simp [mark, visible])]
    exact ih

theorem seen_map {α β : Type} (f : α → β) (l : List (Char × α)) :
    seen (l.map (fun p => (p.1, f p.2))) = (seen l).map (fun p => (p.1, f p.2)) := by
  unfold seen
  rw [List.filter_map]
  rfl

theorem seen_text {α : Type} (s : Str) (st : List Str) (f : List Str → α) :
    seen (s.map (fun c => (c, f st))) = (seen (s.map (mark st))).map (fun p => (p.1, f p.2)) := by
  induction s with
  | nil => rfl
  | cons c s ih =>
    simp only [seen, List.map_cons, List.filter_cons] at *
    by_cases hc : visible c = true
    · have hn : c ≠ '\n' := by rintro rfl; simp [visible] at hc
      simp only [mark, hc, if_true, if_neg hn, List.map_cons]
      rw [← ih]
    · simp only [mark, hc, Bool.false_eq_true, if_false]
      exact ih

/-- The looks of the seen characters come from the names of the open styles. -/
theorem styled_shown (styles : Str → Option TextStyle) (base : TextStyle) (toks : List Tok) : ∀ (names : List Str) (e : Bool),
    depth names.length toks = some 0 →
    seen (styledChars styles base (stackOf styles base names) e toks) =
      (seen (shown names toks)).map (fun p => (p.1, look base (stackOf styles base p.2))) := by
  induction toks with
  | nil => intro names e _; rfl
  | cons t toks ih =>
    intro names e hd
    cases t with
    | text s =>
      simp only [depth_text] at hd
      simp only [styledChars, shown, seen_append, List.map_append, ih names _ hd]
      congr 1
      exact seen_text s names (fun ns => look base (stackOf styles base ns))
    | newline n =>
      simp only [depth_newline] at hd
      simp only [styledChars, shown, seen_append, List.map_append, ih names _ hd, seen_breakText, seen_newlines, List.map_nil]
    | opn n =>
      simp only [depth_opn] at hd
      simp only [styledChars, shown]
      exact ih (n :: names) e hd
    | close =>
      cases names with
      | nil => simp at hd
      | cons m names =>
        simp only [List.length_cons, depth_close_succ] at hd
        simp only [styledChars, shown, List.tail_cons, stackOf]
        exact ih names e hd

theorem entryStyle_priority (e : Entry) : (entryStyle e).priority = 0 := by
  obtain ⟨c, b, i⟩ := e
  rcases c with _ | c
  · cases b <;> cases i <;> rfl
  · unfold entryStyle
    by_cases hc : c = []
    · cases b <;> cases i <;> simp [hc, construct]
    · cases b <;> cases i <;> simp [hc, construct]

theorem over_entry (e : Entry) (base : TextStyle) (hp : base.priority = 0) : over (entryStyle e) base = painted e base := by
  obtain ⟨c, b, i⟩ := e
  obtain ⟨f, sz, al, ls, co, bo, it, vn, op, pr⟩ := base
  simp only at hp; subst hp
  rcases c with _ | (_ | ⟨c, cs⟩) <;> cases b <;> cases i <;> simp [over, entryStyle, painted, construct]

theorem makeHighlight_eq (theme : Theme) : ∀ acc : Table,
    theme.foldl (fun results e => ("pygments-".toList ++ e.1, entryStyle e.2) :: results) acc =
      (theme.map (fun e => ("pygments-".toList ++ e.1, entryStyle e.2))).reverse ++ acc := by
  induction theme with
  | nil => intro acc; rfl
  | cons e theme ih => intro acc; rw [List.foldl_cons, ih]; simp

theorem lookup_none_of {β : Type} (l : List (Str × β)) (n : Str) (h : ∀ p ∈ l, p.1 ≠ n) : l.lookup n = none := by
  induction l with
  | nil => rfl
  | cons p l ih =>
    obtain ⟨a, b⟩ := p
    have : (n == a) = false := by
      have := h (a, b) (by simp)
      simp only [beq_eq_false_iff_ne]; exact fun h => this h.symm
    rw [List.lookup_cons, this]
    exact ih (fun q hq => h q (List.mem_cons_of_mem _ hq))

theorem lookup_of_nodup {β : Type} (l : List (Str × β)) (n : Str) (b : β) (hn : (l.map Prod.fst).Nodup) (h : (n, b) ∈ l) :
    l.lookup n = some b := by
  induction l with
  | nil => cases h
  | cons p l ih =>
    obtain ⟨a, c⟩ := p
    simp only [List.map_cons, List.nodup_cons] at hn
    rcases List.mem_cons.mp h with h | hm
    · injection h with h1 h2; subst h1; subst h2
      simp
    · have hne : n ≠ a := by rintro rfl; exact hn.1 (List.mem_map_of_mem (f := Prod.fst) hm)
      have : (n == a) = false := by simpa using hne
      rw [List.lookup_cons, this]
      exact ih hn.2 hm

theorem nodup_prefixed (theme : Theme) (hn : (theme.map Prod.fst).Nodup) :
    ((theme.map (fun e => ("pygments-".toList ++ e.1, entryStyle e.2))).reverse.map Prod.fst).Nodup := by
  rw [List.map_reverse, List.nodup_reverse, List.map_map]
  have : (Prod.fst ∘ fun e : Str × Entry => ("pygments-".toList ++ e.1, entryStyle e.2)) =
      (fun s => "pygments-".toList ++ s) ∘ Prod.fst := rfl
  rw [this, ← List.map_map]
  exact hn.map (fun a b h => List.append_cancel_left h)

/-- The style that a new deck has for a token type. -/
theorem deck_token (theme : Theme) (hn : (theme.map Prod.fst).Nodup) (τ : Str) :
    (deckStyles theme).get ("pygments-".toList ++ τ) = (theme.lookup τ).map entryStyle := by
  have hown : List.lookup ("pygments-".toList ++ τ) ownStyles = none := by
    apply lookup_none_of
    intro p hp h
    have hh := congrArg List.head? h
    have h2 : ("pygments-".toList ++ τ).head? = some 'p' := rfl
    rw [h2] at hh
    have : ∀ q ∈ ownStyles, q.1.head? ≠ some 'p' := by decide +kernel
    exact this p hp hh
  unfold Table.get deckStyles makeHighlightStyles
  rw [makeHighlight_eq, List.append_nil]
  cases hl : theme.lookup τ with
  | none =>
    have hnot : ∀ e, (τ, e) ∉ theme := by
      intro e he
      rw [lookup_of_nodup theme τ e hn he] at hl
      cases hl
    rw [Option.map_none]
    apply lookup_none_of
    intro p hp h
    rcases List.mem_append.mp hp with hp | hp
    · simp only [List.mem_reverse, List.mem_map] at hp
      obtain ⟨e, he, rfl⟩ := hp
      have := List.append_cancel_left h
      exact hnot e.2 (by rw [← this]; exact he)
    · have hh := congrArg List.head? h
      have h2 : ("pygments-".toList ++ τ).head? = some 'p' := rfl
      rw [h2] at hh
      have : ∀ q ∈ ownStyles, q.1.head? ≠ some 'p' := by decide +kernel
      exact this p hp hh
  | some e =>
    have he : (τ, e) ∈ theme := by
      clear hn
      induction theme with
      | nil => cases hl
      | cons p l ih =>
        obtain ⟨a, c⟩ := p
        rw [List.lookup_cons] at hl
        by_cases ha : τ = a
        · subst ha
          simp at hl; subst hl; simp
        · have : (τ == a) = false := by simpa using ha
          rw [this] at hl
          exact List.mem_cons_of_mem _ (ih hl)
    rw [List.lookup_append, lookup_of_nodup _ _ (entryStyle e) (nodup_prefixed theme hn)
      (by simp only [List.mem_reverse, List.mem_map]; exact ⟨(τ, e), he, rfl⟩)]
    rfl

/-- The styles opened in a highlighted stream. -/
theorem opened_highlight {vals : List (Str × Str)} {r : List Tok} (hr : normalizeTokens (formatStream vals) = .ok r) (n : Str)
    (hn : Tok.opn n ∈ r) : ∃ v ∈ vals, v.2 ≠ ['\n'] ∧ n = "pygments-".toList ++ v.1 := by
  have key : ∀ t ∈ formatStream vals, ∀ n, t = Tok.opn n → ∃ v ∈ vals, v.2 ≠ ['\n'] ∧ n = "pygments-".toList ++ v.1 := by
    intro t ht n hn
    subst hn
    simp only [formatStream, List.mem_flatMap] at ht
    obtain ⟨v, hv, hm⟩ := ht
    unfold formatValue at hm
    split at hm
    · simp at hm
    · rename_i hne
      refine ⟨v, hv, hne, ?_⟩
      rcases List.mem_cons.mp hm with h | h
      · injection h
      · exfalso
        rcases List.mem_append.mp h with h | h
        · split at h
          · have := (List.dropLast_sublist _).mem h
            simp only [List.mem_flatMap, List.mem_append, List.mem_singleton] at this
            obtain ⟨w, _, hw⟩ := this
            split at hw <;> simp at hw
          · simp at h
        · simp at h
  exact simplifies_forall (P := fun t => ∀ n, t = Tok.opn n → ∃ v ∈ vals, v.2 ≠ ['\n'] ∧ n = "pygments-".toList ++ v.1)
    (fun _ _ _ _ _ h => by cases h) (fun _ _ _ _ _ h => by cases h) (normalize_simplifies hr) key _ hn n rfl

/-- The styles opened by the parser or by merging. -/
theorem noMarkers_pygments (styles : Str → Option TextStyle) (τ : Str) :
    noMarkers styles ("pygments-".toList ++ τ) = styles ("pygments-".toList ++ τ) := by
  have h2 : ("pygments-".toList ++ τ).head? = some 'p' := rfl
  unfold noMarkers
  rw [h2, if_neg (by decide)]

theorem applied_zero (base s : TextStyle) (hb : base.priority = 0) (hs : s.priority = 0) : applied [some base] s = some s := by
  simp [applied, innermost, hb, hs]

/-- What a token type looks like on top of a base. -/
theorem look_token (theme : Theme) (hn : (theme.map Prod.fst).Nodup) (styles : Str → Option TextStyle) (ht : Themed theme styles)
    (base : TextStyle) (hb : base.priority = 0) (τ : Str) (hk : ∃ e, (τ, e) ∈ theme) :
    look base (stackOf (noMarkers styles) base ["pygments-".toList ++ τ]) = colours theme base τ := by
  obtain ⟨e, he⟩ := hk
  have hl := lookup_of_nodup theme τ e hn he
  simp only [stackOf, List.nil_append]
  rw [noMarkers_pygments, ht, deck_token theme hn, hl, Option.map_some, Option.bind_some,
    applied_zero _ _ hb (entryStyle_priority e)]
  simp only [look, colours, hl]
  exact over_entry e base hb

theorem seen_vals {α : Type} (f : List Str → α) (g : Str → List Str) (vals : List (Str × Str)) :
    (seen (vals.flatMap (fun v => v.2.map (mark (g v.1))))).map (fun p => (p.1, f p.2)) =
      seen (vals.flatMap (fun v => v.2.map (fun c => (c, f (g v.1))))) := by
  induction vals with
  | nil => rfl
  | cons v vals ih =>
    simp only [List.flatMap_cons, seen_append, List.map_append, ih]
    rw [seen_text v.2 (g v.1) f]

theorem seen_congr {α : Type} (f g : Str → α) (vals : List (Str × Str)) (h : ∀ v ∈ vals, v.2 ≠ ['\n'] → f v.1 = g v.1) :
    seen (vals.flatMap (fun v => v.2.map (fun c => (c, f v.1)))) = seen (vals.flatMap (fun v => v.2.map (fun c => (c, g v.1)))) := by
  induction vals with
  | nil => rfl
  | cons v vals ih =>
    simp only [List.flatMap_cons, seen_append]
    rw [ih (fun w hw => h w (List.mem_cons_of_mem _ hw))]
    congr 1
    by_cases hv : v.2 = ['\n']
    · rw [hv]; rfl
    · rw [h v (by simp) hv]

theorem seen_replicate_nl {α : Type} (k : Nat) (x : α) : seen (List.replicate k ('\n', x)) = [] := by
  induction k with
  | zero => rfl
  | succ k ih =>
    rw [List.replicate_succ, seen, List.filter_cons, if_neg (by simp [visible])]
    exact ih

/-- All styles that are open, or will be, exist and have priority 0. -/
theorem calm_of_zero (styles : Str → Option TextStyle) (toks : List Tok) : ∀ (st : List (Option TextStyle)),
    (∀ o ∈ st, ∃ s, o = some s ∧ s.priority = 0) → (∀ n, Tok.opn n ∈ toks → ∃ s, styles n = some s ∧ s.priority = 0) →
    Calm styles st toks ∧ BreaksApplied styles st toks := by
  induction toks with
  | nil => intro st _ _; exact ⟨trivial, trivial⟩
  | cons t toks ih =>
    intro st hst hop
    have hop' := fun n hn => hop n (List.mem_cons_of_mem t hn)
    cases t with
    | text s => exact ih st hst hop'
    | newline k =>
      have := ih st hst hop'
      refine ⟨this.1, ?_, this.2⟩
      intro o ho
      obtain ⟨s, rfl, _⟩ := hst o ho
      simp
    | close => exact ih st.tail (fun o ho => hst o (List.mem_of_mem_tail ho)) hop'
    | opn n =>
      obtain ⟨s, hs, hp⟩ := hop n (by simp)
      have happ : (styles n).bind (applied st) = some s := by
        rw [hs, Option.bind_some]
        unfold applied
        cases st with
        | nil => rfl
        | cons o st =>
          obtain ⟨u, rfl, hu⟩ := hst o (by simp)
          simp [innermost, hu, hp]
      have := ih (some s :: st) (by
        intro o ho
        rcases List.mem_cons.mp ho with rfl | ho
        · exact ⟨s, rfl, hp⟩
        · exact hst o ho) hop'
      unfold Calm BreaksApplied
      rw [happ]
      refine ⟨⟨?_, this.1⟩, this.2⟩
      intro a b h0
      cases st with
      | nil => cases h0
      | cons o st =>
        obtain ⟨u, rfl, hu⟩ := hst o (by simp)
        simp at h0

/-- The attributes around the characters come from the names of the open styles. -/
theorem expected_shown (fmt : Rat → Str) (styles : Str → Option TextStyle) (base : TextStyle) (toks : List Tok)
    (hnl : ∀ s, Tok.text s ∈ toks → '\n' ∉ s) : ∀ (names : List Str) (line : Attrs),
    depth names.length toks = some 0 →
    (expected fmt styles base (stackOf styles base names ++ [some base]) line toks).map (fun p => (p.1, p.2.dropLast)) =
      ((shown names toks).filter (fun p => p.1 != '\n')).map (fun p => (p.1, (stackOf styles base p.2).map (optAttrs fmt))) ∧
    ∀ p ∈ expected fmt styles base (stackOf styles base names ++ [some base]) line toks,
      p.2.getLast? = some line ∨ p.2.getLast? = some (styleAttrs fmt base) := by
  induction toks with
  | nil => intro names line _; exact ⟨rfl, by simp [expected]⟩
  | cons t toks ih =>
    intro names line hd
    have ih := ih (fun s hs => hnl s (List.mem_cons_of_mem _ hs))
    cases t with
    | text s =>
      simp only [depth_text] at hd
      obtain ⟨i1, i2⟩ := ih names line hd
      refine ⟨?_, ?_⟩
      · simp only [expected, shown, List.map_append, List.filter_append, i1]
        congr 1
        have hs := hnl s (by simp)
        clear i1 i2 hd ih hnl
        induction s with
        | nil => rfl
        | cons c s ih =>
          have hc : c ≠ '\n' := fun h => hs (by simp [h])
          have hs' : '\n' ∉ s := fun h => hs (by simp [h])
          simp only [List.map_cons, List.filter_cons, mark, if_neg hc]
          rw [if_pos (by simpa using hc)]
          simp only [List.map_cons, List.dropLast_concat]
          congr 1
          have := ih hs'
          simp only [List.dropLast_concat] at this
          exact this
      · intro p hp
        simp only [expected, List.mem_append, List.mem_map] at hp
        rcases hp with ⟨c, _, rfl⟩ | hp
        · left; simp
        · exact i2 p hp
    | newline n =>
      simp only [depth_newline] at hd
      obtain ⟨i1, i2⟩ := ih names (styleAttrs fmt base) hd
      refine ⟨?_, ?_⟩
      · simp only [expected, shown, List.filter_append, i1]
        have : (List.replicate n (mark names '\n')).filter (fun p => p.1 != '\n') = [] := by
          rw [List.filter_eq_nil_iff]
          intro p hp
          rw [List.eq_of_mem_replicate hp]
          simp [mark]
        rw [this, List.nil_append]
      · intro p hp
        simp only [expected] at hp
        rcases i2 p hp with h | h <;> exact .inr h
    | opn n =>
      simp only [depth_opn] at hd
      simp only [expected, shown]
      exact ih (n :: names) line hd
    | close =>
      cases names with
      | nil => simp at hd
      | cons m names =>
        simp only [List.length_cons, depth_close_succ] at hd
        simp only [expected, shown, List.tail_cons, stackOf, List.cons_append]
        exact ih names line hd

theorem mem_shown_text {s : Str} {c : Char} (hc : c ∈ s) (hn : '\n' ∉ s) {toks : List Tok} (h : Tok.text s ∈ toks) : ∀ st : List Str,
    ∃ st', (c, st') ∈ shown st toks := by
  induction toks with
  | nil => cases h
  | cons t toks ih =>
    intro st
    rcases List.mem_cons.mp h with h | hm
    · subst h
      have hne : c ≠ '\n' := fun h => hn (h ▸ hc)
      exact ⟨st, List.mem_append_left _ (List.mem_map.mpr ⟨c, hc, by simp [mark, hne]⟩)⟩
    · cases t with
      | text w => obtain ⟨x, hx⟩ := ih hm st; exact ⟨x, List.mem_append_right _ hx⟩
      | newline w => obtain ⟨x, hx⟩ := ih hm st; exact ⟨x, List.mem_append_right _ hx⟩
      | opn w => exact ih hm _
      | close => exact ih hm _

/-- The characters other than line breaks. -/
def unbroken {α : Type} (l : List (Char × α)) : List (Char × α) := l.filter (fun p => p.1 != '\n')

theorem unbroken_append {α : Type} (a b : List (Char × α)) : unbroken (a ++ b) = unbroken a ++ unbroken b := List.filter_append ..

theorem unbroken_text {α : Type} (s : Str) (st : List Str) (f : List Str → α) :
    unbroken (s.map (fun c => (c, f st))) = (unbroken (s.map (mark st))).map (fun p => (p.1, f p.2)) := by
  induction s with
  | nil => rfl
  | cons c s ih =>
    simp only [unbroken, List.map_cons, List.filter_cons] at *
    by_cases hc : c = '\n'
    · subst hc
      simpa [mark] using ih
    · have : (c != '\n') = true := by simpa using hc
      simp only [mark, this, if_true, if_neg hc, List.map_cons]
      rw [← ih]

theorem unbroken_vals {α : Type} (f : List Str → α) (g : Str → List Str) (h : Str → α) (vals : List (Str × Str))
    (hv : ∀ v ∈ vals, v.2 ≠ ['\n'] → f (g v.1) = h v.1) :
    (unbroken (vals.flatMap (fun v => v.2.map (mark (g v.1))))).map (fun p => (p.1, f p.2)) =
      unbroken (vals.flatMap (fun v => v.2.map (fun c => (c, h v.1)))) := by
  induction vals with
  | nil => rfl
  | cons v vals ih =>
    simp only [List.flatMap_cons, unbroken_append, List.map_append]
    rw [ih (fun w hw => hv w (List.mem_cons_of_mem _ hw)), ← unbroken_text v.2 (g v.1) f]
    congr 1
    by_cases h0 : v.2 = ['\n']
    · rw [h0]; rfl
    · rw [hv v (by simp) h0]

theorem unbroken_nl {α : Type} (k : Nat) (x : α) : unbroken (List.replicate k ('\n', x)) = [] := by
  unfold unbroken
  rw [List.filter_eq_nil_iff]
  intro p hp
  rw [List.eq_of_mem_replicate hp]
  simp

theorem entry_painted (e : Entry) : entryStyle e = painted e {} := by
  obtain ⟨c, b, i⟩ := e
  rcases c with _ | (_ | ⟨c, cs⟩) <;> cases b <;> cases i <;> simp [entryStyle, painted, construct]

theorem asRead_take (l : List (Char × List Attrs)) :
    (asRead l).map (fun p => (p.1, p.2.take 1)) = asRead (l.map (fun p => (p.1, p.2.take 1))) := by
  simp [asRead, List.map_take]

/-- All values are in shown tokens. -/
theorem shown_stack {vals : List (Str × Str)} {g : Str → List Str} {p : Char × List Str}
    (h : p ∈ unbroken (vals.flatMap (fun v => v.2.map (mark (g v.1))))) : ∃ v ∈ vals, v.2 ≠ ['\n'] ∧ p.2 = g v.1 := by
  unfold unbroken at h
  rw [List.mem_filter] at h
  obtain ⟨h1, h2⟩ := h
  simp only [List.mem_flatMap, List.mem_map] at h1
  obtain ⟨v, hv, c, hc, rfl⟩ := h1
  have hne : c ≠ '\n' := by simpa [mark] using h2
  refine ⟨v, hv, ?_, by simp [mark, hne]⟩
  intro h; rw [h, List.mem_singleton] at hc; exact hne hc

end Verif.Highlight
