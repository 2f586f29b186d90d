import Verif.Spec.CairoText
import Verif.Proofs.TextBasic

/-! Helper lemmas for the Cairo backend. -/

namespace Verif.Cairo
open Spec Verif.Text Verif.Text.Spec Verif.Style Verif.Xml.Spec

theorem compose_over (old s : TextStyle) : old.compose s = over s old := by
  unfold TextStyle.compose TextStyle.update over
  congr 1
  · cases s.font <;> rfl
  · cases s.size <;> rfl
  · cases s.align <;> rfl
  · cases s.lineSpacing <;> rfl
  · cases s.color <;> rfl
  · cases s.bold <;> rfl
  · cases s.italic <;> rfl
  · cases s.variantNumeric <;> rfl
  · cases s.opacity <;> rfl

theorem utf8Length_eq (s : Str) : utf8Length s = byteLength s := by
  induction s with
  | nil => rfl
  | cons c s ih =>
    unfold utf8Length at *
    have : String.ofList (c :: s) = String.singleton c ++ String.ofList s := by
      apply String.toList_injective
      simp
    rw [this, String.utf8ByteSize_append, ih]
    simp [byteLength]

theorem byteLength_append (a b : Str) : byteLength (a ++ b) = byteLength a + byteLength b := by
  induction a with
  | nil => simp [byteLength]
  | cons c a ih => simp only [List.cons_append, byteLength, ih]; omega

/-- The styles the code keeps for a stack. -/
def composed (base : TextStyle) : List (Option TextStyle) → List (Option TextStyle)
  | [] => [some base]
  | none :: rest => none :: composed base rest
  | some s :: rest => some (over s (look base rest)) :: composed base rest

theorem activeStyle_composed (base : TextStyle) (st) : activeStyle (composed base st) = .ok (look base st) := by
  induction st with
  | nil => rfl
  | cons s st ih =>
    cases s with
    | none => exact ih
    | some s => rfl

theorem innermost_priority (base : TextStyle) (st) : ∃ t, innermost (st ++ [some base]) = some t ∧ t.priority = (look base st).priority := by
  induction st with
  | nil => exact ⟨base, rfl, rfl⟩
  | cons s st ih =>
    cases s with
    | none => exact ih
    | some s => exact ⟨s, rfl, rfl⟩

theorem composed_length (base : TextStyle) (st) : (composed base st).length = st.length + 1 := by
  induction st with
  | nil => rfl
  | cons s st ih => cases s <;> simp [composed, ih]

theorem bytesOf_append (a b) : bytesOf (a ++ b) = bytesOf a ++ bytesOf b := List.flatMap_append

theorem bytesOf_const (s : Str) (t : TextStyle) : bytesOf (s.map (fun c => (c, t))) = List.replicate (byteLength s) t := by
  induction s with
  | nil => rfl
  | cons c s ih =>
    show List.replicate c.utf8Size t ++ bytesOf (s.map _) = _
    rw [ih, byteLength, List.replicate_append_replicate]

theorem bytesOfRanges_append (a b) : bytesOfRanges (a ++ b) = bytesOfRanges a ++ bytesOfRanges b := List.flatMap_append

theorem covers_append {a b c : Nat} {l m} (h1 : Covers a l b) (h2 : Covers b m c) : Covers a (l ++ m) c := by
  induction l generalizing a with
  | nil => cases h1; exact h2
  | cons r l ih => exact ⟨h1.1, h1.2.1, ih h1.2.2⟩

theorem newlines_eq (n : Nat) (st : St) : newlines n st =
    { st with text := st.text ++ breakText n st.line.isEmpty, line := if n = 0 then st.line else [] } := by
  induction n generalizing st with
  | zero => simp [newlines, breakText]
  | succ n ih =>
    rw [newlines, ih]
    cases hl : st.line with
    | nil => simp [breakText, invisibleSpace]
    | cons c l => simp [breakText]

/-- The state of the loop for a stack: `chars` are the characters so far. -/
structure Inv (base : TextStyle) (stack : List (Option TextStyle)) (chars : List (Char × TextStyle)) (st : St) : Prop where
  stackEq : st.base = composed base stack
  text : st.text = chars.map (·.1)
  covers : Covers 0 st.ranges st.start
  le : st.start ≤ byteLength st.text
  bytes : bytesOf chars = bytesOfRanges st.ranges ++ List.replicate (byteLength st.text - st.start) (look base stack)

theorem Inv.add {base stack chars st} (h : Inv base stack chars st) (s line : Str) :
    Inv base stack (chars ++ s.map (fun c => (c, look base stack))) { st with text := st.text ++ s, line := line } where
  stackEq := h.stackEq
  text := by simp [h.text, Function.comp_def]
  covers := h.covers
  le := by have := h.le; simp only [byteLength_append]; omega
  bytes := by
    rw [bytesOf_append, h.bytes, bytesOf_const, List.append_assoc, List.replicate_append_replicate]
    have := h.le
    simp only [byteLength_append]
    congr 2; omega

theorem Inv.push {base stack chars st} (h : Inv base stack chars st) (stack') :
    Inv base stack' chars { (st.push (look base stack)) with base := composed base stack' } where
  stackEq := rfl
  text := h.text
  covers := covers_append h.covers ⟨rfl, h.le, rfl⟩
  le := Nat.le_refl _
  bytes := by
    simp only [St.push, bytesOfRanges_append, Nat.sub_self, List.replicate_zero, List.append_nil]
    rw [h.bytes]
    simp [bytesOfRanges]

theorem loop_ok (styles : Str → Option TextStyle) (base : TextStyle) (toks : List Tok) :
    ∀ (stack : List (Option TextStyle)) (chars) (st : St), Inv base stack chars st → depth stack.length toks = some 0 →
    (∀ n, Tok.opn n ∈ toks → n.head? = some '#' ∨ styles n ≠ none) →
    ∃ st', loop styles st toks = .ok st' ∧
      Inv base [] (chars ++ styledChars (noMarkers styles) base stack st.line.isEmpty toks) st' := by
  induction toks with
  | nil =>
    intro stack chars st h hd _
    rw [depth_nil] at hd
    injection hd with hd
    have := List.eq_nil_of_length_eq_zero hd
    subst this
    exact ⟨st, rfl, by simpa [styledChars] using h⟩
  | cons t toks ih =>
    intro stack chars st h hd hs
    have hs' : ∀ n, Tok.opn n ∈ toks → n.head? = some '#' ∨ styles n ≠ none := fun n hn => hs n (List.mem_cons_of_mem _ hn)
    cases t with
    | text s =>
      rw [depth_text] at hd
      obtain ⟨st', h1, h2⟩ := ih stack _ _ (h.add s (st.line ++ s)) hd hs'
      refine ⟨st', h1, ?_⟩
      rw [styledChars, ← List.append_assoc]
      have : (st.line ++ s).isEmpty = (st.line.isEmpty && s.isEmpty) := by cases st.line <;> simp
      rw [← this]; exact h2
    | newline n =>
      rw [depth_newline] at hd
      obtain ⟨st', h1, h2⟩ := ih stack _ _ (h.add (breakText n st.line.isEmpty) (if n = 0 then st.line else [])) hd hs'
      refine ⟨st', ?_, ?_⟩
      · simp only [loop, stepTok, newlines_eq]; exact h1
      · rw [styledChars, ← List.append_assoc]
        have : (if n = 0 then st.line else []).isEmpty = (if n = 0 then st.line.isEmpty else true) := by split <;> rfl
        rw [← this]; exact h2
    | opn name =>
      rw [depth_opn] at hd
      have hact : activeStyle st.base = .ok (look base stack) := by rw [h.stackEq, activeStyle_composed]
      obtain ⟨t0, ht0, hp0⟩ := innermost_priority base stack
      obtain ⟨s, hsd⟩ : ∃ s, (noMarkers styles name).bind (applied (stack ++ [some base])) = s := ⟨_, rfl⟩
      have hstep : stepTok styles st (.opn name) = .ok { (st.push (look base stack)) with base := composed base (s :: stack) } := by
        simp only [stepTok, hact]
        by_cases hm : name.head? = some '#'
        · rw [if_pos hm]
          have : s = none := by rw [← hsd, noMarkers, if_pos hm]; rfl
          rw [this]
          show Except.ok { (st.push (look base stack)) with base := none :: st.base } = _
          rw [h.stackEq]; rfl
        · rw [if_neg hm]
          rw [noMarkers, if_neg hm] at hsd
          rcases hs name (by simp) with h' | h'
          · exact absurd h' hm
          · obtain ⟨w, hw⟩ := Option.ne_none_iff_exists'.mp h'
            rw [hw] at hsd ⊢
            dsimp only
            simp only [Option.bind_some, applied, ht0, hp0] at hsd
            by_cases hle : (look base stack).priority ≤ w.priority
            · rw [if_pos hle] at hsd
              have hnot : ¬ ((look base stack).priority > w.priority) := Rat.not_lt.mpr hle
              rw [if_neg hnot, compose_over, ← hsd]
              have hb : (st.push (look base stack)).base = composed base stack := h.stackEq
              rw [hb]; rfl
            · rw [if_neg hle] at hsd
              have hnot : (look base stack).priority > w.priority := Rat.not_le.mp hle
              rw [if_pos hnot, ← hsd]
              show Except.ok { (st.push (look base stack)) with base := none :: st.base } = _
              rw [h.stackEq]; rfl
      obtain ⟨st', h1, h2⟩ := ih (s :: stack) _ _ (h.push (s :: stack)) hd hs'
      refine ⟨st', ?_, ?_⟩
      · simp only [loop, hstep]; exact h1
      · rw [styledChars, hsd]; exact h2
    | close =>
      cases stack with
      | nil => simp at hd
      | cons s stack =>
        rw [List.length_cons, depth_close_succ] at hd
        have hact : activeStyle st.base = .ok (look base (s :: stack)) := by rw [h.stackEq, activeStyle_composed]
        have hstep : stepTok styles st .close = .ok { (st.push (look base (s :: stack))) with base := composed base stack } := by
          simp only [stepTok, hact]
          show (match st.base with | [] => _ | _ :: rest => _) = _
          rw [h.stackEq]
          cases s <;> rfl
        obtain ⟨st', h1, h2⟩ := ih stack _ _ (h.push stack) hd hs'
        refine ⟨st', ?_, ?_⟩
        · simp only [loop, hstep]; exact h1
        · rw [styledChars]; exact h2

/-! ### byte ranges -/

theorem textsOf_append (a b : List Tok) : textsOf (a ++ b) = textsOf a ++ textsOf b := by
  induction a with
  | nil => rfl
  | cons t a ih => cases t <;> simp [textsOf, ih]

/-- Before the section is found. -/
theorem byteRange_before (id : Nat) (a rest : List Tok) (i d d' count : Nat) (hi : i + a.length ≤ id)
    (hn : ∀ n, Tok.newline n ∉ a) (hd : depth d a = some d') :
    byteRange id i d count none (a ++ rest) = byteRange id (i + a.length) d' (count + byteLength (textsOf a)) none rest := by
  induction a generalizing i d count with
  | nil => rw [depth_nil] at hd; injection hd with hd; subst hd; rfl
  | cons t a ih =>
    have hn' : ∀ n, Tok.newline n ∉ a := fun n h => hn n (List.mem_cons_of_mem _ h)
    simp only [List.length_cons] at hi ⊢
    rw [show i + (a.length + 1) = i + 1 + a.length by omega]
    cases t with
    | text s =>
      rw [depth_text] at hd
      simp only [List.cons_append, byteRange]
      rw [ih (i + 1) d _ (by omega) hn' hd, textsOf, byteLength_append, Nat.add_assoc count]
    | newline n => exact absurd (by simp) (hn n)
    | opn n =>
      rw [depth_opn] at hd
      simp only [List.cons_append, byteRange]
      rw [if_neg (by omega), ih (i + 1) (d + 1) _ (by omega) hn' hd]; rfl
    | close =>
      cases d with
      | zero => simp at hd
      | succ d =>
        rw [depth_close_succ] at hd
        simp only [List.cons_append, byteRange]
        rw [ih (i + 1) d _ (by omega) hn' hd]; rfl

/-- After the section is found, until everything is closed: `a` keeps the depth positive. -/
theorem byteRange_after (id : Nat) (a rest : List Tok) (i d count s : Nat) (hi : id < i)
    (hn : ∀ n, Tok.newline n ∉ a) (hd : depth d a = some 0) :
    byteRange id i (d + 1) count (some s) (a ++ .close :: rest) = .ok (s, count + byteLength (textsOf a)) := by
  induction a generalizing i d count with
  | nil =>
    rw [depth_nil] at hd; injection hd with hd; subst hd
    simp [byteRange, textsOf, byteLength]
  | cons t a ih =>
    have hn' : ∀ n, Tok.newline n ∉ a := fun n h => hn n (List.mem_cons_of_mem _ h)
    cases t with
    | text w =>
      rw [depth_text] at hd
      simp only [List.cons_append, byteRange]
      rw [ih (i + 1) d _ (by omega) hn' hd, textsOf, byteLength_append, Nat.add_assoc count]
    | newline n => exact absurd (by simp) (hn n)
    | opn n =>
      rw [depth_opn] at hd
      simp only [List.cons_append, byteRange]
      rw [if_neg (by omega), ih (i + 1) (d + 1) _ (by omega) hn' hd]; rfl
    | close =>
      cases d with
      | zero => simp at hd
      | succ d =>
        rw [depth_close_succ] at hd
        simp only [List.cons_append, byteRange]
        rw [if_neg (by omega), ih (i + 1) d _ (by omega) hn' hd]; rfl

end Verif.Cairo
