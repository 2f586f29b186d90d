import Verif.Proofs.TextLines
import Mathlib.Tactic.Tauto

/-! Helper lemmas about `tokens_merge`. -/

namespace Verif.Text
open Spec

/-- Texts are nonempty and without line breaks, newline tokens positive. -/
def Tok.Good : Tok → Prop
  | .text s => s ≠ [] ∧ '\n' ∉ s
  | .newline n => 1 ≤ n
  | _ => True

/-- Forget which character it is, unless it is a line break. -/
def blank (c : Char) : Char := if c = '\n' then '\n' else ' '

def shape (ts : List Tok) : Str := (chars ts).map blank

/-- Remainder of a newline token. -/
def dropNl (n : Nat) (ts : List Tok) : List Tok := if n = 0 then ts else .newline n :: ts
/-- Remainder of a text token. -/
def dropTx (v : Str) (ts : List Tok) : List Tok := if v = [] then ts else .text v :: ts

theorem shown_dropNl (st : List Str) (n : Nat) (ts : List Tok) :
    shown st (dropNl n ts) = List.replicate n ('\n', []) ++ shown st ts := by
  unfold dropNl; split <;> simp_all [shown, mark_nl]
theorem shown_dropTx (st : List Str) (v : Str) (ts : List Tok) :
    shown st (dropTx v ts) = v.map (mark st) ++ shown st ts := by
  unfold dropTx; split <;> simp_all [shown]
theorem chars_dropNl (n : Nat) (ts : List Tok) :
    chars (dropNl n ts) = List.replicate n '\n' ++ chars ts := by
  unfold dropNl; split <;> simp_all [chars]
theorem chars_dropTx (v : Str) (ts : List Tok) : chars (dropTx v ts) = v ++ chars ts := by
  unfold dropTx; split <;> simp_all [chars]
theorem depth_dropNl (d n : Nat) (ts : List Tok) : depth d (dropNl n ts) = depth d ts := by
  unfold dropNl; split <;> simp
theorem depth_dropTx (d : Nat) (v : Str) (ts : List Tok) : depth d (dropTx v ts) = depth d ts := by
  unfold dropTx; split <;> simp

/-- What one successful iteration does. -/
inductive Step : MState → MTok → MState → Prop where
  | close1 {l1 l2 i1 i2 s1 s2} : s1 ≠ [] →
      Step ⟨.close :: l1, l2, i1, i2, s1, s2⟩ (.block false .close) ⟨l1, l2, i1 + 1, i2, s1.dropLast, s2⟩
  | close2 {l1 l2 i1 i2 s1 s2} : s2 ≠ [] →
      Step ⟨l1, .close :: l2, i1, i2, s1, s2⟩ (.block true .close) ⟨l1, l2, i1, i2 + 1, s1, s2.dropLast⟩
  | opn1 {n l1 l2 i1 i2 s1 s2} :
      Step ⟨.opn n :: l1, l2, i1, i2, s1, s2⟩ (.block false (.opn n)) ⟨l1, l2, i1 + 1, i2, s1 ++ [i1], s2⟩
  | opn2 {n l1 l2 i1 i2 s1 s2} :
      Step ⟨l1, .opn n :: l2, i1, i2, s1, s2⟩ (.block true (.opn n)) ⟨l1, l2, i1, i2 + 1, s1, s2 ++ [i1]⟩
  | nl {v1 v2 l1 l2 i1 i2 s1 s2 i1' i2'} :
      Step ⟨.newline v1 :: l1, .newline v2 :: l2, i1, i2, s1, s2⟩ (.plain (.newline (min v1 v2)))
        ⟨dropNl (v1 - v2) l1, dropNl (v2 - v1) l2, i1', i2', s1, s2⟩
  | tx {v1 v2 l1 l2 i1 i2 s1 s2 i1' i2'} :
      Step ⟨.text v1 :: l1, .text v2 :: l2, i1, i2, s1, s2⟩
        (.plain (.text (if v1.length ≤ v2.length then v1 else v2)))
        ⟨dropTx (v1.drop v2.length) l1, dropTx (v2.drop v1.length) l2, i1', i2', s1, s2⟩

theorem step_nl (v1 v2 : Nat) (l1 l2 : List Tok) (i1 i2 s1 s2) :
    ∃ t s', mergeStep ⟨.newline v1 :: l1, .newline v2 :: l2, i1, i2, s1, s2⟩ = .ok (some (t, s')) ∧
      Step ⟨.newline v1 :: l1, .newline v2 :: l2, i1, i2, s1, s2⟩ t s' := by
  simp only [mergeStep]
  by_cases h : v1 = v2
  · subst h
    refine ⟨_, _, by simp; exact ⟨rfl, rfl⟩, ?_⟩
    have := @Step.nl v1 v1 l1 l2 i1 i2 s1 s2 (i1+1) (i2+1)
    simpa [dropNl] using this
  · by_cases h2 : v1 < v2
    · refine ⟨_, _, by simp [h, h2]; exact ⟨rfl, rfl⟩, ?_⟩
      have := @Step.nl v1 v2 l1 l2 i1 i2 s1 s2 (i1+1) i2
      rw [Nat.min_eq_left (by omega)] at this
      have e1 : v1 - v2 = 0 := by omega
      have e2 : v2 - v1 ≠ 0 := by omega
      simpa [dropNl, e1, e2] using this
    · refine ⟨_, _, by simp [h, h2]; exact ⟨rfl, rfl⟩, ?_⟩
      have := @Step.nl v1 v2 l1 l2 i1 i2 s1 s2 i1 (i2+1)
      rw [Nat.min_eq_right (by omega)] at this
      have e1 : v1 - v2 ≠ 0 := by omega
      have e2 : v2 - v1 = 0 := by omega
      simpa [dropNl, e1, e2] using this

theorem step_tx (v1 v2 : Str) (l1 l2 : List Tok) (i1 i2 s1 s2) :
    ∃ t s', mergeStep ⟨.text v1 :: l1, .text v2 :: l2, i1, i2, s1, s2⟩ = .ok (some (t, s')) ∧
      Step ⟨.text v1 :: l1, .text v2 :: l2, i1, i2, s1, s2⟩ t s' := by
  simp only [mergeStep]
  by_cases h : v1.length = v2.length
  · refine ⟨_, _, by simp [h]; exact ⟨rfl, rfl⟩, ?_⟩
    have := @Step.tx v1 v2 l1 l2 i1 i2 s1 s2 (i1+1) (i2+1)
    have e1 : v1.drop v2.length = [] := by simp [h]
    have e2 : v2.drop v1.length = [] := by simp [h]
    rw [if_pos (by omega), e1, e2] at this
    simpa [dropTx] using this
  · by_cases h2 : v1.length < v2.length
    · refine ⟨_, _, by simp [h, h2]; exact ⟨rfl, rfl⟩, ?_⟩
      have := @Step.tx v1 v2 l1 l2 i1 i2 s1 s2 (i1+1) i2
      have e1 : v1.drop v2.length = [] := by simp; omega
      have e2 : v2.drop v1.length ≠ [] := by simp; omega
      rw [if_pos (by omega), e1] at this
      rw [dropTx, if_pos rfl, dropTx, if_neg e2] at this; exact this
    · refine ⟨_, _, by simp [h, h2]; exact ⟨rfl, rfl⟩, ?_⟩
      have := @Step.tx v1 v2 l1 l2 i1 i2 s1 s2 i1 (i2+1)
      have e1 : v1.drop v2.length ≠ [] := by simp; omega
      have e2 : v2.drop v1.length = [] := by simp; omega
      rw [if_neg (by omega), e2] at this
      rw [dropTx, if_neg e1, dropTx, if_pos rfl] at this; exact this

theorem step_opn (a b : Str) (l1 l2 : List Tok) (i1 i2 s1 s2) :
    ∃ t s', mergeStep ⟨.opn a :: l1, .opn b :: l2, i1, i2, s1, s2⟩ = .ok (some (t, s')) ∧
      Step ⟨.opn a :: l1, .opn b :: l2, i1, i2, s1, s2⟩ t s' := by
  simp only [mergeStep]
  split
  · exact ⟨_, _, rfl, .opn1⟩
  · exact ⟨_, _, rfl, .opn2⟩

/-- The outcome of one iteration, by cases. -/
theorem mergeStep_cases (s : MState) :
    (s.l1 = [] ∧ s.l2 = [] ∧ mergeStep s = .ok none) ∨
    (∃ t s', mergeStep s = .ok (some (t, s')) ∧ Step s t s') ∨
    ((∃ e, mergeStep s = .error e) ∧
      ((s.l1.head? = some .close ∧ s.s1 = []) ∨ (s.l2.head? = some .close ∧ s.s2 = []) ∨
       (s.l1 = [] ∧ ∃ t r, s.l2 = t :: r ∧ (t.isNewline = true ∨ ∃ v, t = .text v)) ∨
       (s.l2 = [] ∧ ∃ t r, s.l1 = t :: r ∧ (t.isNewline = true ∨ ∃ v, t = .text v)) ∨
       (∃ n r v r', s.l1 = .newline n :: r ∧ s.l2 = .text v :: r') ∨
       (∃ n r v r', s.l2 = .newline n :: r ∧ s.l1 = .text v :: r'))) := by
  obtain ⟨l1, l2, i1, i2, s1, s2⟩ := s
  have c1 : ∀ r, s1 ≠ [] → Step ⟨.close :: r, l2, i1, i2, s1, s2⟩ (.block false .close) ⟨r, l2, i1 + 1, i2, s1.dropLast, s2⟩ :=
    fun r h => .close1 h
  have c2 : ∀ r, s2 ≠ [] → Step ⟨l1, .close :: r, i1, i2, s1, s2⟩ (.block true .close) ⟨l1, r, i1, i2 + 1, s1, s2.dropLast⟩ :=
    fun r h => .close2 h
  rcases l1 with _ | ⟨(v1 | v1 | n1 | _), l1⟩ <;> rcases l2 with _ | ⟨(v2 | v2 | n2 | _), l2⟩
  case nil.nil => left; simp [mergeStep]
  case cons.text.cons.text => right; left; exact step_tx _ _ _ _ _ _ _ _
  case cons.newline.cons.newline => right; left; exact step_nl _ _ _ _ _ _ _ _
  case cons.opn.cons.opn => right; left; exact step_opn _ _ _ _ _ _ _ _
  case cons.close.cons.close =>
    by_cases hg : listGt s1 s2 = true
    · by_cases h : s1 = []
      · subst h; simp [listGt] at hg
      · right; left; refine ⟨_, _, ?_, c1 _ h⟩; simp [mergeStep, hg, h]
    · by_cases h : s2 = []
      · subst h
        right; right; exact ⟨⟨.index, by simp only [mergeStep, if_neg hg, if_true]⟩, by simp⟩
      · right; left; refine ⟨_, _, ?_, c2 _ h⟩; simp [mergeStep, hg, h]
  all_goals first
    | (right; right; exact ⟨⟨.assertion, rfl⟩, by simp [Tok.isNewline]⟩)
    | (right; left; exact ⟨_, _, rfl, .opn1⟩)
    | (right; left; exact ⟨_, _, rfl, .opn2⟩)
    | (by_cases h : s1 = []
       · subst h; right; right; exact ⟨⟨.index, rfl⟩, by simp⟩
       · right; left; refine ⟨_, _, ?_, c1 _ h⟩; simp only [mergeStep, if_neg h])
    | (by_cases h : s2 = []
       · subst h; right; right; exact ⟨⟨.index, rfl⟩, by simp⟩
       · right; left; refine ⟨_, _, ?_, c2 _ h⟩; simp only [mergeStep, if_neg h])

/-- The invariant of the loop. -/
structure MInv (s : MState) : Prop where
  good1 : ∀ t ∈ s.l1, t.Good
  good2 : ∀ t ∈ s.l2, t.Good
  d1 : depth s.s1.length s.l1 = some 0
  d2 : depth s.s2.length s.l2 = some 0

theorem good_dropNl {n : Nat} {l : List Tok} (h : ∀ t ∈ l, t.Good) : ∀ t ∈ dropNl n l, t.Good := by
  unfold dropNl
  split
  · exact h
  · intro t ht
    rcases List.mem_cons.mp ht with rfl | ht
    · simp [Tok.Good]; omega
    · exact h t ht

theorem good_dropTx {v : Str} {l : List Tok} (hv : '\n' ∉ v) (h : ∀ t ∈ l, t.Good) :
    ∀ t ∈ dropTx v l, t.Good := by
  unfold dropTx
  split
  · exact h
  · intro t ht
    rcases List.mem_cons.mp ht with rfl | ht
    · exact ⟨by assumption, hv⟩
    · exact h t ht

theorem step_inv {s s' : MState} {t : MTok} (h : Step s t s') (hi : MInv s) : MInv s' := by
  obtain ⟨g1, g2, d1, d2⟩ := hi
  cases h with
  | close1 hs =>
    refine ⟨fun t ht => g1 t (by simp at ht ⊢; tauto), g2, ?_, d2⟩
    obtain ⟨k, hk⟩ := Nat.exists_eq_succ_of_ne_zero (by simpa using hs : (List.length _) ≠ 0)
    simp only [hk, Nat.succ_eq_add_one, depth_close_succ] at d1
    simp [hk, d1]
  | close2 hs =>
    refine ⟨g1, fun t ht => g2 t (by simp at ht ⊢; tauto), d1, ?_⟩
    obtain ⟨k, hk⟩ := Nat.exists_eq_succ_of_ne_zero (by simpa using hs : (List.length _) ≠ 0)
    simp only [hk, Nat.succ_eq_add_one, depth_close_succ] at d2
    simp [hk, d2]
  | opn1 =>
    exact ⟨fun t ht => g1 t (by simp at ht ⊢; tauto), g2, by simpa using d1, d2⟩
  | opn2 =>
    exact ⟨g1, fun t ht => g2 t (by simp at ht ⊢; tauto), d1, by simpa using d2⟩
  | nl =>
    exact ⟨good_dropNl fun t ht => g1 t (by simp [ht]), good_dropNl fun t ht => g2 t (by simp [ht]),
      by simpa [depth_dropNl] using d1, by simpa [depth_dropNl] using d2⟩
  | tx =>
    refine ⟨good_dropTx ?_ fun t ht => g1 t (by simp [ht]), good_dropTx ?_ fun t ht => g2 t (by simp [ht]),
      by simpa [depth_dropTx] using d1, by simpa [depth_dropTx] using d2⟩
    · exact fun hm => (g1 _ List.mem_cons_self).2 (List.mem_of_mem_drop hm)
    · exact fun hm => (g2 _ List.mem_cons_self).2 (List.mem_of_mem_drop hm)

theorem step_length {s s' : MState} {t : MTok} (h : Step s t s') :
    s'.l1.length + s'.l2.length < s.l1.length + s.l2.length := by
  cases h with
  | @nl v1 v2 l1 l2 _ _ _ _ _ _ =>
    simp only [dropNl]
    split <;> split <;> simp <;> omega
  | @tx v1 v2 l1 l2 _ _ _ _ _ _ =>
    simp only [dropTx]
    by_cases h1 : v1.length ≤ v2.length
    · rw [if_pos (by simpa using h1)]; split <;> simp <;> try omega
    · rw [if_neg (by simpa using h1), if_pos (by simp; omega)]; simp
  | _ => simp <;> omega

theorem blank_text {v : Str} (h : '\n' ∉ v) : v.map blank = List.replicate v.length ' ' := by
  induction v with
  | nil => rfl
  | cons c v ih =>
    simp at h
    simp [List.replicate_succ, blank, Ne.symm h.1, ih h.2]

/-- Shapes stay equal or different. -/
theorem step_shape {s s' : MState} {t : MTok} (h : Step s t s') (hi : MInv s) :
    (shape s.l1 = shape s.l2 ↔ shape s'.l1 = shape s'.l2) := by
  obtain ⟨g1, g2, _, _⟩ := hi
  cases h with
  | @nl v1 v2 l1 l2 _ _ _ _ _ _ =>
    simp only [shape, chars, chars_dropNl, List.map_append, List.map_replicate]
    rcases Nat.le_total v1 v2 with h | h
    · rw [Nat.sub_eq_zero_of_le h]
      conv_lhs => rw [show v2 = v1 + (v2 - v1) by omega, ← List.replicate_append_replicate,
        List.append_assoc, List.append_cancel_left_eq]
      simp
    · rw [Nat.sub_eq_zero_of_le h]
      conv_lhs => rw [show v1 = v2 + (v1 - v2) by omega, ← List.replicate_append_replicate,
        List.append_assoc, List.append_cancel_left_eq]
      simp
  | @tx v1 v2 l1 l2 _ _ _ _ _ _ =>
    have h1 := (g1 _ List.mem_cons_self).2
    have h2 := (g2 _ List.mem_cons_self).2
    have h1' : '\n' ∉ v1.drop v2.length := fun hm => h1 (List.mem_of_mem_drop hm)
    have h2' : '\n' ∉ v2.drop v1.length := fun hm => h2 (List.mem_of_mem_drop hm)
    simp only [shape, chars, chars_dropTx, List.map_append, blank_text h1, blank_text h2,
      blank_text h1', blank_text h2', List.length_drop]
    rcases Nat.le_total v1.length v2.length with h | h
    · rw [Nat.sub_eq_zero_of_le h]
      conv_lhs => rw [show v2.length = v1.length + (v2.length - v1.length) by omega,
        ← List.replicate_append_replicate, List.append_assoc, List.append_cancel_left_eq]
      simp
    · rw [Nat.sub_eq_zero_of_le h]
      conv_lhs => rw [show v1.length = v2.length + (v1.length - v2.length) by omega,
        ← List.replicate_append_replicate, List.append_assoc, List.append_cancel_left_eq]
      simp
  | _ => simp [shape, chars]

/-- With equal shapes the loop does not get stuck. -/
theorem mergeStep_progress {s : MState} (hi : MInv s) (hs : shape s.l1 = shape s.l2) :
    (s.l1 = [] ∧ s.l2 = [] ∧ mergeStep s = .ok none) ∨
    ∃ t s', mergeStep s = .ok (some (t, s')) ∧ Step s t s' := by
  rcases mergeStep_cases s with h | h | ⟨_, h⟩
  · exact .inl h
  · exact .inr h
  · exfalso
    obtain ⟨g1, g2, d1, d2⟩ := hi
    have key : ∀ (l : List Tok) (t r), (∀ t ∈ l, t.Good) → l = t :: r →
        (t.isNewline = true ∨ ∃ v, t = .text v) → shape l ≠ [] := by
      intro l t r hg hl ht
      subst hl
      have := hg t List.mem_cons_self
      rcases ht with ht | ⟨v, rfl⟩
      · cases t <;> simp [Tok.isNewline] at ht
        simp [Tok.Good] at this
        simp [shape, chars]; omega
      · simp [shape, chars, this.1]
    rcases h with ⟨h1, h2⟩ | ⟨h1, h2⟩ | ⟨h1, t, r, h2, h3⟩ | ⟨h1, t, r, h2, h3⟩ |
      ⟨n, r, v, r', h1, h2⟩ | ⟨n, r, v, r', h1, h2⟩
    · rcases hl : s.l1 with _ | ⟨t, r⟩ <;> simp [hl] at h1
      subst h1; rw [hl, h2] at d1; simp at d1
    · rcases hl : s.l2 with _ | ⟨t, r⟩ <;> simp [hl] at h1
      subst h1; rw [hl, h2] at d2; simp at d2
    · exact key _ _ _ g2 h2 h3 (by rw [← hs, h1]; rfl)
    · exact key _ _ _ g1 h2 h3 (by rw [hs, h1]; rfl)
    · rw [h1, h2] at hs
      have a1 := g1 (.newline n) (by simp [h1])
      have a2 := g2 (.text v) (by simp [h2])
      rcases v with _ | ⟨c, v⟩
      · exact a2.1 rfl
      · simp [Tok.Good] at a1 a2
        obtain ⟨m, rfl⟩ : ∃ m, n = m + 1 := ⟨n - 1, by omega⟩
        simp [shape, chars, List.replicate_succ, blank, Ne.symm a2.1] at hs
    · rw [h1, h2] at hs
      have a1 := g2 (.newline n) (by simp [h1])
      have a2 := g1 (.text v) (by simp [h2])
      rcases v with _ | ⟨c, v⟩
      · exact a2.1 rfl
      · simp [Tok.Good] at a1 a2
        obtain ⟨m, rfl⟩ : ∃ m, n = m + 1 := ⟨n - 1, by omega⟩
        simp [shape, chars, List.replicate_succ, blank, Ne.symm a2.1] at hs

/-- The tokens of one stream in the merged list. -/
def proj (second : Bool) : List MTok → List Tok
  | [] => []
  | .plain t :: ms => t :: proj second ms
  | .block i t :: ms => if i = second then t :: proj second ms else proj second ms

/-- Runs of the loop. -/
inductive Run : MState → List MTok → Prop where
  | done {s} : s.l1 = [] → s.l2 = [] → Run s []
  | step {s t s' ms} : Step s t s' → Run s' ms → Run s (t :: ms)

theorem mergeLoop_run {fuel : Nat} {s : MState} {ms : List MTok} (h : mergeLoop fuel s = .ok ms) :
    Run s ms := by
  induction fuel generalizing s ms with
  | zero => simp [mergeLoop] at h
  | succ n ih =>
    simp only [mergeLoop] at h
    rcases mergeStep_cases s with ⟨h1, h2, h3⟩ | ⟨t, s', h1, h2⟩ | ⟨⟨e, h1⟩, _⟩
    · rw [h3] at h; injection h with h; subst h; exact .done h1 h2
    · rw [h1] at h
      simp only at h
      split at h
      · rename_i r hr; injection h with h; subst h; exact .step h2 (ih hr)
      · cases h
    · rw [h1] at h; cases h

theorem mergeLoop_ok (fuel : Nat) : ∀ s, MInv s → shape s.l1 = shape s.l2 →
    s.l1.length + s.l2.length < fuel → ∃ ms, mergeLoop fuel s = .ok ms := by
  induction fuel with
  | zero => intro s _ _ h; omega
  | succ n ih =>
    intro s hi hs hf
    rcases mergeStep_progress hi hs with ⟨_, _, h⟩ | ⟨t, s', h1, h2⟩
    · exact ⟨[], by simp [mergeLoop, h]⟩
    · obtain ⟨ms, hm⟩ := ih s' (step_inv h2 hi) ((step_shape h2 hi).mp hs) (by have := step_length h2; omega)
      exact ⟨t :: ms, by simp [mergeLoop, h1, hm]⟩

theorem run_shape {s : MState} {ms : List MTok} (h : Run s ms) (hi : MInv s) : shape s.l1 = shape s.l2 := by
  induction h with
  | done h1 h2 => rw [h1, h2]
  | step h1 _ ih => exact (step_shape h1 hi).mpr (ih (step_inv h1 hi))

theorem run_depth {s : MState} {ms : List MTok} (h : Run s ms) (hi : MInv s) :
    depth s.s1.length (proj false ms) = some 0 ∧ depth s.s2.length (proj true ms) = some 0 := by
  induction h with
  | done h1 h2 =>
    have a := hi.d1; have b := hi.d2
    rw [h1] at a; rw [h2] at b
    simp at a b
    simp [proj, a, b]
  | step h1 _ ih =>
    obtain ⟨i1, i2⟩ := ih (step_inv h1 hi)
    cases h1 with
    | close1 hs =>
      obtain ⟨k, hk⟩ := Nat.exists_eq_succ_of_ne_zero (by simpa using hs : (List.length _) ≠ 0)
      simp [hk] at i1
      simp [proj, hk, i1, i2]
    | close2 hs =>
      obtain ⟨k, hk⟩ := Nat.exists_eq_succ_of_ne_zero (by simpa using hs : (List.length _) ≠ 0)
      simp [hk] at i2
      simp [proj, hk, i1, i2]
    | opn1 => simp at i1; simp [proj, i1, i2]
    | opn2 => simp at i2; simp [proj, i1, i2]
    | nl => simp [proj, i1, i2]
    | tx => simp [proj, i1, i2]

/-- Equal texts stay equal. -/
theorem step_text {s s' : MState} {t : MTok} (h : Step s t s') (hc : chars s.l1 = chars s.l2) :
    chars s'.l1 = chars s'.l2 := by
  cases h with
  | @nl v1 v2 l1 l2 _ _ _ _ _ _ =>
    simp only [chars, chars_dropNl] at hc ⊢
    rcases Nat.le_total v1 v2 with h | h
    · rw [Nat.sub_eq_zero_of_le h]
      rw [show v2 = v1 + (v2 - v1) by omega, ← List.replicate_append_replicate,
        List.append_assoc, List.append_cancel_left_eq] at hc
      simpa using hc
    · rw [Nat.sub_eq_zero_of_le h]
      rw [show v1 = v2 + (v1 - v2) by omega, ← List.replicate_append_replicate,
        List.append_assoc, List.append_cancel_left_eq] at hc
      simpa using hc
  | @tx v1 v2 l1 l2 _ _ _ _ _ _ =>
    simp only [chars, chars_dropTx] at hc ⊢
    rcases Nat.le_total v1.length v2.length with h | h
    · have := congrArg (List.drop v1.length) hc
      rw [List.drop_left, List.drop_append_of_le_length h] at this
      rw [List.drop_of_length_le h]; simpa using this
    · have := congrArg (List.drop v2.length) hc
      rw [List.drop_left, List.drop_append_of_le_length h] at this
      rw [List.drop_of_length_le h]; simpa using this
  | _ => simpa [chars] using hc

theorem tx_prefix {v1 v2 a b : Str} (h : v1 ++ a = v2 ++ b) (hl : v1.length ≤ v2.length) :
    v2 = v1 ++ v2.drop v1.length := by
  have := congrArg (List.take v1.length) h
  rw [List.take_left, List.take_append_of_le_length hl] at this
  conv_lhs => rw [← List.take_append_drop v1.length v2, ← this]

theorem run_shown {s : MState} {ms : List MTok} (h : Run s ms) (hc : chars s.l1 = chars s.l2) :
    (∀ st, shown st (proj false ms) = shown st s.l1) ∧ (∀ st, shown st (proj true ms) = shown st s.l2) := by
  induction h with
  | done h1 h2 => simp [proj, h1, h2]
  | step h1 _ ih =>
    obtain ⟨i1, i2⟩ := ih (step_text h1 hc)
    cases h1 with
    | close1 hs => simp [proj, shown, i1, i2]
    | close2 hs => simp [proj, shown, i1, i2]
    | opn1 => simp [proj, shown, i1, i2]
    | opn2 => simp [proj, shown, i1, i2]
    | @nl v1 v2 l1 l2 _ _ _ _ _ _ =>
      simp only [proj, shown, i1, i2, shown_dropNl, mark_nl, ← List.append_assoc,
        List.replicate_append_replicate]
      constructor <;> intro st <;> congr 2 <;> omega
    | @tx v1 v2 l1 l2 _ _ _ _ _ _ =>
      simp only [chars] at hc
      simp only [proj, shown, i1, i2, shown_dropTx, ← List.append_assoc, ← List.map_append]
      split
      · rename_i hl
        have := tx_prefix hc hl
        rw [List.drop_of_length_le hl, ← this]; simp
      · rename_i hl
        have := tx_prefix hc.symm (by omega)
        rw [List.drop_of_length_le (by omega : v2.length ≤ v1.length), ← this]; simp

/-! ### emitting -/

theorem closeBlock_some (i : Bool) (opened : List (Bool × Str)) (h : ∃ x ∈ opened, x.1 = i) :
    ∃ reopen opened', closeBlock i opened = some (reopen, opened') := by
  induction opened with
  | nil => simp at h
  | cons x opened ih =>
    obtain ⟨j, n⟩ := x
    simp only [closeBlock]
    by_cases hj : j = i
    · simp [hj]
    · simp only [if_neg hj]
      obtain ⟨r, o, hro⟩ := ih (by
        obtain ⟨y, hy, hyi⟩ := h
        rcases List.mem_cons.mp hy with rfl | hy
        · exact absurd hyi hj
        · exact ⟨y, hy, hyi⟩)
      simp [hro]

/-- Shape of a successful close. -/
theorem closeBlock_spec {i : Bool} {opened : List (Bool × Str)} {reopen : List Str}
    {opened' : List (Bool × Str)} (h : closeBlock i opened = some (reopen, opened')) :
    ∃ top n rest, opened = top ++ (i, n) :: rest ∧ (∀ x ∈ top, x.1 ≠ i) ∧
      reopen = top.map Prod.snd ∧ opened' = top ++ rest := by
  induction opened generalizing reopen opened' with
  | nil => simp [closeBlock] at h
  | cons x opened ih =>
    obtain ⟨j, n⟩ := x
    simp only [closeBlock] at h
    by_cases hj : j = i
    · simp [hj] at h
      exact ⟨[], n, opened, by simp [hj], by simp, by simp [h.1], by simp [h.2]⟩
    · simp only [if_neg hj] at h
      split at h
      · cases h
      · rename_i r o hro
        injection h with h
        injection h with h1 h2
        obtain ⟨top, m, rest, e1, e2, e3, e4⟩ := ih hro
        refine ⟨(j, n) :: top, m, rest, by simp [e1], ?_, by simp [← h1, e3], by simp [← h2, e4]⟩
        intro x hx
        rcases List.mem_cons.mp hx with rfl | hx
        · exact hj
        · exact e2 x hx

def cnt (i : Bool) (opened : List (Bool × Str)) : Nat := (opened.filter (fun x => x.1 == i)).length

theorem cnt_pos {i : Bool} {opened : List (Bool × Str)} (h : cnt i opened ≠ 0) : ∃ x ∈ opened, x.1 = i := by
  unfold cnt at h
  obtain ⟨x, hx⟩ := List.exists_mem_of_length_pos (Nat.pos_of_ne_zero h)
  simp at hx
  exact ⟨x, hx.1, hx.2⟩

theorem cnt_add (opened : List (Bool × Str)) : cnt false opened + cnt true opened = opened.length := by
  induction opened with
  | nil => simp [cnt]
  | cons x l ih =>
    obtain ⟨i, n⟩ := x
    simp only [cnt] at ih ⊢
    cases i <;> simp at ih ⊢ <;> omega

/-- Only opens and closes are under `_block`. -/
def BlocksOnly (ms : List MTok) : Prop := ∀ i t, MTok.block i t ∈ ms → t = .close ∨ ∃ n, t = .opn n

theorem run_blocksOnly {s : MState} {ms : List MTok} (h : Run s ms) : BlocksOnly ms := by
  induction h with
  | done _ _ => intro i t h; simp at h
  | step h1 _ ih =>
    intro i t h
    rcases List.mem_cons.mp h with h | h
    · cases h1 <;> simp at h <;> simp [h]
    · exact ih i t h

/-- Plain tokens are texts and newlines. -/
def PlainOnly (ms : List MTok) : Prop := ∀ t, MTok.plain t ∈ ms → (∃ s, t = .text s) ∨ ∃ n, t = .newline n

theorem run_plainOnly {s : MState} {ms : List MTok} (h : Run s ms) : PlainOnly ms := by
  induction h with
  | done _ _ => intro t h; simp at h
  | step h1 _ ih =>
    intro t h
    rcases List.mem_cons.mp h with h | h
    · cases h1 <;> simp at h <;> simp [h]
    · exact ih t h

theorem mergeEmit_ok (ms : List MTok) : ∀ opened, BlocksOnly ms → PlainOnly ms →
    depth (cnt false opened) (proj false ms) = some 0 →
    depth (cnt true opened) (proj true ms) = some 0 →
    ∃ r, mergeEmit opened ms = .ok r ∧ depth opened.length r = some 0 ∧
      chars r = chars (proj false ms) := by
  induction ms with
  | nil =>
    intro opened _ _ h1 h2
    simp [proj] at h1 h2
    have := cnt_add opened
    rw [h1, h2] at this
    have : opened = [] := List.length_eq_zero_iff.mp this.symm
    subst this
    exact ⟨[], by simp [mergeEmit], by simp, by simp [proj]⟩
  | cons m ms ih =>
    intro opened hb hp h1 h2
    have hb' : BlocksOnly ms := fun i t h => hb i t (by simp [h])
    have hp' : PlainOnly ms := fun t h => hp t (by simp [h])
    cases m with
    | plain t =>
      rcases hp t (by simp) with ⟨s, rfl⟩ | ⟨n, rfl⟩
      · simp [proj] at h1 h2
        obtain ⟨r, hr, hd, hc⟩ := ih opened hb' hp' h1 h2
        exact ⟨.text s :: r, by simp [mergeEmit, hr], by simpa using hd, by simp [proj, chars, hc]⟩
      · simp [proj] at h1 h2
        obtain ⟨r, hr, hd, hc⟩ := ih opened hb' hp' h1 h2
        exact ⟨.newline n :: r, by simp [mergeEmit, hr], by simpa using hd, by simp [proj, chars, hc]⟩
    | block i t =>
      rcases hb i t (by simp) with rfl | ⟨n, rfl⟩
      · have hpos : cnt i opened ≠ 0 := by
          intro h0
          cases i <;> simp [proj, h0] at h1 h2
        obtain ⟨reopen, opened', hcb⟩ := closeBlock_some i opened (cnt_pos hpos)
        obtain ⟨top, n, rest, e1, e2, e3, e4⟩ := closeBlock_spec hcb
        have hcnt : cnt i opened = cnt i opened' + 1 ∧ cnt (!i) opened = cnt (!i) opened' := by
          subst e1; subst e4
          simp only [cnt, List.filter_append, List.filter_cons, List.length_append]
          cases i <;> simp <;> omega
        obtain ⟨r, hr, hd, hc⟩ := ih opened' hb' hp'
          (by cases i
              · simp only [proj, if_true] at h1; rw [hcnt.1] at h1; simpa using h1
              · simp only [proj] at h1
                have := hcnt.2; simp at this; simpa [this] using h1)
          (by cases i
              · simp only [proj] at h2
                have := hcnt.2; simp at this; simpa [this] using h2
              · simp only [proj, if_true] at h2; rw [hcnt.1] at h2; simpa using h2)
        refine ⟨List.replicate (reopen.length + 1) .close ++ reopen.map .opn ++ r, by
          simp only [mergeEmit, hcb, hr], ?_, ?_⟩
        · have hl : opened.length = rest.length + (reopen.length + 1) := by
            subst e1; subst e3; simp; omega
          rw [List.append_assoc, depth_append, hl, depth_closes, Option.bind_some, depth_append,
            depth_opens, Option.bind_some]
          have : rest.length + reopen.length = opened'.length := by subst e4; subst e3; simp; omega
          rw [this]; exact hd
        · have h3 : ∀ k (X : List Tok), chars (List.replicate k .close ++ X) = chars X := by
            intro k X; induction k with
            | zero => simp
            | succ k ih => simpa [List.replicate_succ, chars] using ih
          have h4 : ∀ (l : List Str) (X : List Tok), chars (l.map .opn ++ X) = chars X := by
            intro l X; induction l with
            | nil => simp
            | cons a l ih => simpa [chars] using ih
          rw [List.append_assoc, h3, h4, hc]
          cases i <;> simp [proj, chars]
      · obtain ⟨r, hr, hd, hc⟩ := ih ((i, n) :: opened) hb' hp'
          (by cases i <;> simpa [proj, cnt] using h1)
          (by cases i <;> simpa [proj, cnt] using h2)
        refine ⟨.opn n :: r, by simp [mergeEmit, hr], by simpa using hd, ?_⟩
        cases i <;> simp [proj, chars, hc]

/-- Names of the opened blocks of one stream, innermost first. -/
def names (i : Bool) (opened : List (Bool × Str)) : List Str :=
  (opened.filter (fun x => x.1 == i)).map Prod.snd

/-- No closing re-opens more than one block. -/
def Reopens1 : List (Bool × Str) → List MTok → Prop
  | _, [] => True
  | opened, .plain _ :: ms => Reopens1 opened ms
  | opened, .block i (.opn n) :: ms => Reopens1 ((i, n) :: opened) ms
  | opened, .block i _ :: ms =>
    match closeBlock i opened with
    | none => True
    | some (reopen, opened') => reopen.length ≤ 1 ∧ Reopens1 opened' ms

theorem stackAfter_closes (n : Nat) : ∀ st, stackAfter st (List.replicate n .close) = st.drop n := by
  induction n with
  | zero => intro st; simp [stackAfter]
  | succ n ih => intro st; simp [List.replicate_succ, stackAfter, ih]

theorem merged_append {a b c a' b' c'} (h : Merged a b c) (h' : Merged a' b' c') :
    Merged (a ++ a') (b ++ b') (c ++ c') := by
  induction h with
  | nil => exact h'
  | cons x σ σ1 σ2 hp _ ih => exact .cons x σ σ1 σ2 hp ih

theorem merged_marks (st st1 st2 : List Str) (h : st.Perm (st1 ++ st2)) (v : Str) :
    Merged (v.map (mark st)) (v.map (mark st1)) (v.map (mark st2)) := by
  induction v with
  | nil => exact .nil
  | cons c v ih =>
    simp only [List.map_cons, mark]
    refine .cons c _ _ _ ?_ ih
    split
    · simp
    · exact h

theorem names_perm (opened : List (Bool × Str)) :
    (opened.map Prod.snd).Perm (names false opened ++ names true opened) := by
  induction opened with
  | nil => simp [names]
  | cons x l ih =>
    obtain ⟨i, n⟩ := x
    simp only [names] at ih ⊢
    cases i
    · simpa using ih
    · simp only [List.map_cons]
      refine (ih.cons n).trans ?_
      simpa using List.perm_middle.symm

theorem mergeEmit_styles (ms : List MTok) : ∀ opened r, PlainOnly ms → Reopens1 opened ms →
    mergeEmit opened ms = .ok r →
    Merged (shown (opened.map Prod.snd) r) (shown (names false opened) (proj false ms))
      (shown (names true opened) (proj true ms)) := by
  induction ms with
  | nil =>
    intro opened r _ _ h
    simp only [mergeEmit] at h
    split at h
    · injection h with h; subst h; simp [shown, proj]; exact .nil
    · cases h
  | cons m ms ih =>
    intro opened r hp hr h
    have hp' : PlainOnly ms := fun t h => hp t (by simp [h])
    match m with
    | .plain t =>
      simp only [mergeEmit] at h
      split at h
      · rename_i r' hr'
        injection h with h; subst h
        have := ih opened r' hp' hr hr'
        rcases hp t (by simp) with ⟨s, rfl⟩ | ⟨n, rfl⟩
        · simp only [shown, proj]
          exact merged_append (merged_marks _ _ _ (names_perm opened) s) this
        · simp only [shown, proj]
          refine merged_append ?_ this
          have := merged_marks _ _ _ (names_perm opened) (List.replicate n '\n')
          simpa using this
      · cases h
    | .block i (.opn n) =>
      simp only [mergeEmit] at h
      split at h
      · rename_i r' hr'
        injection h with h; subst h
        have := ih ((i, n) :: opened) r' hp' hr hr'
        cases i <;> simpa [shown, proj, names] using this
      · cases h
    | .block i .close =>
      simp only [mergeEmit] at h
      simp only [Reopens1] at hr
      split at h
      · cases h
      · rename_i reopen opened' hcb
        rw [hcb] at hr
        simp only at hr
        split at h
        · rename_i r' hr'
          injection h with h; subst h
          have := ih opened' r' hp' hr.2 hr'
          obtain ⟨top, n, rest, e1, e2, e3, e4⟩ := closeBlock_spec hcb
          have hst : shown (opened.map Prod.snd)
              (List.replicate (reopen.length + 1) Tok.close ++ reopen.map .opn ++ r') =
              shown (opened'.map Prod.snd) r' := by
            rw [List.append_assoc, shown_append, shown_closes, stackAfter_closes, shown_opens]
            subst e1; subst e3; subst e4
            have hl := hr.1
            rcases top with _ | ⟨x, _ | ⟨y, top⟩⟩
            · simp
            · simp
            · simp at hl
          rw [hst]
          have hn : names i opened' = (names i opened).tail ∧ names (!i) opened' = names (!i) opened := by
            subst e1; subst e4
            have ht : top.filter (fun x => x.1 == i) = [] := by
              rw [List.filter_eq_nil_iff]; intro x hx; simpa using e2 x hx
            constructor
            · simp [names, ht]
            · simp only [names, List.filter_append, List.filter_cons]
              cases i <;> simp
          cases i
          · have h2 := hn.2; simp only [Bool.not_false] at h2
            rw [hn.1, h2] at this
            simpa [proj, shown] using this
          · have h2 := hn.2; simp only [Bool.not_true] at h2
            rw [hn.1, h2] at this
            simpa [proj, shown] using this
        · cases h
    | .block i (.text s) => simp [mergeEmit] at h
    | .block i (.newline s) => simp [mergeEmit] at h

/-- Flat streams never need two re-openings. -/
theorem reopens1_of_flat (ms : List MTok) : ∀ opened, BlocksOnly ms → PlainOnly ms →
    maxNesting (cnt false opened) (proj false ms) ≤ 1 →
    maxNesting (cnt true opened) (proj true ms) ≤ 1 → Reopens1 opened ms := by
  have hge : ∀ ts d, d ≤ maxNesting d ts := by
    intro ts
    induction ts with
    | nil => intro d; simp [maxNesting]
    | cons t ts ih => intro d; cases t <;> simp [maxNesting, ih]
  induction ms with
  | nil => intro opened _ _ _ _; trivial
  | cons m ms ih =>
    intro opened hb hp h1 h2
    have hb' : BlocksOnly ms := fun i t h => hb i t (by simp [h])
    have hp' : PlainOnly ms := fun t h => hp t (by simp [h])
    cases m with
    | plain t =>
      rcases hp t (by simp) with ⟨s, rfl⟩ | ⟨n, rfl⟩ <;>
      · simp [proj, maxNesting] at h1 h2
        exact ih opened hb' hp' h1 h2
    | block i t =>
      rcases hb i t (by simp) with rfl | ⟨n, rfl⟩
      · simp only [Reopens1]
        split
        · trivial
        · rename_i reopen opened' hcb
          obtain ⟨top, n, rest, e1, e2, e3, e4⟩ := closeBlock_spec hcb
          have hcnt : cnt i opened - 1 = cnt i opened' ∧ cnt (!i) opened = cnt (!i) opened' := by
            subst e1; subst e4
            simp only [cnt, List.filter_append, List.filter_cons, List.length_append]
            cases i <;> simp <;> omega
          have hle : reopen.length ≤ cnt (!i) opened := by
            subst e3; subst e1
            have ht : top.filter (fun x => x.1 == !i) = top := by
              rw [List.filter_eq_self]; intro x hx
              have := e2 x hx
              cases hx1 : x.1 <;> cases i <;> simp_all
            simp [cnt, ht]
          have b1 := hge (proj false (.block i .close :: ms)) (cnt false opened)
          have b2 := hge (proj true (.block i .close :: ms)) (cnt true opened)
          refine ⟨?_, ih opened' hb' hp' ?_ ?_⟩
          · cases i <;> simp at hle <;> omega
          · cases i
            · simp only [proj, if_true, maxNesting] at h1; rw [hcnt.1] at h1; omega
            · have := hcnt.2; simp at this
              simpa [proj, this] using h1
          · cases i
            · have := hcnt.2; simp at this
              simpa [proj, this] using h2
            · simp only [proj, if_true, maxNesting] at h2; rw [hcnt.1] at h2; omega
      · simp only [Reopens1]
        apply ih _ hb' hp'
        · cases i
          · simp [proj, maxNesting] at h1
            simpa [cnt] using h1.2
          · simpa [proj, cnt] using h1
        · cases i
          · simpa [proj, cnt] using h2
          · simp [proj, maxNesting] at h2
            simpa [cnt] using h2.2

theorem maxNesting_dropNl (d n : Nat) (l : List Tok) : maxNesting d (dropNl n l) = maxNesting d l := by
  unfold dropNl; split <;> simp [maxNesting]
theorem maxNesting_dropTx (d : Nat) (n : Str) (l : List Tok) : maxNesting d (dropTx n l) = maxNesting d l := by
  unfold dropTx; split <;> simp [maxNesting]

theorem run_nesting {s : MState} {ms : List MTok} (h : Run s ms) : ∀ d,
    maxNesting d (proj false ms) = maxNesting d s.l1 ∧ maxNesting d (proj true ms) = maxNesting d s.l2 := by
  induction h with
  | done h1 h2 => intro d; simp [proj, h1, h2]
  | step h1 _ ih =>
    intro d
    cases h1 with
    | nl =>
      have := ih d
      simpa [proj, maxNesting, maxNesting_dropNl] using this
    | tx =>
      have := ih d
      simpa [proj, maxNesting, maxNesting_dropTx] using this
    | close1 _ => have a := ih d; have b := ih (d - 1); simp [proj, maxNesting, a.2, b.1]
    | close2 _ => have a := ih d; have b := ih (d - 1); simp [proj, maxNesting, a.1, b.2]
    | opn1 => have a := ih d; have b := ih (d + 1); simp [proj, maxNesting, a.2, b.1]
    | opn2 => have a := ih d; have b := ih (d + 1); simp [proj, maxNesting, a.1, b.2]

end Verif.Text
