import Verif.Proofs.Merge

/-! Merging a flat stream with a stream of nested styles. -/

namespace Verif.Text
open Spec

/-! ### the order of the steps -/

/-- What is known about the heads of the streams when a block is opened. -/
def Prio (s : MState) : MTok → Prop
  | .block i (.opn _) => s.l1.head? ≠ some .close ∧ s.l2.head? ≠ some .close ∧
      (i = false → ∀ n l, s.l2 = .opn n :: l → (blockText s.l2).length < (blockText s.l1).length)
  | _ => True

inductive RunP : MState → List MTok → Prop where
  | done {s} : s.l1 = [] → s.l2 = [] → RunP s []
  | step {s t s' ms} : Step s t s' → Prio s t → RunP s' ms → RunP s (t :: ms)

theorem mergeStep_prio {s s' : MState} {t : MTok} (h : mergeStep s = .ok (some (t, s'))) : Prio s t := by
  obtain ⟨l1, l2, i1, i2, s1, s2⟩ := s
  rcases l1 with _ | ⟨(v1 | v1 | n1 | _), l1⟩ <;> rcases l2 with _ | ⟨(v2 | v2 | n2 | _), l2⟩
  all_goals simp only [mergeStep] at h
  all_goals repeat' split at h
  all_goals first
    | (simp only [Except.ok.injEq, Option.some.injEq, Prod.mk.injEq, reduceCtorEq, false_and] at h; try (obtain ⟨rfl, _⟩ := h; simp [Prio] <;> omega))
    | cases h

theorem mergeLoop_runP {fuel : Nat} {s : MState} {ms : List MTok} (h : mergeLoop fuel s = .ok ms) : RunP s ms := by
  induction fuel generalizing s ms with
  | zero => simp [mergeLoop] at h
  | succ n ih =>
    simp only [mergeLoop] at h
    rcases mergeStep_cases s with ⟨h1, h2, h3⟩ | ⟨t, s', h1, h2⟩ | ⟨⟨e, h1⟩, _⟩
    · rw [h3] at h; injection h with h; subst h; exact .done h1 h2
    · have hp := mergeStep_prio h1
      rw [h1] at h
      simp only at h
      split at h
      · rename_i r hr; injection h with h; subst h; exact .step h2 hp (ih hr)
      · cases h
    · rw [h1] at h; cases h

/-! ### ends of blocks -/

/-- The position of the end of the block `d` levels further out. -/
def endAt (p d : Nat) : List Tok → Nat
  | [] => p
  | .text s :: ts => endAt (p + s.length) d ts
  | .newline n :: ts => endAt (p + n) d ts
  | .opn _ :: ts => endAt p (d + 1) ts
  | .close :: ts => if d = 0 then p else endAt p (d - 1) ts

theorem endAt_ge (l : List Tok) : ∀ p d, p ≤ endAt p d l := by
  induction l with
  | nil => intro p d; exact le_rfl
  | cons t l ih =>
    intro p d
    cases t with
    | text s => have := ih (p + s.length) d; simp only [endAt]; omega
    | newline n => have := ih (p + n) d; simp only [endAt]; omega
    | opn n => exact ih p (d + 1)
    | close =>
      simp only [endAt]
      split
      · exact le_rfl
      · exact ih p (d - 1)

theorem endAt_mono (l : List Tok) : ∀ p d, endAt p d l ≤ endAt p (d + 1) l := by
  induction l with
  | nil => intro p d; exact le_rfl
  | cons t l ih =>
    intro p d
    cases t with
    | text s => exact ih _ d
    | newline n => exact ih _ d
    | opn n => exact ih p (d + 1)
    | close =>
      simp only [endAt]
      split
      · exact endAt_ge l p _
      · rename_i hd
        have := ih p (d - 1)
        rw [if_neg (by omega)]
        have e : d + 1 - 1 = d - 1 + 1 := by omega
        rw [e]; exact this

theorem blockEnd_text (l : List Tok) : ∀ p d, endAt p d l = p + (match blockEnd d l with
    | some n => plainText (l.take n)
    | none => plainText l).length := by
  induction l with
  | nil => intro p d; simp [endAt, blockEnd, plainText]
  | cons t l ih =>
    intro p d
    cases t with
    | text s =>
      have h : blockEnd d (.text s :: l) = (blockEnd d l).map (· + 1) := by cases d <;> rfl
      rw [h]; simp only [endAt, ih]
      cases blockEnd d l <;> simp [plainText] <;> omega
    | newline n =>
      have h : blockEnd d (.newline n :: l) = (blockEnd d l).map (· + 1) := by cases d <;> rfl
      rw [h]; simp only [endAt, ih]
      cases blockEnd d l <;> simp [plainText] <;> omega
    | opn n =>
      have h : blockEnd d (.opn n :: l) = (blockEnd (d + 1) l).map (· + 1) := by cases d <;> rfl
      rw [h]; simp only [endAt, ih]
      cases blockEnd (d + 1) l <;> simp [plainText]
    | close =>
      cases d with
      | zero => simp [endAt, blockEnd, plainText]
      | succ d =>
        have h : blockEnd (d + 1) (.close :: l) = (blockEnd d l).map (· + 1) := rfl
        rw [h]; simp only [endAt, if_neg (Nat.succ_ne_zero d), Nat.add_sub_cancel, ih]
        cases blockEnd d l <;> simp [plainText]

theorem blockText_end (p : Nat) (n : Str) (l : List Tok) : endAt p 0 l = p + (blockText (.opn n :: l)).length := by
  rw [blockEnd_text]
  simp only [blockText]
  cases blockEnd 0 l <;> simp [plainText]

theorem endAt_dropTx (p d : Nat) (v w : Str) (l : List Tok) : endAt (p + min v.length w.length) d (dropTx (v.drop w.length) l) = endAt p d (.text v :: l) := by
  unfold dropTx
  split
  · rename_i h
    have : v.length ≤ w.length := by simpa using h
    simp only [endAt, Nat.min_eq_left this]
  · rename_i h
    have : w.length < v.length := by simpa using h
    simp only [endAt, List.length_drop]
    congr 1; omega

theorem endAt_dropNl (p d v w : Nat) (l : List Tok) : endAt (p + min v w) d (dropNl (v - w) l) = endAt p d (.newline v :: l) := by
  unfold dropNl
  split
  · simp only [endAt, Nat.min_eq_left (by omega : v ≤ w)]
  · simp only [endAt]
    congr 1; omega

theorem sections_dropTx (p : Nat) (st : List Nat) (v w : Str) (l : List Tok) :
    sections (p + min v.length w.length) st (dropTx (v.drop w.length) l) = sections p st (.text v :: l) := by
  unfold dropTx
  split
  · rename_i h
    have : v.length ≤ w.length := by simpa using h
    simp only [sections, Nat.min_eq_left this]
  · rename_i h
    have : w.length < v.length := by simpa using h
    simp only [sections, List.length_drop]
    congr 1; omega

theorem sections_dropNl (p : Nat) (st : List Nat) (v w : Nat) (l : List Tok) :
    sections (p + min v w) st (dropNl (v - w) l) = sections p st (.newline v :: l) := by
  unfold dropNl
  split
  · simp only [sections, Nat.min_eq_left (by omega : v ≤ w)]
  · simp only [sections]
    congr 1; omega

/-- Every open section is closed here or later. -/
theorem count_open (P : Nat → Bool) (q : Nat) (l : List Tok) : ∀ p st, q ≤ p → depth st.length l = some 0 →
    (st.filter P).length ≤ ((sections p st l).filter (fun y => P y.1 && decide (q ≤ y.2))).length := by
  induction l with
  | nil =>
    intro p st _ hd
    cases st with
    | nil => simp
    | cons a st => simp [depth] at hd
  | cons t l ih =>
    intro p st hq hd
    cases t with
    | text s => exact ih _ st (by omega) hd
    | newline n => exact ih _ st (by omega) hd
    | opn n =>
      have := ih p (p :: st) hq (by simpa [depth] using hd)
      simp only [sections]
      refine le_trans ?_ this
      rw [List.filter_cons]
      split <;> simp
    | close =>
      cases st with
      | nil => simp [depth] at hd
      | cons a st =>
        have := ih p st hq (by simpa [depth] using hd)
        simp only [sections, List.filter_cons]
        cases hP : P a
        · simpa [hP] using this
        · simp [hq]; exact this

/-! ### the invariant -/

abbrev Entry := Bool × Str × Nat

def strip (x : Entry) : Bool × Str := (x.1, x.2.1)

/-- Beginnings of the open sections of a stream, innermost first. -/
def starts (i : Bool) (E : List Entry) : List Nat := (E.filter (fun x => x.1 == i)).map (·.2.2)

structure NInv (p : Nat) (E : List Entry) (l1 l2 : List Tok) : Prop where
  good1 : ∀ t ∈ l1, t.Good
  good2 : ∀ t ∈ l2, t.Good
  d1 : depth (starts false E).length l1 = some 0
  d2 : depth (starts true E).length l2 = some 0
  flat : maxNesting (starts false E).length l1 ≤ 1
  ne : ∀ x ∈ sections p (starts true E) l2, x.1 < x.2
  le : ∀ x ∈ E, x.2.2 ≤ p
  cut : ∀ x ∈ sections p (starts false E) l1, ((sections p (starts true E) l2).filter (fun y => decide (Crosses y x))).length ≤ 1
  top : ∀ top n s rest, E = top ++ (false, n, s) :: rest → (∀ x ∈ top, x.1 = true) →
    (∀ i x, top[i]? = some x → s ≤ x.2.2 ∧ x.2.2 < endAt p 0 l1 ∧ (x.2.2 = s → endAt p i l2 < endAt p 0 l1)) ∧
    (s = p → l2.head? ≠ some .close ∧ ∀ m l, l2 = .opn m :: l → endAt p 0 l < endAt p 0 l1)

theorem maxNesting_ge (ts : List Tok) : ∀ d, d ≤ maxNesting d ts := by
  induction ts with
  | nil => intro d; simp [maxNesting]
  | cons t ts ih => intro d; cases t <;> simp [maxNesting, ih]

theorem starts_append (i : Bool) (a b : List Entry) : starts i (a ++ b) = starts i a ++ starts i b := by simp [starts]

theorem starts_top {top : List Entry} (h : ∀ x ∈ top, x.1 = true) : starts false top = [] ∧ starts true top = top.map (·.2.2) := by
  induction top with
  | nil => exact ⟨rfl, rfl⟩
  | cons x top ih =>
    obtain ⟨h1, h2⟩ := ih (fun y hy => h y (.tail _ hy))
    have hx := h x (.head _)
    simp only [starts, List.filter_cons, hx] at h1 h2 ⊢
    exact ⟨by simpa using h1, by simpa using h2⟩

/-- The open blocks, when a block of the flat stream is open. -/
theorem split_false : ∀ {E : List Entry}, (starts false E).length ≠ 0 → ∃ top n s rest, E = top ++ (false, n, s) :: rest ∧ ∀ x ∈ top, x.1 = true := by
  intro E
  induction E with
  | nil => intro h; simp [starts] at h
  | cons x E ih =>
    intro h
    obtain ⟨i, n, s⟩ := x
    cases i with
    | false => exact ⟨[], n, s, E, rfl, by simp⟩
    | true =>
      obtain ⟨top, m, s', rest, e, h1⟩ := ih (by simpa [starts] using h)
      refine ⟨(true, n, s) :: top, m, s', rest, by simp [e], ?_⟩
      intro y hy
      rcases List.mem_cons.mp hy with rfl | hy
      · rfl
      · exact h1 y hy

theorem closeBlock_strip {top : List Entry} {i : Bool} {n : Str} {s : Nat} {rest : List Entry} (h : ∀ x ∈ top, x.1 ≠ i) :
    closeBlock i ((top ++ (i, n, s) :: rest).map strip) = some (top.map (·.2.1), (top ++ rest).map strip) := by
  induction top with
  | nil => simp [closeBlock, strip]
  | cons x top ih =>
    have hx : x.1 ≠ i := h x (.head _)
    have := ih (fun y hy => h y (.tail _ hy))
    simp only [List.cons_append, List.map_cons, closeBlock, strip, if_neg hx] at this ⊢
    rw [this]

theorem top_false {top : List Entry} {y : Entry} {E rest : List Entry} (h : y :: E = top ++ rest) (ht : ∀ x ∈ top, x.1 = true)
    (hy : y.1 = false) : top = [] := by
  cases top with
  | nil => rfl
  | cons x top =>
    simp only [List.cons_append, List.cons.injEq] at h
    have := ht x (.head _)
    rw [← h.1, hy] at this; cases this

theorem starts_mem_false {top rest : List Entry} {n : Str} {s : Nat} (h : ∀ x ∈ top, x.1 = true) :
    starts false (top ++ (false, n, s) :: rest) = s :: starts false rest ∧
    starts true (top ++ (false, n, s) :: rest) = top.map (·.2.2) ++ starts true rest := by
  rw [starts_append, starts_append, (starts_top h).1, (starts_top h).2]
  simp [starts]

theorem ninv_close1 {p E l1 l2} (h : NInv p E (.close :: l1) l2) :
    ∃ top n s rest, E = top ++ (false, n, s) :: rest ∧ (∀ x ∈ top, x.1 = true) ∧ top.length ≤ 1 ∧ NInv p (top ++ rest) l1 l2 := by
  have h0 : (starts false E).length ≠ 0 := by
    intro h0; have := h.d1; rw [h0] at this; simp [depth] at this
  obtain ⟨top, n, s, rest, rfl, ht⟩ := split_false h0
  obtain ⟨e1, e2⟩ := starts_mem_false (n := n) (s := s) (rest := rest) ht
  have e3 : starts false (top ++ rest) = starts false rest := by rw [starts_append, (starts_top ht).1]; rfl
  have e4 : starts true (top ++ rest) = starts true (top ++ (false, n, s) :: rest) := by
    rw [e2, starts_append, (starts_top ht).2]
  have hfl := h.flat
  have hd1 := h.d1
  have hcut := h.cut
  rw [e1] at hfl hd1 hcut
  simp only [sections, List.length_cons, depth, maxNesting] at hfl hd1 hcut
  have hr0 : (starts false rest).length = 0 := by
    omega
  refine ⟨top, n, s, rest, rfl, ht, ?_, ?_⟩
  · have hc := hcut (s, p) (.head _)
    have ho := count_open (fun a => decide (s < a) && decide (a < p)) p l2 p _ le_rfl h.d2
    have hall : ∀ x ∈ top, s < x.2.2 ∧ x.2.2 < p := by
      intro x hx
      obtain ⟨i, hi, rfl⟩ := List.mem_iff_getElem.mp hx
      obtain ⟨a1, a2, a3⟩ := (h.top top n s rest rfl ht).1 i _ (List.getElem?_eq_getElem hi)
      simp only [endAt, if_true] at a2 a3
      refine ⟨lt_of_le_of_ne a1 (fun e => ?_), a2⟩
      have := a3 e.symm
      have := endAt_ge l2 p i
      omega
    rw [e2, List.filter_append, List.length_append, List.filter_eq_self.mpr] at ho
    · rw [List.length_map, ← e2] at ho
      have : ∀ y : Nat × Nat, ((decide (s < y.1) && decide (y.1 < p)) && decide (p ≤ y.2)) = decide (Crosses y (s, p)) := by
        intro y; rw [Bool.eq_iff_iff]; simp only [Bool.and_eq_true, decide_eq_true_eq]; exact and_assoc
      simp only [this] at ho
      omega
    · intro a ha
      obtain ⟨x, hx, rfl⟩ := List.mem_map.mp ha
      have := hall x hx
      simp [this.1, this.2]
  · refine ⟨fun t ht => h.good1 t (.tail _ ht), h.good2, ?_, ?_, ?_, ?_, ?_, ?_, ?_⟩
    · rw [e3]; simpa using hd1
    · rw [e4]; exact h.d2
    · rw [e3]
      simp only [Nat.add_sub_cancel] at hfl
      exact le_trans (le_max_right _ _) hfl
    · rw [e4]; exact h.ne
    · intro x hx
      refine h.le x ?_
      rcases List.mem_append.mp hx with hx | hx <;> simp [hx]
    · rw [e3, e4]
      intro x hx
      exact hcut x (.tail _ hx)
    · intro top' n' s' rest' e ht'
      have := (starts_mem_false (n := n') (s := s') (rest := rest') ht').1
      rw [← e, e3] at this
      rw [this] at hr0; simp at hr0

theorem split_true : ∀ {E : List Entry}, (starts true E).length ≠ 0 → ∃ pre n a rest, E = pre ++ (true, n, a) :: rest ∧ ∀ x ∈ pre, x.1 = false := by
  intro E
  induction E with
  | nil => intro h; simp [starts] at h
  | cons x E ih =>
    intro h
    obtain ⟨i, n, s⟩ := x
    cases i with
    | true => exact ⟨[], n, s, E, rfl, by simp⟩
    | false =>
      obtain ⟨top, m, s', rest, e, h1⟩ := ih (by simpa [starts] using h)
      refine ⟨(false, n, s) :: top, m, s', rest, by simp [e], ?_⟩
      intro y hy
      rcases List.mem_cons.mp hy with rfl | hy
      · rfl
      · exact h1 y hy

theorem starts_pre {pre : List Entry} (h : ∀ x ∈ pre, x.1 = false) : starts true pre = [] ∧ starts false pre = pre.map (·.2.2) := by
  induction pre with
  | nil => exact ⟨rfl, rfl⟩
  | cons x top ih =>
    obtain ⟨h1, h2⟩ := ih (fun y hy => h y (.tail _ hy))
    have hx := h x (.head _)
    simp only [starts, List.filter_cons, hx] at h1 h2 ⊢
    exact ⟨by simpa using h1, by simpa using h2⟩

theorem ninv_close2 {p E l1 l2} (h : NInv p E l1 (.close :: l2)) :
    ∃ pre n a rest, E = pre ++ (true, n, a) :: rest ∧ (∀ x ∈ pre, x.1 = false) ∧ pre.length ≤ 1 ∧ NInv p (pre ++ rest) l1 l2 := by
  have h0 : (starts true E).length ≠ 0 := by
    intro h0; have := h.d2; rw [h0] at this; simp [depth] at this
  obtain ⟨pre, n, a, rest, rfl, hp⟩ := split_true h0
  have e1 : starts true (pre ++ (true, n, a) :: rest) = a :: starts true rest := by
    rw [starts_append, (starts_pre hp).1]; simp [starts]
  have e2 : starts true (pre ++ rest) = starts true rest := by rw [starts_append, (starts_pre hp).1]; rfl
  have e3 : starts false (pre ++ rest) = starts false (pre ++ (true, n, a) :: rest) := by
    rw [starts_append, starts_append]; simp [starts]
  have hle : (starts false (pre ++ (true, n, a) :: rest)).length ≤ 1 := le_trans (maxNesting_ge l1 _) h.flat
  have hpl : pre.length ≤ 1 := by
    rw [starts_append, (starts_pre hp).2] at hle
    simp only [List.length_append, List.length_map] at hle
    omega
  have hd2 := h.d2
  have hne := h.ne
  have hcut := h.cut
  rw [e1] at hd2 hne hcut
  simp only [sections, List.length_cons, depth] at hd2 hne hcut
  refine ⟨pre, n, a, rest, rfl, hp, hpl, h.good1, fun t ht => h.good2 t (.tail _ ht), ?_, ?_, ?_, ?_, ?_, ?_, ?_⟩
  · rw [e3]; exact h.d1
  · rw [e2]; simpa using hd2
  · rw [e3]; exact h.flat
  · rw [e2]; exact fun x hx => hne x (.tail _ hx)
  · intro x hx
    refine h.le x ?_
    rcases List.mem_append.mp hx with hx | hx <;> simp [hx]
  · rw [e3, e2]
    intro x hx
    refine le_trans ?_ (hcut x hx)
    rw [List.filter_cons]
    split <;> simp
  · intro top m s rest' e ht
    cases pre with
    | nil =>
      simp only [List.nil_append] at e
      subst e
      have := h.top ((true, n, a) :: top) m s rest' (by simp) (by simpa using ht)
      refine ⟨fun i x hx => ?_, fun hs => absurd rfl (this.2 hs).1⟩
      have := this.1 (i + 1) x (by simpa using hx)
      simpa [endAt] using this
    | cons y pre =>
      have hy := hp y (.head _)
      have : top = [] := top_false (y := y) (E := pre ++ rest) e ht hy
      subst this
      simp only [List.nil_append, List.cons_append, List.cons.injEq] at e
      have := h.top [] m s (pre ++ (true, n, a) :: rest) (by simp [e.1]) (by simp)
      exact ⟨by simp, fun hs => absurd rfl (this.2 hs).1⟩

theorem ninv_opn1 {p E n l1 l2} (h : NInv p E (.opn n :: l1) l2) (h2 : l2.head? ≠ some .close)
    (hlt : ∀ m l, l2 = .opn m :: l → (blockText l2).length < (blockText (.opn n :: l1)).length) : NInv p ((false, n, p) :: E) l1 l2 := by
  have e1 : starts false ((false, n, p) :: E) = p :: starts false E := by simp [starts]
  have e2 : starts true ((false, n, p) :: E) = starts true E := by simp [starts]
  refine ⟨fun t ht => h.good1 t (.tail _ ht), h.good2, ?_, ?_, ?_, ?_, ?_, ?_, ?_⟩
  · rw [e1]; simpa [depth] using h.d1
  · rw [e2]; exact h.d2
  · rw [e1]
    have := h.flat
    simp only [maxNesting] at this
    exact le_trans (le_max_right _ _) this
  · rw [e2]; exact h.ne
  · intro x hx
    rcases List.mem_cons.mp hx with rfl | hx
    · exact le_rfl
    · exact h.le x hx
  · rw [e1, e2]; exact h.cut
  · intro top m s rest e ht
    have : top = [] := top_false e ht rfl
    subst this
    simp only [List.nil_append, List.cons.injEq, Prod.mk.injEq, true_and] at e
    refine ⟨by simp, fun _ => ⟨h2, fun m l hl => ?_⟩⟩
    have := hlt m l hl
    rw [hl] at this
    rw [blockText_end p m l, blockText_end p n l1]
    omega

theorem ninv_opn2 {p E n l1 l2} (h : NInv p E l1 (.opn n :: l2)) (h1 : l1.head? ≠ some .close) : NInv p ((true, n, p) :: E) l1 l2 := by
  have e1 : starts true ((true, n, p) :: E) = p :: starts true E := by simp [starts]
  have e2 : starts false ((true, n, p) :: E) = starts false E := by simp [starts]
  have hd2 : depth (starts true ((true, n, p) :: E)).length l2 = some 0 := by rw [e1]; simpa [depth] using h.d2
  have hne : ∀ x ∈ sections p (starts true ((true, n, p) :: E)) l2, x.1 < x.2 := by rw [e1]; exact h.ne
  refine ⟨h.good1, fun t ht => h.good2 t (.tail _ ht), ?_, hd2, ?_, hne, ?_, ?_, ?_⟩
  · rw [e2]; exact h.d1
  · rw [e2]; exact h.flat
  · intro x hx
    rcases List.mem_cons.mp hx with rfl | hx
    · exact le_rfl
    · exact h.le x hx
  · rw [e1, e2]; exact h.cut
  · intro top m s rest e ht
    cases top with
    | nil => simp at e
    | cons y top =>
      simp only [List.cons_append, List.cons.injEq] at e
      obtain ⟨rfl, e⟩ := e
      obtain ⟨k1, k2⟩ := h.top top m s rest e (fun x hx => ht x (.tail _ hx))
      have hs : s ≤ p := h.le (false, m, s) (by rw [e]; simp)
      have hE : p < endAt p 0 l1 := by
        have hk : (starts false E).length ≠ 0 := by
          rw [e, (starts_mem_false (fun x hx => ht x (.tail _ hx))).1]; simp
        have hf := h.flat
        have hd := h.d1
        cases l1 with
        | nil => simp [depth] at hd; exact absurd (by simpa using hd) hk
        | cons t l1 =>
          have hg := h.good1 t (.head _)
          cases t with
          | text v =>
            have := endAt_ge l1 (p + v.length) 0
            have : v.length ≠ 0 := by
              intro h0; exact hg.1 (List.length_eq_zero_iff.mp h0)
            simp only [endAt]; omega
          | newline v =>
            have := endAt_ge l1 (p + v) 0
            have : v ≠ 0 := by
              simp only [Tok.Good] at hg; omega
            simp only [endAt]; omega
          | opn v =>
            exfalso
            simp only [maxNesting] at hf
            have := maxNesting_ge l1 ((starts false E).length + 1)
            omega
          | close => simp at h1
      refine ⟨?_, fun hsp => ?_⟩
      · intro i x hx
        cases i with
        | zero =>
          simp only [List.getElem?_cons_zero, Option.some.injEq] at hx
          subst hx
          exact ⟨hs, hE, fun hps => (k2 hps.symm).2 n l2 rfl⟩
        | succ i =>
          exact k1 i x (by simpa using hx)
      · have hlt := (k2 hsp).2 n l2 rfl
        refine ⟨?_, ?_⟩
        · intro hc
          cases l2 with
          | nil => simp at hc
          | cons t l2 =>
            simp only [List.head?_cons, Option.some.injEq] at hc
            subst hc
            rw [e1] at hne
            have := hne (p, p) (by simp [sections])
            simp at this
        · intro m' l hl
          subst hl
          simp only [endAt] at hlt
          exact lt_of_le_of_lt (endAt_mono l p 0) hlt

theorem cut_depth_dropTx (d : Nat) (v w : Str) (l : List Tok) : depth d (dropTx (v.drop w.length) l) = depth d (.text v :: l) := by
  unfold dropTx; split <;> simp [depth]

theorem cut_depth_dropNl (d v w : Nat) (l : List Tok) : depth d (dropNl (v - w) l) = depth d (.newline v :: l) := by
  unfold dropNl; split <;> simp [depth]

theorem cut_maxNesting_dropTx (d : Nat) (v : Str) (l : List Tok) : maxNesting d (dropTx v l) = maxNesting d l := by
  have : maxNesting d (.text v :: l) = maxNesting d l := by
    simp only [maxNesting]
  unfold dropTx; split <;> simp [this]

theorem cut_maxNesting_dropNl (d v : Nat) (l : List Tok) : maxNesting d (dropNl v l) = maxNesting d l := by
  have : maxNesting d (.newline v :: l) = maxNesting d l := by
    simp only [maxNesting]
  unfold dropNl; split <;> simp [this]

/-- Text that both streams share was passed. -/
theorem ninv_plain {p q E l1 l2 k1 k2} (h : NInv p E l1 l2) (hq : p < q)
    (g1 : ∀ t ∈ k1, t.Good) (g2 : ∀ t ∈ k2, t.Good)
    (hd1 : ∀ d, depth d k1 = depth d l1) (hd2 : ∀ d, depth d k2 = depth d l2) (hm : ∀ d, maxNesting d k1 = maxNesting d l1)
    (he1 : ∀ d, endAt q d k1 = endAt p d l1) (he2 : ∀ d, endAt q d k2 = endAt p d l2)
    (hs1 : ∀ st, sections q st k1 = sections p st l1) (hs2 : ∀ st, sections q st k2 = sections p st l2) : NInv q E k1 k2 := by
  refine ⟨g1, g2, ?_, ?_, ?_, ?_, ?_, ?_, ?_⟩
  · rw [hd1]; exact h.d1
  · rw [hd2]; exact h.d2
  · rw [hm]; exact h.flat
  · rw [hs2]; exact h.ne
  · exact fun x hx => le_trans (h.le x hx) (le_of_lt hq)
  · rw [hs1, hs2]; exact h.cut
  · intro top n s rest e ht
    obtain ⟨a1, _⟩ := h.top top n s rest e ht
    refine ⟨fun i x hx => ?_, fun hsq => ?_⟩
    · rw [he1, he2]; exact a1 i x hx
    · have : s ≤ p := h.le (false, n, s) (by rw [e]; simp)
      omega

theorem cut_good_dropTx {v w : Str} {l : List Tok} (h : ∀ t ∈ Tok.text v :: l, t.Good) : ∀ t ∈ dropTx (v.drop w.length) l, t.Good := by
  intro t ht
  unfold dropTx at ht
  split at ht
  · exact h t (.tail _ ht)
  · rename_i hne
    rcases List.mem_cons.mp ht with rfl | ht
    · have hv := h (.text v) (.head _)
      exact ⟨hne, fun hc => hv.2 (List.mem_of_mem_drop hc)⟩
    · exact h t (.tail _ ht)

theorem cut_good_dropNl {v w : Nat} {l : List Tok} (h : ∀ t ∈ Tok.newline v :: l, t.Good) : ∀ t ∈ dropNl (v - w) l, t.Good := by
  intro t ht
  unfold dropNl at ht
  split at ht
  · exact h t (.tail _ ht)
  · rename_i hne
    rcases List.mem_cons.mp ht with rfl | ht
    · simp only [Tok.Good]; omega
    · exact h t (.tail _ ht)

theorem reopens1_nested {s : MState} {ms : List MTok} (hr : RunP s ms) : ∀ p E, NInv p E s.l1 s.l2 → Reopens1 (E.map strip) ms := by
  induction hr with
  | done _ _ => intro p E _; trivial
  | step hs hp _ ih =>
    intro p E h
    cases hs with
    | close1 _ =>
      obtain ⟨top, n, s, rest, rfl, ht, hl, h'⟩ := ninv_close1 h
      simp only [Reopens1]
      rw [closeBlock_strip (fun x hx => by simp [ht x hx])]
      exact ⟨by simpa using hl, ih p _ h'⟩
    | close2 _ =>
      obtain ⟨top, n, s, rest, rfl, ht, hl, h'⟩ := ninv_close2 h
      simp only [Reopens1]
      rw [closeBlock_strip (fun x hx => by simp [ht x hx])]
      exact ⟨by simpa using hl, ih p _ h'⟩
    | opn1 =>
      simp only [Reopens1]
      exact ih p _ (ninv_opn1 h hp.2.1 (hp.2.2 rfl))
    | opn2 =>
      simp only [Reopens1]
      exact ih p _ (ninv_opn2 h hp.1)
    | @nl v1 v2 l1 l2 =>
      simp only [Reopens1]
      have g1 := h.good1 (.newline v1) (.head _)
      have g2 := h.good2 (.newline v2) (.head _)
      simp only [Tok.Good] at g1 g2
      refine ih (p + min v1 v2) E (ninv_plain h (by omega) (cut_good_dropNl h.good1) (cut_good_dropNl h.good2) ?_ ?_ ?_ ?_ ?_ ?_ ?_)
      · exact fun d => cut_depth_dropNl d v1 v2 l1
      · exact fun d => cut_depth_dropNl d v2 v1 l2
      · exact fun d => (cut_maxNesting_dropNl d (v1 - v2) l1).trans (by simp only [maxNesting])
      · exact fun d => endAt_dropNl p d v1 v2 l1
      · intro d; rw [Nat.min_comm]; exact endAt_dropNl p d v2 v1 l2
      · exact fun d => sections_dropNl p d v1 v2 l1
      · intro d; rw [Nat.min_comm]; exact sections_dropNl p d v2 v1 l2
    | @tx v1 v2 l1 l2 =>
      simp only [Reopens1]
      have g1 := h.good1 (.text v1) (.head _)
      have g2 := h.good2 (.text v2) (.head _)
      have n1 := List.length_pos_iff.mpr g1.1
      have n2 := List.length_pos_iff.mpr g2.1
      refine ih (p + min v1.length v2.length) E (ninv_plain h (by omega) (cut_good_dropTx h.good1) (cut_good_dropTx h.good2) ?_ ?_ ?_ ?_ ?_ ?_ ?_)
      · exact fun d => cut_depth_dropTx d v1 v2 l1
      · exact fun d => cut_depth_dropTx d v2 v1 l2
      · exact fun d => (cut_maxNesting_dropTx d (v1.drop v2.length) l1).trans (by simp only [maxNesting])
      · exact fun d => endAt_dropTx p d v1 v2 l1
      · intro d; rw [Nat.min_comm]; exact endAt_dropTx p d v2 v1 l2
      · exact fun d => sections_dropTx p d v1 v2 l1
      · intro d; rw [Nat.min_comm]; exact sections_dropTx p d v2 v1 l2

end Verif.Text
