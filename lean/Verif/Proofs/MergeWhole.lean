import Verif.Spec.CodeSections
import Verif.Proofs.CodeStyles
import Verif.Proofs.MergeNested

/-! Merging two streams without nested styles of which none cuts a style of the other that began inside it. -/

namespace Verif.Text
open Spec

/-- How many characters there are up to the end of the section. -/
def restOf : List Tok → Nat
  | .text s :: ts => s.length + restOf ts
  | .newline n :: ts => n + restOf ts
  | _ => 0

/-- Where the sections of a text without nested sections begin and end. -/
def extents (pos : Nat) : List Tok → List (Nat × Nat)
  | [] => []
  | .text s :: ts => extents (pos + s.length) ts
  | .newline n :: ts => extents (pos + n) ts
  | .opn _ :: ts => (pos, pos + restOf ts) :: extents pos ts
  | .close :: ts => extents pos ts

/-- No section in a section, every section has an end, and no empty texts (`inside`: in a section). -/
def SimpleMarkup : (inside : Bool) → List Tok → Prop
  | inside, [] => inside = false
  | inside, .text s :: ts => s ≠ [] ∧ SimpleMarkup inside ts
  | inside, .newline n :: ts => n ≠ 0 ∧ SimpleMarkup inside ts
  | inside, .opn _ :: ts => inside = false ∧ SimpleMarkup true ts
  | inside, .close :: ts => inside = true ∧ SimpleMarkup false ts

theorem rest_dropTx (v : Str) (l : List Tok) : restOf (dropTx v l) = v.length + restOf l := by
  unfold dropTx; split
  · rename_i h; simp [h]
  · rfl

theorem rest_dropNl (v : Nat) (l : List Tok) : restOf (dropNl v l) = v + restOf l := by
  unfold dropNl; split
  · rename_i h; simp [h]
  · rfl

theorem simple_dropTx (b : Bool) (v : Str) (l : List Tok) : SimpleMarkup b (dropTx v l) ↔ SimpleMarkup b l := by
  unfold dropTx; split
  · rfl
  · rename_i h; simp [SimpleMarkup, h]

theorem simple_dropNl (b : Bool) (v : Nat) (l : List Tok) : SimpleMarkup b (dropNl v l) ↔ SimpleMarkup b l := by
  unfold dropNl; split
  · rfl
  · rename_i h; simp [SimpleMarkup, h]

theorem extents_dropTx (v : Str) (l : List Tok) (pos : Nat) : extents pos (dropTx v l) = extents (pos + v.length) l := by
  unfold dropTx; split
  · rename_i h; simp [h]
  · rfl

theorem extents_dropNl (v : Nat) (l : List Tok) (pos : Nat) : extents pos (dropNl v l) = extents (pos + v) l := by
  unfold dropNl; split
  · rename_i h; simp [h]
  · rfl

theorem rest_zero {l : List Tok} (h : SimpleMarkup true l) (h0 : restOf l = 0) : l.head? = some .close := by
  match l, h with
  | .text s :: ts, h =>
    have := List.length_pos_of_ne_nil h.1
    simp only [restOf] at h0; omega
  | .newline n :: ts, h =>
    have := h.1
    simp only [restOf] at h0; omega
  | .close :: ts, _ => rfl

theorem simple_of (ts : List Tok) : ∀ b : Bool, depth (if b then 1 else 0) ts = some 0 → maxNesting (if b then 1 else 0) ts ≤ 1 → Clean ts → SimpleMarkup b ts := by
  induction ts with
  | nil => intro b h _ _; cases b <;> simp_all [SimpleMarkup]
  | cons t ts ih =>
    intro b h hn hc
    have hc' : Clean ts := ⟨fun r hr => hc.1 r (List.mem_cons_of_mem _ hr), fun r hr => hc.2 r (List.mem_cons_of_mem _ hr)⟩
    cases t with
    | text s => exact ⟨(hc.1 s (List.mem_cons_self ..)).1, ih b (by simpa using h) (by simpa [maxNesting] using hn) hc'⟩
    | newline n =>
      have := hc.2 n (List.mem_cons_self ..)
      exact ⟨by omega, ih b (by simpa using h) (by simpa [maxNesting] using hn) hc'⟩
    | opn n =>
      cases b with
      | false => exact ⟨rfl, ih true (by simpa using h) (by simpa [maxNesting] using hn) hc'⟩
      | true =>
        have := maxNesting_ge ts 2
        have h2 : max 1 (maxNesting 2 ts) ≤ 1 := hn
        omega
    | close =>
      cases b with
      | false => simp at h
      | true => exact ⟨rfl, ih false (by simpa using h) (by simpa [maxNesting] using hn) hc'⟩

theorem extents_eq (ts : List Tok) : ∀ pos, (SimpleMarkup false ts → extents pos ts = sections pos [] ts) ∧
    ∀ a, SimpleMarkup true ts → sections pos [a] ts = (a, pos + restOf ts) :: extents pos ts := by
  induction ts with
  | nil => intro pos; exact ⟨fun _ => rfl, fun a h => absurd h (by simp [SimpleMarkup])⟩
  | cons t ts ih =>
    intro pos
    cases t with
    | text s =>
      refine ⟨fun h => by simpa [extents, sections] using (ih _).1 h.2, fun a h => ?_⟩
      simp only [extents, sections, restOf, (ih _).2 a h.2, Nat.add_assoc]
    | newline n =>
      refine ⟨fun h => by simpa [extents, sections] using (ih _).1 h.2, fun a h => ?_⟩
      simp only [extents, sections, restOf, (ih _).2 a h.2, Nat.add_assoc]
    | opn n =>
      refine ⟨fun h => ?_, fun a h => absurd h.1 (by decide)⟩
      simp only [extents, sections, (ih _).2 pos h.2]
    | close =>
      refine ⟨fun h => absurd h.1 (by decide), fun a h => ?_⟩
      simp only [extents, sections, restOf, (ih pos).1 h.2, Nat.add_zero]

theorem block_end (r : List Tok) (h : SimpleMarkup true r) : ∃ k, blockEnd 0 r = some k ∧ (plainText (r.take k)).length = restOf r := by
  induction r with
  | nil => exact absurd h (by simp [SimpleMarkup])
  | cons t r ih =>
    cases t with
    | text s =>
      obtain ⟨k, h1, h2⟩ := ih h.2
      refine ⟨k + 1, by simp [blockEnd, h1], ?_⟩
      simp only [plainText, restOf] at h2 ⊢
      rw [List.take_succ_cons, List.map_cons, List.flatten_cons, List.length_append, h2]
    | newline n =>
      obtain ⟨k, h1, h2⟩ := ih h.2
      refine ⟨k + 1, by simp [blockEnd, h1], ?_⟩
      simp only [plainText, restOf] at h2 ⊢
      rw [List.take_succ_cons, List.map_cons, List.flatten_cons, List.length_append, h2, List.length_replicate]
    | close => exact ⟨0, by simp [blockEnd], by simp [plainText, restOf]⟩
    | opn n => exact absurd h (by simp [SimpleMarkup])

theorem block_length (n : Str) (r : List Tok) (h : SimpleMarkup true r) : (blockText (.opn n :: r)).length = restOf r := by
  obtain ⟨k, h1, h2⟩ := block_end r h
  simp only [blockText, h1]
  simp only [plainText] at h2 ⊢
  simpa using h2

/-- What a step says about the state before it. -/
structure Chosen (s : MState) (m : MTok) (s' : MState) : Prop where
  step : Step s m s'
  index : s.i1 ≤ s'.i1
  close1 : m = .block false .close → s.l2.head? = some .close → listGt s.s1 s.s2 = true
  open1 : ∀ n, m = .block false (.opn n) → s.l2.head? ≠ some .close ∧
    ∀ k r, s.l2 = .opn k :: r → (blockText s.l1).length > (blockText s.l2).length
  open2 : ∀ n, m = .block true (.opn n) → s.l1.head? ≠ some .close

theorem chosen {s s' : MState} {m : MTok} (h : mergeStep s = .ok (some (m, s'))) : Chosen s m s' := by
  have hst : Step s m s' := by
    rcases mergeStep_cases s with ⟨-, -, e⟩ | ⟨t, s1, e, hs⟩ | ⟨⟨e, he⟩, -⟩
    · rw [h] at e; cases e
    · rw [h] at e; cases e; exact hs
    · rw [h] at he; cases he
  obtain ⟨l1, l2, i1, i2, s1, s2⟩ := s
  refine ⟨hst, ?_, ?_, ?_, ?_⟩
  · simp only [mergeStep] at h
    repeat' split at h
    all_goals first
      | (cases h; done)
      | (injection h with h; injection h with h; injection h with h1 h2; subst h2; simp)
  · intro hm hc
    subst hm
    obtain ⟨r, rfl⟩ : ∃ r, l2 = .close :: r := by
      match l2, hc with
      | .close :: r, _ => exact ⟨r, rfl⟩
    cases hst with
    | close1 hs =>
      simp only [mergeStep] at h
      by_cases hg : listGt s1 s2 = true
      · exact hg
      · simp [hg] at h
        split at h <;> simp at h
  · intro n hm
    subst hm
    cases hst with
    | opn1 =>
      constructor
      · intro hc
        obtain ⟨r, rfl⟩ : ∃ r, l2 = .close :: r := by
          match l2, hc with
          | .close :: r, _ => exact ⟨r, rfl⟩
        simp only [mergeStep] at h
        split at h <;> simp at h
      · intro k r hk
        simp only at hk
        subst hk
        simp only [mergeStep] at h
        split at h
        · assumption
        · simp at h
  · intro n hm hc
    subst hm
    cases hst with
    | opn2 =>
      obtain ⟨r, rfl⟩ : ∃ r, l1 = .close :: r := by
        match l1, hc with
        | .close :: r, _ => exact ⟨r, rfl⟩
      simp only [mergeStep] at h
      split at h <;> simp at h

/-- No block of the first stream is closed while a block of the second one is inside it. -/
def Nest : List Bool → List MTok → Prop
  | _, [] => True
  | st, .plain _ :: ms => Nest st ms
  | st, .block i (.opn _) :: ms => Nest (i :: st) ms
  | st, .block false .close :: ms => st.head? = some false ∧ Nest st.tail ms
  | st, .block true .close :: ms => Nest (st.erase true) ms
  | _, .block _ _ :: _ => True

theorem closeBlock_erase {opened : List (Bool × Str)} {reopen opened'} (h : closeBlock true opened = some (reopen, opened')) :
    opened'.map (·.1) = (opened.map (·.1)).erase true ∧ ∀ n ∈ reopen, (false, n) ∈ opened := by
  induction opened generalizing reopen opened' with
  | nil => simp [closeBlock] at h
  | cons a rest ih =>
    obtain ⟨i, name⟩ := a
    simp only [closeBlock] at h
    split at h
    · rename_i hi; subst hi; cases h; simp
    · rename_i hi
      have : i = false := by simpa using hi
      subst this
      split at h
      · cases h
      · rename_i re op hc
        cases h
        obtain ⟨h1, h2⟩ := ih hc
        constructor
        · simp [h1]
        · intro n hn
          rcases List.mem_cons.mp hn with rfl | hn
          · simp
          · exact List.mem_cons_of_mem _ (h2 n hn)

/-- The state of the loop: `st` are the open blocks, `pos` characters are done. -/
inductive Whole (S1 : List (Nat × Nat)) : List Bool → Nat → MState → Prop where
  | none {pos l1 l2 i1 i2} : SimpleMarkup false l1 → SimpleMarkup false l2 → Whole S1 [] pos ⟨l1, l2, i1, i2, [], []⟩
  | user {pos l1 l2 i1 i2 b} : SimpleMarkup false l1 → SimpleMarkup true l2 → Whole S1 [true] pos ⟨l1, l2, i1, i2, [], [b]⟩
  | token {pos l1 l2 i1 i2 a} (c : Nat) : SimpleMarkup true l1 → SimpleMarkup false l2 → a < i1 → (c, pos + restOf l1) ∈ S1 → c ≤ pos →
      (∀ n r, l2 = .opn n :: r → c < pos ∨ restOf r ≤ restOf l1 ∨ restOf l1 = 0) → Whole S1 [false] pos ⟨l1, l2, i1, i2, [a], []⟩
  | inner {pos l1 l2 i1 i2 a b} (c : Nat) : SimpleMarkup true l1 → SimpleMarkup true l2 → a < i1 → a < b → (c, pos + restOf l1) ∈ S1 → c ≤ pos →
      (c < pos ∨ 0 < restOf l2) → restOf l2 ≤ restOf l1 → Whole S1 [true, false] pos ⟨l1, l2, i1, i2, [a], [b]⟩
  | outer {pos l1 l2 i1 i2 a b} (c : Nat) : SimpleMarkup true l1 → SimpleMarkup true l2 → a < i1 → (c, pos + restOf l1) ∈ S1 → c ≤ pos →
      (c < pos ∨ 0 < restOf l2) → Whole S1 [false, true] pos ⟨l1, l2, i1, i2, [a], [b]⟩

/-- After some characters of both streams. -/
theorem whole_plain {S1 : List (Nat × Nat)} {st : List Bool} {pos k : Nat} {l1 l2 m1 m2 : List Tok} {i1 i2 j1 j2 : Nat} {s1 s2 : List Nat}
    (h : Whole S1 st pos ⟨l1, l2, i1, i2, s1, s2⟩) (hk : 0 < k) (hj : i1 ≤ j1) (f1 : ∀ b, SimpleMarkup b l1 → SimpleMarkup b m1)
    (f2 : ∀ b, SimpleMarkup b l2 → SimpleMarkup b m2) (r1 : restOf l1 = k + restOf m1) (r2 : restOf l2 = k + restOf m2) :
    Whole S1 st (pos + k) ⟨m1, m2, j1, j2, s1, s2⟩ := by
  cases h with
  | none a b => exact .none (f1 _ a) (f2 _ b)
  | user a b => exact .user (f1 _ a) (f2 _ b)
  | token c a b h1 h2 h3 h4 =>
    refine .token c (f1 _ a) (f2 _ b) (by omega) ?_ (by omega) (fun _ _ _ => .inl (by omega))
    rw [Nat.add_assoc, ← r1]; exact h2
  | inner c a b h1 h2 h3 h4 h5 h6 =>
    refine .inner c (f1 _ a) (f2 _ b) (by omega) h2 ?_ (by omega) (.inl (by omega)) (by omega)
    rw [Nat.add_assoc, ← r1]; exact h3
  | outer c a b h1 h2 h3 h4 =>
    refine .outer c (f1 _ a) (f2 _ b) (by omega) ?_ (by omega) (.inl (by omega))
    rw [Nat.add_assoc, ← r1]; exact h2

theorem whole_loop (S1 S2 : List (Nat × Nat)) (hne : ∀ y ∈ S2, y.1 < y.2) (hcut : NoCut S1 S2) : ∀ (fuel : Nat) (st : List Bool) (pos : Nat) (s : MState)
    (ms : List MTok), Whole S1 st pos s → extents pos s.l1 ⊆ S1 → extents pos s.l2 ⊆ S2 → mergeLoop fuel s = .ok ms → Nest st ms := by
  intro fuel
  induction fuel with
  | zero => intro st pos s ms _ _ _ h; simp [mergeLoop] at h
  | succ fuel ih =>
    intro st pos s ms hw e1 e2 h
    simp only [mergeLoop] at h
    split at h
    · cases h
    · injection h with h; subst h; exact trivial
    · rename_i m s' hm
      split at h
      · rename_i ms' hms
        injection h with h; subst h
        obtain ⟨hst, hix, hc1, ho1, ho2⟩ := chosen hm
        cases hst with
        | @nl v1 v2 l1 l2 i1 i2 s1 s2 i1' i2' =>
          simp only [extents] at e1 e2
          have hv : v1 ≠ 0 ∧ v2 ≠ 0 := by cases hw <;> simp_all [SimpleMarkup]
          refine ih st (pos + min v1 v2) _ ms' ?_ ?_ ?_ hms
          · refine whole_plain hw (by omega) hix (fun b hb => (simple_dropNl _ _ _).mpr hb.2) (fun b hb => (simple_dropNl _ _ _).mpr hb.2) ?_ ?_
            · rw [rest_dropNl]; simp only [restOf]; omega
            · rw [rest_dropNl]; simp only [restOf]; omega
          · rw [extents_dropNl, show pos + min v1 v2 + (v1 - v2) = pos + v1 by omega]; exact e1
          · rw [extents_dropNl, show pos + min v1 v2 + (v2 - v1) = pos + v2 by omega]; exact e2
        | @tx v1 v2 l1 l2 i1 i2 s1 s2 i1' i2' =>
          simp only [extents] at e1 e2
          have hv : v1 ≠ [] ∧ v2 ≠ [] := by cases hw <;> simp_all [SimpleMarkup]
          have hv1 := List.length_pos_of_ne_nil hv.1
          have hv2 := List.length_pos_of_ne_nil hv.2
          refine ih st (pos + min v1.length v2.length) _ ms' ?_ ?_ ?_ hms
          · refine whole_plain hw (by omega) hix (fun b hb => (simple_dropTx _ _ _).mpr hb.2) (fun b hb => (simple_dropTx _ _ _).mpr hb.2) ?_ ?_
            · rw [rest_dropTx, List.length_drop]; simp only [restOf]; omega
            · rw [rest_dropTx, List.length_drop]; simp only [restOf]; omega
          · rw [extents_dropTx, List.length_drop, show pos + min v1.length v2.length + (v1.length - v2.length) = pos + v1.length by omega]; exact e1
          · rw [extents_dropTx, List.length_drop, show pos + min v1.length v2.length + (v2.length - v1.length) = pos + v2.length by omega]; exact e2
        | @close1 l1 l2 i1 i2 s1 s2 hs =>
          simp only [Nest]
          cases hw with
          | none a b => exact absurd rfl hs
          | user a b => exact absurd rfl hs
          | token c a b h1 h2 h3 h4 => exact ⟨rfl, ih [] pos _ ms' (.none a.2 b) e1 e2 hms⟩
          | inner c a b h1 h2 h3 h4 h5 h6 =>
            exfalso
            simp only [restOf] at h6
            have := hc1 rfl (rest_zero b (Nat.le_zero.mp h6))
            simp only [listGt] at this
            split at this
            · omega
            · simp at this; omega
          | outer c a b h1 h2 h3 h4 => exact ⟨rfl, ih [true] pos _ ms' (.user a.2 b) e1 e2 hms⟩
        | @close2 l1 l2 i1 i2 s1 s2 hs =>
          simp only [Nest]
          cases hw with
          | none a b => exact absurd rfl hs
          | user a b => exact ih [] pos _ ms' (.none a b.2) e1 e2 hms
          | token c a b h1 h2 h3 h4 => exact absurd rfl hs
          | inner c a b h1 h2 h3 h4 h5 h6 =>
            refine ih [false] pos _ ms' (.token c a b.2 h1 h3 h4 ?_) e1 e2 hms
            intro n r _
            simp only [restOf] at h5
            exact .inl (by omega)
          | outer c a b h1 h2 h3 h4 =>
            refine ih [false] pos _ ms' (.token c a b.2 h1 h2 h3 ?_) e1 e2 hms
            intro n r _
            simp only [restOf] at h4
            exact .inl (by omega)
        | @opn1 n l1 l2 i1 i2 s1 s2 =>
          simp only [Nest]
          simp only [extents, List.cons_subset] at e1
          obtain ⟨hnc, hlen⟩ := ho1 n rfl
          cases hw with
          | none a b =>
            refine ih [false] pos _ ms' (.token pos a.2 b (by omega) e1.1 le_rfl ?_) e1.2 e2 hms
            intro k r hk
            subst hk
            have := hlen k r rfl
            simp only [block_length _ _ a.2, block_length _ _ b.2] at this
            exact .inr (.inl (by omega))
          | user a b =>
            refine ih [false, true] pos _ ms' (.outer pos a.2 b (by omega) e1.1 le_rfl ?_) e1.2 e2 hms
            right
            rcases Nat.eq_zero_or_pos (restOf l2) with h0 | h0
            · exact absurd (rest_zero b h0) hnc
            · exact h0
          | token c a b h1 h2 h3 h4 => exact absurd a.1 (by decide)
          | inner c a b h1 h2 h3 h4 h5 h6 => exact absurd a.1 (by decide)
          | outer c a b h1 h2 h3 h4 => exact absurd a.1 (by decide)
        | @opn2 n l1 l2 i1 i2 s1 s2 =>
          simp only [Nest]
          simp only [extents, List.cons_subset] at e2
          have hnc := ho2 n rfl
          cases hw with
          | none a b => exact ih [true] pos _ ms' (.user a b.2) e1 e2.2 hms
          | user a b => exact absurd b.1 (by decide)
          | token c a b h1 h2 h3 h4 =>
            have hpos : restOf l1 ≠ 0 := fun h0 => hnc (rest_zero a h0)
            have hn := hne _ e2.1
            simp only at hn
            refine ih [true, false] pos _ ms' (.inner c a b.2 h1 h1 h2 h3 (.inr (by omega)) ?_) e1 e2.2 hms
            rcases h4 n _ rfl with hc | hc | hc
            · have := hcut _ h2 _ e2.1 hc (by simp only; omega)
              simp only at this
              omega
            · exact hc
            · exact absurd hc hpos
          | inner c a b h1 h2 h3 h4 h5 h6 => exact absurd b.1 (by decide)
          | outer c a b h1 h2 h3 h4 => exact absurd b.1 (by decide)
      · cases h

end Verif.Text
