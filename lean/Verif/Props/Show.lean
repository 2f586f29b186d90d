import Verif.Proofs.Show
import Mathlib.Data.List.Dedup

/-! # Properties C19, C20: `show` selectors -/

namespace Verif.Show
open Spec

theorem visible_iff (steps : List Int) (o : Option Int) (m : Option Int) (s : Int) :
    (newInfo (some steps) o m).isVisible s = true ↔ s ∈ steps ∨ ∃ v, o = some v ∧ v ≤ s := by
  unfold ShowInfo.isVisible newInfo
  cases o <;> simp

/-- Parsing a legal selector. -/
theorem parse_legal (cur : Option Int) (s : Str) (is : List Item) (hw : Writes isSpace s is)
    (hl : Legal cur is) :
    ∃ (steps : List Int) (o : Option Int), parse (.str s) cur = .ok (newInfo (some ((steps.dedup).insertionSort (· ≤ ·))) o none) ∧
      (∀ n, n ∈ steps ↔ ∃ i ∈ is, i.isOpen = false ∧ i.Selects cur n) ∧
      (∀ v, o = some v ↔ ∃ b, Item.opn b ∈ is ∧ b.value cur = some v) := by
  obtain ⟨steps, o, h1, h2, h3⟩ := parseLoop_ok cur is [] none hl.valid hl.meaningful (by simpa using hl.oneOpen)
  refine ⟨steps, o, ?_, by simpa using h2, by simpa using h3⟩
  simp [parse, writes_split hw hl.valid, h1]

/-- **C19.** A legal selector is accepted, and the box is visible in exactly the fragments some item
selects. -/
theorem C19_selector_meaning (cur : Option Int) (s : Str) (is : List Item) (hw : Writes isSpace s is)
    (hl : Legal cur is) :
    ∃ info, parse (.str s) cur = .ok info ∧
      ∀ n, info.isVisible n = true ↔ ∃ i ∈ is, i.Selects cur n := by
  obtain ⟨steps, o, h1, h2, h3⟩ := parse_legal cur s is hw hl
  refine ⟨_, h1, fun n => ?_⟩
  rw [visible_iff]
  rw [List.mem_insertionSort, List.mem_dedup, h2]
  simp only [h3]
  constructor
  · rintro (⟨i, hi, _, hs⟩ | ⟨v, ⟨b, hb, hv⟩, hle⟩)
    · exact ⟨i, hi, hs⟩
    · exact ⟨_, hb, v, hv, hle⟩
  · rintro ⟨i, hi, hs⟩
    cases i with
    | single b => exact .inl ⟨_, hi, rfl, hs⟩
    | range b ds => exact .inl ⟨_, hi, rfl, hs⟩
    | opn b =>
      obtain ⟨v, hv, hle⟩ := hs
      exact .inr ⟨v, ⟨b, hi, hv⟩, hle⟩

/-- **C19**, no selector: visible from fragment 1 on; a number: visible in that fragment only. -/
theorem C19_default_and_number (cur : Option Int) (k : Int) :
    (∃ info, parse .none cur = .ok info ∧ ∀ n, info.isVisible n = true ↔ 1 ≤ n) ∧
    (∃ info, parse (.int k) cur = .ok info ∧ ∀ n, info.isVisible n = true ↔ n = k) := by
  refine ⟨⟨_, rfl, fun n => ?_⟩, ⟨_, rfl, fun n => ?_⟩⟩
  · simp [ShowInfo.isVisible, newInfo]
  · rw [visible_iff]; simp

/-- A selector with every kind of item, whitespace, and a current fragment. -/
example : Writes isSpace " 2-4,last,\tnext+ ".toList [.range (.num ['2']) ['4'], .single .last, .opn .next] ∧
    Legal (some 6) [.range (.num ['2']) ['4'], .single .last, .opn .next] := by
  constructor
  · exact .cons [' '] [] (.range (.num ['2']) ['4']) _ _ (by decide)
      (.cons [] [] (.single .last) _ _ (by decide) (.one ['\t'] [' '] (.opn .next) (by decide)))
  · refine ⟨?_, ?_, by decide⟩
    · intro i hi
      simp only [List.mem_cons, List.not_mem_nil, or_false] at hi
      rcases hi with rfl | rfl | rfl
      · exact ⟨⟨by decide, by decide⟩, by decide, by decide⟩
      · trivial
      · trivial
    · intro i hi
      simp only [List.mem_cons, List.not_mem_nil, or_false] at hi
      rcases hi with rfl | rfl | rfl
      · exact ⟨2, by decide, by decide⟩
      · exact ⟨6, by decide⟩
      · exact ⟨7, by decide⟩

example : parse (.str " 2-4,last,\tnext+ ".toList) (some 6) = .ok ⟨[2, 3, 4, 6], some 7, 7⟩ := by
  decide +kernel

/-- **C20.** Only legal selectors are accepted: everything else raises. -/
theorem C20_only_legal_selectors (cur : Option Int) (s : Str) :
    (∃ info, parse (.str s) cur = .ok info) ↔ ∃ is, Writes isSpace s is ∧ Legal cur is := by
  constructor
  · rintro ⟨info, h⟩
    simp only [parse] at h
    split at h
    · cases h
    · rename_i steps o hp
      obtain ⟨is, h1, h2, h3, h4⟩ := parseLoop_inv cur _ _ _ _ hp
      exact ⟨is, writes_of_split is s h1, h2, h3, by simpa using h4⟩
  · rintro ⟨is, hw, hl⟩
    obtain ⟨info, h, _⟩ := C19_selector_meaning cur s is hw hl
    exact ⟨info, h⟩

/-- The reading of a selector is unambiguous, so **C19** determines the meaning of every accepted
string. -/
theorem C20_unambiguous (s : Str) (is js : List Item) (h1 : Writes isSpace s is) (h2 : Writes isSpace s js)
    (v1 : ∀ i ∈ is, i.Valid) (v2 : ∀ i ∈ js, i.Valid) : is = js := by
  have e := (writes_split h1 v1).symm.trans (writes_split h2 v2)
  have hg : ∀ (i j : Item), i.Valid → j.Valid → i.source = j.source → i = j := by
    intro i j hi hj he
    have e2 := (matchItem_source i hi).symm.trans (he ▸ matchItem_source j hj)
    injection e2 with e2
    have hb : ∀ (a b : Bound), a.Valid → b.Valid → a.source = b.source → a = b := by
      intro a b ha hb hab
      have hd : ∀ ds : Str, Numeral ds → ds ≠ "next".toList ∧ ds ≠ "last".toList := by
        intro ds hds
        constructor
        · rintro rfl; have := hds.2 'n' (by decide); revert this; decide
        · rintro rfl; have := hds.2 'l' (by decide); revert this; decide
      cases a <;> cases b <;> simp only [Bound.source] at hab
      · rw [hab]
      · exact absurd hab (hd _ ha).1
      · exact absurd hab (hd _ ha).2
      · exact absurd hab.symm (hd _ hb).1
      · rfl
      · exact absurd hab (by decide)
      · exact absurd hab.symm (hd _ hb).2
      · exact absurd hab (by decide)
      · rfl
    cases i <;> cases j <;> simp only [groups, Groups.mk.injEq, reduceCtorEq, Bool.false_eq_true,
      Bool.true_eq_false, false_and, and_false, and_true, Option.some.injEq] at e2
    · rw [hb _ _ hi hj e2]
    · rw [hb _ _ hi hj e2]
    · rw [hb _ _ hi.1 hj.1 e2.1, e2.2.2]
  clear h1 h2
  induction is generalizing js with
  | nil => cases js <;> simp_all
  | cons i is ih =>
    cases js with
    | nil => simp at e
    | cons j js =>
      simp only [List.map_cons, List.cons.injEq] at e
      rw [hg i j (v1 i (by simp)) (v2 j (by simp)) e.1,
        ih js (fun k hk => v1 k (by simp [hk])) (fun k hk => v2 k (by simp [hk])) e.2]

example : parse (.str "3-2".toList) (some 1) = .error .assertion ∧
    parse (.str "1+,2+".toList) (some 1) = .error (.user "Multiple open steps") ∧
    parse (.str "".toList) (some 1) = .error (.user "Invalid format of 'show' string") := by
  decide +kernel

end Verif.Show
