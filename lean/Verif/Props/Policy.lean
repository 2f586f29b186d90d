import Verif.Props.Deck

/-! # Properties C48 (which calls succeed) and C98 (the documented name policies) -/

namespace Verif.Deck
open Spec

theorem getByName_fresh {n : Str} {l : List Entry} (hp : ∀ u f, Entry.pdf u f ∉ l) (hn : n ∉ names l) : getByName n l = .ok none := by
  induction l with
  | nil => rfl
  | cons e l ih =>
    cases e with
    | pdf u f => exact absurd (by simp) (hp u f)
    | slide u i m =>
      have h1 : m ≠ .str n := by rintro rfl; exact hn (by simp [names, nameOf])
      rw [getByName, if_neg h1]
      exact ih (fun u f h => hp u f (by simp [h])) (fun h => hn (by cases m <;> simp_all [names, nameOf]))

theorem getByName_used {n : Str} {l : List Entry} (hp : ∀ u f, Entry.pdf u f ∉ l) (hn : n ∈ names l) : ∃ u, getByName n l = .ok (some u) := by
  induction l with
  | nil => cases hn
  | cons e l ih =>
    cases e with
    | pdf u f => exact absurd (by simp) (hp u f)
    | slide u i m =>
      by_cases h1 : m = .str n
      · exact ⟨u, by rw [getByName, if_pos h1]⟩
      · rw [getByName, if_neg h1]
        refine ih (fun u f h => hp u f (by simp [h])) ?_
        cases m with
        | str k =>
          have hk : n ≠ k := by rintro rfl; exact h1 rfl
          simpa [names, nameOf, hk] using hn
        | none => simpa [names, nameOf] using hn
        | other => simpa [names, nameOf] using hn

/-- **C48 (which calls succeed).** In a deck without PDFs a slide is created under `ignore` always, under `unique` if it has no name or
a new one, under `replace` if it has a name. -/
theorem C48_accepted (policy : Policy) (cs : List Call) (name : Name) (hp : ∀ u f, Entry.pdf u f ∉ (history policy cs).slides) :
    (exec (history policy cs) (.newSlide name true)).2 = none ↔
      policy = .ignore ∨ (policy = .unique ∧ (name = .none ∨ ∃ n, name = .str n ∧ n ∉ names (history policy cs).slides)) ∨
        (policy = .replace ∧ ∃ n, name = .str n) := by
  obtain ⟨-, hpol⟩ := history_inv policy cs
  generalize history policy cs = d at *
  subst hpol
  have hx : (exec d (.newSlide name true)).2 = none ↔ ∃ l, applyNamePolicy d name = .ok l := by
    unfold exec
    simp only [Bool.not_true, Bool.false_eq_true, if_false]
    cases applyNamePolicy d name with
    | error e => simp
    | ok l => simp
  rw [hx]
  unfold applyNamePolicy
  cases name with
  | none => cases hd : d.policy <;> simp
  | other => cases hd : d.policy <;> simp
  | str n =>
    by_cases hn : n ∈ names d.slides
    · obtain ⟨u, hu⟩ := getByName_used hp hn
      cases hd : d.policy <;> simp [hu, hn]
    · have hu := getByName_fresh hp hn
      cases hd : d.policy <;> simp [hu, hn]

example : (exec (history .replace [.newSlide (.str ['a']) true]) (.newSlide (.str ['a']) true)).2 = none ∧
    (exec (history .replace [.newSlide (.str ['a']) true]) (.newSlide .none true)).2 ≠ none := by decide +kernel

/-- The policies as documented in `SlideDeck.__init__`: `"auto"` is `"replace"` inside Jupyter and `"unique"` otherwise. -/
def documented (s : String) (jupyter : Bool) : Option Policy :=
  match s with
  | "unique" => some .unique
  | "replace" => some .replace
  | "ignore" => some .ignore
  | "auto" => some (if jupyter then .replace else .unique)
  | _ => none

/-- **C98 is false of the code**: without `name_policy` and outside Jupyter, a second slide of the same name is created, although
`"auto"` is documented as `"unique"`. -/
theorem C98_policy_false : (¬ ∀ (s : String) (jupyter : Bool) (p : Policy), resolvePolicy s.toList jupyter = .ok p → documented s jupyter = some p) ∧
    ∃ p, resolvePolicy "auto".toList false = .ok p ∧
      names (history p [.newSlide (.str ['a']) true, .newSlide (.str ['a']) true]).slides = [['a'], ['a']] := by
  refine ⟨fun h => ?_, .ignore, rfl, by decide +kernel⟩
  have := h "auto" false .ignore rfl
  revert this
  decide

/-- **C98, what holds.** Exactly the documented values are accepted, and all have the documented effect but `"auto"` outside Jupyter, where
names are ignored. -/
theorem C98_policy_partial (s : String) (jupyter : Bool) :
    ((∃ p, resolvePolicy s.toList jupyter = .ok p) ↔ documented s jupyter ≠ none) ∧
    (¬ (s = "auto" ∧ jupyter = false) → ∀ p, resolvePolicy s.toList jupyter = .ok p ↔ documented s jupyter = some p) ∧
    (s = "auto" → jupyter = false → resolvePolicy s.toList jupyter = .ok .ignore) := by
  have hinj : ∀ t : String, s.toList = t.toList ↔ s = t := fun t => String.toList_inj
  unfold resolvePolicy
  simp only [hinj]
  unfold documented
  by_cases h1 : s = "auto"
  · subst h1
    cases jupyter <;> simp [eq_comm]
  by_cases h2 : s = "unique"
  · subst h2; simp [eq_comm]
  by_cases h3 : s = "ignore"
  · subst h3; simp [eq_comm]
  by_cases h4 : s = "replace"
  · subst h4; simp [eq_comm]
  simp only [if_neg h1, if_neg h2, if_neg h3, if_neg h4]
  simp [h1]

example : resolvePolicy "auto".toList true = .ok .replace ∧ documented "auto" true = some .replace ∧ documented "Unique" true = none := by decide

end Verif.Deck
