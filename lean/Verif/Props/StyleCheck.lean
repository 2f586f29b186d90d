import Verif.Proofs.StyleCheck
import Mathlib.Data.List.Nodup

/-! # C121: A text style holds only allowed values

Partial: of the documented restrictions two are not those of the code.

* The docstring names `"center"` as a value of `align`; it is rejected (`C121_center_false`; the user
  guide has `"middle"`).
* The opacity is documented to be between 0 and 1; every number is accepted (`C121_opacity_false`).

Everything else is proved: which assignments and constructions are accepted (`C121_assign_partial`,
`C121_new_partial`), that whatever is done with styles all of them keep allowed values
(`C121_session_partial`), and that they are then the typed styles of the other theorems on styles
(`C121_typed`). -/

namespace Verif.Style
open Spec

/-- The alignments of the docstring (elsie/text/textstyle.py:101). -/
def docstringAligns : List String := ["center", "left", "right"]

/-- The documented alignments are not all accepted. -/
theorem C121_center_false : ¬ ∀ (r : Raw), ∀ a ∈ docstringAligns,
    ∃ r', r.setAttr "align".toList (.str a.toList) = .ok r' := by
  intro h
  obtain ⟨r', h⟩ := h (fun _ => .none) "center" (by decide)
  have : Raw.setAttr (fun _ => PyVal.none) "align".toList (.str "center".toList) =
      .error (.user "has to be one of") := rfl
  rw [this] at h; cases h

/-- Opacities that make no sense are not rejected. -/
theorem C121_opacity_false : ¬ ∀ (kw : List (Str × PyVal)) (r : Raw) (q : Rat), newRaw kw = .ok r →
    r.getAttr "opacity".toList = .ok (.float q) → 0 ≤ q ∧ q ≤ 1 := by
  intro h
  have hg : ∀ s ∈ slots, Good s (argOf [("opacity".toList, .float 5)] s) := by
    intro s _; cases s <;> rfl
  obtain ⟨r, h1, h2⟩ := assignAll_good slots (fun _ => .none) hg
  have := (h [("opacity".toList, .float 5)] r 5 h1 (congrArg Except.ok ((h2 .opacity).trans rfl))).2
  exact absurd this (by decide +kernel)

/-- An assignment is accepted exactly if the value is allowed. Then this attribute has the value, and all
others are as before. -/
theorem C121_assign_partial (r : Raw) (name : Str) (v : PyVal) :
    (Ok name v → ∃ r', r.setAttr name v = .ok r' ∧ r'.getAttr name = .ok v ∧
      ∀ n, n ≠ name → r'.getAttr n = r.getAttr n) ∧
    (¬ Ok name v → ∃ e, r.setAttr name v = .error e) := by
  constructor
  · intro h
    obtain ⟨s, hs, hg⟩ := ok_iff.1 h
    refine ⟨r.put s v, ?_, ?_, fun n hn => ?_⟩
    · unfold Raw.setAttr; rw [hs]; exact assign_good hg
    · unfold Raw.getAttr; rw [hs]; exact congrArg Except.ok (put_self r s v)
    · unfold Raw.getAttr
      cases ht : slotOf n with
      | none => rfl
      | some t =>
        refine congrArg Except.ok (put_other r v ?_)
        rintro rfl
        exact hn ((nameOf_slotOf ht).trans (nameOf_slotOf hs).symm)
  · intro h
    unfold Raw.setAttr
    cases hs : slotOf name with
    | none => exact ⟨_, rfl⟩
    | some s => exact assign_bad (fun hg => h (ok_iff.2 ⟨s, hs, hg⟩))

/-- `TextStyle(...)` is accepted exactly if all arguments are allowed values. Then the attributes are as
given; those not given are `None`, the priority 0. -/
theorem C121_new_partial (kw : List (Str × PyVal)) (hd : (kw.map Prod.fst).Nodup) :
    ((∀ p ∈ kw, Ok p.1 p.2) → ∃ r, newRaw kw = .ok r ∧ (∀ p ∈ kw, r.getAttr p.1 = .ok p.2) ∧
      ∀ n ∈ names, n ∉ kw.map Prod.fst →
        r.getAttr n = .ok (if n = "priority".toList then .int 0 else .none)) ∧
    ((∃ p ∈ kw, ¬ Ok p.1 p.2) → ∃ e, newRaw kw = .error e) := by
  -- the argument found for a property
  have harg : ∀ p ∈ kw, ∀ s, slotOf p.1 = some s → argOf kw s = p.2 := by
    intro p hp s hs
    unfold argOf
    cases hf : kw.find? (fun p => slotOf p.1 = some s) with
    | none =>
      have := List.find?_eq_none.1 hf p hp
      simp [hs] at this
    | some q =>
      have h1 := List.mem_of_find?_eq_some hf
      have h2 : slotOf q.1 = some s := by simpa using List.find?_some hf
      have h3 : q.1 = p.1 := (nameOf_slotOf h2).trans (nameOf_slotOf hs).symm
      rw [List.inj_on_of_nodup_map hd h1 hp h3]
  have hno : ∀ s, nameOf s ∉ kw.map Prod.fst → argOf kw s = slotDefault s := by
    intro s hs
    unfold argOf
    cases hf : kw.find? (fun p => slotOf p.1 = some s) with
    | none => rfl
    | some q =>
      have h1 := List.mem_of_find?_eq_some hf
      have h2 : slotOf q.1 = some s := by simpa using List.find?_some hf
      exact absurd (List.mem_map.2 ⟨q, h1, nameOf_slotOf h2⟩) hs
  constructor
  · intro h
    have hp : kw.all isParam = true := by
      rw [List.all_eq_true]; intro p hp
      obtain ⟨s, hs, -⟩ := ok_iff.1 (h p hp)
      unfold isParam; rw [hs]; rfl
    have hg : ∀ s ∈ slots, Good s (argOf kw s) := by
      intro s _
      by_cases hs : nameOf s ∈ kw.map Prod.fst
      · obtain ⟨p, hp, e⟩ := List.mem_map.1 hs
        rw [harg p hp s (slotOf_iff.2 e)]
        have := h p hp
        rw [e] at this; exact ok_good.1 this
      · rw [hno s hs]; exact good_default s
    obtain ⟨r, h1, h2⟩ := assignAll_good slots (fun _ => .none) hg
    have h2 : ∀ s, r s = argOf kw s := fun s => by rw [h2 s, if_pos (mem_slots s)]
    refine ⟨r, ?_, fun p hp => ?_, fun n hn hk => ?_⟩
    · unfold newRaw; rw [hp]; exact h1
    · obtain ⟨s, hs, -⟩ := ok_iff.1 (h p hp)
      unfold Raw.getAttr; rw [hs]
      exact congrArg Except.ok ((h2 s).trans (harg p hp s hs))
    · obtain ⟨s, hs⟩ := (mem_names n).1 hn
      have e := nameOf_slotOf hs
      unfold Raw.getAttr; rw [hs]
      refine congrArg Except.ok ((h2 s).trans ((hno s (e ▸ hk)).trans ?_))
      rw [e]
      cases s <;> decide +kernel
  · rintro ⟨p, hp, h⟩
    unfold newRaw
    by_cases ha : kw.all isParam = true
    · rw [ha]
      have : (slotOf p.1).isSome = true := (List.all_eq_true.1 ha) p hp
      obtain ⟨s, hs⟩ := Option.isSome_iff_exists.1 this
      refine assignAll_bad slots _ s (mem_slots s) ?_
      rw [harg p hp s hs]
      exact fun hg => h (ok_iff.2 ⟨s, hs, hg⟩)
    · rw [Bool.not_eq_true] at ha
      rw [ha]; exact ⟨_, rfl⟩

/-- Whatever a program does with text styles, and whatever exceptions it catches: every attribute of
every style can be read and has an allowed value. -/
theorem C121_session_partial (ops : List StyleOp) (r : Raw) (hr : r ∈ session [] ops) (n : Str)
    (hn : n ∈ names) : ∃ v, r.getAttr n = .ok v ∧ Ok n v := by
  obtain ⟨s, hs⟩ := (mem_names n).1 hn
  refine ⟨r s, ?_, ok_iff.2 ⟨s, hs, session_sound ops [] (by simp) r hr s⟩⟩
  unfold Raw.getAttr; rw [hs]

/-- The styles of a program are the typed styles of `Verif.Model.Style`, and `update` is that of the typed
styles. -/
theorem C121_typed (ops : List StyleOp) :
    (∀ r ∈ session [] ops, ∃ t, Stands r t) ∧
    ∀ (r s : Raw) (t u : TextStyle), Stands r t → Stands s u → Stands (r.update s) (t.update u) :=
  ⟨fun r hr => sound_stands (session_sound ops [] (by simp) r hr), fun _ _ _ _ => stands_update⟩

/-! ## Examples -/

/-- A program: two styles, a rejected and an accepted assignment, a composition. -/
def exStyleOps : List StyleOp :=
  [.new [("size".toList, .int 20), ("align".toList, .str "left".toList)],
   .new [("bold".toList, .bool true), ("priority".toList, .int 2)],
   .set 0 "size".toList (.str "20".toList),
   .set 0 "color".toList (.str "red".toList),
   .set 0 "colour".toList (.str "blue".toList),
   .new [("priority".toList, .none)],
   .compose 0 1]

/-- What the names of the attributes give for all styles after the program. -/
def exStyleTable : List (List (Except Err PyVal)) :=
  (session [] exStyleOps).map fun r => ["size", "align", "color", "bold", "priority"].map fun n => r.getAttr n.toList

def exStyleExpected : List (List (Except Err PyVal)) :=
  [[.ok (.int 20), .ok (.str "left".toList), .ok (.str "red".toList), .ok .none, .ok (.int 0)],
   [.ok .none, .ok .none, .ok .none, .ok (.bool true), .ok (.int 2)],
   [.ok (.int 20), .ok (.str "left".toList), .ok (.str "red".toList), .ok (.bool true), .ok (.int 2)]]

example : exStyleTable = exStyleExpected := by decide +kernel

/-- `True` is a number, `"20"` is not; the priority cannot be `None`. -/
example : Ok "size".toList (.bool true) ∧ ¬ Ok "size".toList (.str "20".toList) ∧
    ¬ Ok "priority".toList .none := by
  refine ⟨.inl (.size (.bool true)), fun h => ?_, fun h => ?_⟩
  · have := ok_good (s := .size).1 h
    exact absurd this (by unfold Good; decide +kernel)
  · have := ok_good (s := .priority).1 h
    exact absurd this (by unfold Good; decide +kernel)

end Verif.Style
