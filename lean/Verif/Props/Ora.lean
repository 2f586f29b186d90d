import Verif.Proofs.Ora

/-! # Property C64: conversion of ORA files -/

namespace Verif.Ora
open Spec Verif.Xml
open Verif.Xml.Spec (Attrs attrText OkStr norm readXml)

/-- **C64.** The SVG made from an ORA file is well-formed; its pictures are, in painting order, exactly the layers
that can be seen, the bottom-most first; each is at its place with its opacity and name, inside groups that stand for
the stacks around it. -/
theorem C64_layers (env : Env) (w h : Option Str) (f : Forest) (he : EnvOk env) (hf : StringsOk f)
    (hw : ∀ s, w = some s → OkStr s) (hh : ∀ s, h = some s → OkStr s) (out : Str) (ho : convert env w h f = .ok out) :
    ∃ as K, readXml out = some (.elem "svg".toList as K .nil) ∧
      List.Forall₂ (fun l i => List.Forall₂ (GroupOf env) l.1 i.1 ∧ ImageOf env l.2 i.2)
        ((layers [] f).filter (Seen env)).reverse (images [] K) := by
  unfold convert at ho
  split at ho
  · cases ho
  · rename_i ops hops
    obtain ⟨F, hF, hi⟩ := children_ok he f hf hops
    obtain ⟨x, s, hx, hs, hr⟩ := (hF.block (n := "svg".toList) (validName_of_decide (by decide)) (svgSets_ok hw hh)).read
    rw [hx] at ho
    dsimp only at ho
    rw [hs] at ho
    cases ho
    exact ⟨_, _, hr, hi [] [] (by simp) .nil⟩

/-- **C64 (success).** The conversion succeeds exactly if everything visible has the attributes needed. -/
theorem C64_succeeds (env : Env) (w h : Option Str) (f : Forest) (he : EnvOk env) (hf : StringsOk f)
    (hw : ∀ s, w = some s → OkStr s) (hh : ∀ s, h = some s → OkStr s) :
    (∃ out, convert env w h f = .ok out) ↔ Readable env f := by
  rw [← childrenOps_iff]
  unfold convert
  cases hops : childrenOps env f with
  | error e => simp
  | ok ops =>
    obtain ⟨F, hF, hi⟩ := children_ok he f hf hops
    obtain ⟨x, s, hx, hs, hr⟩ := (hF.block (n := "svg".toList) (validName_of_decide (by decide)) (svgSets_ok hw hh)).read
    constructor
    · intro _; exact ⟨ops, rfl⟩
    · intro _
      refine ⟨s, ?_⟩
      dsimp only
      rw [hx]
      exact hs

/-- Two pictures, one of them empty; `float` knows only two numbers. -/
def sampleEnv : Env where
  fmt := fun r => if r = 0 then "0.0".toList else if r = 1 then "1.0".toList else if r = 1 / 2 then "0.5".toList else "7.0".toList
  float := fun s => if s = "0".toList then some 0 else if s = "1.0".toList then some 1 else if s = "0.5".toList then some (1 / 2) else none
  sources := fun s => if s = "a.png".toList then some (some ⟨"QUJD".toList, "image/png".toList, 7, 0, 5, 6⟩)
    else if s = "b.png".toList then some none else none

/-- Top-most first: a hidden stack, an empty layer, a layer in a half transparent stack, a layer. -/
def sampleOra : Forest :=
  .stack { visibility := some "hidden".toList } (.layer { src := some "a.png".toList } .nil)
    (.layer { src := some "b.png".toList } (.stack { opacity := some "0.5".toList, x := some "3".toList, name := some "S".toList }
      (.layer { src := some "a.png".toList, name := some "top".toList } (.other .nil))
      (.layer { src := some "a.png".toList, name := some "bottom".toList } .nil)))

example : EnvOk sampleEnv ∧ StringsOk sampleOra ∧ ((layers [] sampleOra).filter (Seen sampleEnv)).reverse.map (fun l => (l.1.length, l.2.name)) =
      [(0, some "bottom".toList), (1, some "top".toList)] ∧
    (convert sampleEnv (some "10".toList) none sampleOra).toOption.isSome = true := by
  refine ⟨⟨?_, ?_⟩, ?_, by decide +kernel, by decide +kernel⟩
  · intro r
    unfold sampleEnv
    dsimp only
    split
    · exact okStr_of_decide (by decide)
    · split
      · exact okStr_of_decide (by decide)
      · split <;> exact okStr_of_decide (by decide)
  · intro s src h
    unfold sampleEnv at h
    dsimp only at h
    split at h
    · cases h; exact ⟨okStr_of_decide (by decide), okStr_of_decide (by decide)⟩
    · split at h <;> cases h
  · have h0 : OkStr "0".toList := okStr_of_decide (by decide)
    have h3 : OkStr "3".toList := okStr_of_decide (by decide)
    have h4 : OkStr "S".toList := okStr_of_decide (by decide)
    have h5 : OkStr "top".toList := okStr_of_decide (by decide)
    have h6 : OkStr "bottom".toList := okStr_of_decide (by decide)
    refine ⟨?_, ⟨?_, by trivial⟩, ?_, ?_, ⟨?_, by trivial⟩, ?_, by trivial⟩ <;>
    · intro s hs
      rcases hs with hs | hs | hs <;> cases hs <;> assumption

end Verif.Ora
