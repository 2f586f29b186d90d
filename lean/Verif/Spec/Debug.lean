import Verif.Spec.History

/-! # Specification: the frames of a page with `debug_boxes`, from the calls alone -/

namespace Verif.Slide.Spec

/-- The slide and the boxes created by calls. -/
inductive BoxOf (cs : List Call) : Nat → Prop
  | slide : BoxOf cs 0
  | mk {k p : Nat} {c : BoxCall} : cs[k]? = some (.box p c) → BoxOf cs (k + 1)

/-- The number of boxes around a box. -/
inductive Depth (cs : List Call) : Nat → Nat → Prop
  | slide : Depth cs 0 0
  | box {k p d : Nat} {c : BoxCall} : cs[k]? = some (.box p c) → Depth cs p d → Depth cs (k + 1) (d + 1)

/-- The given things, each after everything in it. -/
inductive WalkUp (cs : List Call) : List Nat → List Nat → Prop
  | nil : WalkUp cs [] []
  | cons {u : Nat} {us ks a b : List Nat} : Kids u cs ks → WalkUp cs ks a → WalkUp cs us b → WalkUp cs (u :: us) (a ++ u :: b)

end Verif.Slide.Spec
