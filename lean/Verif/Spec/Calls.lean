import Verif.Spec.LayoutStrings
import Verif.Spec.LineBox

/-! # Specification: where the boxes are, in terms of the calls -/

namespace Verif.Slide.Spec
open Verif.Layout (Arg Pos Size BoxArgs Env)
open Verif.Layout.Spec (PosText SizeText refs mostSpecific)
open Verif.Scene.Spec (padded)

/-- The argument for the position along an axis (`true`: `x`). -/
def posArg (axis : Bool) (b : BoxArgs) : Arg := if axis then b.x else b.y

/-- The argument for the size along an axis (`true`: `width`). -/
def extentArg (axis : Bool) (b : BoxArgs) : Arg := if axis then b.width else b.height

/-- What an argument for a position says: a number, a documented string, or a value that depends on other boxes. -/
inductive PosSays : Arg → Pos → Prop
  | number {q : Rat} : PosSays (.num q) (.fix q)
  | text {s : Str} {v : Pos} : PosText s v → PosSays (.str s) v
  | dynamic {v : Pos} : refs v ≠ [] → PosSays (.lazy v) v

/-- What an argument for a size says: nothing, a number, a documented string, or a value that depends on other boxes. -/
inductive SizeSays : Arg → Size → Prop
  | nothing : SizeSays .none {}
  | number {q : Rat} : SizeSays (.num q) { minSize := q }
  | text {s : Str} {v : Size} : SizeText s v → SizeSays (.str s) v
  | dynamic {v : Pos} : SizeSays (.lazy v) { lazy := some v }

/-- The position is not relative to the size of the parent. -/
def Absolute : Pos → Prop
  | .ratio _ => False
  | .align _ => False
  | _ => True

/-- The arguments of the call that made the box. -/
def madeBy (cs : List Call) : Nat → Option BoxArgs
  | 0 => none
  | k + 1 => match cs[k]? with
    | some (.box _ c) => some c.layout
    | _ => none

/-- Is the box a row? The slide is a column. -/
def row (cs : List Call) (p : Nat) : Bool := ((madeBy cs p).map (·.horizontal)).getD false

/-- Nothing that needs room is put into the box. -/
def Untouched (cs : List Call) (u : Nat) : Prop :=
  ∀ c ∈ cs, match c with
    | .box p _ => p ≠ u
    | .text p _ _ _ => p ≠ u
    | .image p _ _ _ => p ≠ u
    | .shape _ => True

/-- The paddings along an axis. -/
def padsOf (axis : Bool) (b : BoxArgs) : Rat :=
  if axis then mostSpecific [b.pLeft, b.pX, b.padding] + mostSpecific [b.pRight, b.pX, b.padding]
  else mostSpecific [b.pTop, b.pY, b.padding] + mostSpecific [b.pBottom, b.pY, b.padding]

/-- The boxes in `p`: first those that were prepended, the newest first. -/
def inOrder (cs : List Call) (p : Nat) : List Nat := (createdIn p true 1 cs).reverse ++ createdIn p false 1 cs

/-- The box and its arguments, if it has no position along the axis. -/
def unplaced (cs : List Call) (axis : Bool) (u : Nat) : Option (Nat × BoxArgs) :=
  match madeBy cs u with
  | none => none
  | some b => match posArg axis b with
    | .none => some (u, b)
    | _ => none

/-- The boxes in `p` that are stacked: those without a position along the direction of `p`. -/
def stackOf (cs : List Call) (p : Nat) : List (Nat × BoxArgs) := (inOrder cs p).filterMap (unplaced cs (row cs p))

/-- The rectangle of a box with its paddings. -/
def Outer (env : Env) (x : Nat × BoxArgs) (R : Rect) : Prop := ∃ q, env x.1 = some q ∧ R = padded x.2 q

end Verif.Slide.Spec
