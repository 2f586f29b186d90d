import Verif.Spec.Calls

/-! # Specification: how much room the boxes need, in terms of the calls -/

namespace Verif.Slide.Spec
open Verif.Layout (Arg Size BoxArgs)
open Verif.Layout.Spec (largest)

/-- No size is given. -/
def unsized : Arg → Bool
  | .none => true
  | _ => false

/-- The room that a call asks for in the box `u` made with the arguments `b`: the size of a text or an image put into it. A text that is scaled to the box (`scale_to_fit`) asks
for room only on the axes on which the box has no size. -/
def asks (axis : Bool) (u : Nat) (b : BoxArgs) : Call → Option Rat
  | .text p w h fit => if p = u ∧ (fit = false ∨ unsized (extentArg axis b) = true) then some (if axis then w else h) else none
  | .image p w h _ => if p = u then some (if axis then w else h) else none
  | _ => none

/-- Images are put into the box only if it was made without a size (otherwise they keep their ratio to its size, C100). -/
def ImagesFree (cs : List Call) (u : Nat) (b : BoxArgs) : Prop :=
  ∀ p w h st, Call.image p w h st ∈ cs → p = u → unsized b.width = true ∧ unsized b.height = true

/-- What the stacked boxes in `u` need together: along the direction of `u` they add up, across it the largest counts. -/
def together (cs : List Call) (need : Bool → Nat → Rat) (axis : Bool) (u : Nat) : Rat :=
  let ns := (stackOf cs u).map (fun x => need axis x.1)
  if axis = row cs u then ns.sum else largest ns

/-- What the boxes need: the size that the argument asks for, or the paddings with what is inside, whichever is larger. -/
def IsNeed (cs : List Call) (need : Bool → Nat → Rat) : Prop :=
  ∀ axis u b sz, madeBy cs u = some b → SizeSays (extentArg axis b) sz → ImagesFree cs u b →
    need axis u = largest (sz.minSize :: ((together cs need axis u :: cs.filterMap (asks axis u b)).map (· + padsOf axis b)))

end Verif.Slide.Spec
