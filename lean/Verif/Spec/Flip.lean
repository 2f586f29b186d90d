import Verif.Spec.Slide

/-! # Specification: a slide with its axes exchanged -/

namespace Verif.Layout.Spec

/-- The value for the other axis: references to other boxes change from `x(...)` to `y(...)`. -/
def flipPos : Pos → Pos
  | .ref uid hor v => .ref uid (!hor) (flipPos v)
  | .map f v => .map f (flipPos v)
  | .fn uid f => .fn uid (fun r => f ⟨r.y, r.x, r.height, r.width⟩)
  | v => v

def flipArg : Arg → Arg
  | .lazy v => .lazy (flipPos v)
  | a => a

/-- Everything given for the x-axis is given for the y-axis and the other way round; rows become columns. -/
def flipArgs (b : BoxArgs) : BoxArgs where
  x := flipArg b.y
  y := flipArg b.x
  width := flipArg b.height
  height := flipArg b.width
  pLeft := b.pTop
  pRight := b.pBottom
  pTop := b.pLeft
  pBottom := b.pRight
  pX := b.pY
  pY := b.pX
  padding := b.padding
  horizontal := !b.horizontal
  prepend := b.prepend

def flipRect (r : Rect) : Rect := ⟨r.y, r.x, r.height, r.width⟩

/-- A position that is not relative to the box around: a number, or taken from another box. -/
def Absolute : Pos → Prop
  | .empty => True
  | .fix _ => True
  | .ratio _ => False
  | .align _ => False
  | .ref _ _ _ => True
  | .map _ v => Absolute v
  | .fn _ _ => True

/-- No box has a relative position across the direction in which its parent (`horizontal` or not) lays out its children. -/
def CrossAbsolute (horizontal : Bool) : Forest → Prop
  | .nil => True
  | .node _ a kids rest =>
    (∀ v, (if horizontal then a.y else a.x) = some v → Absolute v) ∧ CrossAbsolute a.horizontal kids ∧ CrossAbsolute horizontal rest

end Verif.Layout.Spec

namespace Verif.Slide.Spec
open Verif.Layout.Spec

/-- The same call with the axes exchanged. -/
def flipCall : Call → Call
  | .box p c => .box p { c with layout := flipArgs c.layout }
  | .text p w h fit => .text p h w fit
  | .shape p => .shape p
  | .image p w h steps => .image p h w steps

/-- A box that covers the slide and lays out its children in a row or in a column. -/
def cover (horizontal : Bool) : Call :=
  .box 0 { layout := { width := .str "100%".toList, height := .str "100%".toList, horizontal := horizontal } }

end Verif.Slide.Spec
