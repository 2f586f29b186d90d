import Verif.Model.Slide

/-! # Specification: a slide with all lengths multiplied -/

namespace Verif.Layout.Spec

/-- A number as a user writes it for a length: the digits of `"120"` count as the number 120. -/
def scaleArg (k : Rat) (scaleLazy : Pos → Pos) : Arg → Arg
  | .num q => .num (k * q)
  | .str s => if allDigits (chomp s) then .num (k * (intOfDigits (chomp s) : Rat)) else .str s
  | .lazy v => .lazy (scaleLazy v)
  | a => a

/-- Lengths are multiplied, percentages stay, functions (as in `.add(10)`) work on multiplied lengths. -/
def scalePos (k : Rat) : Pos → Pos
  | .fix q => .fix (k * q)
  | .ref uid hor v => .ref uid hor (scalePos k v)
  | .map f v => .map (fun x => k * f (x / k)) (scalePos k v)
  | .fn uid f => .fn uid (fun r => k * f ⟨r.x / k, r.y / k, r.width / k, r.height / k⟩)
  | v => v

def scaleArgs (k : Rat) (b : BoxArgs) : BoxArgs where
  x := scaleArg k (scalePos k) b.x
  y := scaleArg k (scalePos k) b.y
  width := scaleArg k (scalePos k) b.width
  height := scaleArg k (scalePos k) b.height
  pLeft := b.pLeft.map (k * ·)
  pRight := b.pRight.map (k * ·)
  pTop := b.pTop.map (k * ·)
  pBottom := b.pBottom.map (k * ·)
  pX := b.pX.map (k * ·)
  pY := b.pY.map (k * ·)
  padding := b.padding.map (k * ·)
  horizontal := b.horizontal
  prepend := b.prepend

def scaleRect (k : Rat) (r : Rect) : Rect := ⟨k * r.x, k * r.y, k * r.width, k * r.height⟩

end Verif.Layout.Spec

namespace Verif.Slide.Spec
open Verif.Layout.Spec

/-- The same call with all lengths multiplied. -/
def scaleCall (k : Rat) : Call → Call
  | .box p c => .box p { c with layout := scaleArgs k c.layout }
  | .text p w h fit => .text p (k * w) (k * h) fit
  | .shape p => .shape p
  | .image p w h steps => .image p (k * w) (k * h) steps

end Verif.Slide.Spec
