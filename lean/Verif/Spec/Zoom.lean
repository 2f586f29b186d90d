import Verif.Spec.SceneCairo

/-! # Specification: a page seen through a view box, and the distance of rows with Cairo -/

namespace Verif.Scene.Spec
open Verif.CairoDraw (Pt Mat Seg Paint Layout)

/-- First `m`, then `Z`. -/
def after (Z m : Mat) : Mat where
  xx := Z.xx * m.xx + Z.xy * m.yx
  yx := Z.yx * m.xx + Z.yy * m.yx
  xy := Z.xx * m.xy + Z.xy * m.yy
  yy := Z.yx * m.xy + Z.yy * m.yy
  x0 := Z.xx * m.x0 + Z.xy * m.y0 + Z.x0
  y0 := Z.yx * m.x0 + Z.yy * m.y0 + Z.y0

/-- A segment of a path, moved. -/
def segThrough (Z : Mat) : Seg → Seg
  | .move p => .move (Z.apply p)
  | .line p => .line (Z.apply p)
  | .curve a b p => .curve (Z.apply a) (Z.apply b) (Z.apply p)
  | .circle m c r => .circle (after Z m) c r
  | .close => .close

/-- Something painted, moved and zoomed as a whole. -/
def paintThrough (Z : Mat) : Paint → Paint
  | .fill path c => .fill (path.map (segThrough Z)) c
  | .stroke path c w d m => .stroke (path.map (segThrough Z)) c w d (after Z m)
  | .text m l => .text (after Z m) l
  | .picture m d => .picture (after Z m) d
  | .svg m w h d => .svg (after Z m) w h d

/-- The rows of texts are pulled apart: the space between them is `k` times as large. -/
def spread (k : Rat) : Paint → Paint
  | .text m l => .text m { l with spacing := l.spacing * k }
  | p => p

/-- The transformation moves every point of the page without the view box to where it is with the view box. -/
def ViewBoxMap (png : Bool) (w h : Rat) (v : Rect) (Z : Mat) : Prop := ∀ q, Z.apply (onPaper png w h none q) = onPaper png w h (some v) q

/-- The distance of the base lines of two rows with the same style (height `H` of the font as it is in the text), as documented by Pango: the height of the row, which
the scale of the layout applies to, and the space between the rows, which it does not apply to. -/
def advance (H : Rat) (l : Layout) : Rat := l.scale.getD 1 * H + l.spacing

end Verif.Scene.Spec
