import Verif.Model.LineBox
import Verif.Spec.Scene

/-! # Specification: where the boxes of a text are -/

namespace Verif.Scene.Spec
open Verif.Layout (BoxArgs)
open Verif.Layout.Spec (mostSpecific)
open Verif.Style (TextStyle)
open Verif.Text (Tok)

/-- A path without commands creates nothing. -/
def createsText : TextCall → Bool
  | .plain c => creates c
  | _ => true

/-- The calls that create something. What they create is numbered from 1 in this order. -/
def thingsText (ts : List TextCall) : List TextCall := ts.filter createsText

/-- The rectangle together with the paddings. -/
def padded (b : BoxArgs) (q : Rect) : Rect :=
  let l := mostSpecific [b.pLeft, b.pX, b.padding]
  let r := mostSpecific [b.pRight, b.pX, b.padding]
  let t := mostSpecific [b.pTop, b.pY, b.padding]
  let d := mostSpecific [b.pBottom, b.pY, b.padding]
  ⟨q.x - l, q.y - t, q.width + l + r, q.height + t + d⟩

/-- The rows of a text in a rectangle: the upper edge of row `i`, for rows of height `lh` (see `TextOn`). -/
def rowTop (r : Rect) (toks : List Tok) (lh i : Rat) : Rat := r.y + (r.height - rowCount toks * lh) / 2 + lh * i

/-- Is the box a column? -/
def Column (ts : List TextCall) (p : Nat) : Prop :=
  p = 0 ∨ ∃ k : Nat, p = k + 1 ∧ ((∃ q c, ts[k]? = some (.plain (.box q c)) ∧ c.layout.horizontal = false) ∨
    (∃ u i n c, ts[k]? = some (.lineBox u i n c) ∧ c.layout.horizontal = false) ∨
    ∃ u nm nth qx qw c, ts[k]? = some (.inlineBox u nm nth qx qw c) ∧ c.layout.horizontal = false)

/-- The text with the number `u`, its box and its style. -/
def TextAt (ts : List TextCall) (u p : Nat) (toks : List Tok) (style : TextStyle) (fit : Bool) (w : Rat) : Prop :=
  ∃ (k : Nat) (styles : Str → Option TextStyle) (rot : Option Rat), u = k + 1 ∧ ts[k]? = some (.plain (.draw p (.text toks style styles rot fit w)))

/-- The scale of a text in the rectangle of its box, and the height of its rows there. -/
def Rows (r : Rect) (toks : List Tok) (style : TextStyle) (fit : Bool) (w s lh : Rat) : Prop :=
  ∃ a b, style.size = some a ∧ style.lineSpacing = some b ∧ s = textScale r w (rowCount toks * (a * b)) fit ∧ lh = a * b * s

/-- Where `line_box(i, n)` has to be: on the rows `i` to `i + n - 1` of the text, one pixel higher, as wide as the box of the text (`wide`). -/
def OnRows (r R : Rect) (toks : List Tok) (lh : Rat) (i n : Int) (b : BoxArgs) (wide : Prop) : Prop :=
  (b.x = .none → R.x = r.x) ∧ (b.width = .none → wide → R.width = r.width) ∧
  (b.y = .none → R.y = rowTop r toks lh i) ∧ (b.height = .none → R.height = n * lh + 1)

/-- The side of the rectangle at which a text is anchored. -/
def sideX (r : Rect) (align : Option Str) : Rat :=
  if align = some "left".toList then r.x else if align = some "middle".toList then r.x + r.width / 2 else r.x + r.width

/-- Where the box of the section has to be that begins with the token `i` and that was measured to be `qw` wide, from `qx` on. -/
def OnSection (r R : Rect) (toks : List Tok) (align : Option Str) (s lh : Rat) (i : Nat) (qx qw : Rat) (b : BoxArgs) : Prop :=
  (b.x = .none → R.x = sideX r align + qx * s) ∧ (b.width = .none → R.width = qw * s) ∧
  (b.y = .none → R.y = rowTop r toks lh ((rowCount (toks.take i) : Rat) - 1)) ∧ (b.height = .none → R.height = lh + 1)

end Verif.Scene.Spec
