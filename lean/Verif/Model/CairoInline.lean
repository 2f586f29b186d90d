import Verif.Model.SceneCairo
import Verif.Model.LineBox

/-! # Model of inline boxes with Cairo

elsie/render/backends/cairo/text.py:159-217 and elsie/render/backends/cairo/rcontext.py:166-183: what the backend answers to `inline_box`. What Pango measures is a parameter. -/

namespace Verif.CairoInline
open Verif.Text Verif.Style
open Verif.Scene (Ext buildLayout)
open Verif.CairoDraw (Layout)

/-- What Pango tells about a layout (external): the number of its lines, the width that `get_extents` takes (elsie/render/backends/cairo/text.py:168-170), and for every
character that the iterator comes to, the index of its first byte, its position and its width. (At the end of a line Pango's iterator may stop once more, behind the
last byte. This makes no difference for the code.) -/
structure Glyphs where
  lines : Nat
  width : Rat
  chars : List (Nat × Rat × Rat)

/-- elsie/render/backends/cairo/text.py:206-216: the loop. `x` and `w` are the variables `x` and `width`. -/
def scan (start stop : Nat) : List (Nat × Rat × Rat) → Option Rat → Rat → Except Err (Option Rat × Rat)
  | [], x, w => .ok (x, w)
  | (off, cx, cw) :: rest, x, w =>
    if start ≤ off ∧ off < stop then
      match x with
      | none => if start = off then scan start stop rest (some cx) (w + cw) else .error .assertion
      | some x => scan start stop rest (some x) (w + cw)
    else if off ≥ stop then .ok (x, w)
    else scan start stop rest x w

/-- elsie/render/backends/cairo/text.py:194-218 `compute_subtext_extents`. -/
def subtextExtents (g : Glyphs) (toks : List Tok) (idIndex : Nat) : Except Err (Rat × Rat) :=
  if g.lines ≠ 1 then .error .assertion
  else
    match Verif.Cairo.getByteRange toks idIndex with
    | .error e => .error e
    | .ok (start, stop) =>
      match scan start stop g.chars none 0 with
      | .error e => .error e
      | .ok (none, _) => .error .assertion
      | .ok (some x, w) => .ok (x, w)

/-- elsie/render/backends/cairo/rcontext.py:172-183 `compute_subtext_extents`, asked by `compute_text_x` and `compute_text_width` of elsie/render/backends/cairo/backend.py:38-57.
The layout has no width (Pango: -1). -/
def answer (x : Ext) (pango : Layout → Glyphs) (toks : List Tok) (style : TextStyle) (styles : Str → Option TextStyle) (idIndex : Nat) : Except Err (Rat × Rat) :=
  match buildLayout x toks style styles 1 (some 1) (-1) with
  | .error e => .error e
  | .ok l =>
    match Verif.TextItem.textX ⟨0, 0, (pango l).width, 0⟩ style.align with
    | .error e => .error e
    | .ok startX =>
      match subtextExtents (pango l) toks idIndex with
      | .error e => .error e
      | .ok (cx, w) => .ok (cx - startX, w)

/-- elsie/text/textboxitem.py:114-160: the two answers for `inline_box(name, nth)`. -/
def inlineAnswer (x : Ext) (pango : Layout → Glyphs) (toks : List Tok) (style : TextStyle) (styles : Str → Option TextStyle) (name : Str) (nth : Nat) : Except Err (Rat × Rat) :=
  match inlineBoxIndex toks name nth with
  | .error e => .error e
  | .ok index =>
    match extractLine toks index with
    | .error e => .error e
    | .ok (line, .ofNat j) => answer x pango line style styles j
    | .ok (_, .negSucc _) => .error .assertion

end Verif.CairoInline
