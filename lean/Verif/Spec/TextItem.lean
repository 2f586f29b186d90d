import Verif.Model.Geom
import Verif.Spec.SvgDraw

/-! # Specification: where the lines of a text are on an SVG page -/

namespace Verif.TextItem.Spec
open Verif.Text Verif.Xml.Spec
open Verif.CairoDraw (Pt Mat)
open Verif.SvgDraw.Spec (num)

/-- The transformation of user space for a list of transformations of an SVG element (SVG 1.1, §7.6); `ang` are cosine and sine. -/
def placement (ang : Rat → Rat × Rat) (m : Mat) : List (Str × List Rat) → Option Mat
  | [] => some m
  | (f, args) :: ts =>
    match args with
    | [s] => if f = "scale".toList then placement ang (m.scale s s) ts else none
    | [x, y] => if f = "translate".toList then placement ang (m.translate x y) ts else none
    | [a, x, y] =>
      if f = "rotate".toList then placement ang (((m.translate x y).rotate (ang a).1 (ang a).2).translate (-x) (-y)) ts else none
    | _ => none

/-- Turning around a point. -/
def turn (ang : Rat → Rat × Rat) (rotation : Option Rat) (center : Pt) : Mat :=
  match rotation with
  | none => {}
  | some a => if a = 0 then {} else ((({} : Mat).translate center.1 center.2).rotate (ang a).1 (ang a).2).translate (-center.1) (-center.2)

/-- The points on the base lines at which the lines of a text are anchored (SVG 1.1, §10.5): `x` of a line is absolute, `dy` is
relative to the line before. -/
def anchors (read : Str → Option Rat) (p : Pt) : List Attrs → Option (List Pt)
  | [] => some [p]
  | as :: rest =>
    match num read as "x", num read as "dy" with
    | some x, some d => (anchors read (x, p.2 + d) rest).map (p :: ·)
    | _, _ => none

/-- The rows of the lines of a text: the first is in row 0, each of the others as many rows below the line before as its line break says. -/
def rows (r : Nat) : List Nat → List Nat
  | [] => [r]
  | n :: ns => r :: rows (r + n) ns

/-- The side of a rectangle (or its middle) at which a text with this alignment is anchored, and the name of the anchor in SVG. -/
def Side (rect : Rect) (align : Option Str) (x : Rat) (anchor : Option Str) : Prop :=
  (align = some "left".toList ∧ x = rect.x ∧ anchor = some "start".toList) ∨
  (align = some "middle".toList ∧ x = rect.x + rect.width / 2 ∧ anchor = some "middle".toList) ∨
  (align = some "right".toList ∧ x = rect.x + rect.width ∧ anchor = some "end".toList)

end Verif.TextItem.Spec
