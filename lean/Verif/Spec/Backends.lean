import Verif.Model.Backends
import Verif.Spec.SvgDraw
import Verif.Spec.CairoDraw

/-! # Specification: what is painted with Cairo is what an SVG reader sees -/

namespace Verif.Backends.Spec
open Verif.CairoDraw (Pt Mat Seg given)
open Verif.CairoDraw.Spec (SvgPath Same arity)
open Verif.SvgDraw (Item Paint)
open Verif.SvgDraw.Spec (Drawn Geometry Stroke readNumbers)

/-- The transformation of user space for the transformations of an SVG element (§7.6: `rotate(a x y)` turns around a point). -/
def placed (ang : Rat → Rat × Rat) (m : Mat) : List (Str × List Rat) → Option Mat
  | [] => some m
  | (f, [a, x, y]) :: ts =>
    if f = "rotate".toList then placed ang (((m.translate x y).rotate (ang a).1 (ang a).2).translate (-x) (-y)) ts else none
  | _ :: _ => none

/-- A path in device space runs along a shape seen through a transformation. A closed outline ends with closing it; if `strict` is false,
a line back to the start is enough (which makes no difference for filling). The corners of a rounded rectangle are compared by their ends only. -/
def Traces (strict : Bool) (m : Mat) : Geometry → List Seg → Prop
  | .rect x y w h rx ry, path =>
    if rx = 0 ∧ ry = 0 then
      path = [.move (m.apply (x, y)), .line (m.apply (x + w, y)), .line (m.apply (x + w, y + h)), .line (m.apply (x, y + h)), .close]
    else ∃ a1 b1 a2 b2 a3 b3 a4 b4, path = [.move (m.apply (x + rx, y)), .line (m.apply (x + w - rx, y)), .curve a1 b1 (m.apply (x + w, y + ry)),
      .line (m.apply (x + w, y + h - ry)), .curve a2 b2 (m.apply (x + w - rx, y + h)),
      .line (m.apply (x + rx, y + h)), .curve a3 b3 (m.apply (x, y + h - ry)),
      .line (m.apply (x, y + ry)), .curve a4 b4 (m.apply (x + rx, y)), .close]
  | .ellipse cx cy rx ry, path => ∃ m' k rad, path = [.move (m.apply (cx + rx, cy)), .circle m' k rad] ∧
      ∀ u v, m'.apply (k.1 + rad * u, k.2 + rad * v) = m.apply (cx + rx * u, cy + ry * v)
  | .polygon [], path => path = []
  | .polygon (p :: ps), path => path = .move (m.apply p) :: ps.map (fun q => .line (m.apply q)) ++ [.close] ∨
      (strict = false ∧ path = .move (m.apply p) :: ps.map (fun q => .line (m.apply q)) ++ [.line (m.apply p)])
  | .polyline [], path => path = []
  | .polyline (p :: ps), path => path = .move (m.apply p) :: ps.map (fun q => .line (m.apply q))
  | .path cmds, path => ∃ us, SvgPath cmds us ∧ Same m (0, 0) us path
  | .image _ _ _ _ _, _ => False

/-- The pen is that of one of the transformations, up to its position. (They differ by rotations, which do not change a round pen.) -/
def PenOf (m : Mat) (pen : Mat) : Prop := pen.xx = m.xx ∧ pen.yx = m.yx ∧ pen.xy = m.xy ∧ pen.yy = m.yy

/-- The numbers of a dash pattern. -/
def dashNumbers (read : Str → Option Rat) : Option Str → Option (List Rat)
  | none => some []
  | some d => readNumbers read d

/-- The interior is filled along the shape, in its colour. -/
def Fills (m : Mat) (g : Geometry) : Option Str → List CairoDraw.Paint → Prop
  | none, ps => ps = []
  | some c, ps => ∃ path, ps = [.fill path c] ∧ Traces false m g path

/-- The outline is painted along the shape, with its colour, width and dash pattern. -/
def Outlines (strict : Bool) (read : Str → Option Rat) (m0 m : Mat) (g : Geometry) : Option Stroke → List CairoDraw.Paint → Prop
  | none, ps => ps = []
  | some st, ps => ∃ path dash pen, ps = [.stroke path st.color st.width dash pen] ∧ Traces strict m g path ∧
      dashNumbers read st.dash = some dash ∧ (PenOf m0 pen ∨ PenOf m pen)

/-- A picture is painted with its data over its rectangle. -/
def Pictures (m : Mat) : Geometry → List CairoDraw.Paint → Prop
  | .image x y w h href, ps => ∃ m' mime data, ps = [.picture m' data] ∧ href = "data:".toList ++ mime ++ ";base64,".toList ++ data ∧
      ∀ u v, m'.apply (u, v) = m.apply (x + w * u, y + h * v)
  | _, ps => ps = []

/-- What is painted is what is seen in the SVG: the picture, or first the interior, then the outline. -/
def Paints (strict : Bool) (read : Str → Option Rat) (ang : Rat → Rat × Rat) (m : Mat) (d : Drawn) (ps : List CairoDraw.Paint) : Prop :=
  ∃ pm pictures fills strokes, placed ang m d.transform = some pm ∧ ps = pictures ++ fills ++ strokes ∧ Pictures pm d.geometry pictures ∧
    Fills pm d.geometry d.fill fills ∧ Outlines strict read m pm d.geometry d.stroke strokes

/-! ### arguments -/

/-- Cairo knows the colours, and the dash pattern consists of numbers separated by blanks, none negative and not all zero. -/
structure StyleOk (read : Str → Option Rat) (known : Str → Bool) (p : Paint) : Prop where
  color : ∀ c, p.color = some c → c ≠ [] → known c = true
  bgColor : ∀ c, p.bgColor = some c → c ≠ [] → known c = true
  dash : ∀ d, p.dash = some d → d ≠ [] → d ≠ "none".toList ∧ (∀ c ∈ d, c ≠ ',' ∧ (isSpace c = true → c = ' ')) ∧
    ∃ ns, readNumbers read d = some ns ∧ (∀ n ∈ ns, 0 ≤ n) ∧ (ns = [] ∨ ∃ n ∈ ns, n ≠ 0)

/-- Shapes and pictures with a size, lines with a colour and a point, paths whose commands have one group of arguments each and no `S` after an `S`. -/
def Common (read : Str → Option Rat) (known : Str → Bool) : Item → Prop
  | .rect r _ _ _ p => 0 < r.width ∧ 0 < r.height ∧ StyleOk read known p
  | .ellipse r _ p => 0 < r.width ∧ 0 < r.height ∧ StyleOk read known p
  | .polygon ps _ p => ps ≠ [] ∧ StyleOk read known p
  | .polyline ps p => ps ≠ [] ∧ p.bgColor = none ∧ (∃ c, p.color = some c ∧ c ≠ []) ∧ StyleOk read known p
  | .path cmds p => (∃ us, SvgPath cmds us) ∧ (∀ x ∈ cmds, arity x.1 = some x.2.length) ∧
      List.IsChain (fun a b => ¬ (a = 'S' ∧ b = 'S')) (cmds.map (·.1)) ∧ StyleOk read known p
  | .bitmap r _ _ _ => r.width ≠ 0 ∧ r.height ≠ 0

/-- The outline of a polygon is not closed. -/
def closes : Item → Bool
  | .polygon _ _ _ => false
  | _ => true

end Verif.Backends.Spec
