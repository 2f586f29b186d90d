import Verif.Model.Py
import Mathlib.Analysis.SpecialFunctions.Complex.Arg

/-! # Model of arrows

elsie/utils/geom.py:73-86 and elsie/shapes/arrow.py, with real numbers instead of floats. `math.atan2(y, x)` is the argument of the complex
number `x + i*y` (0 for the origin, as in Python). -/

namespace Verif.Arrow

abbrev Pt := ℝ × ℝ

/-- elsie/utils/geom.py:73-74 `segment_delta`. -/
def delta (p1 p2 : Pt) : Pt := (p2.1 - p1.1, p2.2 - p1.2)

/-- elsie/utils/geom.py:77-79 `segment_len`. -/
noncomputable def len (p1 p2 : Pt) : ℝ := Real.sqrt ((delta p1 p2).1 * (delta p1 p2).1 + (delta p1 p2).2 * (delta p1 p2).2)

open Classical in
/-- elsie/utils/geom.py:82-86 `segment_resize`. -/
noncomputable def resize (p1 p2 : Pt) (change : ℝ) : Except Err Pt :=
  if len p1 p2 = 0 then .error .zeroDivision
  else
    let t := 1 + change / len p1 p2
    .ok (p1.1 + (delta p1 p2).1 * t, p1.2 + (delta p1 p2).2 * t)

/-- elsie/shapes/arrow.py:28-32: an arrow; the angle is already converted to radians. -/
structure Shape where
  size : ℝ
  angle : ℝ
  strokeWidth : Option ℝ := none
  inner : Option ℝ := none

/-- The conversion in the constructor, elsie/shapes/arrow.py:30. -/
noncomputable def radians (degrees : ℝ) : ℝ := degrees * Real.pi / 180

open Classical in
/-- Truth of an optional number. -/
noncomputable def truthy : Option ℝ → Bool
  | none => false
  | some v => decide (v ≠ 0)

noncomputable def atan2 (y x : ℝ) : ℝ := Complex.arg ⟨x, y⟩

/-- What an arrow head draws. -/
inductive Head where
  | polyline (points : List Pt) (strokeWidth : ℝ)
  | polygon (points : List Pt)

/-- elsie/shapes/arrow.py:35-43: the points of the sides and the tip. -/
noncomputable def sides (a : Shape) (p1 p2 : Pt) : List Pt :=
  let d := delta p1 p2
  let dir := atan2 d.1 d.2 + Real.pi
  [(p2.1 + a.size * Real.sin (dir - a.angle), p2.2 + a.size * Real.cos (dir - a.angle)), p2,
    (p2.1 + a.size * Real.sin (dir + a.angle), p2.2 + a.size * Real.cos (dir + a.angle))]

/-- elsie/shapes/arrow.py:45-48: with the inner point. -/
noncomputable def withInner (a : Shape) (p1 p2 : Pt) (points : List Pt) : Except Err (List Pt) :=
  if truthy a.inner && !truthy a.strokeWidth then
    match resize p1 p2 (-(a.inner.getD 0) * a.size * Real.cos a.angle) with
    | .error e => .error e
    | .ok q => .ok (points ++ [q])
  else .ok points

/-- elsie/shapes/arrow.py:34-53 `Arrow.render`. -/
noncomputable def render (a : Shape) (p1 p2 : Pt) : Except Err Head :=
  match withInner a p1 p2 (sides a p1 p2) with
  | .error e => .error e
  | .ok points =>
    match a.strokeWidth with
    | some w => .ok (.polyline points w)
    | none => .ok (.polygon points)

/-- elsie/shapes/arrow.py:55-60 `Arrow.move_end_point`. -/
noncomputable def moveEndPoint (a : Shape) (p1 p2 : Pt) : Except Err Pt :=
  let shift := if truthy a.strokeWidth then (a.strokeWidth.getD 0) / 2 else Real.cos a.angle * a.size / 2
  resize p1 p2 (-shift)

/-- The part of elsie/boxtree/boxmixin.py:406-426 (`line`) before drawing the polyline: its points. -/
noncomputable def linePoints (p : List Pt) (start end_ : Option Shape) : Except Err (List Pt) :=
  match (match start with
    | none => .ok p
    | some a =>
      match p[1]?, p[0]? with
      | some q1, some q0 =>
        match moveEndPoint a q1 q0 with
        | .error e => .error e
        | .ok q => .ok (p.set 0 q)
      | _, _ => .error .index : Except Err (List Pt)) with
  | .error e => .error e
  | .ok p2 =>
    match end_ with
    | none => .ok p2
    | some a =>
      match p[p.length - 2]?, p[p.length - 1]? with
      | some q1, some q0 =>
        match moveEndPoint a q1 q0 with
        | .error e => .error e
        | .ok q => .ok (p2.set (p.length - 1) q)
      | _, _ => .error .index

end Verif.Arrow
