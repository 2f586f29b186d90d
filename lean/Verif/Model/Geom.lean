import Mathlib.Algebra.Order.Ring.Rat
import Mathlib.Algebra.Order.Field.Rat

/-! # Model of `Rect` (elsie/utils/geom.py) -/

namespace Verif

/-- elsie/utils/geom.py:5-12 `Rect`; coordinates are exact rationals instead of floats. -/
structure Rect where
  x : Rat
  y : Rat
  width : Rat
  height : Rat
  deriving DecidableEq, Repr

/-- elsie/utils/geom.py:51-57 `Rect.shrink`. -/
def Rect.shrink (r : Rect) (left right top bottom : Rat) : Rect :=
  ⟨r.x + left, r.y + top, r.width - left - right, r.height - top - bottom⟩

end Verif
