import Verif.Spec.Need

/-! # Specification: grids (docs/cookbook/grids.md) -/

namespace Verif.Slide.Spec
open Verif.Layout (BoxArgs)

/-- What is put into the box needs, with the paddings, at most `w × h`; there are no images and no stacked boxes in it. -/
def Holds (cs : List Call) (u : Nat) (b : BoxArgs) (w h : Rat) : Prop :=
  stackOf cs u = [] ∧ (∀ p iw ih st, Call.image p iw ih st ∈ cs → p ≠ u) ∧
    ∀ axis, ∀ q ∈ cs.filterMap (asks axis u b), q + padsOf axis b ≤ if axis then w else h

/-- The arguments of a row of the grid: `horizontal=True, p_bottom=gy`. -/
def rowArgs (gy : Rat) : BoxArgs := { horizontal := true, pBottom := some gy }

/-- The arguments of a cell of the grid: `width=w, height=h, p_right=gx`. -/
def cellArgs (w h gx : Rat) : BoxArgs := { width := .num w, height := .num h, pRight := some gx }

/-- The box `p` is a grid of `R` rows and `C` columns: its stacked boxes are the rows, whose stacked boxes are the cells. -/
structure Grid (cs : List Call) (p R C : Nat) (w h gx gy : Rat) (rowId : Nat → Nat) (cellId : Nat → Nat → Nat) : Prop where
  column : row cs p = false
  rows : (stackOf cs p).map (·.1) = (List.range R).map rowId
  made : ∀ r < R, madeBy cs (rowId r) = some (rowArgs gy)
  cells : ∀ r < R, (stackOf cs (rowId r)).map (·.1) = (List.range C).map (cellId r)
  bare : ∀ r < R, ∀ d ∈ cs, match d with | .text q _ _ _ => q ≠ rowId r | .image q _ _ _ => q ≠ rowId r | _ => True
  cellMade : ∀ r < R, ∀ c < C, madeBy cs (cellId r c) = some (cellArgs w h gx)
  fits : ∀ r < R, ∀ c < C, Holds cs (cellId r c) (cellArgs w h gx) w h

/-- The number of the row `r`, if there are `C` columns: each row makes one call, and each cell three. -/
def gridRow (C r : Nat) : Nat := 1 + r * (1 + C * 3)

/-- The number of the cell in the row `r` and the column `c`. -/
def gridCell (C r c : Nat) : Nat := gridRow C r + 1 + c * 3

/-- The calls for one cell (docs/cookbook/grids.md:15-17, 31-33): a box, a rectangle and a text of the measured size in it. -/
def cellCalls (C : Nat) (w h gx : Rat) (tw th : Nat → Nat → Rat) (sh : Nat → Nat → Verif.Show.ShowArg) (r c : Nat) : List Call :=
  [.box (gridRow C r) { layout := cellArgs w h gx, show_ := sh r c }, .shape (gridCell C r c), .text (gridCell C r c) (tw r c) (th r c) false]

/-- The calls for one row (docs/cookbook/grids.md:12-17, 28-34). -/
def rowCalls (C : Nat) (w h gx gy : Rat) (tw th : Nat → Nat → Rat) (sh : Nat → Nat → Verif.Show.ShowArg) (r : Nat) : List Call :=
  .box 0 { layout := rowArgs gy } :: (List.range C).flatMap (cellCalls C w h gx tw th sh r)

/-- The program of docs/cookbook/grids.md:8-17 (with `sh = none`) and 22-34, for any numbers of rows and columns and any sizes. -/
def gridCalls (R C : Nat) (w h gx gy : Rat) (tw th : Nat → Nat → Rat) (sh : Nat → Nat → Verif.Show.ShowArg) : List Call :=
  (List.range R).flatMap (rowCalls C w h gx gy tw th sh)

/-- docs/cookbook/grids.md:31-34 `show=f"{fragment}+"`, where the cells are counted from 1. -/
def gradually (C r c : Nat) : Verif.Show.ShowArg := .str (Nat.toDigits 10 (r * C + c + 1) ++ ['+'])

end Verif.Slide.Spec
