import Verif.Model.Debug
import Verif.Spec.Scene
import Verif.Spec.Debug

/-! # Specification: what the frame of a box looks like -/

namespace Verif.Scene.Spec
open Verif.SvgDraw.Spec (readShape meant num)
open Verif.Xml.Spec (linesForest nbsp Forest)

/-- The number belongs to the slide or a box. -/
def isBoxNumber (cs : List Verif.Slide.Call) : Nat → Bool
  | 0 => true
  | k + 1 =>
    match cs[k]? with
    | some (.box _ _) => true
    | _ => false

/-- The rectangle that is drawn: that of the box, but at least a tenth of a pixel wide and high. -/
def visible (r : Rect) : Rect := ⟨r.x, r.y, max r.width (1 / 10), max r.height (1 / 10)⟩

/-- Outlines of boxes in boxes alternate between continuous and two kinds of dashed lines. -/
def dashes (depth : Nat) : Option Str :=
  match depth % 3 with
  | 0 => none
  | 1 => some "4 2".toList
  | _ => some "1 2".toList

/-- A number in a label: whole numbers as they are, others with two decimals. -/
def shownNumber (fmt fmt2 : Rat → Str) (v : Rat) : Str := if v.den = 1 then fmt v else fmt2 v

/-- The label: an arrow to the corner it belongs to, the name (if there is one) and the size. -/
def label (fmt fmt2 : Rat → Str) (name : Str) (depth : Nat) (r : Rect) : Str :=
  [if depth % 2 = 1 then '↖' else '↙', ' '] ++ (if name = [] then [] else name ++ [' ']) ++
    ['['] ++ shownNumber fmt fmt2 r.width ++ [','] ++ shownNumber fmt fmt2 r.height ++ [']']

/-- The base line of the label: just below the upper edge or just above the lower edge. -/
def labelY (depth : Nat) (r : Rect) : Rat := if depth % 2 = 1 then r.y + 63 / 5 else r.y + r.height - 7 / 5

/-- The frame of a box: an outline and a label beginning at the left edge. -/
def Framed (fmt fmt2 : Rat → Str) (read : Str → Option Rat) (name : Str) (depth : Nat) (r : Rect) (F : Forest) : Prop :=
  ∃ as bs line, F = .elem "rect".toList as .nil (.elem "text".toList bs (linesForest [line]) .nil) ∧
    readShape read "rect".toList as = some (meant (.rect (visible r) none none none
      { color := some "#ff00ff".toList, strokeWidth := some 2, dash := dashes depth })) ∧
    num read bs "x" = some r.x ∧ num read bs "y" = some (labelY depth (visible r)) ∧
    bs.lookup "text-anchor".toList = some "start".toList ∧ bs.lookup "transform".toList = none ∧
    line.2.textOf = nbsp (label fmt fmt2 name depth (visible r))

/-- The name and the styles of a box can be written. -/
structure InfoOk (i : BoxInfo) : Prop where
  name : Verif.Xml.Spec.Plain i.name
  dflt : Verif.Xml.Spec.StyleOk i.dflt
  styles : ∀ n s, i.styles n = some s → Verif.Xml.Spec.StyleOk s
  /-- all texts need a line spacing -/
  spacing : i.dflt.lineSpacing ≠ none

end Verif.Scene.Spec
