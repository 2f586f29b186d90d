import Verif.Model.StyleCheck

/-! # What the attributes of a text style may be

From docs/userguide/text.md:10-45 and the docstring in elsie/text/textstyle.py:94-115. -/

namespace Verif.Style.Spec

/-- A Python number. (`True` and `False` are integers of Python.) -/
inductive Number : PyVal → Prop
  | int (n : Int) : Number (.int n)
  | float (q : Rat) : Number (.float q)
  | bool (b : Bool) : Number (.bool b)

/-- The names for the rendering of digits of docs/userguide/text.md:31-40. -/
def digitStyles : List String :=
  ["normal", "ordinal", "slashed-zero", "lining-nums", "oldstyle-nums", "proportinal-nums", "tabular-nums",
    "diagonal-fractions", "stacked-fractions"]

/-- The values an attribute may have besides `None`; the opacity may be any number. -/
inductive Allowed : Str → PyVal → Prop
  | font (s : Str) : Allowed "font".toList (.str s)
  | color (s : Str) : Allowed "color".toList (.str s)
  | size {v : PyVal} : Number v → Allowed "size".toList v
  | lineSpacing {v : PyVal} : Number v → Allowed "line_spacing".toList v
  | bold (b : Bool) : Allowed "bold".toList (.bool b)
  | italic (b : Bool) : Allowed "italic".toList (.bool b)
  | left : Allowed "align".toList (.str "left".toList)
  | middle : Allowed "align".toList (.str "middle".toList)
  | right : Allowed "align".toList (.str "right".toList)
  | digits {s : String} : s ∈ digitStyles → Allowed "variant_numeric".toList (.str s.toList)
  | opacity {v : PyVal} : Number v → Allowed "opacity".toList v
  | priority {v : PyVal} : Number v → Allowed "priority".toList v

/-- The names of the attributes. -/
def names : List Str :=
  ["font", "size", "align", "line_spacing", "color", "bold", "italic", "variant_numeric", "opacity",
    "priority"].map String.toList

/-- The values of an attribute: every attribute but the priority may also be `None`. -/
def Ok (name : Str) (v : PyVal) : Prop :=
  Allowed name v ∨ (v = .none ∧ name ∈ names ∧ name ≠ "priority".toList)

/-- The number a Python number is. -/
inductive Is : PyVal → Rat → Prop
  | int (n : Int) : Is (.int n) n
  | float (q : Rat) : Is (.float q) q
  | true : Is (.bool true) 1
  | false : Is (.bool false) 0

/-- An optional string, number or truth value, and the value for it. -/
inductive Opt {α : Type} (R : PyVal → α → Prop) : PyVal → Option α → Prop
  | none : Opt R .none .none
  | some {v : PyVal} {a : α} : v ≠ .none → R v a → Opt R v (some a)

/-- The style with typed values that a style object stands for. -/
structure Stands (r : Raw) (t : TextStyle) : Prop where
  font : Opt (fun v s => v = .str s) (r .font) t.font
  size : Opt Is (r .size) t.size
  align : Opt (fun v s => v = .str s) (r .align) t.align
  lineSpacing : Opt Is (r .lineSpacing) t.lineSpacing
  color : Opt (fun v s => v = .str s) (r .color) t.color
  bold : Opt (fun v b => v = .bool b) (r .bold) t.bold
  italic : Opt (fun v b => v = .bool b) (r .italic) t.italic
  variantNumeric : Opt (fun v s => v = .str s) (r .variantNumeric) t.variantNumeric
  opacity : Opt Is (r .opacity) t.opacity
  priority : Is (r .priority) t.priority

end Verif.Style.Spec
