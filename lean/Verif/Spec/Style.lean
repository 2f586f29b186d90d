import Verif.Model.Style

/-! # What styles resolve to

`Resolves` and `ItemShows` say what can be observed of the heap. -/

namespace Verif.Style.Spec

/-- The container resolves the name to this style. -/
def Resolves (h : Heap) (c : Nat) (n : Str) (s : TextStyle) : Prop :=
  ∃ d dict a, h.containers[c]? = some d ∧ h.dicts[d]? = some dict ∧ List.lookup n dict = some a ∧ h.styles[a]? = some s

/-- Text item `i` is drawn with its own style `s`. -/
def ItemStyle (h : Heap) (i : Nat) (s : TextStyle) : Prop :=
  ∃ it, h.items[i]? = some it ∧ h.styles[it.style]? = some s

/-- Text item `i` resolves the inline style `n` to `s`. -/
def ItemResolves (h : Heap) (i : Nat) (n : Str) (s : TextStyle) : Prop :=
  ∃ it dict a, h.items[i]? = some it ∧ h.dicts[it.dict]? = some dict ∧ List.lookup n dict = some a ∧ h.styles[a]? = some s

/-- Nothing that exists in `h` looks different in `h'`, apart possibly from style `n` of container `c`. -/
def SameExcept (h h' : Heap) (c : Option Nat) (n : Str) : Prop :=
  (∀ c' < h.containers.length, ∀ n' s, (¬ (some c' = c ∧ n' = n)) → (Resolves h' c' n' s ↔ Resolves h c' n' s)) ∧
  (∀ i < h.items.length, (∀ s, ItemStyle h' i s ↔ ItemStyle h i s) ∧ ∀ n' s, ItemResolves h' i n' s ↔ ItemResolves h i n' s)

/-- The style argument of a call on container `c` stands for this style: a name for what the container resolves it to, an object for
its present attributes, anything else for nothing. -/
def Means (h : Heap) (c : Nat) : Arg → TextStyle → Prop
  | .name n, s => Resolves h c n s
  | .obj a, s => h.styles[a]? = some s
  | .other, _ => False

/-- The value of one attribute. -/
inductive Value where
  | str (s : Str)
  | num (q : Rat)
  | bool (b : Bool)
  deriving DecidableEq

/-- The attributes of a style with their values (`none`: unspecified). -/
def slot (s : TextStyle) : String → Option Value
  | "font" => s.font.map .str
  | "size" => s.size.map .num
  | "align" => s.align.map .str
  | "line_spacing" => s.lineSpacing.map .num
  | "color" => s.color.map .str
  | "bold" => s.bold.map .bool
  | "italic" => s.italic.map .bool
  | "variant_numeric" => s.variantNumeric.map .str
  | "opacity" => s.opacity.map .num
  | "priority" => some (.num s.priority)
  | _ => none

/-- The keyword arguments that were given, by name. -/
def given (k : Kwargs) : String → Option Value
  | "font" => k.font.map .str
  | "size" => k.size.map .num
  | "align" => k.align.map .str
  | "line_spacing" => k.lineSpacing.map .num
  | "color" => k.color.map .str
  | "bold" => k.bold.map .bool
  | "italic" => k.italic.map .bool
  | "variant_numeric" => k.variantNumeric.map .str
  | "opacity" => k.opacity.map .num
  | "priority" => k.priority.map .num
  | _ => none

/-- `v` has what `s` says, and what `dflt` says about everything on which `s` says nothing. (There is always a priority in `s`.) -/
def Completes (s dflt v : TextStyle) : Prop := ∀ name, slot v name = (slot s name).or (slot dflt name)

end Verif.Style.Spec
