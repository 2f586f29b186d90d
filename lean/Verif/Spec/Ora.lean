import Verif.Model.Ora
import Verif.Spec.Xml
import Verif.Spec.DrawText

/-! # Specification: pictures of the layers of an ORA file -/

namespace Verif.Ora.Spec
open Verif.Xml.Spec (Attrs attrText OkStr)

/-- All layers with the stacks around them (innermost first), in the order of the file: top-most first. -/
def layers (up : List Attr) : Forest → List (List Attr × Attr)
  | .nil => []
  | .other rest => layers up rest
  | .layer a rest => (up, a) :: layers up rest
  | .stack a kids rest => layers (a :: up) kids ++ layers up rest

/-- The layer can be seen: it and the stacks around it are visible and it is not empty. -/
def Seen (env : Env) (l : List Attr × Attr) : Bool :=
  l.1.all (fun a => a.visibility = some "visible".toList) && (l.2.visibility = some "visible".toList) &&
    (match l.2.src with
      | some s => (match env.sources s with | some (some _) => true | _ => false)
      | none => false)

/-- The pictures of an SVG document with the attributes of the elements around them (innermost first), in the order
in which they are painted. -/
def images (up : List Attrs) : Xml.Spec.Forest → List (List Attrs × Attrs)
  | .nil => []
  | .text _ rest => images up rest
  | .elem n as kids rest => (if n = "image".toList then [(up, as)] else images (as :: up) kids) ++ images up rest

/-- An opacity attribute. -/
def OpacityIs (env : Env) (o : Option Str) (as : Attrs) : Prop :=
  ∃ s r, o = some s ∧ env.float s = some r ∧
    as.lookup "opacity".toList = (if r < 9999 / 10000 then some (attrText (env.fmt r)) else none)

/-- The group of a stack: moved by its offset, with its opacity and name. -/
structure GroupOf (env : Env) (a : Attr) (as : Attrs) : Prop where
  move : as.lookup "transform".toList =
    if a.x = some "0".toList ∧ a.y = some "0".toList then none
    else some (attrText ("translate(".toList ++ a.x.getD "None".toList ++ ", ".toList ++ a.y.getD "None".toList ++ ")".toList))
  opacity : OpacityIs env a.opacity as
  label : as.lookup "inkscape:label".toList = some (attrText (a.name.getD "None".toList))

/-- The picture of a layer: its cropped source at the place of the layer. -/
structure ImageOf (env : Env) (a : Attr) (as : Attrs) : Prop where
  place : ∃ s src x y rx ry, a.src = some s ∧ env.sources s = some (some src) ∧ a.x = some x ∧ a.y = some y ∧
    env.float x = some rx ∧ env.float y = some ry ∧
    as.lookup "x".toList = some (attrText (env.fmt (rx + src.x))) ∧
    as.lookup "y".toList = some (attrText (env.fmt (ry + src.y))) ∧
    as.lookup "width".toList = some (Nat.toDigits 10 src.w) ∧ as.lookup "height".toList = some (Nat.toDigits 10 src.h) ∧
    as.lookup "xlink:href".toList = some (attrText ("data:".toList ++ src.mime ++ ";base64,".toList ++ src.data))
  opacity : OpacityIs env a.opacity as
  label : as.lookup "inkscape:label".toList = some (attrText (a.name.getD "None".toList))

/-- The strings of an element can be written as attributes. -/
def AttrOk (a : Attr) : Prop := ∀ s, (a.x = some s ∨ a.y = some s ∨ a.name = some s) → OkStr s

/-- The strings of all elements can. -/
def StringsOk : Forest → Prop
  | .nil => True
  | .other rest => StringsOk rest
  | .layer a rest => AttrOk a ∧ StringsOk rest
  | .stack a kids rest => AttrOk a ∧ StringsOk kids ∧ StringsOk rest

/-- The strings that come from elsewhere can. -/
structure EnvOk (env : Env) : Prop where
  fmt : ∀ r, OkStr (env.fmt r)
  source : ∀ s src, env.sources s = some (some src) → OkStr src.data ∧ OkStr src.mime

/-- A number. -/
def Numeric (env : Env) (o : Option Str) : Prop := ∃ s r, o = some s ∧ env.float s = some r

/-- Everything visible has the attributes needed. -/
def Readable (env : Env) : Forest → Prop
  | .nil => True
  | .other rest => Readable env rest
  | .layer a rest => (a.visibility = some "visible".toList → ∃ s src, a.src = some s ∧ env.sources s = some src ∧
      (src ≠ none → Numeric env a.opacity ∧ Numeric env a.x ∧ Numeric env a.y)) ∧ Readable env rest
  | .stack a kids rest => (a.visibility = some "visible".toList → Numeric env a.opacity ∧ Readable env kids) ∧ Readable env rest

end Verif.Ora.Spec
