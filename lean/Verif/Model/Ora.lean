import Verif.Model.Xml

/-! # Model of the conversion of ORA files

elsie/render/ora.py, with `svg_begin`, `svg_end` (elsie/render/backends/svg/utils.py:7-23) and `draw_bitmap`
(elsie/render/backends/svg/draw.py:124-141, without rotation). Reading the archive and the pictures is not modelled:
`stack.xml` and the table of sources are given. -/

namespace Verif.Ora
open Verif.Xml

/-- The attributes of an element of `stack.xml` that are looked at (`element.get`). -/
structure Attr where
  visibility : Option Str := some "visible".toList
  x : Option Str := some "0".toList
  y : Option Str := some "0".toList
  opacity : Option Str := some "1.0".toList
  name : Option Str := none
  src : Option Str := none
  deriving DecidableEq, Repr

/-- Children of an element, in the order of the file (top-most first). Elements with other tags are not looked
into. -/
inductive Forest where
  | nil
  | stack (a : Attr) (kids rest : Forest)
  | layer (a : Attr) (rest : Forest)
  | other (rest : Forest)
  deriving DecidableEq, Repr

/-- elsie/render/ora.py:47-54: an entry of `sources`: base64 data, MIME type, bounding box. -/
structure Source where
  data : Str
  mime : Str
  x : Nat
  y : Nat
  w : Nat
  h : Nat
  deriving DecidableEq, Repr

/-- What is given: `str` of a float, `float` of a string, and the dictionary `sources` (an entry `None` is a picture
without any visible pixel). -/
structure Env where
  fmt : Rat → Str
  float : Str → Option Rat
  sources : Str → Option (Option Source)

/-- `float(element.get(...))`. -/
def toFloat (env : Env) : Option Str → Except Err Rat
  | none => .error .type
  | some s =>
    match env.float s with
    | none => .error .value
    | some r => .ok r

/-- `str` of an attribute. -/
def optStr (o : Option Str) : Str := o.getD "None".toList

/-- elsie/render/ora.py:64-65 `_check_visibility`. -/
def visible (a : Attr) : Bool := a.visibility = some "visible".toList

/-- `if opacity < 0.9999: xml.set("opacity", opacity)`. -/
def opacitySet (env : Env) (o : Rat) : List (Str × Str × Bool) :=
  if o < 9999 / 10000 then [("opacity".toList, env.fmt o, true)] else []

/-- elsie/render/ora.py:72-78: the attributes of the group of a stack. -/
def stackSets (env : Env) (a : Attr) : Except Err (List (Str × Str × Bool)) :=
  match toFloat env a.opacity with
  | .error e => .error e
  | .ok o =>
    .ok ((if a.x ≠ some "0".toList ∨ a.y ≠ some "0".toList then
        [("transform".toList, "translate(".toList ++ optStr a.x ++ ", ".toList ++ optStr a.y ++ ")".toList, true)] else []) ++
      opacitySet env o ++ [("inkscape:label".toList, optStr a.name, true)])

/-- elsie/render/ora.py:86-104 and elsie/render/backends/svg/draw.py:128-140: the attributes of the picture of a
layer, `none` if there is nothing to draw. -/
def layerSets (env : Env) (a : Attr) : Except Err (Option (List (Str × Str × Bool))) :=
  match a.src with
  | none => .error .key
  | some s =>
    match env.sources s with
    | none => .error .key
    | some none => .ok none
    | some (some src) =>
      match toFloat env a.opacity with
      | .error e => .error e
      | .ok o =>
        match toFloat env a.x with
        | .error e => .error e
        | .ok x =>
          match toFloat env a.y with
          | .error e => .error e
          | .ok y =>
            .ok (some ([("x".toList, env.fmt (x + src.x), true), ("y".toList, env.fmt (y + src.y), true),
              ("width".toList, natStr src.w, true), ("height".toList, natStr src.h, true),
              ("inkscape:label".toList, optStr a.name, true)] ++ opacitySet env o ++
              [("xlink:href".toList, "data:".toList ++ src.mime ++ ";base64,".toList ++ src.data, false)]))

/-- An element: opened, attributes, content, closed. -/
def block (name : Str) (sets : List (Str × Str × Bool)) (body : List Op) : List Op :=
  .element name :: (sets.map (fun s => .set s.1 s.2.1 s.2.2) ++ (body ++ [.close (some name)]))

/-- elsie/render/ora.py:68-80 `_stack_to_svg`, 83-104 `_layer_to_svg`, 107-112 `_children_to_svg`: the calls of the writer. The
children are visited from the last to the first (`reversed`). -/
def childrenOps (env : Env) : Forest → Except Err (List Op)
  | .nil => .ok []
  | .other rest => childrenOps env rest
  | .layer a rest =>
    match childrenOps env rest with
    | .error e => .error e
    | .ok r =>
      if visible a then
        match layerSets env a with
        | .error e => .error e
        | .ok none => .ok r
        | .ok (some sets) => .ok (r ++ block "image".toList sets [])
      else .ok r
  | .stack a kids rest =>
    match childrenOps env rest with
    | .error e => .error e
    | .ok r =>
      if visible a then
        match stackSets env a with
        | .error e => .error e
        | .ok sets =>
          match childrenOps env kids with
          | .error e => .error e
          | .ok k => .ok (r ++ block "g".toList sets k)
      else .ok r

/-- elsie/render/backends/svg/utils.py:7-18 `svg_begin(xml, width, height, inkscape_namespace=True)`: the
attributes. -/
def svgSets (w h : Option Str) : List (Str × Str × Bool) :=
  [("xmlns".toList, "http://www.w3.org/2000/svg".toList, true),
    ("xmlns:xlink".toList, "http://www.w3.org/1999/xlink".toList, true),
    ("xmlns:inkscape".toList, "http://www.inkscape.org/namespaces/inkscape".toList, true)] ++
  (match w with | some w => [("width".toList, w, true)] | none => []) ++
  (match h with | some h => [("height".toList, h, true)] | none => [])

/-- elsie/render/ora.py:56-61: the SVG text for the children of the root, whose size is `w` and `h`. The calls of the
writer are collected first and then executed; an exception of either kind ends the conversion. -/
def convert (env : Env) (w h : Option Str) (f : Forest) : Except Err Str :=
  match childrenOps env f with
  | .error e => .error e
  | .ok ops =>
    match run {} (block "svg".toList (svgSets w h) ops) with
    | .error e => .error e
    | .ok x => x.toString

end Verif.Ora
