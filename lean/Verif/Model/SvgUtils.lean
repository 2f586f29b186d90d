import Verif.Model.Py
import Mathlib.Data.Rat.Defs

/-! # Model of elsie/render/backends/svg/utils.py: ids and sizes of embedded SVG

A document is the list of its elements in the order of `root.iter()`, and an element is the list of its attributes, a dictionary in order. -/

namespace Verif.SvgUtils

/-- The loop of `str.replace(pat, new)`; the first argument counts the characters of a match still to be skipped. `pat` is not empty. -/
def replaceGo (pat new : Str) : Nat → Str → Str
  | _, [] => []
  | k + 1, _ :: s => replaceGo pat new k s
  | 0, c :: s => if pat <+: c :: s then new ++ replaceGo pat new (pat.length - 1) s else c :: replaceGo pat new 0 s

/-- `value.replace(pat, new)`. -/
def replace (pat new value : Str) : Str := replaceGo pat new 0 value

abbrev Attrs := List (Str × Str)

/-- `e.get(name)`. -/
def Attrs.get (e : Attrs) (name : Str) : Option Str := (e.find? (·.1 = name)).map (·.2)

/-- `e.set(name, value)` of an attribute that is already there. -/
def Attrs.set (e : Attrs) (name value : Str) : Attrs := e.map fun a => if a.1 = name then (a.1, value) else a

/-- elsie/render/backends/svg/utils.py:44-46: the id of an element, if it is there and not empty. -/
def elementId (e : Attrs) : Option Str :=
  match e.get "id".toList with
  | some v => if v = [] then none else some v
  | none => none

/-- elsie/render/backends/svg/utils.py:43-46: the list `ids`. -/
def collect (doc : List Attrs) : List Str := doc.filterMap fun e => (elementId e).map ('#' :: ·)

/-- elsie/render/backends/svg/utils.py:43-47: the first loop on one element. -/
def setId (suffix : Str) (e : Attrs) : Attrs :=
  match elementId e with
  | some v => e.set "id".toList (v ++ suffix)
  | none => e

/-- elsie/render/backends/svg/utils.py:52-53: what is set is computed from `value`, not from the `current` value of the attribute. -/
def renameStep (suffix value current i : Str) : Str := if i <:+: value then replace i (i ++ suffix) value else current

/-- elsie/render/backends/svg/utils.py:51-53: the inner loop of the second loop. -/
def renameValue (ids : List Str) (suffix value : Str) : Str := ids.foldl (renameStep suffix value) value

/-- elsie/render/backends/svg/utils.py:41-53 `rename_ids`. -/
def renameIds (doc : List Attrs) (suffix : Str) : List Attrs :=
  (doc.map (setId suffix)).map fun e => e.map fun a => (a.1, renameValue (collect doc) suffix a.2)

/-- elsie/ext/latex.py:124-129: the end of `_render_latex`; `hash` is `hexdigest` of MD5. -/
def latexIds (hash : Str → Str) (text : Str) (doc : List Attrs) : List Attrs := renameIds doc ('-' :: hash text)

/-- `str.isalpha` of one character (ASCII only). -/
def isAlpha (c : Char) : Bool := ('a' ≤ c && c ≤ 'z') || ('A' ≤ c && c ≤ 'Z')

/-- elsie/render/backends/svg/utils.py:25-38 `svg_size_to_pixels`; `float` is the reading of a number, `none` a `ValueError`. -/
def sizeToPixels (float : Str → Option Rat) (text : Str) : Except Err Rat :=
  let suffix := (text.reverse.takeWhile isAlpha).reverse
  let text := (text.reverse.dropWhile isAlpha).reverse
  let factor : Rat :=
    if suffix = "mm".toList then 377953 / 100000
    else if suffix = "cm".toList then 377953 / 10000
    else if suffix = "pt".toList then 133333 / 100000
    else 1
  match float text with
  | some r => .ok (r * factor)
  | none => .error .value

end Verif.SvgUtils
