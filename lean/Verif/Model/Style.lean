import Verif.Model.Py
import Mathlib.Data.Rat.Defs

/-! # Model of text styles and style containers

elsie/text/textstyle.py, elsie/text/stylecontainer.py and the places where style tables are handed on
(elsie/boxtree/boxmixin.py:159, 797; elsie/slides/slidedeck.py:156).

Python objects that can be shared are modelled with a heap: `dicts` are the style tables (a table maps
names to addresses of style objects), `styles` the `TextStyle` objects; a container (deck or box) holds
the address of a table, a text item the addresses of its own style and of a table. -/

namespace Verif.Style

/-- elsie/text/textstyle.py:48-78 `TextStyle`. The setters' type checks are Lean types; `align` and
`variant_numeric` are restricted by `_check_choice` and are strings here. -/
structure TextStyle where
  font : Option Str := none
  size : Option Rat := none
  align : Option Str := none
  lineSpacing : Option Rat := none
  color : Option Str := none
  bold : Option Bool := none
  italic : Option Bool := none
  variantNumeric : Option Str := none
  opacity : Option Rat := none
  /-- never `None` (textstyle.py:205-209) -/
  priority : Rat := 0
  deriving DecidableEq, Repr

/-- The keyword arguments of `TextStyle(...)`; `none` if not given (or given as `None`). -/
structure Kwargs where
  font : Option Str := none
  size : Option Rat := none
  align : Option Str := none
  lineSpacing : Option Rat := none
  color : Option Str := none
  bold : Option Bool := none
  italic : Option Bool := none
  variantNumeric : Option Str := none
  opacity : Option Rat := none
  priority : Option Rat := none

/-- elsie/text/textstyle.py:80-125 `TextStyle.__init__`: `priority=0` is the default. (An explicit
`priority=None` raises and is not modelled.) -/
def construct (k : Kwargs) : TextStyle :=
  { font := k.font, size := k.size, align := k.align, lineSpacing := k.lineSpacing, color := k.color
    bold := k.bold, italic := k.italic, variantNumeric := k.variantNumeric, opacity := k.opacity
    priority := k.priority.getD 0 }

/-- elsie/text/textstyle.py:215-221 `TextStyle.update`: `if value is not None: setattr(self, slot, value)`
for every slot. -/
def TextStyle.update (self style : TextStyle) : TextStyle :=
  { font := if style.font.isSome then style.font else self.font
    size := if style.size.isSome then style.size else self.size
    align := if style.align.isSome then style.align else self.align
    lineSpacing := if style.lineSpacing.isSome then style.lineSpacing else self.lineSpacing
    color := if style.color.isSome then style.color else self.color
    bold := if style.bold.isSome then style.bold else self.bold
    italic := if style.italic.isSome then style.italic else self.italic
    variantNumeric := if style.variantNumeric.isSome then style.variantNumeric else self.variantNumeric
    opacity := if style.opacity.isSome then style.opacity else self.opacity
    priority := style.priority }

/-- elsie/text/textstyle.py:223-227 `TextStyle.compose` (on values; a copy is updated). -/
def TextStyle.compose (self style : TextStyle) : TextStyle := self.update style

/-- A `dict` from names to addresses of styles: the newest entry of a name counts. -/
abbrev Dict := List (Str × Nat)

/-- A text item (elsie/text/textboxitem.py:25-34): address of its style and of the style table. -/
structure Item where
  style : Nat
  dict : Nat

/-- All objects. -/
structure Heap where
  styles : List TextStyle
  dicts : List Dict
  /-- `_styles` of the deck (container 0) and of all boxes -/
  containers : List Nat
  items : List Item

/-- A style argument: a name, a `TextStyle` object or something else. -/
inductive Arg where
  | name (n : Str)
  | obj (a : Nat)
  | other

/-- Lookup in a table. -/
def Dict.get (d : Dict) (n : Str) : Option Nat := List.lookup n d

/-- The table of a container. -/
def Heap.dictOf (h : Heap) (c : Nat) : Except Err Dict :=
  match h.containers[c]? with
  | none => .error .index
  | some d =>
    match h.dicts[d]? with
    | none => .error .index
    | some dict => .ok dict

/-- The object at an address. -/
def Heap.style (h : Heap) (a : Nat) : Except Err TextStyle :=
  match h.styles[a]? with
  | none => .error .index
  | some s => .ok s

/-- A new `TextStyle` object: the heap and its address. -/
def Heap.alloc (h : Heap) (s : TextStyle) : Heap × Nat := ({ h with styles := h.styles ++ [s] }, h.styles.length)

/-- elsie/text/textstyle.py:230-244 `compose_style`: what is copied or composed into a new object. -/
def composeValue (h : Heap) (d : Dict) (style : Arg) (full : Bool) : Except Err TextStyle :=
  match style with
  | .other => .error (.user "Invalid type used as a style")
  | .name n =>
    match d.get n with
    | none => .error (.user "Style not found")
    | some a =>
      match h.style a with
      | .error e => .error e
      | .ok s =>
        if n = "default".toList then .ok s
        else if !full then .ok s
        else
          match d.get "default".toList with
          | none => .error .key
          | some b =>
            match h.style b with
            | .error e => .error e
            | .ok dflt => .ok (dflt.compose s)
  | .obj a =>
    match h.style a with
    | .error e => .error e
    | .ok s =>
      if !full then .ok s
      else
        match d.get "default".toList with
        | none => .error .key
        | some b =>
          match h.style b with
          | .error e => .error e
          | .ok dflt => .ok (dflt.compose s)

/-- elsie/text/stylecontainer.py:47-54 `get_style`: a new object. -/
def getStyle (h : Heap) (c : Nat) (style : Arg) (full : Bool) : Except Err (Heap × Nat) :=
  match h.dictOf c with
  | .error e => .error e
  | .ok d =>
    match composeValue h d style full with
    | .error e => .error e
    | .ok s => .ok (h.alloc s)

/-- In-place change of a style object (`s.update(...)` or `s.color = ...`). -/
def mutate (h : Heap) (a : Nat) (f : TextStyle → TextStyle) : Heap := { h with styles := h.styles.modify a f }

/-- `self._styles = self._styles.copy(); self._styles[name] = style`
(elsie/text/stylecontainer.py:19-20, 43-44). -/
def store (h : Heap) (c : Nat) (d : Dict) (name : Str) (a : Nat) : Heap :=
  { h with dicts := h.dicts ++ [(name, a) :: d], containers := h.containers.set c h.dicts.length }

/-- elsie/text/stylecontainer.py:14-21 `update_style`; also returns the stored object. (The first `match`
only says that the argument is an existing object.) -/
def updateStyle (h : Heap) (c : Nat) (name : Str) (style : Nat) : Except Err (Heap × Nat) :=
  match h.style style with
  | .error e => .error e
  | .ok _ =>
    match getStyle h c (.name name) false with
    | .error e => .error e
    | .ok (h1, old) =>
      match h1.style style with
      | .error e => .error e
      | .ok s =>
        let h2 := mutate h1 old (·.update s)
        match h2.dictOf c with
        | .error e => .error e
        | .ok d => .ok (store h2 c d name old, old)

/-- elsie/text/stylecontainer.py:23-45 `set_style`; also returns the stored object. -/
def setStyle (h : Heap) (c : Nat) (name : Str) (style : Nat) (base : Arg) : Except Err (Heap × Nat) :=
  match h.dictOf c with
  | .error e => .error e
  | .ok d =>
    match h.style style with
    | .error e => .error e
    | .ok s =>
      match base with
      | .name b =>
        if b = "default".toList then .ok (store h c d name style, style)
        else
          match getStyle h c base false with
          | .error e => .error e
          | .ok (h1, a) => .ok (store (mutate h1 a (·.update s)) c d name a, a)
      | base =>
        match getStyle h c base false with
        | .error e => .error e
        | .ok (h1, a) => .ok (store (mutate h1 a (·.update s)) c d name a, a)

/-- elsie/boxtree/boxmixin.py:159: a new box shares the table of its parent. -/
def newBox (h : Heap) (parent : Nat) : Except Err Heap :=
  match h.containers[parent]? with
  | none => .error .index
  | some d => .ok { h with containers := h.containers ++ [d] }

/-- elsie/slides/slidedeck.py:151-163: the root box of a new slide gets a copy of the deck's table. -/
def newSlide (h : Heap) : Except Err Heap :=
  match h.dictOf 0 with
  | .error e => .error e
  | .ok d => .ok { h with dicts := h.dicts ++ [d], containers := h.containers ++ [h.dicts.length] }

/-- elsie/boxtree/boxmixin.py:753-793 `text` and 795-799: a text item with the full style and the box's table. -/
def newText (h : Heap) (c : Nat) (style : Arg) : Except Err Heap :=
  match getStyle h c style true with
  | .error e => .error e
  | .ok (h1, a) =>
    match h1.containers[c]? with
    | none => .error .index
    | some d => .ok { h1 with items := h1.items ++ [⟨a, d⟩] }

/-- elsie/slides/slidedeck.py:81-103: a new deck with the given named styles. -/
def newDeck (named : List (Str × TextStyle)) : Heap :=
  { styles := named.map (·.2)
    dicts := [(named.map (·.1)).zipIdx.reverse]
    containers := [0]
    items := [] }

/-- What a user can do. -/
inductive Op where
  | newStyle (s : TextStyle)
  | mutate (a : Nat) (f : TextStyle → TextStyle)
  | get (c : Nat) (style : Arg) (full : Bool)
  | set (c : Nat) (name : Str) (style : Nat) (base : Arg)
  | update (c : Nat) (name : Str) (style : Nat)
  | newBox (parent : Nat)
  | newSlide
  | newText (c : Nat) (style : Arg)

/-- One operation. -/
def exec (h : Heap) : Op → Except Err Heap
  | .newStyle s => .ok (h.alloc s).1
  | .mutate a f => .ok (Style.mutate h a f)
  | .get c style full => (getStyle h c style full).map (·.1)
  | .set c name style base => (setStyle h c name style base).map (·.1)
  | .update c name style => (updateStyle h c name style).map (·.1)
  | .newBox p => Style.newBox h p
  | .newSlide => Style.newSlide h
  | .newText c style => Style.newText h c style

/-- A sequence of operations. -/
def run (h : Heap) : List Op → Except Err Heap
  | [] => .ok h
  | o :: os =>
    match exec h o with
    | .error e => .error e
    | .ok h => run h os

end Verif.Style
