import Verif.Model.Py
import Verif.Model.TextParser
import Verif.Model.Style

/-! # Model of the XML writer and of text drawing in SVG

elsie/utils/sxml.py and elsie/render/backends/svg/draw.py (`set_font_from_style`, `draw_text`). -/

namespace Verif.Xml
open Verif.Text Verif.Style

/-- `s.replace(c, by)` for a pattern of one character. -/
def replaceChar (c : Char) (r : Str) (s : Str) : Str := s.flatMap (fun x => if x = c then r else [x])

/-- elsie/utils/sxml.py:61-65 `escape_text`. -/
def escapeText (s : Str) : Str :=
  replaceChar '>' "&gt;".toList (replaceChar '<' "&lt;".toList (replaceChar '&' "&amp;".toList s))

/-- elsie/utils/sxml.py:1-5 `Xml`; the stack has the innermost element first. -/
structure Xml where
  chunks : List Str := []
  stack : List Str := []
  isOpen : Bool := false

/-- elsie/utils/sxml.py:7-10 `_close`. -/
def Xml.closeTag (x : Xml) : Xml :=
  if x.isOpen then { x with chunks := x.chunks ++ [['>']], isOpen := false } else x

/-- The calls of the writer. -/
inductive Op where
  | raw (text : Str)
  | element (name : Str)
  | set (name value : Str) (escape : Bool)
  | text (t : Str)
  | close (name : Option Str)
  deriving DecidableEq

/-- elsie/utils/sxml.py:12-48: `raw_text`, `element`, `set`, `text`, `close`. Values are strings (`str(value)` is
applied by the code, lines 26 and 31). -/
def exec (x : Xml) : Op → Except Err Xml
  | .raw t => let x := x.closeTag; .ok { x with chunks := x.chunks ++ [t] }
  | .element n =>
    let x := x.closeTag
    .ok { chunks := x.chunks ++ [['<'], n], stack := n :: x.stack, isOpen := true }
  | .set n v esc =>
    if !x.isOpen then .error .assertion
    else
      let v := if esc then replaceChar '\'' "\\'".toList v else v
      .ok { x with chunks := x.chunks ++ [[' '] ++ n ++ "='".toList ++ escapeText v ++ ['\'']] }
  | .text t =>
    let x := x.closeTag
    .ok { x with chunks := x.chunks ++ [replaceChar ' ' "&#160;".toList (escapeText t)] }
  | .close arg =>
    match x.stack with
    | [] => .error .assertion
    | n :: rest =>
      if arg ≠ none ∧ arg ≠ some n then .error (.user "Expects another element on stack")
      else if x.isOpen then .ok { chunks := x.chunks ++ [" />".toList], stack := rest, isOpen := false }
      else .ok { x with chunks := x.chunks ++ [['<', '/'], n, ['>']], stack := rest }

/-- A sequence of calls. -/
def run (x : Xml) : List Op → Except Err Xml
  | [] => .ok x
  | o :: os =>
    match exec x o with
    | .error e => .error e
    | .ok x => run x os

/-- elsie/utils/sxml.py:50-52 `to_string`. -/
def Xml.toString (x : Xml) : Except Err Str :=
  if x.stack.length = 0 then .ok x.chunks.flatten else .error .assertion

/-! ### draw_text -/

/-- elsie/render/backends/svg/draw.py:8-25 `set_font_from_style`; `fmt` is `str` on numbers. -/
def fontOps (fmt : Rat → Str) (s : TextStyle) : List Op :=
  let style :=
    (match s.color with | some c => "fill:".toList ++ c ++ ";".toList | none => []) ++
    (match s.opacity with | some o => "fill-opacity:".toList ++ fmt o ++ ";".toList | none => []) ++
    (if s.bold = some true then "font-weight: bold;".toList else []) ++
    (if s.italic = some true then "font-style: italic;".toList else [])
  (match s.font with | some f => [.set "font-family".toList f true] | none => []) ++
  (match s.size with | some z => [.set "font-size".toList (fmt z) true] | none => []) ++
  (if style ≠ [] then [.set "style".toList style true] else [])

/-- The arguments of `draw_text` that stay the same in the loop. -/
structure Env where
  fmt : Rat → Str
  x : Str
  y : Str
  style : TextStyle
  /-- `styles.get` -/
  styles : Str → Option TextStyle
  id : Option Str
  idIndex : Option Nat
  transform : Option Str
  lineSize : Rat

/-- The state of the loop of `draw_text`; `active` has the innermost style first. -/
structure DrawSt where
  xml : Xml
  active : List (Option TextStyle)
  prio : Rat

/-- elsie/render/backends/svg/draw.py:85-92: reopening one style after a line break. -/
def reopenOps (env : Env) (n : Nat) : Nat × Option TextStyle → List Op
  | (_, none) => []
  | (j, some s) =>
    [.element "tspan".toList, .set "xml:space".toList "preserve".toList true] ++
    (if j = 0 then [.set "x".toList env.x true, .set "dy".toList (env.fmt (env.lineSize * n)) true] else []) ++
    fontOps env.fmt s

/-- `enumerate`. -/
def enumerate {α : Type} (l : List α) : List (Nat × α) := l.zipIdx.map (fun p => (p.2, p.1))

/-- elsie/render/backends/svg/draw.py:82-92: a line break. -/
def newlineOps (env : Env) (n : Nat) (active : List (Option TextStyle)) : List Op :=
  active.map (fun _ => .close (some "tspan".toList)) ++ (enumerate active.reverse).flatMap (reopenOps env n)

/-- elsie/render/backends/svg/draw.py:104-109: opening a style. -/
def beginOps (env : Env) (i : Nat) (s : Option TextStyle) : List Op :=
  [.element "tspan".toList] ++
  (match env.id with | some id => if env.idIndex = some i then [.set "id".toList id true] else [] | none => []) ++
  [.set "xml:space".toList "preserve".toList true] ++
  (match s with | some s => fontOps env.fmt s | none => [])

/-- elsie/render/backends/svg/draw.py:96-103: the style looked up, dropped if the current priority is higher. -/
def pick (prio : Rat) : Option TextStyle → Option TextStyle
  | none => none
  | some s => if prio > s.priority then none else some s

/-- elsie/render/backends/svg/draw.py:113-114: the new priority, that of the style that is now the last active one; it
is left alone if there is none. -/
def updPrio (prio : Rat) : Option (Option TextStyle) → Rat
  | some (some s) => s.priority
  | _ => prio

/-- elsie/render/backends/svg/draw.py:79-116: one token. -/
def drawTok (env : Env) (i : Nat) (st : DrawSt) : Tok → Except Err DrawSt
  | .text t =>
    match run st.xml [.text t] with
    | .error e => .error e
    | .ok xml => .ok { st with xml := xml }
  | .newline n =>
    match run st.xml (newlineOps env n st.active) with
    | .error e => .error e
    | .ok xml => .ok { st with xml := xml }
  | .opn name =>
    if env.styles name = none ∧ name.head? ≠ some '#' then .error (.user "Style not found")
    else
      match run st.xml (beginOps env i (pick st.prio (env.styles name))) with
      | .error e => .error e
      | .ok xml =>
        .ok { xml := xml, active := pick st.prio (env.styles name) :: st.active
              prio := updPrio st.prio (some (pick st.prio (env.styles name))) }
  | .close =>
    match run st.xml [.close (some "tspan".toList)] with
    | .error e => .error e
    | .ok xml =>
      match st.active with
      | [] => .error .index
      | _ :: rest => .ok { xml := xml, active := rest, prio := updPrio st.prio rest.head? }

/-- elsie/render/backends/svg/draw.py:78-116: the loop. -/
def drawLoop (env : Env) : Nat → DrawSt → List Tok → Except Err DrawSt
  | _, st, [] => .ok st
  | i, st, t :: ts =>
    match drawTok env i st t with
    | .error e => .error e
    | .ok st => drawLoop env (i + 1) st ts

/-- elsie/render/backends/svg/draw.py:63-65 `anchor[style.align]`. -/
def anchor (a : Option Str) : Except Err Str :=
  if a = some "left".toList then .ok "start".toList
  else if a = some "middle".toList then .ok "middle".toList
  else if a = some "right".toList then .ok "end".toList
  else .error .key

/-- elsie/render/backends/svg/draw.py:54-55: the id of the whole text. -/
def idOps (env : Env) : List Op :=
  match env.id with
  | some id => if env.idIndex = none then [.set "id".toList id true] else []
  | none => []

/-- elsie/render/backends/svg/draw.py:60-61: the transformation. -/
def transformOps (env : Env) : List Op :=
  match env.transform with
  | some t => [.set "transform".toList t true]
  | none => []

/-- elsie/render/backends/svg/draw.py:73-74: the variant of digits. -/
def variantOps (env : Env) : List Op :=
  match env.style.variantNumeric with
  | some v => if v ≠ [] then [.set "font-variant-numeric".toList v true] else []
  | none => []

/-- elsie/render/backends/svg/draw.py:52-74: the opening of the text and of its first line. -/
def headOps (env : Env) (anchor : Str) : List Op :=
  [.element "text".toList] ++
  idOps env ++ [.set "x".toList env.x true, .set "y".toList env.y true] ++ transformOps env ++
  [.set "text-anchor".toList anchor true] ++ fontOps env.fmt env.style ++
  [.element "tspan".toList] ++ variantOps env

/-- elsie/render/backends/svg/draw.py:48-121 `draw_text`. The computation of the line size (line 69) is done
before the first call on the writer here; it raises `TypeError` if a number is missing. -/
def drawText (env : Env) (xml : Xml) (toks : List Tok) : Except Err Xml :=
  match anchor env.style.align with
  | .error e => .error e
  | .ok a =>
    match run xml (headOps env a) with
    | .error e => .error e
    | .ok xml =>
      match drawLoop env 0 { xml := xml, active := [some env.style], prio := env.style.priority } toks with
      | .error e => .error e
      | .ok st =>
        run st.xml ((st.active.reverse.filter Option.isSome).map (fun _ => .close (some "tspan".toList)) ++
          [.close (some "text".toList)])

/-- The environment of a call, with `line_size = style.size * style.line_spacing` (line 69). -/
def mkEnv (fmt : Rat → Str) (x y : Str) (style : TextStyle) (styles : Str → Option TextStyle) (id : Option Str)
    (idIndex : Option Nat) (transform : Option Str) : Except Err Env :=
  match style.size, style.lineSpacing with
  | some a, some b => .ok { fmt, x, y, style, styles, id, idIndex, transform, lineSize := a * b }
  | _, _ => .error .type

end Verif.Xml
