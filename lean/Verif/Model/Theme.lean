import Verif.Model.Code
import Verif.Model.Style

/-! # Model of the styles of a new deck

elsie/text/highlight.py (`make_highlight_styles`) and elsie/slides/slidedeck.py:81-103. -/

namespace Verif.Highlight
open Verif.Style

/-- What a pygments theme says about a token type, as far as elsie reads it (`bgcolor`, `underline`, `border` and the rest
are not used). `color = none` is Python's `None`. -/
structure Entry where
  color : Option Str := none
  bold : Bool := false
  italic : Bool := false
  deriving DecidableEq, Repr

/-- `get_style_by_name(pygments_style)` of pygments (external library) when it is iterated: token types, written as
`str(token)`, and entries. -/
abbrev Theme := List (Str × Entry)

/-- elsie/text/highlight.py:43-49: the style of an entry. -/
def entryStyle (e : Entry) : TextStyle :=
  let style : TextStyle := construct {}
  let style := match e.color with
    | none => style
    | some c => if c = [] then style else { style with color := some ('#' :: c) }
  let style := if e.bold then { style with bold := some true } else style
  if e.italic then { style with italic := some true } else style

/-- A `dict` from names to styles; the newest entry counts, so it is in front. -/
abbrev Table := List (Str × TextStyle)

/-- elsie/text/highlight.py:40-51 `make_highlight_styles`. -/
def makeHighlightStyles (theme : Theme) : Table :=
  theme.foldl (fun results e => ("pygments-".toList ++ e.1, entryStyle e.2) :: results) []

/-- elsie/slides/slidedeck.py:82-89. -/
def defaultStyle : TextStyle :=
  construct {
    font := some "sans-serif".toList
    color := some "black".toList
    size := some 28
    lineSpacing := some (6 / 5)
    align := some "middle".toList
    variantNumeric := some "lining-nums".toList }

/-- elsie/slides/slidedeck.py:93-99. -/
def codeStyle : TextStyle :=
  construct {
    font := some "monospace".toList
    align := some "left".toList
    color := some "#222".toList
    lineSpacing := some (6 / 5)
    size := some 20 }

/-- elsie/slides/slidedeck.py:81-101: the styles of a deck before those of the theme. -/
def ownStyles : Table :=
  [("default".toList, defaultStyle), ("tt".toList, construct { font := some "monospace".toList }),
   ("emph".toList, construct { italic := some true }),
   ("alert".toList, construct { bold := some true, color := some "red".toList }),
   ("code".toList, codeStyle), ("code_lineno".toList, construct { color := some "gray".toList })]

/-- elsie/slides/slidedeck.py:81-102: `styles.update(make_highlight_styles(pygments_theme))`. -/
def deckStyles (theme : Theme) : Table := makeHighlightStyles theme ++ ownStyles

/-- `styles.get(name)`. -/
def Table.get (t : Table) (name : Str) : Option TextStyle := List.lookup name t

/-- elsie/boxtree/boxmixin.py:750 with elsie/text/textstyle.py:230-244: `get_style(name, full_style=True)`. -/
def fullStyle (t : Table) (name : Str) : Except Err TextStyle :=
  match t.get name with
  | none => .error (.user "Style not found")
  | some s =>
    if name = "default".toList then .ok s
    else
      match t.get "default".toList with
      | none => .error .key
      | some d => .ok (d.compose s)

end Verif.Highlight
