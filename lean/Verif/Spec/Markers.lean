import Verif.Spec.CairoText

/-! # Specification: texts without the markers of inline boxes -/

namespace Verif.Markers.Spec
open Verif.Text

/-- A dummy style: its name begins with `#` (docs/userguide/syntax_highlighting.md:58-60). -/
def isMarker (n : Str) : Bool := n.head? = some '#'

/-- The tokens without those that begin and end markers; `st` says which of the open styles are markers, innermost first. -/
def unmark : List Bool → List Tok → List Tok
  | _, [] => []
  | st, .opn n :: ts => if isMarker n then unmark (true :: st) ts else .opn n :: unmark (false :: st) ts
  | true :: st, .close :: ts => unmark st ts
  | st, .close :: ts => .close :: unmark st.tail ts
  | st, .text s :: ts => .text s :: unmark st ts
  | st, .newline n :: ts => .newline n :: unmark st ts

/-- Neighbouring pieces of text are put together. -/
def joinTexts : List Tok → List Tok
  | [] => []
  | .text s :: ts =>
    match joinTexts ts with
    | .text s' :: r => .text (s ++ s') :: r
    | r => .text s :: r
  | .newline n :: ts => .newline n :: joinTexts ts
  | .opn n :: ts => .opn n :: joinTexts ts
  | .close :: ts => .close :: joinTexts ts

/-- The text without its markers. -/
def without (toks : List Tok) : List Tok := joinTexts (unmark [] toks)

/-- No line break is inside a marker. -/
def BreaksOutside : List Bool → List Tok → Prop
  | _, [] => True
  | st, .opn n :: ts => BreaksOutside (isMarker n :: st) ts
  | st, .close :: ts => BreaksOutside st.tail ts
  | st, .text _ :: ts => BreaksOutside st ts
  | st, .newline _ :: ts => (∀ b ∈ st, b = false) ∧ BreaksOutside st ts

/-- The characters with the attributes around them; elements without such attributes do not count. -/
def visible (l : List (Char × List Verif.Xml.Spec.Attrs)) : List (Char × List Verif.Xml.Spec.Attrs) := l.map fun p => (p.1, p.2.filter (fun a => !a.isEmpty))

end Verif.Markers.Spec
