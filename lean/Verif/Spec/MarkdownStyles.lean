import Verif.Model.MarkdownStyles
import Verif.Spec.MarkdownBlocks
import Verif.Spec.Style

/-! # Specification: the styles of Markdown documents -/

namespace Verif.Markdown.Spec
open Verif.Style (TextStyle Heap)
open Verif.Style.Spec (Resolves)

/-- The predefined styles. -/
def predefined : List (Str × TextStyle) :=
  [("md-paragraph".toList, { align := some "left".toList }),
   ("md-bold".toList, { align := some "left".toList, bold := some true }),
   ("md-italic".toList, { align := some "left".toList, italic := some true }),
   ("md-link".toList, { align := some "left".toList, color := some "#0EBFE9".toList }),
   ("md-blockquote".toList, { align := some "left".toList, color := some "#A9A9A9".toList }),
   ("md-h1".toList, { align := some "left".toList, size := some 40 }),
   ("md-h2".toList, { align := some "left".toList, size := some 38 }),
   ("md-h3".toList, { align := some "left".toList, size := some 36 }),
   ("md-h4".toList, { align := some "left".toList, size := some 34 }),
   ("md-h5".toList, { align := some "left".toList, size := some 32 }),
   ("md-h6".toList, { align := some "left".toList, size := some 30 })]

/-- The style with a name for a document in the box `c`: that of the box if it has one, otherwise the predefined one. -/
def Named (h : Heap) (c : Nat) (n : Str) (s : TextStyle) : Prop :=
  Resolves h c n s ∨ (∀ t, ¬ Resolves h c n t) ∧ (n, s) ∈ predefined

/-- What is written, as seen: a style over another one (given attributes win). -/
def over (below above : TextStyle) : TextStyle :=
  { font := above.font.or below.font, size := above.size.or below.size, align := above.align.or below.align
    lineSpacing := above.lineSpacing.or below.lineSpacing, color := above.color.or below.color, bold := above.bold.or below.bold
    italic := above.italic.or below.italic, variantNumeric := above.variantNumeric.or below.variantNumeric, opacity := above.opacity.or below.opacity
    priority := above.priority }

/-- The style of a text in a document in the box `c`, in a quotation or not: the default style of the box, in quotations with the style for quotations over it, and
over that the style of the text. (The labels of list items have no other style.) -/
def Wears (h : Heap) (c : Nat) (quoted : Bool) (name : Str) (v : TextStyle) : Prop :=
  ∃ D B, Resolves h c "default".toList D ∧ Named h c "md-blockquote".toList B ∧
    if name = "default".toList then v = (if quoted then over D B else D)
    else ∃ S, Named h c name S ∧ v = over (if quoted then over D B else D) S

end Verif.Markdown.Spec
