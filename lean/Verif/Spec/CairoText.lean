import Verif.Spec.DrawText
import Verif.Model.CairoText

/-! # Specification: text and attributes for Cairo -/

namespace Verif.Cairo.Spec
open Verif.Text Verif.Style Verif.Xml.Spec

/-- A style on top of another one: what is set wins. -/
def over (s old : TextStyle) : TextStyle where
  font := s.font <|> old.font
  size := s.size <|> old.size
  align := s.align <|> old.align
  lineSpacing := s.lineSpacing <|> old.lineSpacing
  color := s.color <|> old.color
  bold := s.bold <|> old.bold
  italic := s.italic <|> old.italic
  variantNumeric := s.variantNumeric <|> old.variantNumeric
  opacity := s.opacity <|> old.opacity
  priority := s.priority

/-- The look that results from a stack of styles (innermost first, `none` for a style that is not applied) on top of
the style of the text. -/
def look (base : TextStyle) : List (Option TextStyle) → TextStyle
  | [] => base
  | none :: rest => look base rest
  | some s :: rest => over s (look base rest)

/-- The table without the markers `#name`, which are never applied. -/
def noMarkers (styles : Str → Option TextStyle) (n : Str) : Option TextStyle :=
  if n.head? = some '#' then none else styles n

/-- The characters of a line break of size `n`, when the current line is empty or not: an empty line gets an invisible
space. -/
def breakText : Nat → Bool → Str
  | 0, _ => []
  | n + 1, true => '⠀' :: '\n' :: breakText n true
  | n + 1, false => '\n' :: breakText n true

/-- The characters of a text with their looks. `stack` are the open styles without the style of the text; `empty`: is
the current line empty? -/
def styledChars (styles : Str → Option TextStyle) (base : TextStyle) :
    List (Option TextStyle) → Bool → List Tok → List (Char × TextStyle)
  | _, _, [] => []
  | st, e, .text s :: ts => s.map (fun c => (c, look base st)) ++ styledChars styles base st (e && s.isEmpty) ts
  | st, e, .newline n :: ts =>
    (breakText n e).map (fun c => (c, look base st)) ++ styledChars styles base st (if n = 0 then e else true) ts
  | st, e, .opn n :: ts => styledChars styles base ((styles n).bind (applied (st ++ [some base])) :: st) e ts
  | st, e, .close :: ts => styledChars styles base st.tail e ts

/-- The number of bytes of a text in UTF-8 (Lean's own encoding of strings). -/
def utf8Length (s : Str) : Nat := (String.ofList s).utf8ByteSize

/-- One entry per byte. -/
def bytesOf (l : List (Char × TextStyle)) : List TextStyle := l.flatMap (fun p => List.replicate p.1.utf8Size p.2)

/-- One entry per byte of the ranges. -/
def bytesOfRanges (l : List (TextStyle × Nat × Nat)) : List TextStyle := l.flatMap (fun r => List.replicate (r.2.2 - r.2.1) r.1)

/-- The ranges follow each other from `a` to `b` without gaps. -/
def Covers : Nat → List (TextStyle × Nat × Nat) → Nat → Prop
  | a, [], b => a = b
  | a, r :: rs, b => r.2.1 = a ∧ a ≤ r.2.2 ∧ Covers r.2.2 rs b

/-- The texts of a stream. -/
def textsOf : List Tok → Str
  | [] => []
  | .text s :: ts => s ++ textsOf ts
  | _ :: ts => textsOf ts

end Verif.Cairo.Spec
