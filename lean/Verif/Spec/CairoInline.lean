import Verif.Model.CairoInline
import Verif.Spec.CairoText
import Verif.Spec.LineBox
import Verif.Spec.TextQuery

/-! # Specification: where the characters of a section are -/

namespace Verif.CairoInline.Spec
open Verif.Text Verif.Style Verif.Cairo.Spec
open Verif.CairoDraw (Layout)
open Verif.Scene (Ext)

/-- A character with its look. -/
abbrev Cell := Char × TextStyle

/-- The width of some characters, each as wide as its font says. -/
def total (adv : Char → TextStyle → Rat) : List Cell → Rat
  | [] => 0
  | c :: cs => adv c.1 c.2 + total adv cs

/-- Characters side by side: the index of the first byte, the position and the width of each. -/
def sideBySide (adv : Char → TextStyle → Rat) : Nat → Rat → List Cell → List (Nat × Rat × Rat)
  | _, _, [] => []
  | off, x, c :: cs => (off, x, adv c.1 c.2) :: sideBySide adv (off + c.1.utf8Size) (x + adv c.1 c.2) cs

/-- The characters at which Pango breaks a line. -/
def separators : List Char := ['\n', '\r', '\u2029']

/-- Pango sets the characters of a line side by side, from left to right, as wide as the font says. (So there is no kerning and no writing from right to left.) -/
def SetsLine (pango : Layout → Glyphs) (adv : Char → TextStyle → Rat) : Prop :=
  ∀ (l : Layout) (cs : List Cell), l.scale = some 1 → cs.map (·.1) = l.text → bytesOfRanges l.ranges = bytesOf cs → (∀ c ∈ l.text, c ∉ separators) →
    pango l = ⟨1, total adv cs, sideBySide adv 0 0 cs⟩

/-- The characters of a text with their looks. -/
def cells (styles : Str → Option TextStyle) (base : TextStyle) (toks : List Tok) : List Cell := styledChars (noMarkers styles) base [] true toks

/-- The section that begins behind `pre` in the text `pre ++ .opn n :: inner ++ .close :: post`, in its first line: the characters of this line are those before the
section, those of the section, and the rest. -/
def InLine (styles : Str → Option TextStyle) (base : TextStyle) (pre : List Tok) (n : Str) (inner post : List Tok) (before sec rest : List Cell) : Prop :=
  ∃ A B more,
    cells styles base (pre ++ .opn n :: inner ++ .close :: post) = A ++ (before ++ sec ++ rest) ++ B ∧
    (A = [] ∨ ∃ A' t, A = A' ++ [('\n', t)]) ∧ (B = [] ∨ ∃ t B', B = ('\n', t) :: B') ∧
    (∀ c ∈ before ++ sec ++ rest, c.1 ≠ '\n') ∧
    cells styles base pre = A ++ before ∧
    cells styles base (pre ++ .opn n :: inner) = A ++ before ++ sec ++ more ∧
    (more = [] ∨ ∃ t m, more = ('\n', t) :: m)

/-- Where Pango begins a line of the given width in a rectangle (`set_width`, `set_alignment`). -/
def lineBegin (r : Rect) (align : Option Str) (width : Rat) : Rat :=
  if align = some "left".toList then r.x
  else if align = some "middle".toList then r.x + (r.width - width) / 2
  else r.x + (r.width - width)

/-- Texts that can be set: a complete style of the text, and only colours that are known. -/
structure Settable (x : Ext) (style : TextStyle) (styles : Str → Option TextStyle) (base : TextStyle) : Prop where
  default : ∃ d, styles "default".toList = some d ∧ base = over style d
  align : style.align = some "left".toList ∨ style.align = some "middle".toList ∨ style.align = some "right".toList
  font : base.font.isSome = true
  size : base.size.isSome = true
  spacing : ∃ s, base.lineSpacing = some s ∧ 1 ≤ s
  color : ∃ c, base.color = some c ∧ x.known c = true
  colors : ∀ n s c, styles n = some s → s.color = some c → x.known c = true

/-- A text as the parser makes it: closed sections, line breaks only as such, and all styles exist. -/
structure Stream (styles : Str → Option TextStyle) (toks : List Tok) : Prop where
  balanced : Verif.Text.Spec.Balanced toks
  breaks : ∀ k, Tok.newline k ∈ toks → k ≠ 0
  texts : ∀ s, Tok.text s ∈ toks → ∀ c ∈ s, c ∉ separators
  known : ∀ n, Tok.opn n ∈ toks → n.head? = some '#' ∨ styles n ≠ none

end Verif.CairoInline.Spec
