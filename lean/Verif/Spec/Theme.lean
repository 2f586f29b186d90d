import Verif.Spec.CairoText
import Verif.Spec.Code
import Verif.Model.Theme

/-! # Specification: the colours of highlighted code

Of the model only the data are used: themes and the table of a new deck. -/

namespace Verif.Highlight.Spec
open Verif.Text Verif.Style Verif.Xml.Spec

/-- A style changed by what a theme says: its colour, bold and italic. -/
def painted (e : Entry) (base : TextStyle) : TextStyle :=
  { base with
    color := match e.color with
      | some (c :: cs) => some ('#' :: c :: cs)
      | _ => base.color
    bold := if e.bold then some true else base.bold
    italic := if e.italic then some true else base.italic }

/-- How a token of type `τ` has to look when the code has the look `base`. -/
def colours (theme : Theme) (base : TextStyle) (τ : Str) : TextStyle :=
  match theme.lookup τ with
  | none => base
  | some e => painted e base

/-- Characters that are seen: not line breaks, nor the placeholder that Cairo gets for an empty line. -/
def visible (c : Char) : Bool := c != '\n' && c != '⠀'

/-- The seen characters of a display. -/
def seen {α : Type} (l : List (Char × α)) : List (Char × α) := l.filter (fun p => visible p.1)

/-- The characters of the tokens of a lexer, each as the theme says. -/
def inColours (theme : Theme) (base : TextStyle) (vals : List (Str × Str)) : List (Char × TextStyle) :=
  vals.flatMap (fun v => v.2.map (fun c => (c, colours theme base v.1)))

/-- A table in which the styles for tokens are those of a new deck. -/
def Themed (theme : Theme) (styles : Str → Option TextStyle) : Prop :=
  ∀ τ, styles ("pygments-".toList ++ τ) = (deckStyles theme).get ("pygments-".toList ++ τ)

/-- Every token, except single line breaks, has a type that the theme knows. -/
def Known (theme : Theme) (vals : List (Str × Str)) : Prop :=
  ∀ v ∈ vals, v.2 ≠ ['\n'] → ∃ e, (v.1, e) ∈ theme

/-- The characters of the tokens of a lexer with their types. -/
def typed (vals : List (Str × Str)) : List (Char × Str) := vals.flatMap (fun v => v.2.map (fun c => (c, v.1)))

/-- Code with styles of the user: `L` are the characters with their looks, then the types of their tokens, then the styles
that the user put there (at most one). Without a style, or with a marker `#name`, a character has the look that the theme says;
with a style it has everything that the style sets, on top of the look of the code, with or without what the theme says. -/
inductive Dressed (theme : Theme) (styles : Str → Option TextStyle) (base : TextStyle) :
    List (Char × TextStyle) → List (Char × Str) → List (Char × List Str) → Prop where
  | nil : Dressed theme styles base [] [] []
  | plain {L T U} (c : Char) (τ : Str) (σ : List Str) : (σ = [] ∨ ∃ m, σ = ['#' :: m]) → Dressed theme styles base L T U →
      Dressed theme styles base ((c, colours theme base τ) :: L) ((c, τ) :: T) ((c, σ) :: U)
  | styled {L T U} (c : Char) (τ u : Str) (s look : TextStyle) : u.head? ≠ some '#' → styles u = some s →
      (look = Verif.Cairo.Spec.over s base ∨ look = Verif.Cairo.Spec.over s (colours theme base τ)) → Dressed theme styles base L T U →
      Dressed theme styles base ((c, look) :: L) ((c, τ) :: T) ((c, [u]) :: U)

end Verif.Highlight.Spec
