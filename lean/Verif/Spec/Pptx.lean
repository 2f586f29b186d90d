import Verif.Model.Pptx
import Verif.Spec.Output

/-! # Specification: presentations made of a deck -/

namespace Verif.Book.Spec
open Verif.Cache (World Bytes)

/-- A slide that shows the export of a unit: a blank slide with this picture over the whole slide. -/
structure Shows (w : World) (version : Str) (src : Str → Option Bytes) (t : Template) (u : Out) (p : PSlide) : Prop where
  blank : p.layout = "Blank".toList
  image : some p.image = content w version src "png".toList u
  place : p.x = 0 ∧ p.y = 0
  cover : p.width = t.width ∧ p.height = t.height

/-- The size of the documents of a deck, alone or `cx` × `cy` on a sheet. -/
def sheetSize (b : Book) : Option (Nat × Nat) → Rat × Rat
  | none => (b.width, b.height)
  | some (cx, cy) => (b.width * cx, b.height * cy)

/-- The picture has the proportions of what it shows. -/
def InProportion (size : Rat × Rat) (p : PSlide) : Prop := p.width * size.2 = p.height * size.1

end Verif.Book.Spec
