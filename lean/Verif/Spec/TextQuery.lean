import Verif.Model.TextQuery
import Verif.Spec.DrawText

/-! # Specification: what part of a document is measured -/

namespace Verif.TextQuery.Spec
open Verif.Text Verif.Xml Verif.Xml.Spec

/-- The texts of the elements with the given id. -/
def found (id : Str) : Forest → List Str
  | .nil => []
  | .text _ r => found id r
  | .elem _ as k r => (if as.lookup "id".toList = some id then [k.textOf] else []) ++ found id k ++ found id r

/-- The text of a section up to the end of its first line; the tokens are those behind its begin, `d` is the number of sections
opened since. -/
def sectionLine : Nat → List Tok → Str
  | _, [] => []
  | _, .newline _ :: _ => []
  | d, .text s :: ts => s ++ sectionLine d ts
  | d, .opn _ :: ts => sectionLine (d + 1) ts
  | 0, .close :: _ => []
  | d + 1, .close :: ts => sectionLine d ts

/-- The number of line breaks before a token. -/
def breaksBefore (toks : List Tok) (i : Nat) : Nat := (breaks (toks.take i)).length

/-- A document that is one `svg` element. -/
def InSvg (doc : Str) (F : Forest) : Prop :=
  readXml doc = some (.elem "svg".toList [("xmlns".toList, "http://www.w3.org/2000/svg".toList),
    ("xmlns:xlink".toList, "http://www.w3.org/1999/xlink".toList)] F .nil)

end Verif.TextQuery.Spec
