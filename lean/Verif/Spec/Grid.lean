import Verif.Model.Grid
import Verif.Spec.Book

/-! # Specification: documents with several pages -/

namespace Verif.Book.Spec
open Verif.Scene.Spec (concat)
open Verif.Xml.Spec (Forest readXml)

/-- The document of a page, if it is not an embedded PDF. -/
def Sheet.doc : Sheet Str → Option Str
  | .page _ _ _ d => some d
  | .pdf _ _ => none

/-- An embedded PDF. -/
def Sheet.isPdf : Sheet Str → Bool
  | .page _ _ _ _ => false
  | .pdf _ _ => true

/-- The document of a grid. -/
def Out.doc : Out → Option Str
  | .sheet _ => none
  | .grid d => some d

/-- What was not changed. -/
def Out.kept : Out → Option (Sheet Str)
  | .sheet s => some s
  | .grid _ => none

/-- A document as large as `cols` × `rows` pages that contains exactly the given pages, row by row: the page `j` is moved by `j % cols`
widths and `j / cols` heights. -/
def GridDoc (read : Str → Option Rat) (rows cols : Nat) (w h : Rat) (pages : List Str) (doc : Str) : Prop :=
  ∃ (as : Verif.Xml.Spec.Attrs) (parts : List Forest),
    '\r' ∉ doc ∧ readXml doc = some (.elem "svg".toList as (concat parts) .nil) ∧
    Verif.SvgDraw.Spec.num read as "width" = some (w * cols) ∧ Verif.SvgDraw.Spec.num read as "height" = some (h * rows) ∧
    as.lookup "viewBox".toList = none ∧
    parts.length = pages.length ∧
    ∀ j page, pages[j]? = some page → ∃ as' G, parts[j]? = some (.elem "g".toList as' G .nil) ∧ readXml page = some G ∧
      Verif.SvgDraw.Spec.readTransform read (as'.lookup "transform".toList) = some [("translate".toList, [(j % cols : Nat) * w, (j / cols : Nat) * h])]

/-- The pages in grids of `rows` × `cols`: as few documents as possible, the pages in their order. Embedded PDFs stay as they are. -/
structure Gridded (read : Str → Option Rat) (rows cols : Nat) (w h : Rat) (sheets : List (Sheet Str)) (outs : List Out) : Prop where
  count : (outs.filterMap Out.doc).length = ((sheets.filterMap Sheet.doc).length + cols * rows - 1) / (cols * rows)
  docs : ∀ k doc, (outs.filterMap Out.doc)[k]? = some doc →
    GridDoc read rows cols w h (((sheets.filterMap Sheet.doc).drop (k * (cols * rows))).take (cols * rows)) doc
  pdfs : outs.filterMap Out.kept = sheets.filter Sheet.isPdf

end Verif.Book.Spec
