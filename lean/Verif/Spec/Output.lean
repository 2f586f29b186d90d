import Verif.Model.Output

/-! # Specification: what `render` delivers -/

namespace Verif.Book.Spec
open Verif.Cache (World Bytes encode)

/-- What the file of a unit has to contain: what this version of Inkscape makes of its document; for an embedded PDF the file of the user. -/
def content (w : World) (version : Str) (src : Str → Option Bytes) (type : Str) : Out → Option Bytes
  | .sheet (.pdf _ f) => src f
  | .sheet (.page _ _ _ doc) | .grid doc =>
    match w.make version type (.bytes (encode doc)) with
    | .ok b => some b
    | .fails _ => none

/-- An embedded PDF. -/
def isPdf : Out → Bool
  | .sheet (.pdf _ _) => true
  | _ => false

/-- The documented result, for the files of the pages and their contents: the files, if they are not PDFs or are not to be merged; otherwise one document with
them in this order, by PyPDF2 or by `pdfunite file1 file2 … output`. There is no other merger. -/
def expected (dir type output : Str) (merger : Option Str) (files : List File) (parts : List Bytes) : Option Result :=
  if type ≠ "pdf".toList ∨ merger = none then some (.files files)
  else if merger = some "pypdf".toList then some (.written output parts)
  else if merger = some "pdfunite".toList then some (.called ("pdfunite".toList :: files.map (File.path dir) ++ [output]))
  else none

end Verif.Book.Spec
