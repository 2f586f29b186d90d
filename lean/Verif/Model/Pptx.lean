import Verif.Model.Output

/-! # Model of elsie/ext/export.py -/

namespace Verif.Book
open Verif.Cache (World Fs Bytes)

/-- What is used of a new presentation (`pptx.Presentation()`): the names of its layouts and the size of its slides. (In the template that comes with the
library, it is 9144000 × 6858000.) -/
structure Template where
  layouts : List Str
  width : Rat
  height : Rat

/-- A slide of the presentation: its layout and the picture on it, with the place and size given to `add_picture`. -/
structure PSlide where
  layout : Str
  image : Bytes
  x : Rat
  y : Rat
  width : Rat
  height : Rat
  deriving DecidableEq

/-- elsie/ext/export.py:9-13: the loop over the layouts, with its `else`. -/
def blankLayout : List Str → Except Err Str
  | [] => .error (.user "Blank layout not found")
  | l :: ls => if l = "Blank".toList then .ok l else blankLayout ls

/-- elsie/ext/export.py:16-18: the loop over the images. `add_picture` reads the file. -/
def addPictures (src : Str → Option Bytes) (s : Fs) (t : Template) (layout : Str) : List File → Except Err (List PSlide)
  | [] => .ok []
  | f :: fs =>
    match readFile src s f with
    | none => .error .fileNotFound
    | some b =>
      match addPictures src s t layout fs with
      | .error e => .error e
      | .ok rest => .ok (⟨layout, b, 0, 0, t.width, t.height⟩ :: rest)

/-- elsie/ext/export.py:4-19 `export_pptx` with Inkscape: the slides that are saved. The arguments for `render` are those of `renderOutput`; `export_type`
cannot be among them, and a merger is not used for this type. (`render` gives a list for it; another result cannot be iterated.) -/
def exportPptx (w : World) (src : Str → Option Bytes) (dir : Str) (fmt : Rat → Str) (s : Fs) (t : Template) (b : Book) (pdfMerger : Option Str)
    (slidesPerPage : Option (Nat × Nat)) (prune : Bool) : Except Err (List PSlide) × Fs :=
  match blankLayout t.layouts with
  | .error e => (.error e, s)
  | .ok layout =>
    match renderOutput w src dir fmt s b "png".toList pdfMerger [] slidesPerPage prune with
    | (.error e, s) => (.error e, s)
    | (.ok (.files images), s) => (addPictures src s t layout images, s)
    | (.ok _, s) => (.error .type, s)

end Verif.Book
