import Verif.Spec.Need

/-! # Specification: slides with a header (docs/cookbook/headers.md) -/

namespace Verif.Slide.Spec
open Verif.Layout (BoxArgs fboxArgs)

/-- The arguments of the header (docs/cookbook/headers.md:7): the whole width and `ds` percent of the height. -/
def headerArgs (ds : Str) : BoxArgs := { width := .str ['f', 'i', 'l', 'l'], height := .str (ds ++ ['%']) }

/-- The arguments of the box of the text in the header (docs/cookbook/headers.md:10). -/
def titleArgs (x0 pad : Rat) : BoxArgs := { x := .num x0, padding := some pad }

/-- The function `init_slide` of docs/cookbook/headers.md:5-17, with `ds = "10"`, `x0 = 10` and `pad = 10`; the text has the measured size `tw × th`. The header gets the number 1, the box of its
text 3 and the box that is returned 5. `rect` returns an item, whose `box` is the one of the box it is in (elsie/boxtree/boxitem.py:16-17). -/
def initSlide (ds : Str) (x0 pad tw th : Rat) : List Call :=
  [.box 0 { layout := headerArgs ds }, .shape 1, .box 1 { layout := titleArgs x0 pad }, .text 3 tw th false, .box 0 { layout := fboxArgs {} }]

end Verif.Slide.Spec
