import Verif.Model.Book

/-! # Model of several pages on one sheet

elsie/render/render.py:64-112 `per_page_grouping`, with the documents it writes (Model/Deck.lean has only which pages go where). -/

namespace Verif.Book
open Verif.Xml (Xml Op)

/-- A render unit after grouping: as it was, or a new document (`SvgRenderUnit(None, None, svg, …)`). -/
inductive Out where
  | sheet (s : Sheet Str)
  | grid (doc : Str)

/-- elsie/render/render.py:70-73 `new`. -/
def gridNew (fmt : Rat → Str) (cx cy : Nat) (width height : Rat) : Except Err Xml :=
  Verif.Xml.run {} (.element "svg".toList :: (Verif.SvgDraw.svgSets fmt (width * cx) (height * cy) none).map (fun a => Op.set a.1 a.2.1 a.2.2))

/-- elsie/render/render.py:75-80 `close`, with elsie/render/backends/svg/utils.py:21-22 `svg_end`. -/
def gridClose (xml : Xml) (idx : Nat) (new : List Out) : Except Err (List Out) :=
  if idx > 0 then
    match Verif.Xml.run xml [.close (some "svg".toList)] with
    | .error e => .error e
    | .ok xml =>
      match xml.toString with
      | .error e => .error e
      | .ok doc => .ok (new ++ [.grid doc])
  else .ok new

/-- elsie/render/render.py:102-108: one page in the grid. -/
def gridCell (fmt : Rat → Str) (cx : Nat) (width height : Rat) (xml : Xml) (idx : Nat) (svg : Str) : Except Err Xml :=
  let x : Rat := (idx % cx : Nat) * width
  let y : Rat := (idx / cx : Nat) * height
  Verif.Xml.run xml [.element "g".toList, .set "transform".toList ("translate(".toList ++ fmt x ++ ", ".toList ++ fmt y ++ ")".toList) true,
    .raw svg, .close (some "g".toList)]

/-- elsie/render/render.py:91-110: the loop; `get_svg` of an embedded PDF is `None`. -/
def gridLoop (fmt : Rat → Str) (cx cy : Nat) (width height : Rat) : List (Sheet Str) → List Out → Xml → Nat → Except Err (List Out)
  | [], new, xml, idx => gridClose xml idx new
  | .pdf u f :: us, new, xml, idx => gridLoop fmt cx cy width height us (new ++ [.sheet (.pdf u f)]) xml idx
  | .page _ _ _ svg :: us, new, xml, idx =>
    if idx = cx * cy then
      match gridClose xml idx new with
      | .error e => .error e
      | .ok new =>
        match gridNew fmt cx cy width height with
        | .error e => .error e
        | .ok xml =>
          match gridCell fmt cx width height xml 0 svg with
          | .error e => .error e
          | .ok xml => gridLoop fmt cx cy width height us new xml 1
    else
      match gridCell fmt cx width height xml idx svg with
      | .error e => .error e
      | .ok xml => gridLoop fmt cx cy width height us new xml (idx + 1)

/-- elsie/render/render.py:82-112. -/
def gridSheets (fmt : Rat → Str) (cx cy : Nat) (width height : Rat) (units : List (Sheet Str)) : Except Err (List Out) :=
  if cx = 0 then .error .assertion
  else if cy = 0 then .error .assertion
  else if cx * cy = 1 then .ok (units.map .sheet)
  else
    match gridNew fmt cx cy width height with
    | .error e => .error e
    | .ok xml => gridLoop fmt cx cy width height units [] xml 0

/-- elsie/slides/slidedeck.py:317-362 `render(return_units=True, slides_per_page=…)` with Inkscape. -/
def renderUnits (fmt : Rat → Str) (b : Book) (exportPdf : Bool) (slidesPerPage : Option (Nat × Nat)) : Except Err (List Out) :=
  match renderSvg fmt b exportPdf with
  | .error e => .error e
  | .ok sheets =>
    match slidesPerPage with
    | none => .ok (sheets.map .sheet)
    | some (cx, cy) => gridSheets fmt cx cy b.width b.height sheets

end Verif.Book
