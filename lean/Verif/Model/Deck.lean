import Verif.Model.Py

/-! # Model of the slide deck

elsie/slides/slidedeck.py (creation of slides, list of pages), elsie/slides/slide.py (`ExternPdfSlide`) and
elsie/render/render.py (`per_page_grouping`, debug files). -/

namespace Verif.Deck

/-- The `name` argument: `None`, a string, or something else. -/
inductive Name where
  | none
  | str (n : Str)
  | other
  deriving DecidableEq, Repr

/-- The policies left after `"auto"` is resolved (elsie/slides/slidedeck.py:67-74). -/
inductive Policy where
  | unique
  | ignore
  | replace
  deriving DecidableEq, Repr

/-- elsie/slides/slidedeck.py:67-74: the value of `name_policy` that is stored. -/
def resolvePolicy (s : Str) (insideNotebook : Bool) : Except Err Policy :=
  if s = "auto".toList then .ok (if insideNotebook then .replace else .ignore)
  else if s = "unique".toList then .ok .unique
  else if s = "ignore".toList then .ok .ignore
  else if s = "replace".toList then .ok .replace
  else .error (.user "Invalid value for name_policy")

/-- An element of `SlideDeck._slides`: a slide (`uid` is its identity, `index` and `name` its attributes), or an
external PDF, which has no attribute `name`. -/
inductive Entry where
  | slide (uid index : Nat) (name : Name)
  | pdf (uid : Nat) (filename : Str)
  deriving DecidableEq, Repr

structure Deck where
  policy : Policy
  slides : List Entry := []
  next : Nat := 0

/-- elsie/slides/slidedeck.py:117-121 `get_slide_by_name`; the identity of the slide found. -/
def getByName (n : Str) : List Entry → Except Err (Option Nat)
  | [] => .ok none
  | .pdf _ _ :: _ => .error .attribute
  | .slide u _ m :: rest => if m = .str n then .ok (some u) else getByName n rest

/-- The identity of an entry. -/
def Entry.uid : Entry → Nat
  | .slide u _ _ => u
  | .pdf u _ => u

/-- `self._slides.remove(slide)` (comparison by identity). -/
def remove (u : Nat) : List Entry → List Entry
  | [] => []
  | e :: rest => if e.uid = u then rest else e :: remove u rest

/-- elsie/slides/slidedeck.py:239-261 `_apply_name_policy`: the slides left, or the exception. -/
def applyNamePolicy (d : Deck) (name : Name) : Except Err (List Entry) :=
  if d.policy = .ignore then .ok d.slides
  else
    match name with
    | .none =>
      if d.policy = .unique then .ok d.slides
      else .error (.user "Slide needs an explicit name")
    | .other => .error (.user "Slide name has to be a string or None")
    | .str n =>
      match getByName n d.slides with
      | .error e => .error e
      | .ok none => .ok d.slides
      | .ok (some u) =>
        if d.policy = .unique then .error (.user "Slide with this name already exists")
        else .ok (remove u d.slides)

/-- The calls that add something to the deck. -/
inductive Call where
  /-- `new_slide(name, view_box=...)`; `viewOk` says that `view_box` is acceptable -/
  | newSlide (name : Name) (viewOk : Bool)
  | addPdf (filename : Str)

/-- elsie/slides/slidedeck.py:123-171 `new_slide`, 214-216 `add_pdf`: the new deck and the exception, if any. -/
def exec (d : Deck) : Call → Deck × Option Err
  | .newSlide name viewOk =>
    if !viewOk then (d, some (.user "view_box has to be None or tuple of four numbers (x, y, width, height)"))
    else
      match applyNamePolicy d name with
      | .error e => (d, some e)
      | .ok slides =>
        ({ d with slides := slides ++ [.slide d.next slides.length name], next := d.next + 1 }, none)
  | .addPdf f => ({ d with slides := d.slides ++ [.pdf d.next f], next := d.next + 1 }, none)

/-- A history of calls, whose exceptions are caught by the user. -/
def history (policy : Policy) (cs : List Call) : Deck := cs.foldl (fun d c => (exec d c).1) { policy := policy }

/-! ### rendering -/

/-- A render unit: one page of a slide or an external PDF. -/
inductive RUnit where
  | svg (slide index step : Nat)
  | pdf (slide : Nat) (filename : Str)
  deriving DecidableEq, Repr

/-- elsie/slides/slidedeck.py:345-346: the units of one entry, `range(1, steps() + 1)`; `pages` is
`Slide.steps` (1 for an external PDF). -/
def unitsOf (pages : Nat → Nat) (exportPdf : Bool) : Entry → Except Err (List RUnit)
  | .slide u i _ => .ok ((List.range (pages u)).map (fun k => .svg u i (k + 1)))
  | .pdf u f => if exportPdf then .ok [.pdf u f] else .error .assertion

/-- elsie/slides/slidedeck.py:342-346: the loop over the slides. -/
def unitsLoop (pages : Nat → Nat) (exportPdf : Bool) : List Entry → Except Err (List RUnit)
  | [] => .ok []
  | e :: rest =>
    match unitsOf pages exportPdf e with
    | .error x => .error x
    | .ok us =>
      match unitsLoop pages exportPdf rest with
      | .error x => .error x
      | .ok vs => .ok (us ++ vs)

/-- elsie/render/render.py:33-36: the name of the debug file of a unit (in the cache directory). -/
def debugFile : RUnit → Option Str
  | .svg _ i step => some (natStr i ++ '-' :: natStr step ++ ".svg".toList)
  | .pdf _ _ => none

/-- A page after grouping: a unit as it was, or an svg of the given size with units at positions. -/
inductive Page where
  | single (u : RUnit)
  | grid (width height : Nat) (cells : List (Nat × Nat × RUnit))
  deriving DecidableEq, Repr

def RUnit.isSvg : RUnit → Bool
  | .svg _ _ _ => true
  | .pdf _ _ => false

/-- elsie/render/render.py:88-110: the loop; `cells` is what is in the current svg, so `idx = cells.length`. -/
def groupLoop (cx cy width height : Nat) : List RUnit → List Page → List (Nat × Nat × RUnit) → List Page
  | [], new, cells => if 0 < cells.length then new ++ [.grid (width * cx) (height * cy) cells] else new
  | u :: us, new, cells =>
    if !u.isSvg then groupLoop cx cy width height us (new ++ [.single u]) cells
    else if cells.length = cx * cy then
      groupLoop cx cy width height us (new ++ [.grid (width * cx) (height * cy) cells]) [(0 % cx * width, 0 / cx * height, u)]
    else
      groupLoop cx cy width height us new
        (cells ++ [((cells.length % cx) * width, (cells.length / cx) * height, u)])

/-- elsie/render/render.py:64-112 `per_page_grouping`, for the Inkscape backend. -/
def perPageGrouping (cx cy width height : Nat) (units : List RUnit) : Except Err (List Page) :=
  if ¬ 0 < cx then .error .assertion
  else if ¬ 0 < cy then .error .assertion
  else if cx * cy = 1 then .ok (units.map .single)
  else .ok (groupLoop cx cy width height units [] [])

/-- elsie/slides/slidedeck.py:263-360 `render(return_units=True, slides_per_page=spp)`: the pages.
`select_slides` is the list of entries to render; `postprocessing` says that a function is given (it is called
with the root box of every selected entry, line 317, and an external PDF has no `box`); the caches are not part
of this model. -/
def render (pages : Nat → Nat) (width height : Nat) (selected : List Entry) (exportPdf postprocessing : Bool)
    (spp : Option (Nat × Nat)) : Except Err (List Page) :=
  if selected = [] then .error (.user "No slides to render")
  else if postprocessing && selected.any (fun e => match e with | .pdf _ _ => true | .slide _ _ _ => false) then
    .error .attribute
  else
    match unitsLoop pages exportPdf selected with
    | .error e => .error e
    | .ok units =>
      match spp with
      | none => .ok (units.map .single)
      | some (a, b) => perPageGrouping a b width height units

end Verif.Deck
