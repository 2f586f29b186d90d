import Verif.Model.Deck
import Verif.Model.SceneCairo

/-! # Model of a deck with the contents of its slides

elsie/slides/slidedeck.py (`new_slide` with the background, `render`), together with Model/Deck.lean (names and order of the slides) and
Model/Scene.lean (calls on the boxes of a slide). Calls on different slides may be mixed. -/

namespace Verif.Book
open Verif.Deck (Deck Entry Name Policy)

/-- A deck, its colour, and its slides by number (the root box of a slide that was replaced can still be used). A slide has
the boxes and what is drawn in them, and the view box. -/
structure Book where
  width : Rat
  height : Rat
  bg : Option Str
  deck : Deck
  scenes : List (Nat × Verif.Scene.State × Option Rect) := []

/-- elsie/slides/slidedeck.py:52-66: a new deck. -/
def newBook (width height : Rat) (bg : Option Str) (policy : Policy) : Book := { width, height, bg, deck := { policy } }

inductive Call where
  | newSlide (name : Name) (bg : Option Str) (viewBox : Option Rect)
  | addPdf (filename : Str)
  /-- a call on a box of a slide -/
  | on (slide : Nat) (c : Verif.Scene.Call)

/-- elsie/slides/slidedeck.py:163-170: the calls that make the background; `rect` has an outline of width 1 by default, without
colour (elsie/boxtree/boxmixin.py:195-205). -/
def background (default bg : Option Str) : List Verif.Scene.Call :=
  match (match bg with | none => default | some c => some c) with
  | none => []
  | some [] => []
  | some c =>
    [.box 0 { layout := { x := .num 0, y := .num 0, width := .str "100%".toList, height := .str "100%".toList }, z := some (-1000000) },
      .draw 1 (.rect none none none { bgColor := some c, strokeWidth := some 1 })]

/-- Changing one slide. -/
def setScene (u : Nat) (s : Verif.Scene.State) : List (Nat × Verif.Scene.State × Option Rect) → List (Nat × Verif.Scene.State × Option Rect)
  | [] => []
  | (v, t, vb) :: rest => if v = u then (v, s, vb) :: rest else (v, t, vb) :: setScene u s rest

/-- One call; elsie/slides/slidedeck.py:123-171 `new_slide` (with an acceptable view box) and 214-216 `add_pdf`. -/
def exec (b : Book) : Call → Book × Option Err
  | .newSlide name bg viewBox =>
    match Verif.Deck.exec b.deck (.newSlide name true) with
    | (d, some e) => ({ b with deck := d }, some e)
    | (d, none) =>
      match Verif.Scene.run (Verif.Scene.newScene b.width b.height) (background b.bg bg) with
      | .error e => ({ b with deck := d }, some e)
      | .ok s => ({ b with deck := d, scenes := b.scenes ++ [(b.deck.next, s, viewBox)] }, none)
  | .addPdf f => ({ b with deck := (Verif.Deck.exec b.deck (.addPdf f)).1 }, (Verif.Deck.exec b.deck (.addPdf f)).2)
  | .on u c =>
    match b.scenes.lookup u with
    | none => (b, some .key)
    | some (s, _) => ({ b with scenes := setScene u (Verif.Scene.exec s c).1 b.scenes }, (Verif.Scene.exec s c).2)

/-- A sequence of calls, stopping at the first exception. -/
def run (b : Book) : List Call → Except Err Book
  | [] => .ok b
  | c :: cs =>
    match exec b c with
    | (_, some e) => .error e
    | (b, none) => run b cs

/-! ### rendering -/

/-- A render unit with what it holds. -/
inductive Sheet (δ : Type) where
  | page (slide index step : Nat) (doc : δ)
  | pdf (slide : Nat) (filename : Str)

/-- elsie/slides/slidedeck.py:345-346: the pages of a slide from `step` on, `n` of them. -/
def pagesFrom {δ : Type} (make : Int → Except Err δ) (u i step : Nat) : Nat → Except Err (List (Sheet δ))
  | 0 => .ok []
  | n + 1 =>
    match make step with
    | .error e => .error e
    | .ok d =>
      match pagesFrom make u i (step + 1) n with
      | .error e => .error e
      | .ok ds => .ok (.page u i step d :: ds)

/-- elsie/slides/slidedeck.py:343-346 for one entry: `prepare`, then the pages; `make` is `create_render_unit` of the backend. -/
def sheetsOf {δ : Type} (make : Verif.Scene.State → Verif.Layout.Env → Option Rect → Int → Except Err δ) (b : Book) (exportPdf : Bool) :
    Entry → Except Err (List (Sheet δ))
  | .slide u i _ =>
    match b.scenes.lookup u with
    | none => .error .key
    | some (s, vb) =>
      match s.slide.rects b.width b.height with
      | .error e => .error e
      | .ok env => pagesFrom (make s env vb) u i 1 s.slide.steps.toNat
  | .pdf u f => if exportPdf then .ok [.pdf u f] else .error .assertion

/-- elsie/slides/slidedeck.py:342-346: the loop over the slides. -/
def sheetsLoop {δ : Type} (make : Verif.Scene.State → Verif.Layout.Env → Option Rect → Int → Except Err δ) (b : Book) (exportPdf : Bool) :
    List Entry → Except Err (List (Sheet δ))
  | [] => .ok []
  | e :: es =>
    match sheetsOf make b exportPdf e with
    | .error x => .error x
    | .ok ds =>
      match sheetsLoop make b exportPdf es with
      | .error x => .error x
      | .ok rest => .ok (ds ++ rest)

/-- elsie/slides/slidedeck.py:317-362 `render(return_units=True)` of all slides, without postprocessing. -/
def render {δ : Type} (make : Verif.Scene.State → Verif.Layout.Env → Option Rect → Int → Except Err δ) (b : Book) (exportPdf : Bool) :
    Except Err (List (Sheet δ)) :=
  if b.deck.slides = [] then .error (.user "No slides to render") else sheetsLoop make b exportPdf b.deck.slides

/-- With Inkscape. -/
def renderSvg (fmt : Rat → Str) (b : Book) (exportPdf : Bool) : Except Err (List (Sheet Str)) :=
  render (fun s env vb step => Verif.Scene.svgPage fmt s env b.width b.height vb step) b exportPdf

/-- With Cairo, for the type PDF or PNG. -/
def renderCairo (x : Verif.Scene.Ext) (b : Book) (png : Bool) : Except Err (List (Sheet (List Verif.CairoDraw.Paint))) :=
  render (fun s env vb step => Verif.Scene.cairoPage x png s env b.width b.height vb step) b (!png)

end Verif.Book
