import Verif.Model.Book
import Verif.Model.Jupyter

/-! # Model of a deck made in the cells of a notebook

elsie/slides/slidedeck.py (the decorator `slide`) and elsie/render/jupyter.py (`get_slide_repr_steps`). Each cell decorates a function that draws
on its own slide; an exception is shown below the cell, and the next cell starts from what is left. -/

namespace Verif.Notebook
open Verif.Book (Book Sheet)
open Verif.Deck (Name Entry Policy)

/-- `@deck.slide(name, bg_color=bg, view_box=viewBox)` before a function called `fn` that makes the calls `body` (with an acceptable view box). -/
structure Cell where
  fn : Str
  name : Name := .none
  bg : Option Str := none
  viewBox : Option Rect := none
  body : List Verif.Scene.Call

/-- elsie/slides/slidedeck.py:199-202: the name of the slide. -/
def Cell.title (c : Cell) : Name :=
  match c.name with
  | .none => .str c.fn
  | n => n

/-- `fn(slide)`, elsie/slides/slidedeck.py:209: the calls on the slide `u` up to the first exception. -/
def runBody (b : Book) (u : Nat) : List Verif.Scene.Call → Book × Option Err
  | [] => (b, none)
  | c :: cs =>
    match Verif.Book.exec b (.on u c) with
    | (b, some e) => (b, some e)
    | (b, none) => runBody b u cs

/-- elsie/slides/slidedeck.py:198-212: `_helper`, run when the function is defined. -/
def decorate (b : Book) (c : Cell) : Book × Option Err :=
  match Verif.Book.exec b (.newSlide c.title c.bg c.viewBox) with
  | (b', some e) => (b', some e)
  | (b', none) => runBody b' b.deck.next c.body

/-- Running cells one after the other. -/
def session (b : Book) (cells : List Cell) : Book := cells.foldl (fun b c => (decorate b c).1) b

/-- elsie/render/jupyter.py:70-93 `get_slide_repr_steps` of a slide (for both types: the units, of which the document or the exported picture is shown). -/
def reprSteps {δ : Type} (make : Verif.Scene.State → Verif.Layout.Env → Option Rect → Int → Except Err δ) (b : Book) (e : Entry) : Except Err (List (Sheet δ)) :=
  Verif.Book.sheetsLoop make b false [e]

end Verif.Notebook
