import Verif.Model.Book

/-! # Rendering with a function for all slides

elsie/slides/slidedeck.py, the parameter `slide_postprocessing` of `render`. -/

namespace Verif.Book
open Verif.Deck (Entry)

/-- elsie/slides/slidedeck.py:334: `[slide.box() for slide in select_slides]`, as numbers of slides; a PDF has no `box` (elsie/slides/slide.py:70-82). -/
def rootBoxes : List Entry → Except Err (List Nat)
  | [] => .ok []
  | .pdf _ _ :: _ => .error .attribute
  | .slide u _ _ :: es =>
    match rootBoxes es with
    | .error e => .error e
    | .ok us => .ok (u :: us)

/-- elsie/slides/slidedeck.py:317-362 `render(return_units=True, slide_postprocessing=post)`; `post` says which calls the function makes. Also returns the deck as it is
afterwards. The list of slides is the one of the deck, so slides added by the function are rendered too. -/
def renderWith {δ : Type} (make : Verif.Scene.State → Verif.Layout.Env → Option Rect → Int → Except Err δ) (b : Book) (exportPdf : Bool)
    (post : Book → List Nat → List Call) : Except Err (Book × List (Sheet δ)) :=
  if b.deck.slides = [] then .error (.user "No slides to render")
  else
    match rootBoxes b.deck.slides with
    | .error e => .error e
    | .ok us =>
      match run b (post b us) with
      | .error e => .error e
      | .ok b' =>
        match sheetsLoop make b' exportPdf b'.deck.slides with
        | .error e => .error e
        | .ok sheets => .ok (b', sheets)

/-- The number that the next thing on a slide gets. -/
def nextOf (b : Book) (u : Nat) : Nat :=
  match b.scenes.lookup u with
  | none => 0
  | some (s, _) => s.slide.next

/-- docs/cookbook/postprocessing.md: `for i, slide in enumerate(slides)` with calls on each slide; `f` gets the index, the number of slides, and the number that the
next box on the slide will have. -/
def each (f : Nat → Nat → Nat → List Verif.Scene.Call) (b : Book) (us : List Nat) : List Call :=
  us.zipIdx.flatMap fun p => (f p.2 us.length (nextOf b p.1)).map (Call.on p.1)

/-- docs/cookbook/postprocessing.md, "Slide numbering": what `page_numbering` calls on a slide. The text is given with the style found for it and the width measured
for it, as in Model/Scene.lean. -/
def pageNumber (style : Verif.Style.TextStyle) (styles : Str → Option Verif.Style.TextStyle) (width : Str → Rat) (i total next : Nat) : List Verif.Scene.Call :=
  let s := natStr (i + 1) ++ '/' :: natStr total
  [.box 0 { layout := { x := .str "90%".toList, y := .str "90%".toList, width := .num 70, height := .num 45 } },
    .draw next (.rect (some 5) (some 5) none { bgColor := some "orange".toList, strokeWidth := some 1 }),
    .draw next (.text [.text s] style styles none false (width s))]

end Verif.Book
