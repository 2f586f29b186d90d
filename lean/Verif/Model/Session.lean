import Verif.Model.SceneCairo

/-! # Model of work on a slide that is rendered in between

elsie/slides/slide.py (`prepare`), called by elsie/slides/slidedeck.py:343-346 (`render`; in a notebook through elsie/render/jupyter.py:70-82) each time that the slide is shown.
The boxes keep their rectangles and the texts their sizes from one time to the next. An exception ends the call in which it is raised, not the work:
the next call starts from what is left. -/

namespace Verif.Session
open Verif.Layout (Env Forest Attrs childRect sizeRequest requests fillUnitAndStart)
open Verif.Scene (Call Content Ext)

/-- elsie/boxtree/layout.py:147-173: the loop over the children with the recursive calls, as `Verif.Layout.setKids`; here with the rectangles that
were set, in this order, and the exception that ended the loop. -/
def logKids (env : Env) (horizontal : Bool) (rect : Rect) (fillUnit dd : Rat) : Forest → Env × List (Nat × Rect) × Option Err
  | .nil => (env, [], none)
  | .node uid a kids rest =>
    match childRect env horizontal rect fillUnit dd a (sizeRequest a (requests kids)) with
    | .error e => (env, [], some e)
    | .ok (r, dd') =>
      let ri := a.inner r
      let fu := fillUnitAndStart a.horizontal ri (requests kids)
      match logKids (env.set uid ri) a.horizontal ri fu.1 fu.2 kids with
      | (env', log, some e) => (env', (uid, ri) :: log, some e)
      | (env', log, none) =>
        match logKids env' horizontal rect fillUnit dd' rest with
        | (env'', log', e) => (env'', (uid, ri) :: log ++ log', e)

/-- elsie/boxtree/layout.py:109-173 `Layout.set_rect`. -/
def logRect (env : Env) (uid : Nat) (a : Attrs) (kids : Forest) (rect : Rect) : Env × List (Nat × Rect) × Option Err :=
  let ri := a.inner rect
  let fu := fillUnitAndStart a.horizontal ri (requests kids)
  match logKids (env.set uid ri) a.horizontal ri fu.1 fu.2 kids with
  | (env', log, e) => (env', (uid, ri) :: log, e)

/-- A slide while someone works on it: what was put on it, and the rectangles that its boxes have. -/
structure St where
  scene : Verif.Scene.State
  env : Env

/-- A new slide. -/
def new (width height : Rat) : St := ⟨Verif.Scene.newScene width height, fun _ => none⟩

/-- elsie/boxtree/layout.py:114-116: the callbacks of the boxes; elsie/text/textboxitem.py:38-43. -/
def called (log : List (Nat × Rect)) (p : Nat) : Content → Content
  | .text t => .text { t with state := (log.filter (fun x => x.1 = p)).foldl (fun st x => st.onRect x.2) t.state }
  | k => k

/-- elsie/slides/slide.py:54-56 `Slide.prepare`. -/
def prepare (width height : Rat) (s : St) : St × Option Err :=
  match s.scene.slide.layouts with
  | .nil => (s, some .attribute)
  | .node u a kids _ =>
    match logRect s.env u a kids ⟨0, 0, width, height⟩ with
    | (env, log, e) => (⟨{ s.scene with contents := s.scene.contents.map (fun x => (x.1, x.2.1, called log x.2.1 x.2.2)) }, env⟩, e)

/-- What is done: a call on a box, or showing the slide. -/
inductive Op where
  | call (c : Call)
  | prepare

/-- One step of the work; exceptions are forgotten. -/
def step (width height : Rat) (s : St) : Op → St
  | .call c => { s with scene := (Verif.Scene.exec s.scene c).1 }
  | .prepare => (prepare width height s).1

/-- All steps. -/
def work (width height : Rat) (ops : List Op) : St := ops.foldl (step width height) (new width height)

/-- elsie/slides/slidedeck.py:343-346: the slide is prepared and a page of it is made (SVG). In
`Verif.Scene.svgPage` the callback of a text runs when the text is drawn, with the same rectangle; so it gets the texts as they were before. -/
def svgShow (fmt : Rat → Str) (width height : Rat) (viewBox : Option Rect) (k : Int) (s : St) : Except Err Str :=
  match prepare width height s with
  | (_, some e) => .error e
  | (t, none) => Verif.Scene.svgPage fmt s.scene t.env width height viewBox k

/-- The same with Cairo. -/
def cairoShow (x : Ext) (png : Bool) (width height : Rat) (viewBox : Option Rect) (k : Int) (s : St) : Except Err (List Verif.CairoDraw.Paint) :=
  match prepare width height s with
  | (_, some e) => .error e
  | (t, none) => Verif.Scene.cairoPage x png s.scene t.env width height viewBox k

end Verif.Session
