import Verif.Model.Book
import Verif.Spec.Deck
import Verif.Spec.SceneCairo

/-! # Specification: the pages of a whole deck -/

namespace Verif.Book.Spec
open Verif.Scene.Spec
open Verif.Layout (Env)

/-- The call adds something to the deck. -/
def makes : Call → Bool
  | .on _ _ => false
  | _ => true

/-- What was added to the deck: the number of a slide or PDF is its position here (also if it was replaced later). -/
def made (cs : List Call) : List Call := cs.filter makes

/-- A coloured background, under everything else (that has no lower level), as large as the slide. -/
def ground (c : Str) : List Verif.Scene.Call :=
  [.box 0 { layout := { x := .num 0, y := .num 0, width := .str "100%".toList, height := .str "100%".toList }, z := some (-1000000) },
    .draw 1 (.rect none none none { bgColor := some c, strokeWidth := some 1 })]

/-- The colour of a slide: the one given, otherwise that of the deck; none if it is empty. -/
def groundColor (default bg : Option Str) : Option Str := ((bg.or default).filter fun c => c ≠ [])

/-- The call on the slide `u`, if it is one. -/
def onSlide (u : Nat) : Call → Option Verif.Scene.Call
  | .on v d => if v = u then some d else none
  | _ => none

/-- What was called on the slide `u`, in this order; first the background is made. -/
def historyOf (default : Option Str) (cs : List Call) (u : Nat) : List Verif.Scene.Call :=
  (match (made cs)[u]? with
    | some (.newSlide _ bg _) => (groundColor default bg).elim [] ground
    | _ => []) ++
  cs.filterMap (onSlide u)

/-- The view box of the slide `u`. -/
def viewBoxOf (cs : List Call) (u : Nat) : Option Rect :=
  match (made cs)[u]? with
  | some (.newSlide _ _ vb) => vb
  | _ => none

/-- The calls as far as names and order of the slides are concerned. -/
def deckCalls (cs : List Call) : List Verif.Deck.Call :=
  cs.filterMap fun c => match c with
    | .newSlide n _ _ => some (.newSlide n true)
    | .addPdf f => some (.addPdf f)
    | .on _ _ => none

/-- What a sheet is, without its contents. -/
def Sheet.unit {δ : Type} : Sheet δ → Verif.Deck.RUnit
  | .page u i step _ => .svg u i step
  | .pdf u f => .pdf u f

/-- The sheets of a deck: every slide with all its pages and every PDF, ordered by the position in the deck and then by page, each once. -/
structure Complete {δ : Type} (default : Option Str) (cs : List Call) (slides : List Verif.Deck.Entry) (sheets : List (Sheet δ)) : Prop where
  each : ∃ pages : Nat → Nat, (∀ u i n, Verif.Deck.Entry.slide u i n ∈ slides → Verif.Slide.Spec.Pages ((Verif.Scene.Spec.things (historyOf default cs u)).map Verif.Scene.Spec.outline) (pages u)) ∧
    ∀ v, v ∈ sheets.map Sheet.unit ↔ ∃ e ∈ slides, Verif.Deck.Spec.Shows pages e v
  order : (sheets.map Sheet.unit).Pairwise (Verif.Deck.Spec.Before slides)
  once : (sheets.map Sheet.unit).Nodup

/-- A document in SVG with the given size and view box that shows what was drawn (C108), in the order `l`. (Without carriage returns it can be put into another document as it is.) -/
def SvgPage (read : Str → Option Rat) (ang : Rat → Rat × Rat) (env : Env) (step : Int) (ts : List Verif.Scene.Call) (w h : Rat) (viewBox : Option Rect)
    (l : List (Nat × Int)) (doc : Str) : Prop :=
  ∃ (as : Verif.Xml.Spec.Attrs) (parts : List Verif.Xml.Spec.Forest),
    '\r' ∉ doc ∧ Verif.Xml.Spec.readXml doc = some (.elem "svg".toList as (concat parts) .nil) ∧
    Verif.SvgDraw.Spec.num read as "width" = some w ∧ Verif.SvgDraw.Spec.num read as "height" = some h ∧
    (as.lookup "viewBox".toList).map (Verif.SvgDraw.Spec.readNumbers read) = viewBox.map (fun v => some [v.x, v.y, v.width, v.height]) ∧
    List.Forall₂ (fun x F => ∃ (k : Nat) (p : Nat) (d : Verif.Scene.Draw), x.1 = k + 1 ∧ ts[k]? = some (.draw p d) ∧ Shown read ang env step p d F) l parts

end Verif.Book.Spec
