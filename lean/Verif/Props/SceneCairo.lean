import Verif.Proofs.SceneCairo
import Verif.Props.Scene

/-! # Property C112: the page of a slide made with Cairo -/

namespace Verif.Scene
open Spec
open Verif.Layout (Env Arg Pos)
open Verif.CairoDraw (Pt Mat Paint fresh)
open Verif.CairoDraw.Spec (Paint.seen)
open Verif.Slide.Spec (OnPage ItemOf Level Walk Under)

/-- The full claim for a slide: the page shows what was drawn in the boxes that are on it, in the right order. -/
def CairoShows (x : Ext) (png : Bool) (w h : Rat) (viewBox : Option Rect) (cs : List Call) (step : Int) : Prop :=
  ∀ s env, run (newScene w h) cs = .ok s → s.slide.rects w h = .ok env →
    ∃ l ps, InOrder (things cs) step l ∧ cairoPage x png s env w h viewBox step = .ok ps ∧ PageOf x (onPaper png w h viewBox) (zoomOf w h viewBox) env step (things cs) l ps

/-- **C112, the part that holds.** The page that the Cairo backend makes of a slide after any successful calls shows, in this order and nothing else, what was drawn in the boxes
that are on the page: every shape and picture where its box and its points are, with its colours, outline and rotation, every text with its characters and styles and
its first base line where the SVG page has it, and of every SVG picture the document of this page over its rectangle; all this at the resolution of the page and through the view
box. (Missing: arguments outside of `Paintable`, in particular SVG pictures on a slide with a view box or scaled to nothing, for which the claim is false, and orders
outside of `Smooth`, see C84. Where Pango puts the characters, and the rows after the first, is left open.) -/
theorem C112_page_partial (x : Ext) (hk : x.known "none".toList = false) (h0 : x.ang 0 = (1, 0)) (png : Bool) (w h : Rat) (hw : 0 < w) (hh : 0 < h)
    (cs : List Call) (s : State) (hr : run (newScene w h) cs = .ok s) (env : Env) (he : s.slide.rects w h = .ok env) (viewBox : Option Rect)
    (hv : ∀ v, viewBox = some v → 0 < v.width ∧ 0 < v.height) (step : Int)
    (hd : ∀ (k : Nat) p d, (things cs)[k]? = some (Call.draw p d) → OnPage ((things cs).map outline) step p → Paintable x viewBox env step p d) :
    ∃ l, InOrder (things cs) step l ∧
      (Smooth (things cs) l → ∃ ps, cairoPage x png s env w h viewBox step = .ok ps ∧ PageOf x (onPaper png w h viewBox) (zoomOf w h viewBox) env step (things cs) l ps) := by
  obtain ⟨hrun, hkept⟩ := kept_run (kept_new w h) hr
  rw [List.nil_append] at hkept
  have hrun' : Verif.Slide.run (Verif.Slide.newSlide w h) ((things cs).map outline) = .ok s.slide := hrun
  obtain ⟨l, order, hpage, hnd, hmem, hwalk, -, hon, hpair⟩ := Verif.Slide.C106_page w h _ _ hrun' step
  have hlaid0 := Verif.Slide.newSlide_laid w h
  have htarget := (target_laid hrun' hlaid0).2
  have hrects := rects_some (Verif.Slide.run_laid hrun' hlaid0) he
  refine ⟨l, ⟨hnd, hmem, order, hwalk, hon, hpair⟩, fun hsm => ?_⟩
  obtain ⟨M, hstart, hF, hM⟩ := cairoStart_ok png hw hh viewBox hv
  obtain ⟨c', parts, h1, h2, h3⟩ := cairoAll_painted hk h0 (png := png) (ls := zoomOf w h viewBox) (env := env) (step := step) (w := w) (h := h) (vb := viewBox) hM hF
    (contents := s.contents) (ts := things cs) l (by
    rintro ⟨u, z⟩ hy
    obtain ⟨p, hi, -, hp⟩ := (hmem u z).mp hy
    cases hi with
    | @mk k c hc hb ht =>
      rw [List.getElem?_map] at hc
      cases hk' : (things cs)[k]? with
      | none => rw [hk'] at hc; cases hc
      | some c' =>
        rw [hk'] at hc
        injection hc with hc
        cases c' with
        | box q b => subst hc; cases hb
        | draw q d =>
          have hq : q = p := by
            rw [← ht, ← hc]
            cases d <;> rfl
          subst hq
          obtain ⟨c0, kk, h3, h4⟩ := hkept.item k q d hk'
          obtain ⟨r, hr'⟩ := hrects q (by rw [← ht]; exact htarget c (hc ▸ List.mem_map_of_mem (List.mem_of_getElem? hk')))
          exact ⟨k, q, d, c0, kk, r, rfl, hk', h3, h4, hd k q d hk' hp, hr'⟩) hsm [] (fresh M) rfl (by intro y _ j q e _ _ i hi; cases hi)
  refine ⟨c'.painted, ?_, parts, by rw [h2]; rfl, h3⟩
  unfold cairoPage
  rw [hstart]
  dsimp only
  rw [hpage, h1]

/-! ### SVG pictures with a view box, and of size 0 -/

/-- External functions: numbers are not read, some colours, the angles 0 and 90. -/
def exExt : Ext where
  read := fun _ => none
  known := fun c => c = "red".toList ∨ c = "black".toList
  ang := fun a => if a = 90 then (0, 1) else (1, 0)
  fontHeight := fun _ => 10
  baseline := fun _ => 8
  normalize := fun d => .ok d
  natural := fun _ => (8, 6)

/-- A picture in a box. -/
def onePicture (scale : Option Rat) : List Call :=
  [.box 0 { layout := { x := .num 20, y := .num 30, width := .num 16, height := .num 12 } }, .draw 1 (.svg exPicture scale none)]

/-- If an SVG picture is painted, then one that was drawn. -/
theorem svg_of_page {x : Ext} {F : Pt → Pt} {z : Rat} {env : Env} {step : Int} {ts : List Call} {l : List (Nat × Int)} {ps : List Paint} (h : PageOf x F z env step ts l ps)
    {m : Mat} {w h' : Rat} {doc : Str} (hm : .svg m w h' doc ∈ ps) : ∃ (k p : Nat) (d : Draw) (qs : List Paint), ts[k]? = some (.draw p d) ∧ Painted x F z env step p d qs ∧
      .svg m w h' doc ∈ qs := by
  obtain ⟨parts, rfl, hf⟩ := h
  obtain ⟨part, hp, hm⟩ := List.mem_flatten.mp hm
  obtain ⟨i, hi⟩ := List.getElem?_of_mem hp
  obtain ⟨hi', rfl⟩ := List.getElem?_eq_some_iff.mp hi
  obtain ⟨k, p, d, qs, -, h1, h2, h3⟩ := hf.get (i := i) (by rw [hf.length_eq]; exact hi') hi'
  refine ⟨k, p, d, qs, h1, h2, ?_⟩
  have h4 : Verif.CairoDraw.Spec.Paint.seen (.svg m w h' doc) ∈ qs.map Verif.CairoDraw.Spec.Paint.seen := by
    rw [← h3]; exact List.mem_map_of_mem hm
  obtain ⟨q, hq, e⟩ := List.mem_map.mp h4
  cases q with
  | svg m2 w2 h2 d2 => simp only [Verif.CairoDraw.Spec.Paint.seen] at e; rw [← e]; exact hq
  | _ => cases e

/-- The rectangle of box 1 and the page; for evaluating examples. -/
def paintedOn (x : Ext) (png : Bool) (w h : Rat) (viewBox : Option Rect) (cs : List Call) (step : Int) : Option (Option Rect × List Paint) :=
  match run (newScene w h) cs with
  | .error _ => none
  | .ok s =>
    match s.slide.rects w h with
    | .error _ => none
    | .ok env =>
      match cairoPage x png s env w h viewBox step with
      | .error _ => none
      | .ok ps => some (env 1, ps)

theorem shows_of {x : Ext} {png : Bool} {w h : Rat} {viewBox : Option Rect} {cs : List Call} {step : Int} (hc : CairoShows x png w h viewBox cs step)
    {r : Option Rect} {ps : List Paint} (hp : paintedOn x png w h viewBox cs step = some (r, ps)) :
    ∃ env l, env 1 = r ∧ PageOf x (onPaper png w h viewBox) (zoomOf w h viewBox) env step (things cs) l ps := by
  unfold paintedOn at hp
  cases h1 : run (newScene w h) cs with
  | error e => rw [h1] at hp; cases hp
  | ok s =>
    rw [h1] at hp
    dsimp only at hp
    cases h2 : s.slide.rects w h with
    | error e => rw [h2] at hp; cases hp
    | ok env =>
      rw [h2] at hp
      dsimp only at hp
      obtain ⟨l, qs, -, h3, h4⟩ := hc s env h1 h2
      rw [h3] at hp
      injection hp with hp; injection hp with h5 h6
      subst h6
      exact ⟨env, l, h5, h4⟩

/-- The only picture of the example. -/
theorem onePicture_only {scale : Option Rat} {k p : Nat} {d : Draw} (h : (things (onePicture scale))[k]? = some (.draw p d)) : p = 1 ∧ d = .svg exPicture scale none := by
  match k, h with
  | 0, h => cases h
  | 1, h => injection h with h; injection h with h1 h2; exact ⟨h1.symm, h2.symm⟩
  | k + 2, h => cases h

def exDoc : Str := "<svg width=\"8\"><rect/></svg>".toList

/-- **C112 is false of the code** (first reason): an SVG picture is drawn in a new context on the surface, without the view box of the slide. The picture whose upper left corner
should be at (15, 30) is at (15, 45/2). -/
theorem C112_viewbox_false : ¬ ∀ (x : Ext) (png : Bool) (w h : Rat) (viewBox : Option Rect) (cs : List Call) (step : Int), CairoShows x png w h viewBox cs step := by
  intro hall
  have hp : paintedOn exExt false 100 100 (some ⟨10, 10, 50, 50⟩) (onePicture none) 2 =
      some (some ⟨20, 30, 16, 12⟩, [.svg { xx := 3/4, yy := 3/4, x0 := 15, y0 := 45/2 } 16 12 exDoc]) := by decide +kernel
  obtain ⟨env, l, hr, hpage⟩ := shows_of (hall _ _ _ _ _ _ _) hp
  obtain ⟨k, p, d, qs, h1, h2, h3⟩ := svg_of_page hpage (List.mem_singleton.mpr rfl)
  obtain ⟨rfl, rfl⟩ := onePicture_only h1
  rcases h2 with ⟨-, rfl⟩ | ⟨doc, doc', r, f, q, m, -, -, h4, h5, h6, rfl, h8⟩
  · cases h3
  · rw [hr] at h4
    injection h4 with h4; subst h4
    have hf : f = 2 := by rw [h5]; decide +kernel
    have hq : q = ⟨20, 30, 16, 12⟩ := by rw [h6, hf]; decide +kernel
    injection (List.mem_singleton.mp h3) with e1 e2 e3 e4
    have h9 := h8 0 0
    rw [hq, ← e1] at h9
    exact absurd h9 (by decide +kernel)

/-- Second reason: a picture that is scaled to nothing is drawn with its own size. -/
theorem C112_nothing_false : ¬ CairoShows exExt false 100 100 none (onePicture (some 0)) 2 := by
  intro hall
  have hp : paintedOn exExt false 100 100 none (onePicture (some 0)) 2 =
      some (some ⟨20, 30, 16, 12⟩, [.svg { xx := 3/4, yy := 3/4, x0 := 21, y0 := 27 } 8 6 exDoc]) := by decide +kernel
  obtain ⟨env, l, hr, hpage⟩ := shows_of hall hp
  obtain ⟨k, p, d, qs, h1, h2, h3⟩ := svg_of_page hpage (List.mem_singleton.mpr rfl)
  obtain ⟨rfl, rfl⟩ := onePicture_only h1
  rcases h2 with ⟨-, rfl⟩ | ⟨doc, doc', r, f, q, m, -, -, h4, h5, h6, rfl, -⟩
  · cases h3
  · injection (List.mem_singleton.mp h3) with e1 e2 e3 e4
    rw [h6, h5] at e2
    exact absurd e2 (by simp [centered, factor])

/-! ### an example -/

/-- A default style. -/
def cairoStyles : Str → Option Verif.Style.TextStyle := fun n =>
  if n = "default".toList then some { font := some "Arial".toList, color := some "black".toList }
  else if n = "em".toList then some { italic := some true, color := some "red".toList } else none

def cairoStyle : Verif.Style.TextStyle := { size := some 20, lineSpacing := some (6/5), align := some "right".toList }

/-- A box with an ellipse, a turned rectangle and, from page 2 on, a box with a text scaled to half its size and a line; and a turned SVG picture in the first box. -/
def cairoScene : List Call :=
  [.box 0 { layout := { x := .num 10, y := .num 20, width := .num 40, height := .num 30 } },
   .draw 1 (.ellipse none { color := some "red".toList }),
   .draw 1 (.rect none none (some 90) { bgColor := some "red".toList }),
   .box 0 { show_ := .str "2+".toList, layout := { x := .num 50, y := .num 60, width := .num 20, height := .num 40 } },
   .draw 4 (.text Verif.TextItem.exToks cairoStyle cairoStyles none true 40),
   .draw 4 (.line [.pair (.num 0) (.num 0), .pair (.num 3) (.num 4)] (some "red".toList) none none),
   .draw 1 (.svg exPicture none (some 90))]

def cairoState : State := match run (newScene 100 100) cairoScene with | .ok s => s | .error _ => newScene 100 100

def cairoEnv : Env := match cairoState.slide.rects 100 100 with | .ok env => env | .error _ => fun _ => none

theorem cairo_rect : cairoEnv 1 = some ⟨10, 20, 40, 30⟩ ∧ cairoEnv 4 = some ⟨50, 60, 20, 40⟩ := by decide +kernel

theorem cairo_point (a b : Rat) : PointAt cairoEnv 4 (.pair (.num a) (.num b)) (50 + a, 60 + b) := .pair (.num cairo_rect.2) (.num cairo_rect.2)

theorem ex_style_ok {p : Verif.SvgDraw.Paint} (h1 : ∀ c, p.color = some c → exExt.known c = true) (h2 : ∀ c, p.bgColor = some c → exExt.known c = true) (h3 : p.dash = none) :
    Verif.Backends.Spec.StyleOk exExt.read exExt.known p :=
  ⟨fun c h _ => h1 c h, fun c h _ => h2 c h, fun d h => by rw [h3] at h; cases h⟩

theorem cairo_text_ok (vb : Option Rect) (step : Int) : Paintable exExt vb cairoEnv step 4 (.text Verif.TextItem.exToks cairoStyle cairoStyles none true 40) := by
  have hn : ∀ n, Verif.Text.Tok.opn n ∈ Verif.TextItem.exToks → n = "em".toList := by
    intro n hn
    simp only [Verif.TextItem.exToks, List.mem_cons, Verif.Text.Tok.opn.injEq, List.not_mem_nil, or_false, reduceCtorEq, false_or] at hn
    exact hn
  refine ⟨ex_text_ok.balanced, ?_, .inr (.inr rfl), ?_, ⟨_, rfl, ?_, "black".toList, rfl, by decide⟩, ?_⟩
  · intro n h
    rw [hn n h]
    exact .inr (by decide)
  · intro b h
    injection h with h; subst h
    decide +kernel
  · intro h; cases h
  · intro n s c h hs hc
    rw [hn n h] at hs
    have : cairoStyles "em".toList = some { italic := some true, color := some "red".toList } := by decide +kernel
    rw [this] at hs
    injection hs with hs; subst hs
    injection hc with hc; subst hc
    decide

/-- Everything drawn is within the part that holds, also with a view box except for the SVG picture. -/
theorem cairo_paintable (step : Int) (k p : Nat) (d : Draw) (h : (things cairoScene)[k]? = some (.draw p d)) : Paintable exExt none cairoEnv step p d := by
  have e : things cairoScene = cairoScene := rfl
  rw [e] at h
  match k, h with
  | 0, h => cases h
  | 1, h =>
    injection h with h; injection h with h1 h2; subst h1; subst h2
    refine ⟨by simp [pointsOf], _, .ellipse cairo_rect.1, by decide, trivial, by decide +kernel, by decide +kernel, ex_style_ok ?_ ?_ rfl⟩
    · intro c h; injection h with h; subst h; decide
    · intro c h; cases h
  | 2, h =>
    injection h with h; injection h with h1 h2; subst h1; subst h2
    refine ⟨by simp [pointsOf], _, .rect cairo_rect.1, by decide, ⟨by simp, by simp, by simp⟩, by decide +kernel, by decide +kernel, ex_style_ok ?_ ?_ rfl⟩
    · intro c h; cases h
    · intro c h; injection h with h; subst h; decide
  | 3, h => cases h
  | 4, h =>
    injection h with h; injection h with h1 h2; subst h1; subst h2
    exact cairo_text_ok none step
  | 5, h =>
    injection h with h; injection h with h1 h2; subst h1; subst h2
    refine ⟨?_, _, .line (.cons (cairo_point 0 0) (.cons (cairo_point 3 4) .nil)), by decide, trivial, by simp, rfl, ⟨"red".toList, rfl, by decide⟩, ex_style_ok ?_ ?_ rfl⟩
    · simp only [pointsOf, List.mem_cons, List.not_mem_nil, or_false]
      rintro a (rfl | rfl)
      · exact ⟨trivial, trivial⟩
      · exact ⟨trivial, trivial⟩
    · intro c h; injection h with h; subst h; decide
    · intro c h; cases h
  | 6, h =>
    injection h with h; injection h with h1 h2; subst h1; subst h2
    refine ⟨rfl, (ex_picture_ok step).1, ?_, ?_⟩
    · rcases (ex_picture_ok step).2 with h | ⟨doc, h, _⟩
      · exact .inl h
      · exact .inr ⟨doc, doc, h, rfl⟩
    · intro r hr
      rw [cairo_rect.1] at hr
      injection hr with hr; subst hr
      decide +kernel
  | k + 7, h => cases h

/-- The order of page 2 is within the part that holds: the ellipse, which has no dash pattern, is the first one. -/
theorem cairo_smooth : Smooth (things cairoScene) [(2, 0), (3, 0), (7, 0), (5, 0), (6, 0)] := by
  have h1 : ∀ (i p : Nat) (d : Draw), (things cairoScene)[i]? = some (.draw p d) → ¬ DashedEllipse d := by
    intro i p d h
    match i, h with
    | 0, h => cases h
    | 1, h => injection h with h; injection h with h1 h2; subst h2; rintro ⟨-, d, hd, -⟩; cases hd
    | 2, h => injection h with h; injection h with h1 h2; subst h2; exact id
    | 3, h => cases h
    | 4, h => injection h with h; injection h with h1 h2; subst h2; exact id
    | 5, h => injection h with h; injection h with h1 h2; subst h2; exact id
    | 6, h => injection h with h; injection h with h1 h2; subst h2; exact id
    | k + 7, h => cases h
  have h2 : ∀ (j q : Nat) (e : Draw), j ≠ 1 → (things cairoScene)[j]? = some (.draw q e) → ¬ IsEllipse e := by
    intro i p d hi h
    match i, hi, h with
    | 0, _, h => cases h
    | 1, hi, h => exact absurd rfl hi
    | 2, _, h => injection h with h; injection h with h1 h2; subst h2; exact id
    | 3, _, h => cases h
    | 4, _, h => injection h with h; injection h with h1 h2; subst h2; exact id
    | 5, _, h => injection h with h; injection h with h1 h2; subst h2; exact id
    | 6, _, h => injection h with h; injection h with h1 h2; subst h2; exact id
    | k + 7, _, h => cases h
  have key : ∀ a b : Nat × Int, b.1 ≠ 2 → ∀ (i j p q : Nat) (d e : Draw), a.1 = i + 1 → (things cairoScene)[i]? = some (.draw p d) → b.1 = j + 1 →
      (things cairoScene)[j]? = some (.draw q e) → ¬ DashedEllipse d ∧ (LeavesPoint d → ¬ IsEllipse e) :=
    fun a b hb i j p q d e _ hi hj he => ⟨h1 i p d hi, fun _ => h2 j q e (fun h => hb (by rw [hj, h])) he⟩
  refine .cons ?_ (.cons ?_ (.cons ?_ (.cons ?_ (.cons ?_ .nil)))) <;>
  · intro b hb
    refine key _ b ?_
    have : ∀ b ∈ ([(3, 0), (7, 0), (5, 0), (6, 0)] : List (Nat × Int)), b.1 ≠ 2 := by decide
    exact this b (by revert hb; revert b; decide)

/-- The calls succeed, and page 2 is this one. -/
example : run (newScene 100 100) cairoScene = .ok cairoState ∧ cairoState.slide.rects 100 100 = .ok cairoEnv ∧
    Verif.Slide.page cairoState.slide 2 false = [.item 2 0, .item 3 0, .item 7 0, .item 5 0, .item 6 0] := by
  refine ⟨?_, ?_, ?_⟩
  · have : (run (newScene 100 100) cairoScene).isOk = true := by decide +kernel
    unfold cairoState
    revert this
    cases run (newScene 100 100) cairoScene with
    | ok s => intro _; rfl
    | error e => intro h; cases h
  · have : (cairoState.slide.rects 100 100).isOk = true := by decide +kernel
    unfold cairoEnv
    revert this
    cases cairoState.slide.rects 100 100 with
    | ok s => intro _; rfl
    | error e => intro h; cases h
  · decide +kernel

/-- The turned rectangle, the turned picture and the text on page 2 of a PDF. -/
example : (paintedOn exExt false 100 100 none cairoScene 2).map (fun a => (a.1, a.2.length, (a.2.drop 1).take 2)) =
    some (some ⟨10, 20, 40, 30⟩, 5,
      [.fill [.move (135/4, 45/4), .line (135/4, 165/4), .line (45/4, 165/4), .line (45/4, 45/4), .close] "red".toList,
       .svg { xx := 0, yx := 3/4, xy := -3/4, yy := 0, x0 := 135/4, y0 := 45/4 } 40 30 exDoc]) := by decide +kernel

end Verif.Scene
