import Verif.Spec.Backends
import Verif.Proofs.SvgItems
import Verif.Props.CairoPage
import Verif.Props.Shapes

/-! # Helper lemmas: the two backends compared -/

namespace Verif.Backends
open Spec
open Verif.CairoDraw
open Verif.CairoDraw.Spec (SvgPath Same arity)
open Verif.SvgDraw.Spec (Geometry Stroke readNumbers words wordsFrom flush commaWs all? turn middle average wanted wantedStroke radii clamp meant)

/-! ### transformations -/

theorem turned_rot (m : Mat) (p : Pt) (cs : Rat × Rat) :
    turned m p (some cs) 1 1 = (((m.translate p.1 p.2).rotate cs.1 cs.2).translate (-p.1) (-p.2)) := by
  show ((((m.translate p.1 p.2).rotate cs.1 cs.2).scale 1 1).translate (-p.1) (-p.2)) = _
  rw [Mat.scale_one]

theorem turned_none (m : Mat) (p : Pt) : turned m p none 1 1 = m := by
  cases m
  simp [turned, Mat.scale, Mat.rotate, Mat.translate]
  constructor <;> ring

theorem placed_turn {ang : Rat → Rat × Rat} (h0 : ang 0 = (1, 0)) (m : Mat) (rot : Option Rat) (k : Pt) :
    placed ang m (turn rot k) = some (turned m k (rot.map ang) 1 1) := by
  cases rot with
  | none => simp [turn, placed, turned_none]
  | some a =>
    by_cases ha : a = 0
    · subst ha
      have : turned m k (some (1, 0)) 1 1 = turned m k none 1 1 := rfl
      simp [turn, placed, h0, this, turned_none]
    · simp [turn, ha, placed, turned_rot]

/-! ### painting -/

/-- Calls that make a path of their own, when there is none. -/
def Adds (draw : List Call) (P : Mat → List Seg) : Prop :=
  ∀ c, NoPath c → ∃ cur start, run c draw = .ok { c with path := P c.gs.ctm, cur := cur, start := start }

/-- What is filled. -/
def fillsOf (path : List Seg) (s : Style) : List CairoDraw.Paint := if given s.bgColor then [.fill path (s.bgColor.getD [])] else []

/-- What is outlined. -/
def strokesOf (path : List Seg) (s : Style) (pen : Mat) : List CairoDraw.Paint :=
  if given s.color then [.stroke path (s.color.getD []) (SvgDraw.orOne s.strokeWidth) s.dash pen] else []

theorem run_fill {draw : List Call} {P : Mat → List Seg} (h : Adds draw P) (c : Ctx) (hn : NoPath c) (bg : Color) :
    run c (fillShape draw bg) = .ok { c with gs := { c.gs with source := bg }, painted := c.painted ++ [.fill (P c.gs.ctm) bg] } := by
  obtain ⟨n1, n2, n3⟩ := hn
  unfold fillShape
  simp only [run, exec]
  rw [run_append]
  obtain ⟨cur, start, he⟩ := h { c with gs := { c.gs with source := bg } } ⟨n1, n2, n3⟩
  rw [he]
  simp [run, exec, Ctx.clear, n1, n2, n3]

theorem run_before (c : Ctx) (hd : c.gs.dash = []) (col : Color) (s : Style) :
    run c (strokeBefore col s) = .ok { c with gs := { c.gs with source := col, lineWidth := SvgDraw.orOne s.strokeWidth, dash := s.dash } } := by
  have e : strokeBefore col s = .setSource col :: .setLineWidth (SvgDraw.orOne s.strokeWidth) :: (if s.dash ≠ [] then [.setDash s.dash] else []) := by
    unfold strokeBefore
    cases s.strokeWidth <;> rfl
  rw [e]
  by_cases h : s.dash = []
  · simp [h, run, exec, hd]
  · simp [h, run, exec]

theorem run_stroke {draw : List Call} {P : Mat → List Seg} (h : Adds draw P) (c : Ctx) (hn : NoPath c) (hd : c.gs.dash = []) (col : Color) (s : Style) :
    ∃ gs, run c (strokeShape draw col s) =
      .ok { c with gs := gs, painted := c.painted ++ [.stroke (P c.gs.ctm) col (SvgDraw.orOne s.strokeWidth) s.dash c.gs.ctm] } := by
  obtain ⟨n1, n2, n3⟩ := hn
  unfold strokeShape
  rw [run_append, run_before c hd]
  dsimp only
  rw [run_append]
  obtain ⟨cur, start, he⟩ := h { c with gs := { c.gs with source := col, lineWidth := SvgDraw.orOne s.strokeWidth, dash := s.dash } } ⟨n1, n2, n3⟩
  rw [he]
  exact ⟨{ c.gs with source := col, lineWidth := SvgDraw.orOne s.strokeWidth, dash := s.dash }, by simp [run, exec, Ctx.clear, n1, n2, n3]⟩

theorem run_fillStroke {draw : List Call} {P : Mat → List Seg} (h : Adds draw P) (c : Ctx) (hn : NoPath c) (hd : c.gs.dash = []) (s : Style) :
    ∃ gs, run c (fillStrokeShape draw s) =
      .ok { c with gs := gs, painted := c.painted ++ (fillsOf (P c.gs.ctm) s ++ strokesOf (P c.gs.ctm) s c.gs.ctm) } := by
  unfold fillStrokeShape fillsOf strokesOf
  rw [run_append]
  cases hb : given s.bgColor <;> cases hc : given s.color
  · exact ⟨c.gs, by simp [run]⟩
  · obtain ⟨gs, he⟩ := run_stroke h c hn hd (s.color.getD []) s
    exact ⟨gs, by simp [run, he]⟩
  · exact ⟨{ c.gs with source := s.bgColor.getD [] }, by simp [run, run_fill h c hn]⟩
  · simp only [if_true, run_fill h c hn]
    obtain ⟨gs, he⟩ := run_stroke h { c with gs := { c.gs with source := s.bgColor.getD [] }, painted := c.painted ++ [.fill (P c.gs.ctm) (s.bgColor.getD [])] }
      hn hd (s.color.getD []) s
    exact ⟨gs, by rw [he]; simp⟩

theorem painted_scope {m : Mat} {k : Pt} {rot : Option (Rat × Rat)} {draw : List Call} {P : Mat → List Seg} (h : Adds draw P) (s : Style) :
    ∃ c, run (fresh m) (scope (transform k rot 1 1 ++ fillStrokeShape draw s)) = .ok c ∧
      c.painted = fillsOf (P (turned m k rot 1 1)) s ++ strokesOf (P (turned m k rot 1 1)) s (turned m k rot 1 1) := by
  unfold scope
  simp only [run, exec]
  rw [run_append, run_append, run_transform _ _ _ _ _ ⟨one_ne_zero, one_ne_zero⟩]
  dsimp only
  obtain ⟨gs, he⟩ := run_fillStroke h { fresh m with saved := [(fresh m).gs], gs := { (fresh m).gs with ctm := turned (fresh m).gs.ctm k rot 1 1 } }
    ⟨rfl, rfl, rfl⟩ rfl s
  have e : (fresh m).saved = [] := rfl
  rw [e, he]
  exact ⟨_, rfl, by simp [fresh]⟩

theorem painted_bitmap (m : Mat) (r : Rect) (rot : Option (Rat × Rat)) (data : Str) :
    ∃ c, drawItem (fresh m) (.bitmap r rot data) = .ok c ∧
      c.painted = [.picture (((turned m (midPoint r) rot 1 1).translate r.x r.y).scale r.width r.height) data] := by
  unfold drawItem CairoDraw.drawBitmap scope
  dsimp only
  simp only [run, exec]
  rw [run_append, run_append, run_transform _ _ _ _ _ ⟨one_ne_zero, one_ne_zero⟩]
  exact ⟨_, rfl, rfl⟩

theorem painted_text (m : Mat) (p k : Pt) (rot : Option (Rat × Rat)) (l : Layout) :
    ∃ c, drawItem (fresh m) (.text p k rot l) = .ok c ∧ c.painted = [.text ((turned m k rot 1 1).translate p.1 p.2) l] := by
  unfold drawItem CairoDraw.drawText scope
  dsimp only
  simp only [run, exec]
  cases rot with
  | none =>
    refine ⟨_, rfl, ?_⟩
    rw [turned_none]
    simp [fresh, Ctx.moveDev, Mat.apply, Mat.translate]
  | some cs =>
    unfold rotated
    dsimp only
    rw [run_append, run_append, run_transform _ _ _ _ _ ⟨one_ne_zero, one_ne_zero⟩]
    refine ⟨_, rfl, ?_⟩
    simp [fresh, Ctx.moveDev, Mat.apply, Mat.translate]

/-! ### the paths -/

theorem adds_rectangle (x y w h : Rat) : Adds (rectangle x y w h) (fun m =>
    [.move (m.apply (x, y)), .line (m.apply (x + w, y)), .line (m.apply (x + w, y + h)), .line (m.apply (x, y + h)), .close]) := by
  rintro c ⟨n1, n2, n3⟩
  refine ⟨some (c.gs.ctm.apply (x, y)), some (c.gs.ctm.apply (x, y)), ?_⟩
  simp [rectangle, run, exec, Ctx.moveDev, Ctx.lineDev, n1, Mat.apply, Mat.dist, padd]
  refine ⟨?_, ?_, ?_⟩ <;> constructor <;> ring

theorem adds_rounded (x y w h rx ry : Rat) : Adds (roundedRectangle x y w h rx ry) (fun m =>
    (outline x y w h (min rx (w / 2)) (min ry (h / 2))).map (Spec.Seg.through m)) := by
  intro c hn
  obtain ⟨c', he, hp⟩ := rounded_path c x y w h rx ry
  refine ⟨c'.cur, c'.start, ?_⟩
  show _ = Except.ok { c with path := (outline x y w h (min rx (w / 2)) (min ry (h / 2))).map (Spec.Seg.through c.gs.ctm), cur := c'.cur, start := c'.start }
  rw [he, ← hp]
  congr 1
  unfold roundedRectangle at he
  simp only [run, exec, Ctx.clear, Ctx.moveDev, Ctx.lineDev, Ctx.curveDev] at he
  injection he with he
  subst he
  rfl

theorem run_lines (ps : List Pt) : ∀ (c : Ctx) (q : Pt), c.cur = some q →
    ∃ q', run c (ps.map Call.lineTo) = .ok { c with path := c.path ++ ps.map (fun p => .line (c.gs.ctm.apply p)), cur := some q' } := by
  induction ps with
  | nil => intro c q hq; exact ⟨q, by simp [run, ← hq]⟩
  | cons p ps ih =>
    intro c q hq
    obtain ⟨q', he⟩ := ih { c with path := c.path ++ [.line (c.gs.ctm.apply p)], cur := some (c.gs.ctm.apply p) } _ rfl
    exact ⟨q', by simp [run, exec, Ctx.lineDev, hq, he]⟩

theorem adds_lines (p : Pt) (ps : List Pt) : Adds (.moveTo p :: ps.map Call.lineTo) (fun m => .move (m.apply p) :: ps.map (fun q => .line (m.apply q))) := by
  rintro c ⟨n1, n2, n3⟩
  obtain ⟨q', he⟩ := run_lines ps (c.moveDev (c.gs.ctm.apply p)) _ rfl
  exact ⟨some q', some (c.gs.ctm.apply p), by simp [run, exec, he]; simp [Ctx.moveDev, n1]⟩

theorem commands_keep {cmds : List (Char × List Pt)} : ∀ {c c' : Ctx} {last : Last}, drawPathLoop c last cmds = .ok c' → c'.painted = c.painted := by
  have hexec : ∀ {c c' : Ctx} {k : Call}, (∃ p, k = .moveTo p) ∨ (∃ p, k = .lineTo p) ∨ (∃ a b p, k = .curveTo a b p) → exec c k = .ok c' →
      c'.painted = c.painted := by
    rintro c c' k (⟨p, rfl⟩ | ⟨p, rfl⟩ | ⟨a, b, p, rfl⟩) h <;> injection h with h <;> subst h
    · rfl
    · unfold Ctx.lineDev; split <;> rfl
    · unfold Ctx.curveDev; dsimp only; split <;> rfl
  have hkeep : ∀ {c c' : Ctx} {k : Call} {l l' : Last}, (∃ p, k = .moveTo p) ∨ (∃ p, k = .lineTo p) ∨ (∃ a b p, k = .curveTo a b p) →
      keep (exec c k) l = .ok (c', l') → c'.painted = c.painted := by
    intro c c' k l l' hk h
    unfold keep at h
    split at h
    · cases h
    · rename_i c1 he
      injection h with h
      injection h with h _
      subst h
      exact hexec hk he
  have hstep : ∀ {c c' : Ctx} {l l' : Last} {n : Char} {args : List Pt}, pathCommand c l n args = .ok (c', l') → c'.painted = c.painted := by
    intro c c' l l' n args h
    unfold pathCommand quadraticCall at h
    dsimp only at h
    split at h <;> (try split at h) <;> first
      | (cases h; done)
      | exact hkeep (.inl ⟨_, rfl⟩) h
      | exact hkeep (.inr (.inl ⟨_, rfl⟩)) h
      | exact hkeep (.inr (.inr ⟨_, _, _, rfl⟩)) h
      | (injection h with h; injection h with h _; subst h; rfl)
  induction cmds with
  | nil => intro c c' last h; injection h with h; subst h; rfl
  | cons x cmds ih =>
    intro c c' last h
    unfold drawPathLoop at h
    split at h
    · cases h
    · rename_i c1 l1 he
      exact (ih h).trans (hstep he)

/-- A path as callback. -/
theorem path_draws {cmds : List (Char × List Pt)} {us : List Spec.USeg} (hp : SvgPath cmds us) (hone : ∀ x ∈ cmds, arity x.1 = some x.2.length)
    (hss : List.IsChain (fun a b => ¬ (a = 'S' ∧ b = 'S')) (cmds.map (·.1))) (c : Ctx) (hm : c.gs.ctm.det ≠ 0) (hn : NoPath c) :
    ∃ ds cur start, drawPath c cmds = .ok { c with path := ds, cur := cur, start := start } ∧ Same c.gs.ctm (0, 0) us ds := by
  obtain ⟨c', ds, h1, h2, h3, h4⟩ := C67_smooth_partial c cmds us hm hp hone hss
  refine ⟨ds, c'.cur, c'.start, ?_, h4⟩
  rw [h1]
  have e1 : c'.painted = c.painted := commands_keep h1
  have e2 : c'.saved = c.saved := (loop_gs h1).2
  rw [hn.1, List.nil_append] at h2
  cases c'
  simp_all

theorem painted_path {m : Mat} (hm : m.det ≠ 0) {cmds : List (Char × List Pt)} {us : List Spec.USeg} (hp : SvgPath cmds us)
    (hone : ∀ x ∈ cmds, arity x.1 = some x.2.length) (hss : List.IsChain (fun a b => ¬ (a = 'S' ∧ b = 'S')) (cmds.map (·.1))) (s : Style) :
    ∃ c d1 d2, drawPathShape (fresh m) cmds s = .ok c ∧ c.painted = fillsOf d1 s ++ strokesOf d2 s m ∧ Same m (0, 0) us d1 ∧ Same m (0, 0) us d2 := by
  have hfill : ∀ c : Ctx, c.gs.ctm = m → NoPath c → ∃ c' ds, fillPart c cmds s = .ok c' ∧ c'.gs.ctm = m ∧ c'.gs.dash = c.gs.dash ∧ NoPath c' ∧
      c'.saved = c.saved ∧ c'.painted = c.painted ++ fillsOf ds s ∧ Same m (0, 0) us ds := by
    intro c hc hn
    obtain ⟨ds, cur, start, he, hs⟩ := path_draws hp hone hss { c with gs := { c.gs with source := s.bgColor.getD [] } } (by rw [← hc] at hm; exact hm) hn
    have hs' : Same m (0, 0) us ds := by rw [← hc]; exact hs
    unfold fillPart fillsOf
    cases hb : given s.bgColor
    · exact ⟨c, ds, by simp, hc, rfl, hn, rfl, by simp, hs'⟩
    · refine ⟨{ c with gs := { c.gs with source := s.bgColor.getD [] }, painted := c.painted ++ [.fill ds (s.bgColor.getD [])] }, ds, ?_, hc, rfl, hn, rfl, by simp, hs'⟩
      simp only [if_true]
      unfold around
      simp only [run, exec]
      rw [he]
      obtain ⟨n1, n2, n3⟩ := hn
      simp [run, exec, Ctx.clear, n1, n2, n3]
  obtain ⟨c1, d1, h1, hc1, hd1, hn1, hs1, hp1, hsame1⟩ := hfill { fresh m with saved := (fresh m).gs :: (fresh m).saved } rfl ⟨rfl, rfl, rfl⟩
  unfold drawPathShape
  rw [h1]
  dsimp only
  have hd : c1.gs.dash = [] := hd1
  obtain ⟨d2, cur, start, he, hs⟩ := path_draws hp hone hss
    { c1 with gs := { c1.gs with source := s.color.getD [], lineWidth := SvgDraw.orOne s.strokeWidth, dash := s.dash } } (by rw [← hc1] at hm; exact hm) hn1
  have hs' : Same m (0, 0) us d2 := by rw [← hc1]; exact hs
  unfold strokePart strokesOf
  cases hc : given s.color
  · refine ⟨{ c1 with gs := (fresh m).gs, saved := [] }, d1, d2, ?_, by simp [hp1, fresh], hsame1, hs'⟩
    simp [run, exec, hs1, fresh]
  · refine ⟨{ c1 with gs := (fresh m).gs, saved := [], painted := c1.painted ++ [.stroke d2 (s.color.getD []) (SvgDraw.orOne s.strokeWidth) s.dash m] }, d1, d2, ?_,
      by simp [hp1, fresh], hsame1, hs'⟩
    simp only [if_true]
    unfold around
    rw [run_before c1 hd]
    dsimp only
    rw [he]
    obtain ⟨n1, n2, n3⟩ := hn1
    simp [run, exec, Ctx.clear, n1, n2, n3, hs1, fresh, hc1]

/-! ### ellipses -/

theorem ellipse_any (m : Mat) (r : Rect) (rot : Option (Rat × Rat)) :
    IsEllipse m r rot [.move (m.apply (ellipsePoint r rot 1 0)), .circle (turned m (midPoint r) rot (r.width / 2) (r.height / 2)) (midPoint r) 1] := by
  refine ⟨_, _, _, rfl, fun u v => ?_⟩
  rw [turned_apply]
  congr 1
  unfold ellipsePoint midPoint
  simp

theorem painted_ellipse (m : Mat) (r : Rect) (hw : 0 < r.width) (hh : 0 < r.height) (rot : Option (Rat × Rat)) (s : Style) :
    ∃ c d1 d2, drawItem (fresh m) (.ellipse r rot s) = .ok c ∧ c.painted = fillsOf d1 s ++ strokesOf d2 s m ∧ IsEllipse m r rot d1 ∧ IsEllipse m r rot d2 := by
  have hno : NoPath (fresh m) := ⟨rfl, rfl, rfl⟩
  obtain ⟨c, he, -, -, -, fills, strokes, hp, hf, hs⟩ := ellipse_aux (fresh m) hno r hw hh rot s
  have hpen : given s.color = true → ∀ path col lw dash pen, strokes = [.stroke path col lw dash pen] → lw = SvgDraw.orOne s.strokeWidth ∧ dash = s.dash := by
    intro hc path col lw dash pen hst
    have he' := he
    unfold drawItem at he'
    dsimp only at he'
    cases hd : CairoDraw.drawEllipse r rot s with
    | error e => rw [hd] at he'; cases he'
    | ok ks =>
      rw [hd] at he'
      dsimp only at he'
      obtain ⟨p, sx, sy, rad, rfl⟩ := drawEllipse_shape hd
      rw [run_append, if_pos hc] at he'
      cases h1 : run (fresh m) (scope (ellipseBody p rot sx sy rad s)) with
      | error e => rw [h1] at he'; cases he'
      | ok c1 =>
        rw [h1] at he'
        dsimp only at he'
        obtain ⟨c2, h2, rfl⟩ := run_scope (ellipseBody_plain p rot sx sy rad s) h1
        unfold strokeShape at he'
        rw [run_append, run_before _ rfl] at he'
        simp only [List.nil_append, run, exec] at he'
        injection he' with he'
        have := congrArg (fun c => c.painted.getLast?) he'
        simp only [hp, hst, List.getLast?_append, List.getLast?_singleton, Option.some_or, Option.some.injEq, Paint.stroke.injEq] at this
        exact ⟨this.2.2.1.symm, this.2.2.2.1.symm⟩
  have hp' : c.painted = fills ++ strokes := by rw [hp]; rfl
  unfold fillsOf strokesOf
  cases hb : given s.bgColor <;> cases hc : given s.color <;> simp only [hb, hc, if_true, Bool.false_eq_true, if_false] at hf hs ⊢
  · exact ⟨c, _, _, he, by rw [hp', hf, hs], ellipse_any m r rot, ellipse_any m r rot⟩
  · obtain ⟨path, lw, dash, e, hi, -, -⟩ := hs
    obtain ⟨e1, e2⟩ := hpen hc _ _ _ _ _ e
    subst e1 e2
    exact ⟨c, path, path, he, by rw [hp', hf, e]; rfl, hi, hi⟩
  · obtain ⟨path, e, hi⟩ := hf
    exact ⟨c, path, path, he, by rw [hp', hs, e], hi, hi⟩
  · obtain ⟨path, lw, dash, e, hi, -, -⟩ := hs
    obtain ⟨e1, e2⟩ := hpen hc _ _ _ _ _ e
    subst e1 e2
    obtain ⟨path', e', hi'⟩ := hf
    exact ⟨c, path', path, he, by rw [hp', e, e']; rfl, hi', hi⟩

/-! ### arguments for painting -/

theorem words_split {s : Str} (h : ∀ c ∈ s, c ≠ ',' ∧ (isSpace c = true → c = ' ')) : ∀ cur, wordsFrom commaWs cur s = splitWs cur s := by
  induction s with
  | nil =>
    intro cur
    unfold wordsFrom splitWs flush
    cases cur <;> simp
  | cons c s ih =>
    intro cur
    have ih := ih (fun d hd => h d (List.mem_cons_of_mem _ hd))
    obtain ⟨h1, h2⟩ := h c (by simp)
    unfold wordsFrom splitWs
    have e : commaWs c = isSpace c := by
      cases hs : isSpace c with
      | true => rw [h2 hs]; decide
      | false =>
        have : Verif.Xml.Spec.isWs c = false := by
          cases hw : Verif.Xml.Spec.isWs c with
          | false => rfl
          | true =>
            exfalso
            simp only [Verif.Xml.Spec.isWs, Bool.or_eq_true, decide_eq_true_eq] at hw
            rcases hw with ((rfl | rfl) | rfl) | rfl <;> revert hs <;> decide
        simp [commaWs, h1, this]
    rw [e]
    cases isSpace c with
    | false => simpa using ih _
    | true => cases cur <;> simp [flush, ih]

theorem floats_all (read : Str → Option Rat) : ∀ {ws : List Str} {ns : List Rat}, all? read ws = some ns → floats read ws = .ok ns := by
  intro ws
  induction ws with
  | nil => intro ns h; injection h with h; subst h; rfl
  | cons w ws ih =>
    intro ns h
    unfold all? at h
    unfold floats
    cases h1 : read w with
    | none => rw [h1] at h; cases h
    | some q =>
      rw [h1] at h
      cases h2 : all? read ws with
      | none => rw [h2] at h; cases h
      | some qs =>
        rw [h2] at h
        injection h with h
        subst h
        rw [ih h2]

theorem dash_ok {read : Str → Option Rat} {known : Str → Bool} {p : SvgDraw.Paint} (h : StyleOk read known p) :
    ∃ ns, dashOf read p.dash = .ok ns ∧ dashNumbers read (wanted p.dash) = some ns := by
  cases hd : p.dash with
  | none => exact ⟨[], rfl, rfl⟩
  | some d =>
    by_cases he : d = []
    · subst he; exact ⟨[], rfl, rfl⟩
    · obtain ⟨h1, h2, ns, h3, h4, h5⟩ := h.dash d hd he
      refine ⟨ns, ?_, ?_⟩
      · have hf : floats read (splitWs [] d) = .ok ns := by
          refine floats_all read ?_
          rw [← words_split h2]
          exact h3
        have hb : badDash ns = false := by
          unfold badDash
          rcases h5 with rfl | ⟨n, hn, hn0⟩
          · rfl
          · have a1 : (ns.any (· < 0)) = false := by
              rw [List.any_eq_false]
              intro x hx
              simpa using h4 x hx
            have a2 : (ns.all (· = 0)) = false := by
              rw [List.all_eq_false]
              exact ⟨n, hn, by simpa using hn0⟩
            rw [a1, a2]
            simp
        simp [dashOf, he, hf, hb]
      · have hw : wanted (some d) = some d := by
          show (if d = [] then none else if d = "none".toList then none else some d) = some d
          rw [if_neg he, if_neg h1]
        rw [hw]
        exact h3

theorem style_ok {read : Str → Option Rat} {known : Str → Bool} {p : SvgDraw.Paint} (h : StyleOk read known p) :
    ∃ s ns, styleOf read known p = .ok s ∧ s.color = p.color ∧ s.bgColor = p.bgColor ∧ s.strokeWidth = p.strokeWidth ∧
      (given p.color = true → s.dash = ns) ∧ dashNumbers read (wanted p.dash) = some ns := by
  have hk : ∀ c : Option Str, (∀ v, c = some v → v ≠ [] → known v = true) → unknown known c = false := by
    intro c hc
    unfold unknown given
    cases c with
    | none => rfl
    | some v =>
      by_cases hv : v = []
      · simp [hv]
      · simp [hc v rfl hv]
  obtain ⟨ns, h1, h2⟩ := dash_ok h
  unfold styleOf
  rw [hk _ h.bgColor, hk _ h.color]
  cases hc : given p.color
  · exact ⟨_, ns, by simp; rfl, rfl, rfl, rfl, by simp, h2⟩
  · rw [h1]
    exact ⟨_, ns, by simp; rfl, rfl, rfl, rfl, fun _ => rfl, h2⟩

theorem wanted_given {known : Str → Bool} (hk : known "none".toList = false) {c : Option Str} (h : ∀ v, c = some v → v ≠ [] → known v = true) :
    wanted c = if given c then some (c.getD []) else none := by
  cases c with
  | none => rfl
  | some v =>
    show (if v = [] then none else if v = "none".toList then none else some v) = if decide (v ≠ []) = true then some v else none
    by_cases hv : v = []
    · simp [hv]
    · have : v ≠ "none".toList := by
        rintro rfl
        rw [h _ rfl hv] at hk
        cases hk
      rw [if_neg hv, if_neg this]
      simp [hv]

/-- From what is painted to what is meant. -/
theorem paints_of {strict : Bool} {read : Str → Option Rat} {known : Str → Bool} {ang : Rat → Rat × Rat} {m pm pen : Mat} {d : SvgDraw.Spec.Drawn}
    {p : SvgDraw.Paint} {s : Style} {ns : List Rat} {d1 d2 : List Seg} (hk : known "none".toList = false) (hp : StyleOk read known p)
    (hw : p.strokeWidth ≠ some 0) (hs : s.color = p.color ∧ s.bgColor = p.bgColor ∧ s.strokeWidth = p.strokeWidth ∧
      (given p.color = true → s.dash = ns) ∧ dashNumbers read (wanted p.dash) = some ns)
    (hf : d.fill = wanted p.bgColor) (hst : d.stroke = wantedStroke p) (hpm : placed ang m d.transform = some pm)
    (h1 : given p.bgColor = true → Traces false pm d.geometry d1) (h2 : given p.color = true → Traces strict pm d.geometry d2)
    (hpen : PenOf m pen ∨ PenOf pm pen) (hg : ∀ x y w h href, d.geometry ≠ .image x y w h href := by intro x y w h href hh; cases hh) : Paints strict read ang m d (fillsOf d1 s ++ strokesOf d2 s pen) := by
  obtain ⟨e1, e2, e3, e4, e5⟩ := hs
  refine ⟨pm, [], fillsOf d1 s, strokesOf d2 s pen, hpm, rfl, ?_, ?_, ?_⟩
  · cases hd : d.geometry with
    | image x y w h href => exact absurd hd (hg x y w h href)
    | _ => rfl
  · rw [hf, wanted_given hk hp.bgColor]
    unfold fillsOf
    rw [e2]
    cases hb : given p.bgColor
    · rfl
    · exact ⟨d1, rfl, h1 hb⟩
  · rw [hst]
    unfold wantedStroke
    rw [wanted_given hk hp.color]
    unfold strokesOf
    rw [e1]
    cases hc : given p.color
    · rfl
    · have ew : SvgDraw.orOne s.strokeWidth = p.strokeWidth.getD 1 := by
        rw [e3]
        cases hsw : p.strokeWidth with
        | none => rfl
        | some w =>
          have : w ≠ 0 := by rintro rfl; exact hw hsw
          simp [SvgDraw.orOne, this]
      refine ⟨d2, ns, pen, ?_, h2 hc, e5, hpen⟩
      simp only [if_true]
      rw [ew, e4 hc]

theorem traces_rounded (strict : Bool) (m : Mat) (x y w h rx ry : Rat) (hr : ¬ (rx = 0 ∧ ry = 0)) :
    Traces strict m (.rect x y w h rx ry) ((outline x y w h rx ry).map (Spec.Seg.through m)) := by
  dsimp only [Traces]
  rw [if_neg hr]
  exact ⟨_, _, _, _, _, _, _, _, rfl⟩

theorem penOf_refl (m : Mat) : PenOf m m := ⟨rfl, rfl, rfl, rfl⟩

theorem clamp_pos {side a : Rat} (hs : 0 < side) (ha : 0 ≤ a) : clamp side a = min a (side / 2) := by
  unfold clamp
  exact max_eq_right (le_min ha (by linarith))

theorem min_pos' {side a : Rat} (hs : 0 < side) (ha : 0 < a) : min a (side / 2) ≠ 0 := ne_of_gt (lt_min ha (by linarith))

theorem rect_cases (m : Mat) (r : Rect) (hw : 0 < r.width) (hh : 0 < r.height) (rx ry : Option Rat)
    (he : (∀ a, rx = some a → 0 ≤ a) ∧ (∀ b, ry = some b → 0 ≤ b) ∧ ∀ a b, rx = some a → ry = some b → (a = 0 ↔ b = 0)) :
    ∃ draw P, (if nonzero (firstOf rx ry) || nonzero (firstOf ry (firstOf rx ry)) then
        roundedRectangle r.x r.y r.width r.height ((firstOf rx ry).getD 0) ((firstOf ry (firstOf rx ry)).getD 0)
      else rectangle r.x r.y r.width r.height) = draw ∧ Adds draw P ∧
      ∀ strict m, Traces strict m (.rect r.x r.y r.width r.height (radii r.width r.height rx ry).1 (radii r.width r.height rx ry).2) (P m) := by
  have plain : ∀ strict m, Traces strict m (.rect r.x r.y r.width r.height 0 0)
      [.move (m.apply (r.x, r.y)), .line (m.apply (r.x + r.width, r.y)), .line (m.apply (r.x + r.width, r.y + r.height)), .line (m.apply (r.x, r.y + r.height)), .close] := by
    intro strict m
    dsimp only [Traces]
    rw [if_pos ⟨rfl, rfl⟩]
  have zero : ∀ {side : Rat}, 0 < side → clamp side 0 = 0 := by
    intro side hs
    rw [clamp_pos hs le_rfl]
    exact min_eq_left (by linarith)
  have round : ∀ a b : Rat, 0 < a → 0 < b → ∃ P, Adds (roundedRectangle r.x r.y r.width r.height a b) P ∧
      ∀ strict m, Traces strict m (.rect r.x r.y r.width r.height (clamp r.width a) (clamp r.height b)) (P m) := by
    intro a b ha hb
    refine ⟨_, adds_rounded _ _ _ _ _ _, fun strict m => ?_⟩
    rw [clamp_pos hw ha.le, clamp_pos hh hb.le]
    exact traces_rounded strict m _ _ _ _ _ _ (fun h => min_pos' hw ha h.1)
  obtain ⟨h1, h2, h3⟩ := he
  cases rx with
  | none =>
    cases ry with
    | none => exact ⟨_, _, rfl, adds_rectangle _ _ _ _, plain⟩
    | some b =>
      by_cases hb : b = 0
      · subst hb
        refine ⟨_, _, rfl, adds_rectangle _ _ _ _, ?_⟩
        show ∀ strict m, Traces strict m (.rect _ _ _ _ (clamp r.width 0) (clamp r.height 0)) _
        rw [zero hw, zero hh]
        exact plain
      · have hb' : 0 < b := lt_of_le_of_ne (h2 b rfl) (Ne.symm hb)
        obtain ⟨P, hP, hT⟩ := round b b hb' hb'
        exact ⟨_, P, by simp [firstOf, nonzero, hb], hP, hT⟩
  | some a =>
    cases ry with
    | none =>
      by_cases ha : a = 0
      · subst ha
        refine ⟨_, _, rfl, adds_rectangle _ _ _ _, ?_⟩
        show ∀ strict m, Traces strict m (.rect _ _ _ _ (clamp r.width 0) (clamp r.height 0)) _
        rw [zero hw, zero hh]
        exact plain
      · have ha' : 0 < a := lt_of_le_of_ne (h1 a rfl) (Ne.symm ha)
        obtain ⟨P, hP, hT⟩ := round a a ha' ha'
        exact ⟨_, P, by simp [firstOf, nonzero, ha], hP, hT⟩
    | some b =>
      have hab := h3 a b rfl rfl
      by_cases ha : a = 0
      · have hb := hab.mp ha
        subst ha hb
        refine ⟨_, _, rfl, adds_rectangle _ _ _ _, ?_⟩
        show ∀ strict m, Traces strict m (.rect _ _ _ _ (clamp r.width 0) (clamp r.height 0)) _
        rw [zero hw, zero hh]
        exact plain
      · have hb : b ≠ 0 := fun h => ha (hab.mpr h)
        have ha' : 0 < a := lt_of_le_of_ne (h1 a rfl) (Ne.symm ha)
        have hb' : 0 < b := lt_of_le_of_ne (h2 b rfl) (Ne.symm hb)
        obtain ⟨P, hP, hT⟩ := round a b ha' hb'
        exact ⟨_, P, by simp [firstOf, nonzero, ha], hP, hT⟩

theorem traces_ellipse (strict : Bool) {m : Mat} {r : Rect} {rot : Option (Rat × Rat)} {path : List Seg} (h : IsEllipse m r rot path) :
    Traces strict (turned m (middle r) rot 1 1) (.ellipse (middle r).1 (middle r).2 (r.width / 2) (r.height / 2)) path := by
  obtain ⟨m', k, rad, hp, hpt⟩ := h
  have key : ∀ u v, m.apply (ellipsePoint r rot u v) = (turned m (middle r) rot 1 1).apply ((middle r).1 + r.width / 2 * u, (middle r).2 + r.height / 2 * v) := by
    intro u v
    rw [turned_apply]
    congr 1
    unfold ellipsePoint middle
    simp
  refine ⟨m', k, rad, ?_, fun u v => (hpt u v).trans (key u v)⟩
  rw [hp, key]
  simp

/-- One item. -/
theorem item_paints {read : Str → Option Rat} {known : Str → Bool} {ang : Rat → Rat × Rat} (hk : known "none".toList = false) (h0 : ang 0 = (1, 0))
    {m : Mat} (hm : m.det ≠ 0) {i : SvgDraw.Item} (hw : SvgDraw.Spec.outlineWidth i ≠ some 0) (he : SvgDraw.Spec.EvenRadii i) (hc : Common read known i) :
    ∃ ps, drawCairo read known ang m i = .ok ps ∧ Paints (closes i) read ang m (meant i) ps := by
  unfold drawCairo toCairo
  cases i with
  | rect r rx ry rot p =>
    obtain ⟨h1, h2, hp⟩ := hc
    obtain ⟨s, ns, hs, hs'⟩ := style_ok hp
    obtain ⟨draw, P, hd, hP, hT⟩ := rect_cases m r h1 h2 rx ry he
    obtain ⟨c, hrun, hpt⟩ := painted_scope (m := m) (k := midPoint r) (rot := rot.map ang) hP s
    have hdraw : drawItem (fresh m) (.rect r rx ry (rot.map ang) s) = .ok c := by
      unfold drawItem CairoDraw.drawRect
      dsimp only
      rw [hd]
      exact hrun
    refine ⟨c.painted, ?_, ?_⟩
    · dsimp only
      rw [hs]
      dsimp only [withStyle]
      rw [show ({ gs := { ctm := m } } : Ctx) = fresh m from rfl, hdraw]
    · rw [hpt]
      exact paints_of hk hp hw hs' rfl rfl (placed_turn h0 m rot _) (fun _ => hT _ _) (fun _ => hT _ _) (.inr (penOf_refl _))
  | ellipse r rot p =>
    obtain ⟨h1, h2, hp⟩ := hc
    obtain ⟨s, ns, hs, hs'⟩ := style_ok hp
    obtain ⟨c, d1, d2, hdraw, hpt, i1, i2⟩ := painted_ellipse m r h1 h2 (rot.map ang) s
    refine ⟨c.painted, ?_, ?_⟩
    · dsimp only
      rw [hs]
      dsimp only [withStyle]
      rw [show ({ gs := { ctm := m } } : Ctx) = fresh m from rfl, hdraw]
    · rw [hpt]
      exact paints_of hk hp hw hs' rfl rfl (placed_turn h0 m rot _) (fun _ => traces_ellipse _ i1) (fun _ => traces_ellipse _ i2) (.inl (penOf_refl _))
  | polygon ps rot p =>
    obtain ⟨h1, hp⟩ := hc
    obtain ⟨s, ns, hs, hs'⟩ := style_ok hp
    cases ps with
    | nil => exact absurd rfl h1
    | cons q ps =>
      obtain ⟨c, hrun, hpt⟩ := painted_scope (m := m) (k := average (q :: ps)) (rot := rot.map ang) (adds_lines q (ps ++ [q])) s
      have hdraw : drawItem (fresh m) (.polygon (q :: ps) (rot.map ang) s) = .ok c := by
        have hk : findCentroid (q :: ps) = .ok (average (q :: ps)) := by
          unfold findCentroid
          rw [if_neg (by simp)]
          rfl
        unfold drawItem CairoDraw.drawPolygon
        dsimp only
        rw [hk]
        exact hrun
      have hT : ∀ pm, Traces false pm (.polygon (q :: ps)) (.move (pm.apply q) :: (ps ++ [q]).map (fun q => .line (pm.apply q))) := fun pm => .inr ⟨rfl, by simp⟩
      refine ⟨c.painted, ?_, ?_⟩
      · dsimp only
        rw [hs]
        dsimp only [withStyle]
        rw [show ({ gs := { ctm := m } } : Ctx) = fresh m from rfl, hdraw]
      · rw [hpt]
        exact paints_of hk hp hw hs' rfl rfl (placed_turn h0 m rot _) (fun _ => hT _) (fun _ => hT _) (.inr (penOf_refl _))
  | polyline ps p =>
    obtain ⟨h1, hb, ⟨col, hcol, hne⟩, hp⟩ := hc
    obtain ⟨s, ns, hs, hs'⟩ := style_ok hp
    cases ps with
    | nil => exact absurd rfl h1
    | cons q ps =>
      obtain ⟨gs, hrun⟩ := run_stroke (adds_lines q ps) { fresh m with saved := [(fresh m).gs] } ⟨rfl, rfl, rfl⟩ rfl col s
      have hdraw : ∃ c, drawItem (fresh m) (.polyline (q :: ps) col s) = .ok c ∧
          c.painted = fillsOf [] s ++ strokesOf (.move (m.apply q) :: ps.map (fun q => .line (m.apply q))) s m := by
        refine ⟨{ fresh m with painted := [.stroke (.move (m.apply q) :: ps.map (fun q => .line (m.apply q))) col (SvgDraw.orOne s.strokeWidth) s.dash m] }, ?_, ?_⟩
        · unfold drawItem CairoDraw.drawPolyline scope
          simp only [run, exec]
          rw [run_append, show (fresh m).saved = [] from rfl, hrun]
          simp [run, exec, fresh]
        · have g1 : given s.bgColor = false := by rw [hs'.2.1, hb]; rfl
          have g2 : given s.color = true := by rw [hs'.1, hcol]; simpa [given] using hne
          have g3 : s.color.getD [] = col := by rw [hs'.1, hcol]; rfl
          unfold fillsOf strokesOf
          rw [g1, g2, g3]
          rfl
      obtain ⟨c, hdraw, hpt⟩ := hdraw
      refine ⟨c.painted, ?_, ?_⟩
      · dsimp only
        rw [hb, hcol]
        dsimp only
        rw [if_neg hne, hs]
        dsimp only [withStyle]
        rw [show ({ gs := { ctm := m } } : Ctx) = fresh m from rfl, hdraw]
      · rw [hpt]
        exact paints_of hk hp hw hs' rfl rfl rfl (fun h => by rw [hb] at h; cases h) (fun _ => rfl) (.inl (penOf_refl _))
  | path cmds p =>
    obtain ⟨⟨us, hus⟩, h1, h2, hp⟩ := hc
    obtain ⟨s, ns, hs, hs'⟩ := style_ok hp
    obtain ⟨c, d1, d2, hdraw, hpt, i1, i2⟩ := painted_path hm hus h1 h2 s
    refine ⟨c.painted, ?_, ?_⟩
    · dsimp only
      rw [hs]
      dsimp only [withStyle]
      unfold drawItem
      dsimp only
      rw [show ({ gs := { ctm := m } } : Ctx) = fresh m from rfl, hdraw]
    · rw [hpt]
      exact paints_of hk hp hw hs' rfl rfl rfl (fun _ => ⟨us, hus, i1⟩) (fun _ => ⟨us, hus, i2⟩) (.inl (penOf_refl _))
  | bitmap r mime data rot =>
    obtain ⟨h1, h2⟩ := hc
    dsimp only
    rw [if_neg (by rintro (h | h); exacts [h1 h, h2 h])]
    rw [show ({ gs := { ctm := m } } : Ctx) = fresh m from rfl]
    obtain ⟨c, h3, h4⟩ := painted_bitmap m r (rot.map ang) data
    dsimp only
    rw [h3]
    refine ⟨_, rfl, turned m (middle r) (rot.map ang) 1 1, _, [], [], placed_turn h0 m rot _, (by rw [h4]; rfl), ⟨_, mime, data, rfl, rfl, ?_⟩, rfl, rfl⟩
    intro u v
    unfold middle midPoint
    simp only [Mat.apply, Mat.translate, Mat.scale]
    exact Prod.ext (by ring) (by ring)

end Verif.Backends
