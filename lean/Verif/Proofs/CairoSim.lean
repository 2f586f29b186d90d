import Verif.Proofs.CairoPage

/-! # Helper lemmas: drawing in a used and in a fresh context -/

namespace Verif.CairoDraw
open Spec

/-- What is known to be the same in the two contexts: the colour, the line width, whether a sub-path was started,
and whether there is no path at all. -/
structure Fl where
  src : Bool := false
  lw : Bool := false
  dr : Bool := false
  np : Bool := false

/-- A used context `c` and a fresh one `f`; `p0` was painted before. -/
structure Sim (p0 : List Paint) (fl : Fl) (c f : Ctx) : Prop where
  ctm : c.gs.ctm = f.gs.ctm
  dash : c.gs.dash = f.gs.dash
  src : fl.src = true → c.gs.source = f.gs.source
  lw : fl.lw = true → c.gs.lineWidth = f.gs.lineWidth
  saved : List.Forall₂ (fun a b : GS => a.ctm = b.ctm ∧ a.dash = b.dash) c.saved f.saved
  pre : ∃ pre : List Seg, (∀ s ∈ pre, s.isMove = true) ∧ c.path = pre ++ f.path
  idle : fl.dr = false → f.path = [] ∧ f.cur = none ∧ f.start = none
  busy : fl.dr = true → (∃ q rest, f.path = .move q :: rest) ∧ (∃ q, f.cur = some q) ∧ c.cur = f.cur ∧ c.start = f.start ∧ (∃ q, f.start = some q)
  np : fl.np = true → fl.dr = false → NoPath c
  painted : ∃ ps, c.painted = p0 ++ ps ∧ ps.map Spec.Paint.seen = f.painted.map Spec.Paint.seen

theorem dropMoves_pre {pre : List Seg} (hp : ∀ s ∈ pre, s.isMove = true) (q : Pt) (rest : List Seg) :
    dropMoves (pre ++ .move q :: rest) = dropMoves (.move q :: rest) := by
  induction pre with
  | nil => rfl
  | cons s pre ih =>
    have hs := hp s (by simp)
    have ih' := ih (fun x hx => hp x (List.mem_cons_of_mem _ hx))
    cases s with
    | move p =>
      cases pre with
      | nil => rfl
      | cons t pre =>
        have ht := hp t (by simp)
        cases t with
        | move p' => exact ih'
        | _ => cases ht
    | _ => cases hs

theorem dropMoves_moves {pre : List Seg} (hp : ∀ s ∈ pre, s.isMove = true) : dropMoves pre = [] := by
  induction pre with
  | nil => rfl
  | cons s pre ih =>
    have hs := hp s (by simp)
    cases s with
    | move p =>
      cases pre with
      | nil => rfl
      | cons t pre =>
        have ht := hp t (by simp)
        cases t with
        | move p' => exact ih (fun x hx => hp x (List.mem_cons_of_mem _ hx))
        | _ => cases ht
    | _ => cases hs

theorem Sim.seenPath {p0 : List Paint} {fl : Fl} {c f : Ctx} (h : Sim p0 fl c f) : dropMoves c.path = dropMoves f.path := by
  obtain ⟨pre, hp, he⟩ := h.pre
  rw [he]
  cases hd : fl.dr with
  | false =>
    rw [(h.idle hd).1, List.append_nil, dropMoves_moves hp]; rfl
  | true =>
    obtain ⟨q, rest, hq⟩ := (h.busy hd).1
    rw [hq, dropMoves_pre hp]

/-- Outcomes that correspond. -/
def SimR (p0 : List Paint) (fl : Fl) : Except Err Ctx → Except Err Ctx → Prop
  | .ok c, .ok f => Sim p0 fl c f
  | .error e, .error e' => e = e'
  | _, _ => False

/-- What is known after a call; `none` if the call needs more than is known. -/
def after (fl : Fl) : Call → Option Fl
  | .save => some fl
  | .restore => some { fl with src := false, lw := false }
  | .translate _ _ => some fl
  | .scale _ _ => some fl
  | .rotate _ _ => some fl
  | .newPath => some { fl with dr := false, np := true }
  | .moveTo _ => some { fl with dr := true }
  | .lineTo _ => if fl.dr then some fl else none
  | .curveTo _ _ _ => if fl.dr then some fl else none
  | .relLineTo _ => if fl.dr then some fl else none
  | .relCurveTo _ _ _ => if fl.dr then some fl else none
  | .circle _ _ => if fl.dr then some fl else if fl.np then some { fl with dr := true } else none
  | .closePath => if fl.dr then some fl else none
  | .setSource _ => some { fl with src := true }
  | .setLineWidth _ => some { fl with lw := true }
  | .setDash _ => some fl
  | .fill => if fl.src then some { fl with dr := false, np := true } else none
  | .stroke => if fl.src && fl.lw then some { fl with dr := false, np := true } else none
  | .showLayout _ => if fl.dr then some fl else none
  | .paint _ _ _ _ _ => some fl

/-- Adding the same segment in both contexts. -/
theorem sim_add {p0 : List Paint} {fl : Fl} {c f : Ctx} (h : Sim p0 fl c f) (hd : fl.dr = true) (s : Seg) (cur : Pt) :
    Sim p0 fl { c with path := c.path ++ [s], cur := some cur } { f with path := f.path ++ [s], cur := some cur } := by
  obtain ⟨pre, hp, he⟩ := h.pre
  obtain ⟨⟨q, rest, hq⟩, _, _, hst⟩ := h.busy hd
  refine { h with pre := ⟨pre, hp, by simp [he]⟩, idle := fun hf => absurd hd (by rw [hf]; simp), busy := fun _ => ?_, np := fun _ hf => absurd hd (by rw [hf]; simp) }
  exact ⟨⟨q, rest ++ [s], by simp [hq]⟩, ⟨cur, rfl⟩, rfl, hst⟩

theorem lineDev_some {c : Ctx} {q p : Pt} (h : c.cur = some q) : c.lineDev p = { c with path := c.path ++ [.line p], cur := some p } := by
  unfold Ctx.lineDev; rw [h]

theorem curveDev_some {c : Ctx} {q a b p : Pt} (h : c.cur = some q) :
    c.curveDev a b p = { c with path := c.path ++ [.curve a b p], cur := some p } := by
  unfold Ctx.curveDev; rw [h]

theorem sim_clear {p0 : List Paint} {fl : Fl} {c f : Ctx} (h : Sim p0 fl c f) {ps : Paint} {qs : Paint} (hs : Spec.Paint.seen ps = Spec.Paint.seen qs) :
    Sim p0 { fl with dr := false, np := true } { c.clear with painted := c.painted ++ [ps] } { f.clear with painted := f.painted ++ [qs] } := by
  obtain ⟨l, h1, h2⟩ := h.painted
  refine { h with pre := ⟨[], by simp, rfl⟩, idle := fun _ => ⟨rfl, rfl, rfl⟩, busy := fun hf => absurd hf (by simp), np := fun _ _ => ⟨rfl, rfl, rfl⟩, painted := ?_ }
  exact ⟨l ++ [ps], by simp [h1], by simp [h2, hs]⟩

theorem sim_exec {p0 : List Paint} {fl fl' : Fl} {c f : Ctx} {k : Call} (h : Sim p0 fl c f) (ha : after fl k = some fl') :
    SimR p0 fl' (exec c k) (exec f k) := by
  cases k with
  | save =>
    cases ha
    exact { h with saved := List.Forall₂.cons ⟨h.ctm, h.dash⟩ h.saved }
  | restore =>
    cases ha
    simp only [exec]
    have hs := h.saved
    generalize c.saved = cs at hs
    generalize f.saved = fs at hs
    cases hs with
    | nil => rfl
    | cons hab hrest =>
      exact { h with ctm := hab.1, dash := hab.2, src := fun hf => absurd hf (by simp), lw := fun hf => absurd hf (by simp), saved := hrest }
  | translate x y => cases ha; exact { h with ctm := congrArg (Mat.translate · x y) h.ctm }
  | scale x y =>
    cases ha
    by_cases hz : x * y = 0
    · simp only [exec, if_pos hz, SimR]
    · simp only [exec, if_neg hz, SimR]
      exact { h with ctm := congrArg (Mat.scale · x y) h.ctm }
  | rotate x y => cases ha; exact { h with ctm := congrArg (Mat.rotate · x y) h.ctm }
  | newPath =>
    cases ha
    exact { h with pre := ⟨[], by simp, rfl⟩, idle := fun _ => ⟨rfl, rfl, rfl⟩, busy := fun hf => absurd hf (by simp), np := fun _ _ => ⟨rfl, rfl, rfl⟩ }
  | moveTo p =>
    cases ha
    simp only [exec, SimR, h.ctm]
    obtain ⟨pre, hp, he⟩ := h.pre
    refine { h with pre := ?_, idle := fun hf => absurd hf (by simp), np := fun _ hf => absurd hf (by simp), busy := fun _ => ⟨?_, ⟨_, rfl⟩, rfl, rfl, ⟨_, rfl⟩⟩ }
    · exact ⟨pre, hp, by simp [Ctx.moveDev, he]⟩
    · cases hd : fl.dr with
      | false => exact ⟨f.gs.ctm.apply p, [], by simp [Ctx.moveDev, (h.idle hd).1]⟩
      | true =>
        obtain ⟨q, rest, hq⟩ := (h.busy hd).1
        exact ⟨q, _, by simp only [Ctx.moveDev, hq, List.cons_append]; rfl⟩
  | lineTo p =>
    cases hd : fl.dr with
    | false => simp [after, hd] at ha
    | true =>
      simp only [after, hd, if_true] at ha
      cases ha
      obtain ⟨_, ⟨q, hq⟩, hcur, _⟩ := h.busy hd
      simp only [exec, SimR, h.ctm, lineDev_some hq, lineDev_some (hcur.trans hq)]
      exact sim_add h hd _ _
  | curveTo a b p =>
    cases hd : fl.dr with
    | false => simp [after, hd] at ha
    | true =>
      simp only [after, hd, if_true] at ha
      cases ha
      obtain ⟨_, ⟨q, hq⟩, hcur, _⟩ := h.busy hd
      simp only [exec, SimR, h.ctm, curveDev_some hq, curveDev_some (hcur.trans hq)]
      exact sim_add h hd _ _
  | relLineTo d =>
    cases hd : fl.dr with
    | false => simp [after, hd] at ha
    | true =>
      simp only [after, hd, if_true] at ha
      cases ha
      obtain ⟨_, ⟨q, hq⟩, hcur, _⟩ := h.busy hd
      simp only [exec, hq, hcur.trans hq, SimR, h.ctm, lineDev_some hq, lineDev_some (hcur.trans hq)]
      exact sim_add h hd _ _
  | relCurveTo a b d =>
    cases hd : fl.dr with
    | false => simp [after, hd] at ha
    | true =>
      simp only [after, hd, if_true] at ha
      cases ha
      obtain ⟨_, ⟨q, hq⟩, hcur, _⟩ := h.busy hd
      simp only [exec, hq, hcur.trans hq, SimR, h.ctm, curveDev_some hq, curveDev_some (hcur.trans hq)]
      exact sim_add h hd _ _
  | circle k r =>
    cases hd : fl.dr with
    | false =>
      cases hn : fl.np with
      | false => simp [after, hd, hn] at ha
      | true =>
        simp only [after, hd, hn, if_true, Bool.false_eq_true, if_false] at ha
        cases ha
        obtain ⟨n1, n2, n3⟩ := h.np hn hd
        obtain ⟨i1, i2, i3⟩ := h.idle hd
        simp only [exec, SimR, Ctx.lineDev, n2, i2, Ctx.moveDev, h.ctm, n1, i1]
        refine { h with pre := ⟨[], by simp, rfl⟩, idle := fun hf => absurd hf (by simp), np := fun _ hf => absurd hf (by simp), busy := fun _ => ?_ }
        exact ⟨⟨_, _, rfl⟩, ⟨_, rfl⟩, rfl, rfl, ⟨_, rfl⟩⟩
    | true =>
      simp only [after, hd, if_true] at ha
      cases ha
      obtain ⟨_, ⟨q, hq⟩, hcur, _⟩ := h.busy hd
      simp only [exec, SimR, h.ctm, lineDev_some hq, lineDev_some (hcur.trans hq)]
      exact sim_add (sim_add h hd _ (f.gs.ctm.apply (k.1 + r, k.2))) hd _ _
  | closePath =>
    cases hd : fl.dr with
    | false => simp [after, hd] at ha
    | true =>
      simp only [after, hd, if_true] at ha
      cases ha
      obtain ⟨_, ⟨q, hq⟩, hcur, hst, ⟨z, hz⟩⟩ := h.busy hd
      simp only [exec, hq, hcur.trans hq, SimR]
      have hcs : c.start = some z := hst.trans hz
      have := sim_add h hd .close z
      rw [← hz] at this
      rw [hst]
      convert this using 2 <;> simp [hst]
  | setSource k => cases ha; exact { h with src := fun _ => rfl }
  | setLineWidth w => cases ha; exact { h with lw := fun _ => rfl }
  | setDash d => cases ha; exact { h with dash := rfl }
  | fill =>
    cases hs : fl.src with
    | false => simp [after, hs] at ha
    | true =>
      simp only [after, hs, if_true] at ha
      cases ha
      have := sim_clear h (ps := .fill c.path c.gs.source) (qs := .fill f.path f.gs.source)
        (by simp only [Spec.Paint.seen, h.seenPath, h.src hs])
      rw [hs] at this
      exact this
  | stroke =>
    cases hs : fl.src with
    | false => simp [after, hs] at ha
    | true =>
      cases hl : fl.lw with
      | false => simp [after, hl] at ha
      | true =>
        simp only [after, hs, hl, Bool.and_self, if_true] at ha
        cases ha
        have := sim_clear h (ps := .stroke c.path c.gs.source c.gs.lineWidth c.gs.dash c.gs.ctm)
          (qs := .stroke f.path f.gs.source f.gs.lineWidth f.gs.dash f.gs.ctm)
          (by simp only [Spec.Paint.seen, h.seenPath, h.src hs, h.lw hl, h.dash, h.ctm])
        rw [hs, hl] at this
        exact this
  | showLayout l0 =>
    cases hd : fl.dr with
    | false => simp [after, hd] at ha
    | true =>
      simp only [after, hd, if_true] at ha
      cases ha
      obtain ⟨_, ⟨q, hq⟩, hcur, hst⟩ := h.busy hd
      obtain ⟨l, h1, h2⟩ := h.painted
      simp only [exec, SimR]
      refine { h with painted := ⟨l ++ [.text { c.gs.ctm with x0 := (c.cur.getD (0, 0)).1, y0 := (c.cur.getD (0, 0)).2 } l0], by simp [h1], by simp [h2, hcur, h.ctm]⟩ }
  | paint x y w h' data =>
    cases ha
    obtain ⟨l, h1, h2⟩ := h.painted
    exact { h with painted := ⟨l ++ [.picture ((c.gs.ctm.translate x y).scale w h') data], by simp [h1], by simp [h2, h.ctm]⟩ }

def afterAll (fl : Fl) : List Call → Option Fl
  | [] => some fl
  | k :: ks =>
    match after fl k with
    | none => none
    | some fl => afterAll fl ks

theorem afterAll_append {fl fl1 fl2 : Fl} {a b : List Call} (h1 : afterAll fl a = some fl1) (h2 : afterAll fl1 b = some fl2) :
    afterAll fl (a ++ b) = some fl2 := by
  induction a generalizing fl with
  | nil => cases h1; exact h2
  | cons k a ih =>
    simp only [List.cons_append, afterAll] at h1 ⊢
    cases hk : after fl k with
    | none => rw [hk] at h1; cases h1
    | some fl' => rw [hk] at h1; exact ih h1

theorem sim_run {p0 : List Paint} {ks : List Call} : ∀ {fl fl' : Fl} {c f : Ctx}, Sim p0 fl c f → afterAll fl ks = some fl' →
    SimR p0 fl' (run c ks) (run f ks) := by
  induction ks with
  | nil => intro fl fl' c f h ha; cases ha; exact h
  | cons k ks ih =>
    intro fl fl' c f h ha
    simp only [afterAll] at ha
    cases hk : after fl k with
    | none => rw [hk] at ha; cases ha
    | some fl1 =>
      rw [hk] at ha
      have := sim_exec h hk
      simp only [run]
      cases hc : exec c k with
      | error e =>
        cases hf : exec f k with
        | error e' => rw [hc, hf] at this; exact this
        | ok f1 => rw [hc, hf] at this; exact this.elim
      | ok c1 =>
        cases hf : exec f k with
        | error e' => rw [hc, hf] at this; exact this.elim
        | ok f1 => rw [hc, hf] at this; exact ih this ha

/-! ### The pieces of the items -/

theorem after_transform (fl : Fl) (p : Pt) (rot : Option (Rat × Rat)) (sx sy : Rat) : afterAll fl (transform p rot sx sy) = some fl := by
  unfold transform
  cases rot with
  | none => by_cases h : sx ≠ 1 ∨ sy ≠ 1 <;> simp only [h, if_true, if_false] <;> rfl
  | some cs => by_cases h : sx ≠ 1 ∨ sy ≠ 1 <;> simp only [h, if_true, if_false] <;> rfl

theorem after_rotated (fl : Fl) (p : Pt) (rot : Option (Rat × Rat)) : afterAll fl (rotated p rot) = some fl := by
  cases rot with
  | none => rfl
  | some r => exact after_transform fl p (some r) 1 1

theorem after_lines (fl : Fl) (hd : fl.dr = true) (ps : List Pt) : afterAll fl (ps.map Call.lineTo) = some fl := by
  induction ps with
  | nil => rfl
  | cons p ps ih =>
    simp only [List.map_cons, afterAll, after, hd, if_true]
    exact ih

/-- A way of drawing that starts with a move. -/
def Starts (draw : List Call) : Prop := ∀ fl : Fl, ∃ fl', afterAll fl draw = some fl' ∧ fl'.src = fl.src ∧ fl'.lw = fl.lw

theorem starts_poly (p : Pt) (ps : List Pt) : Starts (.moveTo p :: ps.map Call.lineTo) := fun fl =>
  ⟨{ fl with dr := true }, by simp only [afterAll, after]; exact after_lines _ rfl ps, rfl, rfl⟩

theorem starts_rect (r : Rect) (rx ry : Option Rat) : Starts (if nonzero rx || nonzero ry then
    roundedRectangle r.x r.y r.width r.height (rx.getD 0) (ry.getD 0) else rectangle r.x r.y r.width r.height) := by
  intro fl
  split
  · exact ⟨{ fl with dr := true, np := true }, rfl, rfl, rfl⟩
  · exact ⟨{ fl with dr := true }, rfl, rfl, rfl⟩

theorem after_fill {draw : List Call} (hd : Starts draw) (fl : Fl) (bg : Color) : ∃ fl', afterAll fl (fillShape draw bg) = some fl' ∧ fl'.dr = false ∧ fl'.np = true := by
  obtain ⟨fl1, h1, h2, h3⟩ := hd { fl with src := true }
  refine ⟨{ fl1 with dr := false, np := true }, ?_, rfl, rfl⟩
  unfold fillShape
  simp only [afterAll, after]
  refine afterAll_append h1 ?_
  simp only [afterAll, after, h2, if_true]

theorem after_before (fl : Fl) (col : Color) (s : Style) : afterAll fl (strokeBefore col s) = some { fl with src := true, lw := true } := by
  unfold strokeBefore
  simp only [afterAll, after]
  by_cases h : s.dash ≠ []
  · rw [if_pos h]; rfl
  · rw [if_neg h]; rfl

theorem after_stroke {draw : List Call} (hd : Starts draw) (fl : Fl) (col : Color) (s : Style) : ∃ fl', afterAll fl (strokeShape draw col s) = some fl' := by
  obtain ⟨fl1, h1, h2, h3⟩ := hd { fl with src := true, lw := true }
  refine ⟨{ fl1 with dr := false, np := true }, ?_⟩
  unfold strokeShape
  refine afterAll_append (after_before fl col s) (afterAll_append h1 ?_)
  simp only [afterAll, after, h2, h3, Bool.and_self, if_true]

theorem after_fillStroke {draw : List Call} (hd : Starts draw) (fl : Fl) (s : Style) : ∃ fl', afterAll fl (fillStrokeShape draw s) = some fl' := by
  have h1 : ∃ fl1, afterAll fl (if given s.bgColor then fillShape draw (s.bgColor.getD []) else []) = some fl1 := by
    split
    · obtain ⟨fl1, h, _⟩ := after_fill hd fl (s.bgColor.getD [])
      exact ⟨fl1, h⟩
    · exact ⟨fl, rfl⟩
  obtain ⟨fl1, h1⟩ := h1
  have h2 : ∃ fl2, afterAll fl1 (if given s.color then strokeShape draw (s.color.getD []) s else []) = some fl2 := by
    split
    · exact after_stroke hd fl1 _ s
    · exact ⟨fl1, rfl⟩
  obtain ⟨fl2, h2⟩ := h2
  exact ⟨fl2, afterAll_append h1 h2⟩

theorem after_scope {fl fl' : Fl} {body : List Call} (h : afterAll fl body = some fl') :
    afterAll fl (scope body) = some { fl' with src := false, lw := false } := by
  unfold scope
  simp only [afterAll, after]
  exact afterAll_append h rfl

theorem after_ellipse {fl : Fl} (h1 : fl.dr = false) (h2 : fl.np = true) (p : Pt) (rot : Option (Rat × Rat)) (sx sy rad : Rat) (s : Style) :
    ∃ fl', afterAll fl (scope (ellipseBody p rot sx sy rad s) ++ (if given s.color then strokeShape [] (s.color.getD []) s else [])) = some fl' := by
  have hb : ∃ fl1, afterAll fl (if given s.bgColor then fillShape [.circle p rad] (s.bgColor.getD []) else []) = some fl1 ∧ fl1.dr = false ∧ fl1.np = true := by
    split
    · refine ⟨{ fl with src := true, dr := false, np := true }, ?_, rfl, rfl⟩
      simp [fillShape, afterAll, after, h1, h2]
    · exact ⟨fl, rfl, h1, h2⟩
  obtain ⟨fl1, hb, h3, h4⟩ := hb
  have hc : ∃ fl2, afterAll fl1 (if given s.color then [.circle p rad] else []) = some fl2 := by
    split
    · exact ⟨{ fl1 with dr := true }, by simp [afterAll, after, h3, h4]⟩
    · exact ⟨fl1, rfl⟩
  obtain ⟨fl2, hc⟩ := hc
  have hbody : afterAll fl (ellipseBody p rot sx sy rad s) = some fl2 := afterAll_append (after_transform _ _ _ _ _) (afterAll_append hb hc)
  have hs := after_scope hbody
  split
  · refine ⟨{ fl2 with src := true, lw := true, dr := false, np := true }, afterAll_append hs ?_⟩
    unfold strokeShape
    refine afterAll_append (after_before _ _ _) ?_
    simp [afterAll, after]
  · exact ⟨_, afterAll_append hs rfl⟩

/-! ### Paths -/

/-- Outcomes of a path command that correspond. -/
def SimP (p0 : List Paint) (fl : Fl) : Except Err (Ctx × Last) → Except Err (Ctx × Last) → Prop
  | .ok (c, l), .ok (f, l') => Sim p0 fl c f ∧ l = l'
  | .error e, .error e' => e = e'
  | _, _ => False

theorem simP_of {p0 : List Paint} {fl fl' : Fl} {c f : Ctx} (h : Sim p0 fl c f) {k : Call} (ha : after fl k = some fl') (l : Last) :
    SimP p0 fl' (keep (exec c k) l) (keep (exec f k) l) := by
  have := sim_exec h ha
  cases hc : exec c k with
  | error e =>
    cases hf : exec f k with
    | error e' => rw [hc, hf] at this; exact this
    | ok f1 => rw [hc, hf] at this; exact this.elim
  | ok c1 =>
    cases hf : exec f k with
    | error e' => rw [hc, hf] at this; exact this.elim
    | ok f1 => rw [hc, hf] at this; exact ⟨this, rfl⟩

theorem sim_pathCommand {p0 : List Paint} {fl : Fl} {c f : Ctx} (h : Sim p0 fl c f) (hd : fl.dr = true) (last : Last) (n : Char) (args : List Pt) :
    SimP p0 fl (pathCommand c last n args) (pathCommand f last n args) := by
  have hu : c.userPoint = f.userPoint := by
    unfold Ctx.userPoint
    rw [(h.busy hd).2.2.1, h.ctm]
  have hmove : ∀ p l, SimP p0 fl (keep (exec c (.moveTo p)) l)
      (keep (exec f (.moveTo p)) l) := by
    intro p l
    have := simP_of h (k := .moveTo p) (fl' := fl) (by simp only [after]; rw [← hd]) l
    exact this
  have hline : ∀ p l, SimP p0 fl (keep (exec c (.lineTo p)) l)
      (keep (exec f (.lineTo p)) l) :=
    fun p l => simP_of h (k := .lineTo p) (by simp [after, hd]) l
  have hcurve : ∀ a b p l, SimP p0 fl (keep (exec c (.curveTo a b p)) l)
      (keep (exec f (.curveTo a b p)) l) :=
    fun a b p l => simP_of h (k := .curveTo a b p) (by simp [after, hd]) l
  unfold pathCommand
  rw [hu]
  dsimp only [quadraticCall]
  split
  · split
    · rfl
    · exact hmove _ _
  · split
    · rfl
    · exact hline _ _
  · split
    · exact hcurve _ _ _ _
    · rfl
  · split
    · exact hcurve _ _ _ _
    · rfl
  · split
    · exact hcurve _ _ _ _
    · rfl
  · split
    · exact hcurve _ _ _ _
    · rfl
  · exact ⟨h, rfl⟩

theorem sim_loop {p0 : List Paint} {fl : Fl} (hd : fl.dr = true) {cmds : List (Char × List Pt)} : ∀ {c f : Ctx} {last : Last}, Sim p0 fl c f →
    SimR p0 fl (drawPathLoop c last cmds) (drawPathLoop f last cmds) := by
  induction cmds with
  | nil => intro c f last h; exact h
  | cons x cmds ih =>
    intro c f last h
    obtain ⟨n, args⟩ := x
    have := sim_pathCommand h hd last n args
    unfold drawPathLoop
    cases hc : pathCommand c last n args with
    | error e =>
      cases hf : pathCommand f last n args with
      | error e' => rw [hc, hf] at this; exact this
      | ok f1 => rw [hc, hf] at this; exact this.elim
    | ok c1 =>
      cases hf : pathCommand f last n args with
      | error e' => rw [hc, hf] at this; exact this.elim
      | ok f1 =>
        rw [hc, hf] at this
        obtain ⟨c1, l1⟩ := c1
        obtain ⟨f1, l1'⟩ := f1
        obtain ⟨h1, rfl⟩ := this
        exact ih h1

/-- The commands start with `M`. -/
def startsM (cmds : List (Char × List Pt)) : Bool :=
  match cmds with
  | ('M', _) :: _ => true
  | _ => false

theorem sim_drawPath {p0 : List Paint} {fl : Fl} {cmds : List (Char × List Pt)} (hM : startsM cmds = true) {c f : Ctx} (h : Sim p0 fl c f) :
    SimR p0 { fl with dr := true } (drawPath c cmds) (drawPath f cmds) := by
  unfold startsM at hM
  split at hM
  · rename_i args rest
    unfold drawPath drawPathLoop
    simp only [pathCommand]
    cases arg args 0 with
    | error e => rfl
    | ok p =>
      have := sim_exec h (k := .moveTo p) (fl' := { fl with dr := true }) rfl
      simp only [exec] at this ⊢
      exact sim_loop rfl this
  · cases hM

theorem sim_around {p0 : List Paint} {fl fl1 fl2 : Fl} {cmds : List (Char × List Pt)} (hM : startsM cmds = true) {c f : Ctx} (h : Sim p0 fl c f)
    {a b : List Call} (ha : afterAll fl a = some fl1) (hb : afterAll { fl1 with dr := true } b = some fl2) :
    SimR p0 fl2 (around c a cmds b) (around f a cmds b) := by
  unfold around
  have h1 := sim_run h ha
  cases hc : run c a with
  | error e =>
    cases hf : run f a with
    | error e' => rw [hc, hf] at h1; exact h1
    | ok f1 => rw [hc, hf] at h1; exact h1.elim
  | ok c1 =>
    cases hf : run f a with
    | error e' => rw [hc, hf] at h1; exact h1.elim
    | ok f1 =>
      rw [hc, hf] at h1
      have h2 := sim_drawPath hM h1
      dsimp only
      cases hc2 : drawPath c1 cmds with
      | error e =>
        cases hf2 : drawPath f1 cmds with
        | error e' => rw [hc2, hf2] at h2; exact h2
        | ok f2 => rw [hc2, hf2] at h2; exact h2.elim
      | ok c2 =>
        cases hf2 : drawPath f1 cmds with
        | error e' => rw [hc2, hf2] at h2; exact h2.elim
        | ok f2 =>
          rw [hc2, hf2] at h2
          exact sim_run h2 hb

theorem sim_pathShape {p0 : List Paint} {fl : Fl} {cmds : List (Char × List Pt)} (hM : startsM cmds = true) {c f : Ctx} (h : Sim p0 fl c f) (s : Style) :
    ∃ fl', SimR p0 fl' (drawPathShape c cmds s) (drawPathShape f cmds s) := by
  have h0 : Sim p0 fl { c with saved := c.gs :: c.saved } { f with saved := f.gs :: f.saved } := sim_exec h (k := .save) rfl
  have h1 : ∃ fl1, SimR p0 fl1 (fillPart { c with saved := c.gs :: c.saved } cmds s) (fillPart { f with saved := f.gs :: f.saved } cmds s) := by
    unfold fillPart
    split
    · exact ⟨_, sim_around hM h0 (fl1 := { fl with src := true }) rfl (by simp [afterAll, after]; rfl)⟩
    · exact ⟨fl, h0⟩
  obtain ⟨fl1, h1⟩ := h1
  unfold drawPathShape
  cases hc : fillPart { c with saved := c.gs :: c.saved } cmds s with
  | error e =>
    cases hf : fillPart { f with saved := f.gs :: f.saved } cmds s with
    | error e' => rw [hc, hf] at h1; exact ⟨fl1, h1⟩
    | ok f1 => rw [hc, hf] at h1; exact h1.elim
  | ok c1 =>
    cases hf : fillPart { f with saved := f.gs :: f.saved } cmds s with
    | error e' => rw [hc, hf] at h1; exact h1.elim
    | ok f1 =>
      rw [hc, hf] at h1
      have h2 : ∃ fl2, SimR p0 fl2 (strokePart c1 cmds s) (strokePart f1 cmds s) := by
        unfold strokePart
        split
        · exact ⟨_, sim_around hM h1 (after_before _ _ _) (by simp [afterAll, after]; rfl)⟩
        · exact ⟨fl1, h1⟩
      obtain ⟨fl2, h2⟩ := h2
      dsimp only
      cases hc2 : strokePart c1 cmds s with
      | error e =>
        cases hf2 : strokePart f1 cmds s with
        | error e' => rw [hc2, hf2] at h2; exact ⟨fl2, h2⟩
        | ok f2 => rw [hc2, hf2] at h2; exact h2.elim
      | ok c2 =>
        cases hf2 : strokePart f1 cmds s with
        | error e' => rw [hc2, hf2] at h2; exact h2.elim
        | ok f2 =>
          rw [hc2, hf2] at h2
          exact ⟨_, sim_run h2 (ks := [.restore]) rfl⟩

/-- Items that begin a new sub-path of their own. -/
def Item.begins : Item → Bool
  | .ellipse _ _ _ => false
  | .path cmds _ => startsM cmds
  | _ => true

theorem sim_item {p0 : List Paint} {fl : Fl} {c f : Ctx} {i : Item} (h : Sim p0 fl c f)
    (hi : i.begins = true ∨ (fl.dr = false ∧ fl.np = true ∧ ∀ cmds s, i ≠ .path cmds s)) :
    ∃ fl', SimR p0 fl' (drawItem c i) (drawItem f i) := by
  cases i with
  | rect r rx ry rot s =>
    obtain ⟨fl', hf⟩ := after_fillStroke (starts_rect r (firstOf rx ry) (firstOf ry (firstOf rx ry))) fl s
    exact ⟨_, sim_run h (after_scope (afterAll_append (after_transform _ _ _ _ _) hf))⟩
  | ellipse r rot s =>
    rcases hi with hi | ⟨h1, h2, _⟩
    · cases hi
    · unfold drawItem
      dsimp only
      cases he : drawEllipse r rot s with
      | error e => exact ⟨fl, rfl⟩
      | ok ks =>
        obtain ⟨p, sx, sy, rad, rfl⟩ := drawEllipse_shape he
        obtain ⟨fl', hf⟩ := after_ellipse h1 h2 p rot sx sy rad s
        exact ⟨fl', sim_run h hf⟩
  | polygon ps rot s =>
    unfold drawItem
    dsimp only
    cases he : drawPolygon ps rot s with
    | error e => exact ⟨fl, rfl⟩
    | ok ks =>
      unfold drawPolygon at he
      split at he
      · cases he
      · cases he
      · injection he with he
        subst he
        obtain ⟨fl', hf⟩ := after_fillStroke (starts_poly _ _) fl s
        exact ⟨_, sim_run h (after_scope (afterAll_append (after_transform _ _ _ _ _) hf))⟩
  | polyline ps col s =>
    unfold drawItem
    dsimp only
    cases he : drawPolyline ps col s with
    | error e => exact ⟨fl, rfl⟩
    | ok ks =>
      unfold drawPolyline at he
      split at he
      · cases he
      · injection he with he
        subst he
        obtain ⟨fl', hf⟩ := after_stroke (starts_poly _ _) fl col s
        exact ⟨_, sim_run h (after_scope hf)⟩
  | path cmds s =>
    rcases hi with hi | ⟨_, _, hn⟩
    · exact sim_pathShape hi h s
    · exact absurd rfl (hn cmds s)
  | text p k rot l =>
    exact ⟨_, sim_run h (after_scope (afterAll_append (after_rotated _ _ _) (by simp only [afterAll, after, if_true]; rfl)))⟩
  | bitmap r rot data =>
    exact ⟨_, sim_run h (after_scope (afterAll_append (after_transform _ _ _ _ _) (by simp only [afterAll, after]; rfl)))⟩
  | svg m w' h' doc =>
    obtain ⟨l, h1, h2⟩ := h.painted
    exact ⟨fl, { h with painted := ⟨l ++ [.svg m w' h' doc], by simp [h1], by simp [h2]⟩ }⟩

end Verif.CairoDraw
