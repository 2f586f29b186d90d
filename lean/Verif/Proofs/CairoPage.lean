import Verif.Proofs.CairoPath

/-! # Helper lemmas: several items on a page -/

namespace Verif.CairoDraw
open Spec

theorem run_append (c : Ctx) (a b : List Call) :
    run c (a ++ b) = match run c a with | .error e => .error e | .ok c => run c b := by
  induction a generalizing c with
  | nil => rfl
  | cons k a ih =>
    simp only [List.cons_append, run]
    cases exec c k with
    | error e => rfl
    | ok c1 => exact ih c1

/-! ### What is left behind -/

def Call.plain : Call → Bool
  | .save => false
  | .restore => false
  | _ => true

theorem exec_saved {c c' : Ctx} {k : Call} (hk : k.plain = true) (h : exec c k = .ok c') : c'.saved = c.saved := by
  cases k <;> simp only [exec, Call.plain] at h hk <;> try (injection h with h; subst h; try rfl)
  · cases hk
  · cases hk
  · split at h
    · cases h
    · injection h with h; subst h; rfl
  · unfold Ctx.lineDev; split <;> rfl
  · unfold Ctx.curveDev; split <;> rfl
  · split at h
    · cases h
    · injection h with h; subst h; unfold Ctx.lineDev; split <;> rfl
  · split at h
    · cases h
    · injection h with h; subst h; unfold Ctx.curveDev; dsimp only; split <;> rfl
  · dsimp only; unfold Ctx.lineDev; split <;> rfl
  · split at h <;> (injection h with h; subst h; rfl)

theorem run_saved {ks : List Call} : ∀ {c c' : Ctx}, (∀ k ∈ ks, k.plain = true) → run c ks = .ok c' → c'.saved = c.saved := by
  induction ks with
  | nil => intro c c' _ h; injection h with h; subst h; rfl
  | cons k ks ih =>
    intro c c' hp h
    unfold run at h
    cases he : exec c k with
    | error e => rw [he] at h; cases h
    | ok c1 =>
      rw [he] at h
      exact (ih (fun x hx => hp x (List.mem_cons_of_mem _ hx)) h).trans (exec_saved (hp k (by simp)) he)

/-- A scope leaves the graphics state as it was. -/
theorem run_scope {body : List Call} {c c' : Ctx} (hp : ∀ k ∈ body, k.plain = true) (h : run c (scope body) = .ok c') :
    ∃ c1, run { c with saved := c.gs :: c.saved } body = .ok c1 ∧ c' = { c1 with gs := c.gs, saved := c.saved } := by
  unfold scope at h
  simp only [run, exec] at h
  rw [run_append] at h
  cases he : run { c with saved := c.gs :: c.saved } body with
  | error e => rw [he] at h; cases h
  | ok c1 =>
    rw [he] at h
    have hs := run_saved hp he
    refine ⟨c1, rfl, ?_⟩
    simp only [run, exec, hs] at h
    injection h with h
    exact h.symm

/-- No path. -/
def NoPath (c : Ctx) : Prop := c.path = [] ∧ c.cur = none ∧ c.start = none

def SamePath (c c' : Ctx) : Prop := c'.path = c.path ∧ c'.cur = c.cur ∧ c'.start = c.start

theorem SamePath.trans {a b c : Ctx} (h : SamePath a b) (h' : SamePath b c) : SamePath a c :=
  ⟨h'.1.trans h.1, h'.2.1.trans h.2.1, h'.2.2.trans h.2.2⟩

theorem SamePath.noPath {a b : Ctx} (h : SamePath a b) (h' : NoPath a) : NoPath b :=
  ⟨h.1.trans h'.1, h.2.1.trans h'.2.1, h.2.2.trans h'.2.2⟩

/-- Calls that only change the graphics state. -/
def Call.state : Call → Bool
  | .translate _ _ => true
  | .scale _ _ => true
  | .rotate _ _ => true
  | .setSource _ => true
  | .setLineWidth _ => true
  | .setDash _ => true
  | _ => false

theorem run_state {ks : List Call} : ∀ {c c' : Ctx}, (∀ k ∈ ks, k.state = true) → run c ks = .ok c' → SamePath c c' := by
  induction ks with
  | nil => intro c c' _ h; injection h with h; subst h; exact ⟨rfl, rfl, rfl⟩
  | cons k ks ih =>
    intro c c' hp h
    unfold run at h
    have hk := hp k (by simp)
    have ih' := fun c1 (h1 : run c1 ks = .ok c') => ih (fun x hx => hp x (List.mem_cons_of_mem _ hx)) h1
    cases k <;> simp only [Call.state] at hk <;> try (exact absurd hk (by decide))
    all_goals simp only [exec] at h
    case scale x y =>
      by_cases hz : x * y = 0
      · rw [if_pos hz] at h; cases h
      · rw [if_neg hz] at h; refine SamePath.trans ?_ (ih' _ h); exact ⟨rfl, rfl, rfl⟩
    all_goals (refine SamePath.trans ?_ (ih' _ h); exact ⟨rfl, rfl, rfl⟩)

/-- After painting there is no path. -/
theorem run_painted {ks : List Call} {k : Call} {c c' : Ctx} (hk : k = .fill ∨ k = .stroke) (h : run c (ks ++ [k]) = .ok c') : NoPath c' := by
  rw [run_append] at h
  cases he : run c ks with
  | error e => rw [he] at h; cases h
  | ok c1 =>
    rw [he] at h
    rcases hk with rfl | rfl <;> (simp only [run, exec] at h; injection h with h; subst h; exact ⟨rfl, rfl, rfl⟩)

theorem transform_state (p : Pt) (rot : Option (Rat × Rat)) (sx sy : Rat) : ∀ k ∈ transform p rot sx sy, k.state = true := by
  intro k hk
  unfold transform at hk
  simp only [List.mem_cons, List.mem_append] at hk
  rcases hk with rfl | hk | hk | hk | hk
  · rfl
  · cases rot with
    | none => cases hk
    | some cs => simp at hk; subst hk; rfl
  · split at hk
    · simp at hk; subst hk; rfl
    · cases hk
  · subst hk; rfl
  · cases hk

theorem state_plain {k : Call} (h : k.state = true) : k.plain = true := by cases k <;> simp_all [Call.state, Call.plain]

theorem fillShape_plain {draw : List Call} (hd : ∀ k ∈ draw, k.plain = true) (bg : Color) : ∀ k ∈ fillShape draw bg, k.plain = true := by
  intro k hk
  unfold fillShape at hk
  simp only [List.mem_cons, List.mem_append, List.not_mem_nil, or_false] at hk
  rcases hk with rfl | hk | rfl
  · rfl
  · exact hd k hk
  · rfl

theorem strokeBefore_state (col : Color) (s : Style) : ∀ k ∈ strokeBefore col s, k.state = true := by
  intro k hk
  unfold strokeBefore at hk
  simp only [List.mem_cons] at hk
  rcases hk with rfl | rfl | hk
  · rfl
  · rfl
  · split at hk
    · simp at hk; subst hk; rfl
    · cases hk

theorem strokeShape_plain {draw : List Call} (hd : ∀ k ∈ draw, k.plain = true) (col : Color) (s : Style) :
    ∀ k ∈ strokeShape draw col s, k.plain = true := by
  intro k hk
  unfold strokeShape at hk
  simp only [List.mem_cons, List.mem_append, List.not_mem_nil, or_false] at hk
  rcases hk with hk | hk | rfl
  · exact state_plain (strokeBefore_state _ s k hk)
  · exact hd k hk
  · rfl

theorem fillStroke_plain {draw : List Call} (hd : ∀ k ∈ draw, k.plain = true) (s : Style) : ∀ k ∈ fillStrokeShape draw s, k.plain = true := by
  intro k hk
  unfold fillStrokeShape at hk
  rcases List.mem_append.mp hk with hk | hk <;> split at hk
  · exact fillShape_plain hd _ k hk
  · cases hk
  · exact strokeShape_plain hd _ s k hk
  · cases hk

theorem strokeShape_noPath {draw : List Call} {col : Color} {s : Style} {c c' : Ctx} (h : run c (strokeShape draw col s) = .ok c') : NoPath c' := by
  unfold strokeShape at h
  rw [← List.append_assoc] at h
  exact run_painted (.inr rfl) h

theorem fillShape_noPath {draw : List Call} {bg : Color} {c c' : Ctx} (h : run c (fillShape draw bg) = .ok c') : NoPath c' := by
  unfold fillShape at h
  rw [← List.cons_append] at h
  exact run_painted (.inl rfl) h

theorem fillStroke_path {draw : List Call} {s : Style} {c c' : Ctx} (h : run c (fillStrokeShape draw s) = .ok c') :
    NoPath c' ∨ SamePath c c' := by
  unfold fillStrokeShape at h
  rw [run_append] at h
  by_cases hb : given s.bgColor = true
  · rw [if_pos hb] at h
    cases he : run c (fillShape draw (s.bgColor.getD [])) with
    | error e => rw [he] at h; cases h
    | ok c1 =>
      rw [he] at h
      dsimp only at h
      split at h
      · exact .inl (strokeShape_noPath h)
      · injection h with h; subst h; exact .inl (fillShape_noPath he)
  · rw [if_neg hb] at h
    simp only [run] at h
    split at h
    · exact .inl (strokeShape_noPath h)
    · injection h with h; subst h; exact .inr ⟨rfl, rfl, rfl⟩

/-! ### A clean context: only pending moves -/

def Seg.isMove : Seg → Bool
  | .move _ => true
  | _ => false

/-- Between items. -/
structure Clean (m : Mat) (c : Ctx) : Prop where
  ctm : c.gs.ctm = m
  dash : c.gs.dash = []
  saved : c.saved = []
  moves : ∀ s ∈ c.path, s.isMove = true

theorem moves_of {c c' : Ctx} (h : NoPath c' ∨ SamePath c c') (hm : ∀ s ∈ c.path, s.isMove = true) : ∀ s ∈ c'.path, s.isMove = true := by
  rcases h with h | h
  · rw [h.1]; simp
  · rw [h.1]; exact hm

theorem scopeShape_path {p : Pt} {rot : Option (Rat × Rat)} {draw : List Call} {s : Style} {c c' : Ctx} (hd : ∀ k ∈ draw, k.plain = true)
    (h : run c (scope (transform p rot 1 1 ++ fillStrokeShape draw s)) = .ok c') :
    c'.gs = c.gs ∧ c'.saved = c.saved ∧ (NoPath c' ∨ SamePath c c') := by
  obtain ⟨c1, h1, rfl⟩ := run_scope (by
    intro k hk
    rcases List.mem_append.mp hk with hk | hk
    · exact state_plain (transform_state _ _ _ _ k hk)
    · exact fillStroke_plain hd s k hk) h
  refine ⟨rfl, rfl, ?_⟩
  rw [run_append] at h1
  cases he : run { c with saved := c.gs :: c.saved } (transform p rot 1 1) with
  | error e => rw [he] at h1; cases h1
  | ok c2 =>
    rw [he] at h1
    have hs := run_state (transform_state _ _ _ _) he
    rcases fillStroke_path h1 with h | h
    · exact .inl h
    · exact .inr (SamePath.trans hs h)

/-! ### Paths -/

theorem pathCommand_gs {c c' : Ctx} {last last' : Last} {n : Char} {args : List Pt} (h : pathCommand c last n args = .ok (c', last')) :
    c'.gs = c.gs ∧ c'.saved = c.saved := by
  have hm : ∀ {p : Pt} {c' : Ctx}, exec c (.moveTo p) = .ok c' → c'.gs = c.gs ∧ c'.saved = c.saved := by
    intro p c' h; injection h with h; subst h; exact ⟨rfl, rfl⟩
  have hl : ∀ {p : Pt} {c' : Ctx}, exec c (.lineTo p) = .ok c' → c'.gs = c.gs ∧ c'.saved = c.saved := by
    intro p c' h; injection h with h; subst h; unfold Ctx.lineDev; split <;> exact ⟨rfl, rfl⟩
  have hc : ∀ {a b p : Pt} {c' : Ctx}, exec c (.curveTo a b p) = .ok c' → c'.gs = c.gs ∧ c'.saved = c.saved := by
    intro a b p c' h; injection h with h; subst h; unfold Ctx.curveDev; dsimp only; split <;> exact ⟨rfl, rfl⟩
  unfold pathCommand at h
  dsimp only [quadraticCall, keep] at h
  split at h <;> (try split at h) <;> (try split at h) <;> (try cases h) <;>
    first
      | exact hm ‹_›
      | exact hl ‹_›
      | exact hc ‹_›
      | exact ⟨rfl, rfl⟩

theorem loop_gs {cmds : List (Char × List Pt)} : ∀ {c c' : Ctx} {last : Last}, drawPathLoop c last cmds = .ok c' →
    c'.gs = c.gs ∧ c'.saved = c.saved := by
  induction cmds with
  | nil => intro c c' last h; injection h with h; subst h; exact ⟨rfl, rfl⟩
  | cons x cmds ih =>
    intro c c' last h
    obtain ⟨n, args⟩ := x
    unfold drawPathLoop at h
    split at h
    · cases h
    · rename_i c1 l1 he
      obtain ⟨h1, h2⟩ := ih h
      obtain ⟨h3, h4⟩ := pathCommand_gs he
      exact ⟨h1.trans h3, h2.trans h4⟩

theorem around_saved {c c' : Ctx} {a b : List Call} {cmds : List (Char × List Pt)} (ha : ∀ k ∈ a, k.plain = true) (hb : ∀ k ∈ b, k.plain = true)
    (h : around c a cmds b = .ok c') : c'.saved = c.saved := by
  unfold around at h
  split at h
  · cases h
  · rename_i c1 h1
    split at h
    · cases h
    · rename_i c2 h2
      exact (run_saved hb h).trans ((loop_gs h2).2.trans (run_saved ha h1))

theorem around_noPath {c c' : Ctx} {a : List Call} {k : Call} {cmds : List (Char × List Pt)} (hk : k = .fill ∨ k = .stroke)
    (h : around c a cmds [k] = .ok c') : NoPath c' := by
  unfold around at h
  split at h
  · cases h
  · split at h
    · cases h
    · exact run_painted (ks := []) hk h

theorem pathShape_path {c c' : Ctx} {cmds : List (Char × List Pt)} {s : Style} (h : drawPathShape c cmds s = .ok c') :
    c'.gs = c.gs ∧ c'.saved = c.saved ∧ (NoPath c' ∨ SamePath c c') := by
  unfold drawPathShape at h
  cases h1 : fillPart { c with saved := c.gs :: c.saved } cmds s with
  | error e => rw [h1] at h; cases h
  | ok c1 =>
    rw [h1] at h
    dsimp only at h
    cases h2 : strokePart c1 cmds s with
    | error e => rw [h2] at h; cases h
    | ok c2 =>
      rw [h2] at h
      have e1 : c1.saved = c.gs :: c.saved ∧ (NoPath c1 ∨ SamePath c c1) := by
        unfold fillPart at h1
        split at h1
        · exact ⟨around_saved (by intro k hk; simp at hk; subst hk; rfl) (by intro k hk; simp at hk; subst hk; rfl) h1,
            .inl (around_noPath (.inl rfl) h1)⟩
        · injection h1 with h1; subst h1; exact ⟨rfl, .inr ⟨rfl, rfl, rfl⟩⟩
      have e2 : c2.saved = c1.saved ∧ (NoPath c2 ∨ SamePath c1 c2) := by
        unfold strokePart at h2
        split at h2
        · exact ⟨around_saved (fun k hk => state_plain (strokeBefore_state _ s k hk)) (by intro k hk; simp at hk; subst hk; rfl) h2,
            .inl (around_noPath (.inr rfl) h2)⟩
        · injection h2 with h2; subst h2; exact ⟨rfl, .inr ⟨rfl, rfl, rfl⟩⟩
      have hs : c2.saved = c.gs :: c.saved := e2.1.trans e1.1
      simp only [run, exec, hs] at h
      injection h with h
      subst h
      refine ⟨rfl, rfl, ?_⟩
      rcases e2.2 with h | h
      · exact .inl h
      · rcases e1.2 with h' | h'
        · exact .inl (SamePath.noPath h h')
        · exact .inr (SamePath.trans h' h)

/-! ### Every item leaves a clean context -/

theorem relLine_plain {ks : List Pt} : ∀ k ∈ ks.map Call.lineTo, k.plain = true := by
  intro k hk
  obtain ⟨p, _, rfl⟩ := List.mem_map.mp hk
  rfl

theorem rectDraw_plain (r : Rect) (rx ry : Option Rat) : ∀ k ∈ (if nonzero rx || nonzero ry then
    roundedRectangle r.x r.y r.width r.height (rx.getD 0) (ry.getD 0) else rectangle r.x r.y r.width r.height), k.plain = true := by
  intro k hk
  split at hk
  · unfold roundedRectangle at hk
    simp only [List.mem_cons, List.not_mem_nil, or_false] at hk
    rcases hk with rfl | rfl | rfl | rfl | rfl | rfl | rfl | rfl | rfl | rfl | rfl <;> rfl
  · unfold rectangle at hk
    simp only [List.mem_cons, List.not_mem_nil, or_false] at hk
    rcases hk with rfl | rfl | rfl | rfl | rfl <;> rfl

/-- Stroked ellipses with a dash pattern. -/
def Item.dashedEllipse : Item → Bool
  | .ellipse _ _ s => given s.color && s.dash ≠ []
  | _ => false

def Item.isAt : Item → Bool
  | .text _ _ _ _ => true
  | .bitmap _ _ _ => true
  | _ => false

/-- The state after a stroke without path of its own. -/
theorem stroke_gs {c c' : Ctx} {col : Color} {s : Style} (hd : s.dash = []) (h : run c (strokeShape [] col s) = .ok c') :
    c'.gs.ctm = c.gs.ctm ∧ c'.gs.dash = c.gs.dash ∧ c'.saved = c.saved ∧ NoPath c' := by
  have hn := strokeShape_noPath h
  unfold strokeShape strokeBefore at h
  rw [hd, if_neg (by simp)] at h
  simp only [List.nil_append, List.cons_append, run, exec] at h
  injection h with h
  subst h
  exact ⟨rfl, rfl, rfl, hn⟩

/-- The calls inside the scope of an ellipse. -/
def ellipseBody (p : Pt) (rot : Option (Rat × Rat)) (sx sy rad : Rat) (s : Style) : List Call :=
  transform p rot sx sy ++ ((if given s.bgColor then fillShape [.circle p rad] (s.bgColor.getD []) else []) ++
    (if given s.color then [.circle p rad] else []))

theorem ellipseBody_plain (p : Pt) (rot : Option (Rat × Rat)) (sx sy rad : Rat) (s : Style) : ∀ k ∈ ellipseBody p rot sx sy rad s, k.plain = true := by
  intro k hk
  unfold ellipseBody at hk
  rcases List.mem_append.mp hk with hk | hk
  · exact state_plain (transform_state _ _ _ _ k hk)
  · rcases List.mem_append.mp hk with hk | hk <;> split at hk
    · exact fillShape_plain (by intro k hk; simp at hk; subst hk; rfl) _ k hk
    · cases hk
    · simp at hk; subst hk; rfl
    · cases hk

theorem drawEllipse_shape {r : Rect} {rot : Option (Rat × Rat)} {s : Style} {ks : List Call} (h : drawEllipse r rot s = .ok ks) :
    ∃ p sx sy rad, ks = scope (ellipseBody p rot sx sy rad s) ++ (if given s.color then strokeShape [] (s.color.getD []) s else []) := by
  unfold drawEllipse at h
  dsimp only at h
  generalize (if r.width < r.height then r.height else r.width) = larger at h
  generalize (if r.width < r.height then r.width else r.height) = smaller at h
  split at h
  · cases h
  · injection h with h
    exact ⟨_, _, _, _, h.symm⟩

theorem ellipse_clean {m : Mat} {c c' : Ctx} {r : Rect} {rot : Option (Rat × Rat)} {s : Style} (hc : Clean m c)
    (hd : ¬ (given s.color = true ∧ s.dash ≠ [])) (h : drawItem c (.ellipse r rot s) = .ok c') :
    Clean m c' ∧ (NoPath c' ∨ SamePath c c') := by
  unfold drawItem at h; dsimp only at h
  cases he : drawEllipse r rot s with
  | error e => rw [he] at h; cases h
  | ok ks =>
    rw [he] at h
    dsimp only at h
    obtain ⟨p, sx, sy, rad, rfl⟩ := drawEllipse_shape he
    rw [run_append] at h
    cases h1 : run c (scope (ellipseBody p rot sx sy rad s)) with
    | error e => rw [h1] at h; cases h
    | ok c1 =>
      rw [h1] at h
      dsimp only at h
      obtain ⟨c2, h2, rfl⟩ := run_scope (ellipseBody_plain p rot sx sy rad s) h1
      split at h
      · rename_i hcol
        have hdash : s.dash = [] := by
          by_contra hne
          exact hd ⟨hcol, hne⟩
        obtain ⟨e1, e2, e3, e4⟩ := stroke_gs hdash h
        exact ⟨⟨e1.trans hc.ctm, e2.trans hc.dash, e3.trans hc.saved, by rw [e4.1]; simp⟩, .inl e4⟩
      · rename_i hcol
        injection h with h
        subst h
        have hp : NoPath c2 ∨ SamePath c c2 := by
          unfold ellipseBody at h2
          rw [run_append] at h2
          cases h3 : run { c with saved := c.gs :: c.saved } (transform p rot sx sy) with
          | error e => rw [h3] at h2; cases h2
          | ok c3 =>
            rw [h3] at h2
            dsimp only at h2
            have hs := run_state (transform_state _ _ _ _) h3
            rw [if_neg hcol, List.append_nil] at h2
            split at h2
            · exact .inl (fillShape_noPath h2)
            · injection h2 with h2; subst h2; exact .inr hs
        exact ⟨⟨hc.ctm, hc.dash, hc.saved, moves_of hp hc.moves⟩, hp⟩

theorem rotated_state (p : Pt) (rot : Option (Rat × Rat)) : ∀ k ∈ rotated p rot, k.state = true := by
  cases rot with
  | none => intro k hk; cases hk
  | some r => exact transform_state p (some r) 1 1

/-- Something shown at a point. -/
theorem move_clean {m : Mat} {c c' : Ctx} (hc : Clean m c) {pre : List Call} (hp : ∀ k ∈ pre, k.state = true) {p : Pt} {k : Call}
    (hpl : k.plain = true) (hk : ∀ {d : Ctx} d', exec d k = .ok d' → d'.path = d.path) (h : run c (scope (pre ++ [.moveTo p, k])) = .ok c') : Clean m c' := by
  obtain ⟨c1, h1, rfl⟩ := run_scope (by
    intro k' hk'
    rcases List.mem_append.mp hk' with hk' | hk'
    · exact state_plain (hp k' hk')
    · simp at hk'; rcases hk' with rfl | rfl
      · rfl
      · exact hpl) h
  refine ⟨hc.ctm, hc.dash, hc.saved, ?_⟩
  rw [run_append] at h1
  cases h2 : run { c with saved := c.gs :: c.saved } pre with
  | error e => rw [h2] at h1; cases h1
  | ok c2 =>
    rw [h2] at h1
    have hs := run_state hp h2
    simp only [run] at h1
    cases h3 : exec c2 (.moveTo p) with
    | error e => rw [h3] at h1; cases h1
    | ok c3 =>
      rw [h3] at h1
      dsimp only at h1
      cases h4 : exec c3 k with
      | error e => rw [h4] at h1; cases h1
      | ok c4 =>
        rw [h4] at h1
        injection h1 with h1
        subst h1
        injection h3 with h3
        subst h3
        intro s hs'
        rw [hk _ h4] at hs'
        simp only [Ctx.moveDev] at hs'
        rw [hs.1] at hs'
        rcases List.mem_append.mp hs' with h | h
        · exact hc.moves s h
        · simp at h; subst h; rfl

theorem item_clean {m : Mat} {c c' : Ctx} {i : Item} (hc : Clean m c) (hd : i.dashedEllipse = false) (h : drawItem c i = .ok c') :
    Clean m c' ∧ (i.isAt = false → NoPath c' ∨ SamePath c c') := by
  have mk : c'.gs = c.gs ∧ c'.saved = c.saved ∧ (NoPath c' ∨ SamePath c c') → Clean m c' ∧ (i.isAt = false → NoPath c' ∨ SamePath c c') :=
    fun ⟨h1, h2, h3⟩ => ⟨⟨by rw [h1]; exact hc.ctm, by rw [h1]; exact hc.dash, by rw [h2]; exact hc.saved, moves_of h3 hc.moves⟩, fun _ => h3⟩
  cases i with
  | rect r rx ry rot s => exact mk (scopeShape_path (rectDraw_plain r _ _) h)
  | ellipse r rot s =>
    have := ellipse_clean hc (by
      intro ⟨h1, h2⟩
      simp [Item.dashedEllipse, h1, h2] at hd) h
    exact ⟨this.1, fun _ => this.2⟩
  | polygon ps rot s =>
    apply mk
    unfold drawItem at h; dsimp only at h
    cases he : drawPolygon ps rot s with
    | error e => rw [he] at h; cases h
    | ok ks =>
      rw [he] at h
      dsimp only at h
      unfold drawPolygon at he
      split at he
      · cases he
      · cases he
      · injection he with he
        subst he
        exact scopeShape_path (by
          intro k hk
          rcases List.mem_cons.mp hk with rfl | hk
          · rfl
          · exact relLine_plain k hk) h
  | polyline ps col s =>
    apply mk
    unfold drawItem at h; dsimp only at h
    cases he : drawPolyline ps col s with
    | error e => rw [he] at h; cases h
    | ok ks =>
      rw [he] at h
      dsimp only at h
      unfold drawPolyline at he
      split at he
      · cases he
      · injection he with he
        subst he
        obtain ⟨c1, h1, rfl⟩ := run_scope (strokeShape_plain (by
          intro k hk
          rcases List.mem_cons.mp hk with rfl | hk
          · rfl
          · exact relLine_plain k hk) _ _) h
        have hn := strokeShape_noPath h1
        exact ⟨rfl, rfl, .inl hn⟩
  | path cmds s => exact mk (pathShape_path h)
  | text p k rot l =>
    refine ⟨?_, fun h => by cases h⟩
    exact move_clean hc (rotated_state _ _) rfl (fun c' h => by injection h with h; subst h; rfl) h
  | bitmap r rot data =>
    refine ⟨?_, fun h => by cases h⟩
    exact move_clean hc (transform_state _ _ _ _) rfl (fun c' h => by injection h with h; subst h; rfl) h
  | svg m' w' h' doc =>
    injection h with h
    subst h
    exact ⟨⟨hc.ctm, hc.dash, hc.saved, hc.moves⟩, fun _ => .inr ⟨rfl, rfl, rfl⟩⟩

theorem items_clean {m : Mat} : ∀ {is : List Item} {c c' : Ctx}, Clean m c → (∀ i ∈ is, i.dashedEllipse = false) → drawItems c is = .ok c' →
    Clean m c' ∧ (NoPath c → (∀ i ∈ is, i.isAt = false) → NoPath c') := by
  intro is
  induction is with
  | nil => intro c c' hc _ h; injection h with h; subst h; exact ⟨hc, fun h _ => h⟩
  | cons i is ih =>
    intro c c' hc hd h
    unfold drawItems at h
    cases he : drawItem c i with
    | error e => rw [he] at h; cases h
    | ok c1 =>
      rw [he] at h
      obtain ⟨hc1, hp1⟩ := item_clean hc (hd i (by simp)) he
      obtain ⟨hc2, hp2⟩ := ih hc1 (fun x hx => hd x (List.mem_cons_of_mem _ hx)) h
      refine ⟨hc2, fun hn ha => hp2 ?_ (fun x hx => ha x (List.mem_cons_of_mem _ hx))⟩
      rcases hp1 (ha i (by simp)) with h | h
      · exact h
      · exact SamePath.noPath h hn

end Verif.CairoDraw
