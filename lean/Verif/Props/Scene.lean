import Verif.Proofs.ScenePage

/-! # Properties C107 and C108: points, and the SVG page of a slide -/

namespace Verif.Scene
open Spec
open Verif.Layout (Env Arg Pos)
open Verif.Layout.Spec (start extent Denotes)
open Verif.CairoDraw (Pt)
open Verif.Slide.Spec (OnPage ItemOf Level Walk Under)
open Verif.SvgDraw.Spec (Numbers num readNumbers)
open Verif.Xml.Spec (readXml)

/-! ### C107 -/

theorem value_unique {env : Env} {v : Pos} {a b : Rat} (h1 : Value env v a) (h2 : Value env v b) : a = b := by
  have e1 := denotes_compute (h1 0 0 0)
  rw [denotes_compute (h2 0 0 0)] at e1
  injection e1 with e1
  exact e1.symm

/-- A coordinate made by a box is a lazy value: that of the coordinate in this box. -/
theorem value_boxCoord {env : Env} {p : Nat} {hor : Bool} {a : Arg} (ha : ArgOk a) {v : Pos} (h : boxCoord p hor a = .ok v) :
    Lazy v ∧ ∀ q, Value env v q ↔ CoordAt env p hor a q := by
  have hl : Lazy v := by
    unfold boxCoord at h
    split at h
    · cases h
    · injection h with h; subst h
      simp [Lazy, Verif.Layout.Spec.refs]
  refine ⟨hl, fun q => ?_⟩
  rw [← value_iff hl (o := 0) (full := 0) (self := 0), ← coord_iff ha]
  constructor
  · intro h'; exact ⟨v, h, h'⟩
  · rintro ⟨w, h1, h2⟩
    rw [h] at h1; injection h1 with h1; subst h1; exact h2

theorem boxPoint_ok {p : Nat} {x y : Arg} {a : PointArg} (h : boxPoint p x y = .ok a) :
    ∃ vx vy, boxCoord p true x = .ok vx ∧ boxCoord p false y = .ok vy ∧ a = .lazy vx vy := by
  unfold boxPoint at h
  split at h
  · cases h
  · rename_i vx hx
    split at h
    · cases h
    · rename_i vy hy
      injection h with h
      exact ⟨vx, vy, hx, hy, h.symm⟩

theorem value_map {env : Env} {v : Pos} {d q : Rat} : Value env (.map (· + d) v) q ↔ ∃ q', Value env v q' ∧ q = q' + d := by
  constructor
  · intro h
    have h0 := denotes_compute (h 0 0 0)
    simp only [Pos.compute] at h0
    split at h0
    · rename_i q' hq
      injection h0 with h0
      refine ⟨q', fun o full self => ?_, h0.symm⟩
      have h1 := h o full self
      generalize he : Pos.map (· + d) v = v' at h1
      cases h1 with
      | @map f w o full self val hw =>
        injection he with h2 h3
        subst h3
        rw [← h2] at h0
        have : val = q' := by
          have := congrFun h2 val
          linarith
        rw [← this]; exact hw
      | _ => cases he
    · cases h0
  · rintro ⟨q', h, rfl⟩ o full self
    exact .map (h o full self)

/-- **C107.** A point given to a drawing method of a box is evaluated as documented: numbers count from the upper left corner of the box,
position strings are relative to its size, and lazy points are what they are whichever box uses them. A point made by `b.p(x, y)` is
the point (x, y) of the box `b`, whichever box uses it; `b.mid_point()` is the middle of `b`; `.add(dx, dy)` moves a point by exactly that. A point has one meaning. -/
theorem C107_points (env : Env) (p : Nat) :
    (∀ a q, PointOk a → ((∃ v, unpackPoint p a = .ok v ∧ evalPair env v = .ok q) ↔ PointAt env p a q)) ∧
    (∀ a q q', PointOk a → PointAt env p a q → PointAt env p a q' → q = q') ∧
    (∀ b x y a, ArgOk x → ArgOk y → boxPoint b x y = .ok a → PointOk a ∧
      ∀ q, PointAt env p a q ↔ CoordAt env b true x q.1 ∧ CoordAt env b false y q.2) ∧
    (∀ b, ∃ a, midPoint b = .ok a ∧ PointOk a ∧ ∀ q, PointAt env p a q ↔ ∃ r, env b = some r ∧ q = (r.x + r.width / 2, r.y + r.height / 2)) ∧
    (∀ a a' dx dy, PointOk a → PointArg.add dx dy a = .ok a' → PointOk a' ∧
      ∀ q, PointAt env p a' q ↔ ∃ q', PointAt env p a q' ∧ q = (q'.1 + dx, q'.2 + dy)) := by
  refine ⟨fun a q ha => point_iff ha, ?_, ?_, ?_, ?_⟩
  · intro a q q' ha h1 h2
    obtain ⟨v, h3, h4⟩ := (point_iff ha).mpr h1
    obtain ⟨v', h5, h6⟩ := (point_iff ha).mpr h2
    rw [h3] at h5; injection h5 with h5; subst h5
    rw [h4] at h6; injection h6
  · intro b x y a hx hy h
    obtain ⟨vx, vy, h1, h2, rfl⟩ := boxPoint_ok h
    obtain ⟨l1, e1⟩ := value_boxCoord (env := env) hx h1
    obtain ⟨l2, e2⟩ := value_boxCoord (env := env) hy h2
    refine ⟨⟨l1, l2⟩, fun q => ?_⟩
    rw [← e1, ← e2]
    constructor
    · intro h; cases h with | lazy h1 h2 => exact ⟨h1, h2⟩
    · rintro ⟨h1, h2⟩; exact .lazy h1 h2
  · intro b
    have hm : midPoint b = .ok (.lazy (.ref b true (.ratio (1/2))) (.ref b false (.ratio (1/2)))) := by
      have : Verif.Layout.parsePos (.str "50%".toList) = .ok (.ratio (1/2)) := by
        have h := Verif.Layout.C39_position_strings_accepted _ _ (.percent (ds := ['5', '0']) ⟨by simp, by decide⟩)
        have e : ((Verif.Show.Spec.numeralValue ['5', '0'] : Nat) : Rat) / 100 = 1 / 2 := by decide +kernel
        rw [e] at h
        exact h
      simp only [midPoint, boxPoint, boxCoord, this]
    refine ⟨_, hm, ⟨by simp [Lazy, Verif.Layout.Spec.refs], by simp [Lazy, Verif.Layout.Spec.refs]⟩, fun q => ?_⟩
    rw [← point_iff (show PointOk (.lazy _ _) from ⟨by simp [Lazy, Verif.Layout.Spec.refs], by simp [Lazy, Verif.Layout.Spec.refs]⟩)]
    constructor
    · rintro ⟨v, h1, h2⟩
      injection h1 with h1; subst h1
      unfold evalPair at h2
      cases hb : env b with
      | none => simp [Pos.compute, hb] at h2
      | some r =>
        simp [Pos.compute, hb] at h2
        refine ⟨r, rfl, ?_⟩
        rw [← h2]
        ext <;> simp <;> ring
    · rintro ⟨r, hr, rfl⟩
      refine ⟨_, rfl, ?_⟩
      simp [evalPair, Pos.compute, hr]
      constructor <;> ring
  · intro a a' dx dy ha h
    cases a with
    | lazy x y =>
      injection h with h; subst h
      refine ⟨⟨by simpa [Lazy, Verif.Layout.Spec.refs] using ha.1, by simpa [Lazy, Verif.Layout.Spec.refs] using ha.2⟩, fun q => ?_⟩
      constructor
      · intro h
        cases h with
        | lazy h1 h2 =>
          obtain ⟨a, ha, rfl⟩ := value_map.mp h1
          obtain ⟨b, hb, rfl⟩ := value_map.mp h2
          exact ⟨(a, b), .lazy ha hb, rfl⟩
      · rintro ⟨q', h, rfl⟩
        cases h with
        | lazy h1 h2 => exact .lazy (value_map.mpr ⟨_, h1, rfl⟩) (value_map.mpr ⟨_, h2, rfl⟩)
    | _ => cases h

theorem parsePos_iff (a : Arg) : (∃ v, Verif.Layout.parsePos a = .ok v) ↔ Coordinate a := by
  cases a with
  | none => exact ⟨fun _ => trivial, fun _ => ⟨_, rfl⟩⟩
  | num q => exact ⟨fun _ => trivial, fun _ => ⟨_, rfl⟩⟩
  | lazy v => exact ⟨fun _ => trivial, fun _ => ⟨_, rfl⟩⟩
  | other => exact ⟨fun ⟨v, h⟩ => (by cases h), fun h => h.elim⟩
  | str s =>
    constructor
    · rintro ⟨v, hv⟩
      rcases Verif.Layout.C39_position_strings_partial s with ⟨v', t, nl, -, h1, h2, h3⟩ | ⟨msg, h, -⟩
      · exact ⟨t, v', nl, h1, h2, h3⟩
      · rw [h] at hv; cases hv
    · rintro ⟨t, v, nl, rfl, ht, hnl⟩
      exact ⟨v, parsePos_text ht hnl⟩

theorem boxCoord_iff (p : Nat) (hor : Bool) (a : Arg) : (∃ v, boxCoord p hor a = .ok v) ↔ Coordinate a := by
  rw [← parsePos_iff]
  unfold boxCoord
  cases Verif.Layout.parsePos a with
  | error e => exact ⟨fun ⟨v, h⟩ => (by cases h), fun ⟨v, h⟩ => by cases h⟩
  | ok v => exact ⟨fun _ => ⟨_, rfl⟩, fun _ => ⟨_, rfl⟩⟩

theorem unpackPoint_iff (p : Nat) (a : PointArg) : (∃ v, unpackPoint p a = .ok v) ↔ IsPoint a := by
  cases a with
  | lazy x y => exact ⟨fun _ => trivial, fun _ => ⟨_, rfl⟩⟩
  | other => exact ⟨fun ⟨v, h⟩ => (by cases h), fun h => h.elim⟩
  | pair x y =>
    simp only [IsPoint, ← boxCoord_iff p true x, ← boxCoord_iff p false y]
    simp only [unpackPoint]
    cases boxCoord p true x with
    | error e => exact ⟨fun ⟨v, h⟩ => (by cases h), fun ⟨⟨v, h⟩, _⟩ => by cases h⟩
    | ok vx =>
      cases boxCoord p false y with
      | error e => exact ⟨fun ⟨v, h⟩ => (by cases h), fun ⟨_, ⟨v, h⟩⟩ => by cases h⟩
      | ok vy => exact ⟨fun _ => ⟨⟨_, rfl⟩, ⟨_, rfl⟩⟩, fun _ => ⟨_, rfl⟩⟩

theorem unpackPoints_iff (p : Nat) : ∀ as : List PointArg, (∃ vs, unpackPoints p as = .ok vs) ↔ ∀ a ∈ as, IsPoint a
  | [] => ⟨fun _ a ha => (by cases ha), fun _ => ⟨_, rfl⟩⟩
  | a :: as => by
    simp only [List.mem_cons, forall_eq_or_imp, ← unpackPoint_iff p a, ← unpackPoints_iff p as, unpackPoints]
    cases unpackPoint p a with
    | error e => exact ⟨fun ⟨v, h⟩ => (by cases h), fun ⟨⟨v, h⟩, _⟩ => by cases h⟩
    | ok v =>
      cases unpackPoints p as with
      | error e => exact ⟨fun ⟨v, h⟩ => (by cases h), fun ⟨_, ⟨v, h⟩⟩ => by cases h⟩
      | ok vs => exact ⟨fun _ => ⟨⟨_, rfl⟩, ⟨_, rfl⟩⟩, fun _ => ⟨_, rfl⟩⟩

theorem nargs_commands (c : Char) (n : Nat) : Verif.CairoDraw.nargs c = some n ↔ (c, n) ∈ commands := by
  unfold Verif.CairoDraw.nargs commands
  constructor
  · intro h
    split at h <;> first | (injection h with h; subst h; decide) | cases h
  · intro h
    simp only [List.mem_cons, List.not_mem_nil, or_false, Prod.mk.injEq] at h
    rcases h with ⟨rfl, rfl⟩ | ⟨rfl, rfl⟩ | ⟨rfl, rfl⟩ | ⟨rfl, rfl⟩ | ⟨rfl, rfl⟩ | ⟨rfl, rfl⟩ <;> rfl

theorem unpackPath_iff (p : Nat) : ∀ cmds : List (Char × List PointArg), (∃ vs, unpackPath p cmds = .ok vs) ↔ ∀ c ∈ cmds, IsCommand c
  | [] => ⟨fun _ a ha => (by cases ha), fun _ => ⟨_, rfl⟩⟩
  | (name, args) :: rest => by
    rw [List.forall_mem_cons, ← unpackPath_iff p rest]
    simp only [unpackPath, IsCommand, ← nargs_commands, ← unpackPoints_iff p args]
    cases hn : Verif.CairoDraw.nargs name with
    | none =>
      constructor
      · rintro ⟨v, h⟩; cases h
      · rintro ⟨⟨⟨n, m, h, -⟩, -⟩, -⟩; cases h
    | some n =>
      dsimp only
      by_cases hl : args.length % n = 0
      · rw [if_neg (by simpa using hl)]
        have hm : ∃ n' m, some n = some n' ∧ args.length = n' * m := ⟨n, args.length / n, rfl, by rw [Nat.mul_comm]; exact (Nat.div_mul_cancel (Nat.dvd_of_mod_eq_zero hl)).symm⟩
        cases unpackPoints p args with
        | error e => exact ⟨fun ⟨v, h⟩ => (by cases h), fun ⟨⟨_, ⟨v, h⟩⟩, _⟩ => by cases h⟩
        | ok vs =>
          cases unpackPath p rest with
          | error e => exact ⟨fun ⟨v, h⟩ => (by cases h), fun ⟨_, ⟨v, h⟩⟩ => by cases h⟩
          | ok r => exact ⟨fun _ => ⟨⟨hm, ⟨_, rfl⟩⟩, ⟨_, rfl⟩⟩, fun _ => ⟨_, rfl⟩⟩
      · rw [if_pos hl]
        constructor
        · rintro ⟨v, h⟩; cases h
        · rintro ⟨⟨⟨n', m, h, e⟩, -⟩, -⟩
          injection h with h; subst h
          exact absurd (by rw [e]; exact Nat.mul_mod_right _ _) hl

/-- **C107, calls.** A polygon is accepted if all of its points are points, a line if it has at least two besides, and a path if each command is one of M, L, T, S, Q and C with a multiple of
1, 1, 1, 2, 2 and 3 points. The points of a list are evaluated one by one in their order, and so are the commands of a path. -/
theorem C107_calls (env : Env) (p : Nat) :
    (∀ ps rot pt, (∃ r, begin_ p (.polygon ps rot pt) = .ok r) ↔ Acceptable (.polygon ps rot pt)) ∧
    (∀ ps color sw dash, (∃ r, begin_ p (.line ps color sw dash) = .ok r) ↔ Acceptable (.line ps color sw dash)) ∧
    (∀ cmds pt, (∃ r, begin_ p (.path cmds pt) = .ok r) ↔ Acceptable (.path cmds pt)) ∧
    (∀ as qs, (∀ a ∈ as, PointOk a) → ((∃ vs, unpackPoints p as = .ok vs ∧ evalPairs env vs = .ok qs) ↔ List.Forall₂ (PointAt env p) as qs)) ∧
    (∀ cmds vs cs, (∀ a ∈ cmds.flatMap (·.2), PointOk a) → unpackPath p cmds = .ok vs →
      (evalPath env vs = .ok cs ↔ List.Forall₂ (fun a b => a.1 = b.1 ∧ List.Forall₂ (PointAt env p) a.2 b.2) cmds cs)) := by
  refine ⟨fun ps rot pt => ?_, fun ps color sw dash => ?_, fun cmds pt => ?_, fun as qs h => points_iff h, fun cmds vs cs h1 h2 => evalPath_of h1 h2⟩
  · simp only [Acceptable, ← unpackPoints_iff p ps, begin_]
    cases unpackPoints p ps with
    | error e => exact ⟨fun ⟨v, h⟩ => (by cases h), fun ⟨v, h⟩ => by cases h⟩
    | ok vs => exact ⟨fun _ => ⟨_, rfl⟩, fun _ => ⟨_, rfl⟩⟩
  · simp only [Acceptable, ← unpackPoints_iff p ps, begin_]
    by_cases hl : ps.length < 2
    · rw [if_pos hl]
      exact ⟨fun ⟨v, h⟩ => (by cases h), fun ⟨h, _⟩ => by omega⟩
    · rw [if_neg hl]
      cases unpackPoints p ps with
      | error e => exact ⟨fun ⟨v, h⟩ => (by cases h), fun ⟨_, ⟨v, h⟩⟩ => by cases h⟩
      | ok vs => exact ⟨fun _ => ⟨by omega, ⟨_, rfl⟩⟩, fun _ => ⟨_, rfl⟩⟩
  · simp only [Acceptable, ← unpackPath_iff p cmds, begin_]
    cases unpackPath p cmds with
    | error e => exact ⟨fun ⟨v, h⟩ => (by cases h), fun ⟨v, h⟩ => by cases h⟩
    | ok vs =>
      refine ⟨fun _ => ⟨_, rfl⟩, fun _ => ?_⟩
      dsimp only
      split
      · exact ⟨_, rfl⟩
      · exact ⟨_, rfl⟩

/-- A curve with six points is accepted, one with four is not. -/
example : Acceptable (.path [('M', [.pair (.num 0) (.num 0)]), ('C', List.replicate 6 (.pair (.num 1) (.num 2)))] {}) ∧
    ¬ Acceptable (.path [('C', List.replicate 4 (.pair (.num 1) (.num 2)))] {}) := by
  constructor
  · intro c hc
    simp only [List.mem_cons, List.not_mem_nil, or_false] at hc
    rcases hc with rfl | rfl
    · exact ⟨⟨1, 1, by decide, rfl⟩, by simp [IsPoint, Coordinate]⟩
    · exact ⟨⟨3, 2, by decide, rfl⟩, by simp [IsPoint, Coordinate]⟩
  · intro h
    obtain ⟨⟨n, m, h1, h2⟩, -⟩ := h _ (List.mem_singleton.mpr rfl)
    have : n = 3 := by simpa [commands] using h1
    subst this
    simp only [List.length_replicate] at h2
    omega

/-! ### C108 -/

/-- C108 together with: the document has no carriage returns (so it can be put into another one). -/
theorem page_shown {fmt : Rat → Str} {read : Str → Option Rat} (hn : Numbers fmt read) (ang : Rat → Rat × Rat)
    (h0 : ang 0 = (1, 0)) (w h : Rat) (cs : List Call) (s : State)
    (hr : run (newScene w h) cs = .ok s) (env : Env) (he : s.slide.rects w h = .ok env) (viewBox : Option Rect) (step : Int)
    (hd : ∀ (k : Nat) p d, (things cs)[k]? = some (Call.draw p d) → OnPage ((things cs).map outline) step p → Drawable env step p d) :
    ∃ (l : List (Nat × Int)) (order : List Nat) (str : Str) (as : Verif.Xml.Spec.Attrs) (parts : List Verif.Xml.Spec.Forest),
      svgPage fmt s env w h viewBox step = .ok str ∧ '\r' ∉ str ∧ readXml str = some (.elem "svg".toList as (concat parts) .nil) ∧
      num read as "width" = some w ∧ num read as "height" = some h ∧
      (as.lookup "viewBox".toList).map (readNumbers read) = viewBox.map (fun v => some [v.x, v.y, v.width, v.height]) ∧
      List.Forall₂ (fun x F => ∃ (k : Nat) (p : Nat) (d : Draw), x.1 = k + 1 ∧ (things cs)[k]? = some (.draw p d) ∧ Shown read ang env step p d F) l parts ∧
      (l.map (·.1)).Nodup ∧
      (∀ u z, (u, z) ∈ l ↔ ∃ p, ItemOf ((things cs).map outline) p u ∧ Level ((things cs).map outline) p z ∧ OnPage ((things cs).map outline) step p) ∧
      Walk ((things cs).map outline) [0] order ∧ order.Nodup ∧ l.Pairwise (Under order) := by
  obtain ⟨hrun, hkept⟩ := kept_run (kept_new w h) hr
  rw [List.nil_append] at hkept
  have hrun' : Verif.Slide.run (Verif.Slide.newSlide w h) ((things cs).map outline) = .ok s.slide := hrun
  obtain ⟨l, order, hpage, hnd, hmem, hwalk, -, hon, hpair⟩ := Verif.Slide.C106_page w h _ _ hrun' step
  have hlaid0 := Verif.Slide.newSlide_laid w h
  have htarget := (target_laid hrun' hlaid0).2
  have hrects := rects_some (Verif.Slide.run_laid hrun' hlaid0) he
  obtain ⟨h1, h2⟩ := Verif.SvgDraw.svg_sets_ok hn w h viewBox
  set sets := Verif.SvgDraw.svgSets fmt w h viewBox with hsets
  have hnm : Verif.Xml.Spec.ValidName "svg".toList := Verif.Xml.validName_of_decide (by decide)
  obtain ⟨x0, hx0, hg0, hw0⟩ := start_tag hnm h1 h2
  obtain ⟨x1, parts, hx1, hg1, hparts⟩ := renderAll_shown hn h0 (ts := things cs) (env := env) (step := step) (contents := s.contents) hw0 l (by
    rintro ⟨u, z⟩ hy
    obtain ⟨p, hi, -, hp⟩ := (hmem u z).mp hy
    cases hi with
    | @mk k c hc hb ht =>
      rw [List.getElem?_map] at hc
      cases hk : (things cs)[k]? with
      | none => rw [hk] at hc; cases hc
      | some c' =>
        rw [hk] at hc
        injection hc with hc
        cases c' with
        | box q b => subst hc; cases hb
        | draw q d =>
          have hq : q = p := by
            rw [← ht, ← hc]
            cases d <;> rfl
          subst hq
          obtain ⟨c0, kk, h3, h4⟩ := hkept.item k q d hk
          obtain ⟨r, hr'⟩ := hrects q (by rw [← ht]; exact htarget c (hc ▸ List.mem_map_of_mem (List.mem_of_getElem? hk)))
          exact ⟨k, q, d, c0, kk, r, rfl, hk, h3, h4, hd k q d hk hp, hr'⟩) (.inl ⟨rfl, rfl⟩)
  rw [Verif.Xml.Forest.nil_append] at hg1
  obtain ⟨x2, hx2, hp⟩ := hg1.close hg0 hnm
  have hstr : x2.toString = .ok x2.chunks.flatten := by unfold Verif.Xml.Xml.toString; rw [if_pos (by rw [hp.stack]; rfl)]
  refine ⟨l, order, x2.chunks.flatten, Verif.Ora.readAttrs sets, parts, ?_, hp.noCR, ?_, ?_, ?_, ?_, hparts, hnd, hmem, hwalk, hon, hpair⟩
  · unfold svgPage
    rw [← hsets, hx0]
    dsimp only
    rw [hpage, hx1]
    dsimp only
    rw [hx2]
    exact hstr
  · exact hp.reads
  · rw [Verif.SvgDraw.readAttrs_clean h2]
    exact hn.back w
  · rw [Verif.SvgDraw.readAttrs_clean h2]
    exact hn.back h
  · rw [Verif.SvgDraw.readAttrs_clean h2]
    cases viewBox with
    | none => rfl
    | some v =>
      show some (readNumbers read (Verif.SvgDraw.joinWith [' '] ([v.x, v.y, v.width, v.height].map fmt))) = _
      rw [Verif.SvgDraw.readNumbers_fmt hn]
      rfl

/-- **C108.** The SVG page of a slide after any successful calls is well-formed XML with the size and the view box of the slide. It shows, in this
order and nothing else, what was drawn in the boxes that are on the page: every shape and picture where its box and its points are,
with its colours, outline and rotation, every text with its lines in the middle of its box, and of every SVG picture the document of this page. -/
theorem C108_page {fmt : Rat → Str} {read : Str → Option Rat} (hn : Numbers fmt read) (ang : Rat → Rat × Rat)
    (h0 : ang 0 = (1, 0)) (w h : Rat) (cs : List Call) (s : State)
    (hr : run (newScene w h) cs = .ok s) (env : Env) (he : s.slide.rects w h = .ok env) (viewBox : Option Rect) (step : Int)
    (hd : ∀ (k : Nat) p d, (things cs)[k]? = some (Call.draw p d) → OnPage ((things cs).map outline) step p → Drawable env step p d) :
    ∃ (l : List (Nat × Int)) (order : List Nat) (str : Str) (as : Verif.Xml.Spec.Attrs) (parts : List Verif.Xml.Spec.Forest),
      svgPage fmt s env w h viewBox step = .ok str ∧ readXml str = some (.elem "svg".toList as (concat parts) .nil) ∧
      num read as "width" = some w ∧ num read as "height" = some h ∧
      (as.lookup "viewBox".toList).map (readNumbers read) = viewBox.map (fun v => some [v.x, v.y, v.width, v.height]) ∧
      List.Forall₂ (fun x F => ∃ (k : Nat) (p : Nat) (d : Draw), x.1 = k + 1 ∧ (things cs)[k]? = some (.draw p d) ∧ Shown read ang env step p d F) l parts ∧
      (l.map (·.1)).Nodup ∧
      (∀ u z, (u, z) ∈ l ↔ ∃ p, ItemOf ((things cs).map outline) p u ∧ Level ((things cs).map outline) p z ∧ OnPage ((things cs).map outline) step p) ∧
      Walk ((things cs).map outline) [0] order ∧ order.Nodup ∧ l.Pairwise (Under order) := by
  obtain ⟨l, order, str, as, parts, h1, -, h2⟩ := page_shown hn ang h0 w h cs s hr env he viewBox step hd
  exact ⟨l, order, str, as, parts, h1, h2⟩

/-! ### an example -/

open Verif.TextItem (exToks exStyle exStyles)

/-- A picture with nothing on page 1. -/
def exPicture : Picture :=
  { width := 8, height := 6, steps := 2, doc := fun i => if i < 2 then .ok none else .ok (some "<svg width=\"8\"><rect/></svg>".toList) }

/-- A box with a turned rectangle, a path without commands, and, from page 2 on, a box with a text and a line from the middle of the first box
to its own lower left corner; and a turned SVG picture in the first box. -/
def exScene : List Call :=
  [.box 0 { layout := { x := .num 10, y := .num 20, width := .num 40, height := .num 30 } },
   .draw 1 (.rect none none (some 30) { bgColor := some "red".toList }),
   .draw 1 (.path [] {}),
   .box 0 { show_ := .str "2+".toList, layout := { x := .num 50, y := .num 60, width := .num 20, height := .num 40 } },
   .draw 3 (.text exToks exStyle exStyles none true 40),
   .draw 3 (.line [.lazy (.ref 1 true (.ratio (1/2))) (.ref 1 false (.ratio (1/2))), .pair (.num 0) (.str "100%".toList)] (some "red".toList) none none),
   .draw 1 (.svg exPicture none (some 90))]

def exSceneState : State := match run (newScene 100 100) exScene with | .ok s => s | .error _ => newScene 100 100

def exSceneEnv : Env := match exSceneState.slide.rects 100 100 with | .ok env => env | .error _ => fun _ => none

theorem ex_text_ok : TextOk exToks exStyle exStyles where
  main := ⟨(by intro f h; injection h with h; subst h; exact Verif.Xml.okStr_of_decide (by decide)),
        (by intro f h; injection h with h; subst h; exact Verif.Xml.okStr_of_decide (by decide)), (by intro f h; cases h)⟩
  others := by
    intro n s h
    simp only [exStyles] at h
    split at h
    · injection h with h; subst h
      exact ⟨(by intro f h; cases h), (by intro f h; cases h), (by intro f h; cases h)⟩
    · cases h
  balanced := Verif.Text.Spec.Balanced.text "ab".toList _ (.newline 2 _ (Verif.Text.Spec.Balanced.block "em".toList [.text "c".toList] [] (.text _ _ .nil) .nil))
  names := by
    intro n hn h
    simp only [exToks, List.mem_cons, Verif.Text.Tok.opn.injEq, List.not_mem_nil, or_false, reduceCtorEq, false_or] at hn
    subst hn; cases h
  plain := by
    intro s hs
    simp only [exToks, List.mem_cons, Verif.Text.Tok.text.injEq, List.not_mem_nil, or_false, reduceCtorEq, false_or] at hs
    rcases hs with rfl | rfl
    · exact (Verif.Xml.okStr_of_decide (by decide)).1
    · exact (Verif.Xml.okStr_of_decide (by decide)).1
  side := .inr (.inr rfl)
  safe := by
    have hem : exStyles "em".toList = some { italic := some true } := rfl
    simp only [Verif.Xml.Spec.SafeBreaks, exToks, hem]; simp

theorem ex_picture_ok (step : Int) : (none = (none : Option Rat) → exPicture.width ≠ 0 ∧ exPicture.height ≠ 0) ∧
    (exPicture.doc step = .ok none ∨ ∃ doc, exPicture.doc step = .ok (some doc) ∧ DocOk doc) := by
  refine ⟨fun _ => by decide +kernel, ?_⟩
  by_cases hs : step < 2
  · exact .inl (if_pos hs)
  · refine .inr ⟨_, if_neg hs, by decide, "svg".toList, [("width".toList, "8".toList)], .elem "rect".toList [] .nil .nil, ?_⟩
    decide +kernel

theorem ex_rect : exSceneEnv 1 = some ⟨10, 20, 40, 30⟩ ∧ exSceneEnv 3 = some ⟨50, 60, 20, 40⟩ := by decide +kernel

theorem ex_points : PointAt exSceneEnv 3 (.lazy (.ref 1 true (.ratio (1/2))) (.ref 1 false (.ratio (1/2)))) (30, 35) ∧
    PointAt exSceneEnv 3 (.pair (.num 0) (.str "100%".toList)) (50, 100) := by
  constructor
  · refine (point_iff (show PointOk (.lazy _ _) from ⟨by simp [Lazy, Verif.Layout.Spec.refs], by simp [Lazy, Verif.Layout.Spec.refs]⟩)).mp ⟨_, rfl, ?_⟩
    decide +kernel
  · refine (point_iff (show PointOk (.pair (.num 0) (.str "100%".toList)) from ⟨trivial, trivial⟩)).mp ?_
    have : (unpackPoint 3 (.pair (.num 0) (.str "100%".toList))).bind (evalPair exSceneEnv) = .ok (50, 100) := by decide +kernel
    cases h : unpackPoint 3 (.pair (.num 0) (.str "100%".toList)) with
    | error e => rw [h] at this; cases this
    | ok v => rw [h] at this; exact ⟨v, rfl, this⟩

/-- Everything drawn is within the part that holds. -/
theorem ex_drawable (step : Int) (k p : Nat) (d : Draw) (h : (things exScene)[k]? = some (.draw p d)) : Drawable exSceneEnv step p d := by
  have e : things exScene = [exScene[0], exScene[1], exScene[3], exScene[4], exScene[5], exScene[6]] := rfl
  rw [e] at h
  have red := Verif.SvgDraw.red_ok
  match k, h with
  | 0, h => cases h
  | 1, h =>
    injection h with h; injection h with h1 h2; subst h1; subst h2
    refine ⟨by simp [pointsOf], _, .rect ex_rect.1, Verif.SvgDraw.paintOk_of ?_, by decide, ⟨by simp, by simp, by simp⟩, trivial⟩
    rintro c (hc | hc | hc) <;> cases hc
    exact red
  | 2, h => cases h
  | 3, h =>
    injection h with h; injection h with h1 h2; subst h1; subst h2
    exact ex_text_ok
  | 4, h =>
    injection h with h; injection h with h1 h2; subst h1; subst h2
    refine ⟨?_, _, .line (.cons ex_points.1 (.cons ex_points.2 .nil)), Verif.SvgDraw.paintOk_of ?_, by decide, trivial, trivial⟩
    · simp only [pointsOf, List.mem_cons, List.not_mem_nil, or_false]
      rintro a (rfl | rfl)
      · exact ⟨by simp [Lazy, Verif.Layout.Spec.refs], by simp [Lazy, Verif.Layout.Spec.refs]⟩
      · exact ⟨trivial, trivial⟩
    · rintro c (hc | hc | hc) <;> cases hc
      exact red
  | 5, h =>
    injection h with h; injection h with h1 h2; subst h1; subst h2
    exact ex_picture_ok step
  | k + 6, h => cases h

/-- The calls succeed. Page 1 has the rectangle and the (empty) picture, page 2 the rectangle, the text, the line and the picture: the picture is
drawn after all that. -/
example : run (newScene 100 100) exScene = .ok exSceneState ∧ exSceneState.slide.rects 100 100 = .ok exSceneEnv ∧
    Verif.Slide.page exSceneState.slide 1 false = [.item 2 0, .item 6 0] ∧
    Verif.Slide.page exSceneState.slide 2 false = [.item 2 0, .item 6 0, .item 4 0, .item 5 0] := by
  refine ⟨?_, ?_, ?_, ?_⟩
  · have : (run (newScene 100 100) exScene).isOk = true := by decide +kernel
    unfold exSceneState
    revert this
    cases run (newScene 100 100) exScene with
    | ok s => intro _; rfl
    | error e => intro h; cases h
  · have : (exSceneState.slide.rects 100 100).isOk = true := by decide +kernel
    unfold exSceneEnv
    revert this
    cases exSceneState.slide.rects 100 100 with
    | ok s => intro _; rfl
    | error e => intro h; cases h
  · decide +kernel
  · decide +kernel

end Verif.Scene
