import Verif.Model.PathArrow
import Verif.Proofs.CairoPath
import Verif.Props.Shapes

/-! # Properties C88 and C89: end arrows and checks of paths -/

namespace Verif.CairoDraw
open Spec

/-! ### Specification -/

/-- The end of a segment. -/
def USeg.stop : USeg → Pt
  | .move p => p
  | .line p => p
  | .cubic _ _ p => p
  | .quad _ p => p

/-- The points of a segment that starts at a point. -/
def USeg.points (p0 : Pt) : USeg → Rat → Pt
  | .move p, _ => p
  | .line p, t => lineAt p0 p t
  | .cubic a b p, t => cubicAt p0 a b p t
  | .quad c p, t => quadAt p0 c p t

/-- Going back from the end of a curve (parameter 1), it leaves its end point along a vector: up to terms of second order, the
point at parameter `1 - h` is the end minus `h` times the vector. -/
def EndTangent (f : Rat → Pt) (v : Pt) : Prop :=
  ∃ a b : Pt, ∀ h, f (1 - h) = ((f 1).1 - h * v.1 + h ^ 2 * a.1 + h ^ 3 * b.1, (f 1).2 - h * v.2 + h ^ 2 * a.2 + h ^ 3 * b.2)

/-- The arrow, drawn from `p1` to `p2`, sits at the end of the last curve of the path and points in its direction. -/
def ArrowFits (segs : List USeg) (p1 p2 : Pt) : Prop :=
  ∃ before p0 seg, segs = before ++ [seg] ∧ ((before.getLast?.map USeg.stop) = some p0) ∧ p2 = USeg.stop seg ∧
    ∃ k : Rat, 0 < k ∧ EndTangent (USeg.points p0 seg) (k * (p2.1 - p1.1), k * (p2.2 - p1.2))

/-! ### C88 -/

theorem endTangent_unique {f : Rat → Pt} {v w : Pt} (hv : EndTangent f v) (hw : EndTangent f w) : v = w := by
  obtain ⟨a, b, h1⟩ := hv
  obtain ⟨c, d, h2⟩ := hw
  have key : ∀ h : Rat, h * (w.1 - v.1) + h ^ 2 * (a.1 - c.1) + h ^ 3 * (b.1 - d.1) = 0 ∧
      h * (w.2 - v.2) + h ^ 2 * (a.2 - c.2) + h ^ 3 * (b.2 - d.2) = 0 := by
    intro h
    have e := (h1 h).symm.trans (h2 h)
    have e1 := congrArg Prod.fst e
    have e2 := congrArg Prod.snd e
    simp only at e1 e2
    constructor <;> linarith
  have k1 := key 1
  have k2 := key 2
  have k3 := key (-1)
  ext
  · linarith [k1.1, k2.1, k3.1]
  · linarith [k1.2, k2.2, k3.2]

/-- A parabola continued by a smooth one. -/
def waves : List (Char × List Pt) := [('M', [(0, 0)]), ('Q', [(3, 3), (6, 0)]), ('T', [(12, 0)])]

theorem waves_svg : SvgPath waves ([.move (0, 0)] ++ ([.quad (3, 3) (6, 0)] ++ ([.quad (9, -3) (12, 0)] ++ []))) :=
  ⟨rfl, oneGroup rfl rfl rfl (oneGroup (st' := { cur := (6, 0), quad := some (3, 3) }) rfl rfl rfl
    (oneGroup (st' := { cur := (12, 0), quad := some (9, -3) }) rfl rfl (by decide +kernel) (SvgCommands.nil _)))⟩

/-- **C88 is false of the code**: after a `T` command the arrow is drawn in the direction of the chord. -/
theorem C88_end_arrow_false :
    ¬ ∀ cmds segs p1 p2, SvgPath cmds segs → endArrowPoints cmds = .ok (p1, p2) → ArrowFits segs p1 p2 := by
  intro h
  obtain ⟨before, p0, seg, h1, h2, h3, k, hk, ht⟩ := h waves _ (6, 0) (12, 0) waves_svg (by decide +kernel)
  have hsplit : before = [.move (0, 0), .quad (3, 3) (6, 0)] ∧ seg = .quad (9, -3) (12, 0) := by
    have hrev := congrArg List.reverse h1
    simp only [List.reverse_append, List.reverse_cons, List.reverse_nil, List.nil_append, List.singleton_append] at hrev
    injection hrev with e1 e2
    refine ⟨?_, e1.symm⟩
    have := congrArg List.reverse e2
    rw [List.reverse_reverse] at this
    rw [← this]
    rfl
  obtain ⟨rfl, rfl⟩ := hsplit
  have hp0 : (6, 0) = p0 := Option.some.inj h2
  subst hp0
  have hreal : EndTangent (USeg.points (6, 0) (.quad (9, -3) (12, 0))) (6, 6) := by
    refine ⟨(0, 6), (0, 0), fun h => ?_⟩
    simp only [USeg.points, quadAt, bez2]
    ext <;> simp only <;> ring
  have := endTangent_unique ht hreal
  have := congrArg Prod.snd this
  simp at this

theorem groups_last {n : Nat} (hn : 2 ≤ n) {args : List Pt} {gs : List (List Pt)} (h : Groups n args gs) (hne : gs ≠ []) :
    ∃ g pre, gs.getLast? = some g ∧ g.length = n ∧ args = pre ++ g := by
  induction h with
  | nil => exact absurd rfl hne
  | cons g rest gs hg hr ih =>
    cases gs with
    | nil =>
      cases hr
      exact ⟨g, [], rfl, hg, by simp⟩
    | cons g' gs' =>
      obtain ⟨l, pre, h1, h2, h3⟩ := ih (by simp)
      exact ⟨l, g ++ pre, by rw [List.getLast?_cons_cons]; exact h1, h2, by rw [h3, List.append_assoc]⟩

/-- The last segment of the groups of a command. -/
theorem svgGroups_last {name : Char} {first : Bool} {st st' : SvgSt} {gs : List (List Pt)} {segs : List USeg}
    (h : SvgGroups name first st gs segs st') (hne : gs ≠ []) (s0 : List USeg) (hs0 : s0.getLast?.map USeg.stop = some st.cur) :
    ∃ before st1 seg first' g, s0 ++ segs = before ++ [seg] ∧ before.getLast?.map USeg.stop = some st1.cur ∧ gs.getLast? = some g ∧
      svgGroup st1 first' name g = some (seg, st') := by
  induction h generalizing s0 with
  | nil => exact absurd rfl hne
  | @cons first st g gs seg st' segs st'' hg hrest ih =>
    cases gs with
    | nil =>
      cases hrest
      exact ⟨s0, st, seg, first, g, rfl, hs0, rfl, hg⟩
    | cons g' gs' =>
      have hst : USeg.stop seg = st'.cur := by
        unfold svgGroup at hg
        split at hg <;> first
          | (injection hg with hg; injection hg with h1 h2; subst h1 h2; first | rfl | (split <;> rfl))
          | cases hg
      obtain ⟨before, st1, sg, f', g1, e1, e2, e3, e4⟩ := ih (by simp) (s0 ++ [seg]) (by simp [hst])
      exact ⟨before, st1, sg, f', g1, by rw [← e1]; simp, e2, by rw [List.getLast?_cons_cons]; exact e3, e4⟩

theorem svgGroups_stop {name : Char} {first : Bool} {st st' : SvgSt} {gs : List (List Pt)} {segs : List USeg}
    (h : SvgGroups name first st gs segs st') (s0 : List USeg) (hs0 : gs ≠ [] ∨ s0.getLast?.map USeg.stop = some st.cur) :
    (s0 ++ segs).getLast?.map USeg.stop = some st'.cur := by
  induction h generalizing s0 with
  | nil =>
    rcases hs0 with h | h
    · exact absurd rfl h
    · simpa using h
  | @cons first st g gs seg st' segs st'' hg hrest ih =>
    have hst : USeg.stop seg = st'.cur := by
      unfold svgGroup at hg
      split at hg <;> first
        | (injection hg with hg; injection hg with h1 h2; subst h1 h2; first | rfl | (split <;> rfl))
        | cases hg
    have := ih (s0 ++ [seg]) (.inr (by simp [hst]))
    rwa [List.append_assoc] at this

/-- The last command of a path with at least two commands: the state before it, and its segments. -/
theorem svg_last {cmds : List (Char × List Pt)} : ∀ {st : SvgSt} {segs : List USeg} (s0 : List USeg), SvgCommands st cmds segs →
    s0.getLast?.map USeg.stop = some st.cur → ∀ name args, cmds.getLast? = some (name, args) →
    ∃ s1 st1 segs2 st2 n gs, s0 ++ segs = s1 ++ segs2 ∧ s1.getLast?.map USeg.stop = some st1.cur ∧ arity name = some n ∧ Groups n args gs ∧ gs ≠ [] ∧
      SvgGroups name true st1 gs segs2 st2 := by
  induction cmds with
  | nil => intro st segs s0 _ _ name args h; simp at h
  | cons x cmds ih =>
    intro st segs s0 hc hs0 name args hl
    cases hc with
    | @cons _ nm n as gs segs1 st' _ segs2 ha hgr hne hsg hrest =>
      cases cmds with
      | nil =>
        cases hrest
        simp only [List.getLast?_singleton, Option.some.injEq, Prod.mk.injEq] at hl
        obtain ⟨rfl, rfl⟩ := hl
        exact ⟨s0, st, segs1, st', n, gs, by simp, hs0, ha, hgr, hne, hsg⟩
      | cons y cmds =>
        rw [List.getLast?_cons_cons] at hl
        obtain ⟨s1, st1, s2, st2, n', gs', e1, e2⟩ := ih (s0 ++ segs1) hrest (svgGroups_stop hsg s0 (.inl hne)) name args hl
        exact ⟨s1, st1, s2, st2, n', gs', by rw [← e1, List.append_assoc], e2⟩

theorem svgPath_last {cmds : List (Char × List Pt)} {segs : List USeg} (h : SvgPath cmds segs) {name : Char} {args : List Pt}
    (hl : cmds.getLast? = some (name, args)) (hM : name ≠ 'M') :
    ∃ s1 st1 segs2 st2 n gs, segs = s1 ++ segs2 ∧ s1.getLast?.map USeg.stop = some st1.cur ∧ arity name = some n ∧ Groups n args gs ∧ gs ≠ [] ∧
      SvgGroups name true st1 gs segs2 st2 := by
  obtain ⟨hfirst, hc⟩ := h
  cases hc with
  | nil => simp at hl
  | @cons _ nm n as gs segs1 st' cmds segs2 ha hgr hne hsg hrest =>
    cases cmds with
    | nil =>
      simp only [List.getLast?_singleton, Option.some.injEq, Prod.mk.injEq] at hl
      simp only [List.head?_cons, Option.map_some, Option.some.injEq] at hfirst
      exact absurd (hl.1.symm.trans hfirst) hM
    | cons y cmds =>
      rw [List.getLast?_cons_cons] at hl
      have := svgGroups_stop hsg [] (.inl hne)
      rw [List.nil_append] at this
      obtain ⟨s1, st1, s2, st2, n', gs', e1, e2⟩ := svg_last segs1 hrest this name args hl
      exact ⟨s1, st1, s2, st2, n', gs', e1, e2⟩

/-- **C88, the part that holds**: for a path that ends with a `C`, `S` or `Q` command (with any number of groups of arguments), `path` finds
points for the arrow, the arrow is at the end of the path and points in the direction of the curve there. (Missing: `T`. If the last
control point is the end point, the direction is zero and drawing is a `ZeroDivisionError`, see C69.) -/
theorem C88_end_arrow_partial (cmds : List (Char × List Pt)) (segs : List USeg) (h : SvgPath cmds segs) (name : Char) (args : List Pt)
    (hl : cmds.getLast? = some (name, args)) (hn : name = 'C' ∨ name = 'S' ∨ name = 'Q') :
    ∃ p1 p2, endArrowPoints cmds = .ok (p1, p2) ∧ ArrowFits segs p1 p2 := by
  have hM : name ≠ 'M' := by rcases hn with rfl | rfl | rfl <;> decide
  obtain ⟨s1, st1, segs2, st2, n, gs, e1, e2, ha, hgr, hne, hsg⟩ := svgPath_last h hl hM
  have hn2 : 2 ≤ n := by
    rcases hn with rfl | rfl | rfl <;> (simp [arity] at ha; omega)
  obtain ⟨g, pre, g1, g2, g3⟩ := groups_last hn2 hgr hne
  obtain ⟨before, st3, seg, f, g', b1, b2, b3, b4⟩ := svgGroups_last hsg hne s1 e2
  rw [g1] at b3
  cases b3
  have hpts : ∀ a b r, g = r ++ [a, b] → endArrowPoints cmds = .ok (a, b) := by
    intro a b r hg
    unfold endArrowPoints
    rw [hl]
    dsimp only
    rw [if_neg (by rcases hn with rfl | rfl | rfl <;> decide)]
    have hargs : args = (pre ++ r) ++ [a, b] := by rw [g3, hg, List.append_assoc]
    have hlen : args.length = (pre ++ r).length + 2 := by rw [hargs]; simp; omega
    rw [if_pos (by omega)]
    have i1 : args[args.length - 2]? = some a := by
      rw [hlen, Nat.add_sub_cancel, hargs, List.getElem?_append_right (le_refl _), Nat.sub_self]; rfl
    have i2 : args[args.length - 1]? = some b := by
      rw [hlen, show (pre ++ r).length + 2 - 1 = (pre ++ r).length + 1 by omega, hargs, List.getElem?_append_right (by omega), Nat.add_sub_cancel_left]; rfl
    rw [i1, i2]
  rcases hn with rfl | rfl | rfl
  · obtain ⟨a, b, p, rfl⟩ := List.length_eq_three.mp (show g.length = 3 by simp [arity] at ha; omega)
    have hseg : seg = .cubic a b p := by
      have := Option.some.inj (show some (USeg.cubic a b p, _) = some (seg, st2) from b4)
      exact (congrArg Prod.fst this).symm
    subst hseg
    refine ⟨b, p, hpts b p [a] rfl, before, st3.cur, _, e1.trans b1, b2, rfl, 3, by norm_num, ?_⟩
    refine ⟨(3 * a.1 - 6 * b.1 + 3 * p.1, 3 * a.2 - 6 * b.2 + 3 * p.2), (st3.cur.1 - 3 * a.1 + 3 * b.1 - p.1, st3.cur.2 - 3 * a.2 + 3 * b.2 - p.2), fun h => ?_⟩
    simp only [USeg.points, cubicAt, bez3]
    ext <;> simp only <;> ring
  · obtain ⟨b, p, rfl⟩ := List.length_eq_two.mp (show g.length = 2 by simp [arity] at ha; omega)
    have hseg : seg = .cubic (smooth st3.cubic st3.cur) b p := by
      have := Option.some.inj (show some (USeg.cubic (smooth st3.cubic st3.cur) b p, _) = some (seg, st2) from b4)
      exact (congrArg Prod.fst this).symm
    subst hseg
    generalize smooth st3.cubic st3.cur = a at *
    refine ⟨b, p, hpts b p [] rfl, before, st3.cur, _, e1.trans b1, b2, rfl, 3, by norm_num, ?_⟩
    refine ⟨(3 * a.1 - 6 * b.1 + 3 * p.1, 3 * a.2 - 6 * b.2 + 3 * p.2), (st3.cur.1 - 3 * a.1 + 3 * b.1 - p.1, st3.cur.2 - 3 * a.2 + 3 * b.2 - p.2), fun h => ?_⟩
    simp only [USeg.points, cubicAt, bez3]
    ext <;> simp only <;> ring
  · obtain ⟨b, p, rfl⟩ := List.length_eq_two.mp (show g.length = 2 by simp [arity] at ha; omega)
    have hseg : seg = .quad b p := by
      have := Option.some.inj (show some (USeg.quad b p, _) = some (seg, st2) from b4)
      exact (congrArg Prod.fst this).symm
    subst hseg
    refine ⟨b, p, hpts b p [] rfl, before, st3.cur, _, e1.trans b1, b2, rfl, 2, by norm_num, ?_⟩
    refine ⟨(st3.cur.1 - 2 * b.1 + p.1, st3.cur.2 - 2 * b.2 + p.2), (0, 0), fun h => ?_⟩
    simp only [USeg.points, quadAt, bez2]
    ext <;> simp only <;> ring

example : endArrowPoints twoSmooth = .ok ((3, 1), (3, 0)) := by decide +kernel

/-! ### C89 -/

/-- **C89 is false of the code**: a command without any points is accepted, and drawing it with Cairo is an `IndexError`. -/
theorem C89_checked_false : ¬ ∀ cmds out, checkCommands cmds = .ok out → ∃ c, drawPath {} out = .ok c := by
  intro h
  obtain ⟨c, hc⟩ := h [('M', [])] [('M', [])] rfl
  exact absurd hc (by simp [drawPath, drawPathLoop, pathCommand, arg])

theorem arg_ok {args : List Pt} {i : Nat} (h : i < args.length) : arg args i = .ok args[i] := by
  unfold arg
  rw [List.getElem?_eq_getElem h]

theorem keep_ok {c : Ctx} {k : Call} {l : Last} (h : ∃ c', exec c k = .ok c') : ∃ r, keep (exec c k) l = .ok r := by
  obtain ⟨c', h⟩ := h
  exact ⟨_, by rw [h]; rfl⟩

theorem checked_aux (cmds out : List (Char × List Pt)) (h : checkCommands cmds = .ok out) :
    out = cmds ∧ (∀ x ∈ cmds, ∃ n, nargs x.1 = some n ∧ n ∣ x.2.length) ∧
      ((∀ x ∈ cmds, x.2 ≠ []) → ∀ c, ∃ c', drawPath c out = .ok c') := by
  have h1 : ∀ (cmds out : List (Char × List Pt)), checkCommands cmds = .ok out →
      out = cmds ∧ (∀ x ∈ cmds, ∃ n, nargs x.1 = some n ∧ n ∣ x.2.length) := by
    intro cmds
    induction cmds with
    | nil => intro out h; cases h; exact ⟨rfl, by simp⟩
    | cons x cmds ih =>
      intro out h
      obtain ⟨name, args⟩ := x
      unfold checkCommands at h
      cases hn : nargs name with
      | none => rw [hn] at h; cases h
      | some n =>
        rw [hn] at h
        dsimp only at h
        split at h
        · cases h
        · rename_i hm
          cases hr : checkCommands cmds with
          | error e => rw [hr] at h; cases h
          | ok r =>
            rw [hr] at h
            injection h with h
            obtain ⟨rfl, h2⟩ := ih r hr
            refine ⟨h.symm, ?_⟩
            intro x hx
            rcases List.mem_cons.mp hx with rfl | hx
            · exact ⟨n, hn, Nat.dvd_of_mod_eq_zero (by simpa using hm)⟩
            · exact h2 x hx
  obtain ⟨rfl, h2⟩ := h1 cmds out h
  refine ⟨rfl, h2, ?_⟩
  intro hne c
  clear h h1
  unfold drawPath
  generalize ({} : Last) = last
  induction out generalizing c last with
  | nil => exact ⟨c, rfl⟩
  | cons x cmds ih =>
    obtain ⟨name, args⟩ := x
    obtain ⟨n, hn, hdvd⟩ := h2 (name, args) (by simp)
    have hargs : args ≠ [] := hne (name, args) (by simp)
    have hlen : n ≤ args.length := Nat.le_of_dvd (List.length_pos_iff.mpr hargs) hdvd
    have hstep : ∃ r, pathCommand c last name args = .ok r := by
      have hnm : name = 'M' ∨ name = 'L' ∨ name = 'C' ∨ name = 'S' ∨ name = 'Q' ∨ name = 'T' := by
        by_contra hno
        simp only [not_or] at hno
        unfold nargs at hn
        split at hn <;> simp_all
      rcases hnm with rfl | rfl | rfl | rfl | rfl | rfl <;>
        (cases hn
         simp only [pathCommand, arg_ok (show 0 < args.length by omega)]
         try simp only [arg_ok (show 1 < args.length by omega)]
         try simp only [arg_ok (show 2 < args.length by omega)]
         exact keep_ok ⟨_, rfl⟩)
    obtain ⟨⟨c1, l1⟩, hstep⟩ := hstep
    unfold drawPathLoop
    rw [hstep]
    exact ih (fun x hx => h2 x (List.mem_cons_of_mem _ hx)) (fun x hx => hne x (List.mem_cons_of_mem _ hx)) c1 l1

theorem nargs_eq (c : Char) : nargs c = arity c := by
  unfold nargs arity
  rfl

/-- **C89, the part that holds**: exactly known commands with a multiple of their number of points are accepted, and passed on unchanged; and if none
is without points, Cairo draws them without an error, in every context. (Missing: commands without points.) -/
theorem C89_checked_partial (cmds out : List (Char × List Pt)) :
    (checkCommands cmds = .ok out ↔ out = cmds ∧ ∀ x ∈ cmds, ∃ n, arity x.1 = some n ∧ n ∣ x.2.length) ∧
      (checkCommands cmds = .ok out → (∀ x ∈ cmds, x.2 ≠ []) → ∀ c, ∃ c', drawPath c out = .ok c') := by
  refine ⟨⟨fun h => ?_, ?_⟩, fun h => (checked_aux cmds out h).2.2⟩
  · obtain ⟨h1, h2, -⟩ := checked_aux cmds out h
    exact ⟨h1, fun x hx => nargs_eq x.1 ▸ h2 x hx⟩
  · rintro ⟨rfl, h⟩
    induction out with
    | nil => rfl
    | cons x cmds ih =>
      obtain ⟨name, args⟩ := x
      obtain ⟨n, h1, h2⟩ := h (name, args) (by simp)
      unfold checkCommands
      rw [nargs_eq, h1]
      dsimp only
      rw [if_neg (by simpa using Nat.mod_eq_zero_of_dvd h2), ih (fun x hx => h x (List.mem_cons_of_mem _ hx))]

example : checkCommands waves = .ok waves := by decide +kernel

end Verif.CairoDraw
