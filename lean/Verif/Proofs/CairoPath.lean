import Verif.Spec.CairoDraw

/-! # Helper lemmas about paths drawn with Cairo -/

namespace Verif.CairoDraw
open Spec

theorem Mat.unapply_apply {m : Mat} (h : m.det ≠ 0) (p : Pt) : m.unapply (m.apply p) = p := by
  unfold Mat.unapply Mat.apply
  have h' : m.xx * m.yy - m.xy * m.yx ≠ 0 := h
  unfold Mat.det
  ext <;> simp only
  · rw [div_eq_iff h']; ring
  · rw [div_eq_iff h']; ring

theorem groups_one {n : Nat} (hn : 0 < n) {args : List Pt} {gs : List (List Pt)} (h : Groups n args gs) (hl : args.length = n) :
    gs = [args] := by
  cases h with
  | nil => simp at hl; omega
  | cons g rest gs hg hr =>
    have : rest = [] := by
      rw [List.length_append] at hl
      exact List.length_eq_zero_iff.mp (by omega)
    subst this
    generalize hre : ([] : List Pt) = r at hr
    cases hr with
    | nil => simp
    | cons g' r' gs' hg' _ =>
      exfalso
      have : g' = [] := by
        have := congrArg List.length hre
        simp at this
        exact List.length_eq_zero_iff.mp (by omega)
      subst this
      simp at hg'
      omega

theorem arity_cases {name : Char} {n : Nat} (h : arity name = some n) :
    (name = 'M' ∧ n = 1) ∨ (name = 'L' ∧ n = 1) ∨ (name = 'C' ∧ n = 3) ∨ (name = 'S' ∧ n = 2) ∨ (name = 'Q' ∧ n = 2) ∨ (name = 'T' ∧ n = 1) := by
  unfold arity at h
  split at h <;> simp_all

theorem svgGroups_one {name : Char} {st st' : SvgSt} {g : List Pt} {segs : List USeg} (h : SvgGroups name true st [g] segs st') :
    ∃ seg, segs = [seg] ∧ svgGroup st true name g = some (seg, st') := by
  cases h with
  | cons h1 h2 =>
    cases h2
    exact ⟨_, rfl, h1⟩

theorem same_append {m : Mat} {p0 : Pt} {u : USeg} {d : Seg} {p : Pt} {us : List USeg} {ds : List Seg}
    (h : ∀ us ds, Same m p us ds → Same m p0 (u :: us) (d :: ds)) (hs : Same m p us ds) : Same m p0 ([u] ++ us) ([d] ++ ds) := h us ds hs

theorem cubic_through (m : Mat) (p0 a b p : Pt) (t : Rat) :
    cubicAt (m.apply p0) (m.apply a) (m.apply b) (m.apply p) t = m.apply (cubicAt p0 a b p t) := by
  simp only [cubicAt, Mat.apply, bez3]
  ext <;> simp only <;> ring

theorem quad_through (m : Mat) (p0 c p : Pt) (t : Rat) :
    cubicAt (m.apply p0) (m.apply ((2 * c.1 + p0.1) / 3, (2 * c.2 + p0.2) / 3)) (m.apply ((2 * c.1 + p.1) / 3, (2 * c.2 + p.2) / 3)) (m.apply p) t
      = m.apply (quadAt p0 c p t) := by
  simp only [cubicAt, quadAt, Mat.apply, bez3, bez2]
  ext <;> simp only <;> ring

theorem reflect_eq (cp a : Pt) : reflect cp a = mirror cp a := by
  simp only [reflect, mirror]
  ext <;> simp only <;> ring

theorem reflect_self (a : Pt) : reflect a a = a := by
  simp only [reflect]
  ext <;> simp only <;> ring

def Ctx.added (c : Ctx) (d : Seg) (q : Pt) : Ctx := { c with path := c.path ++ [d], cur := some q }

/-- The state of the loop describes the state of the specification; the cubic control point only after other commands than `S`. -/
structure Inv (m : Mat) (prev : Char) (c : Ctx) (last : Last) (st : SvgSt) : Prop where
  ctm : c.gs.ctm = m
  cur : c.cur = some (m.apply st.cur)
  quad : last.quadratic = st.quad
  cubic : prev ≠ 'S' → last.cubic = st.cubic

theorem step_ok {m : Mat} (hm : m.det ≠ 0) {prev name : Char} {c : Ctx} {last : Last} {st st' : SvgSt} {args : List Pt} {seg : USeg}
    (hi : Inv m prev c last st) (ha : arity name = some args.length) (hs : ¬ (prev = 'S' ∧ name = 'S'))
    (hg : svgGroup st true name args = some (seg, st')) :
    ∃ c' last' d, pathCommand c last name args = .ok (c', last') ∧ c'.path = c.path ++ [d] ∧ c'.gs = c.gs ∧ Inv m name c' last' st' ∧
      (∀ us ds, Same m st'.cur us ds → Same m st.cur (seg :: us) (d :: ds)) := by
  obtain ⟨h1, h2, h3, h4⟩ := hi
  have hloc : c.userPoint = st.cur := by
    unfold Ctx.userPoint
    rw [h2, h1]
    exact Mat.unapply_apply hm _
  rcases arity_cases ha with ⟨rfl, hl⟩ | ⟨rfl, hl⟩ | ⟨rfl, hl⟩ | ⟨rfl, hl⟩ | ⟨rfl, hl⟩ | ⟨rfl, hl⟩
  · obtain ⟨p, rfl⟩ := List.length_eq_one_iff.mp hl
    obtain ⟨rfl, rfl⟩ : (USeg.move p = seg) ∧ ({ cur := p } : SvgSt) = st' := by simpa [svgGroup] using hg
    refine ⟨_, _, _, rfl, rfl, rfl, ⟨h1, ?_, rfl, fun _ => rfl⟩, ?_⟩
    · simp [Ctx.moveDev, h1]
    · rw [h1]; exact fun us ds h => Same.move p h
  · obtain ⟨p, rfl⟩ := List.length_eq_one_iff.mp hl
    obtain ⟨rfl, rfl⟩ : (USeg.line p = seg) ∧ ({ cur := p } : SvgSt) = st' := by simpa [svgGroup] using hg
    have he : pathCommand c last 'L' [p] = .ok (c.added (.line (c.gs.ctm.apply p)) (c.gs.ctm.apply p), {}) := by
      simp [pathCommand, keep, arg, exec, Ctx.lineDev, Ctx.added, h2]
    refine ⟨_, _, _, he, rfl, rfl, ⟨h1, ?_, rfl, fun _ => rfl⟩, ?_⟩
    · simp [h1, Ctx.added]
    · rw [h1]; exact fun us ds h => Same.line p h
  · obtain ⟨a, b, p, rfl⟩ := List.length_eq_three.mp hl
    obtain ⟨rfl, rfl⟩ : (USeg.cubic a b p = seg) ∧ ({ cur := p, cubic := some b } : SvgSt) = st' := by simpa [svgGroup] using hg
    have he : pathCommand c last 'C' [a, b, p] = .ok (c.added (.curve (c.gs.ctm.apply a) (c.gs.ctm.apply b) (c.gs.ctm.apply p)) (c.gs.ctm.apply p), { cubic := some b }) := by
      simp [pathCommand, keep, arg, exec, Ctx.curveDev, Ctx.added, h2]
    refine ⟨_, _, _, he, rfl, rfl, ⟨h1, ?_, rfl, fun _ => rfl⟩, ?_⟩
    · simp [h1, Ctx.added]
    · rw [h1]; exact fun us ds h => Same.cubic (fun t => cubic_through m _ a b p t) h
  · obtain ⟨b, p, rfl⟩ := List.length_eq_two.mp hl
    have hcub := h4 (fun he => hs ⟨he, rfl⟩)
    have hcp : reflect (last.cubic.getD st.cur) st.cur = smooth st.cubic st.cur := by
      rw [hcub]
      cases st.cubic with
      | none => exact reflect_self _
      | some q => exact reflect_eq q _
    obtain ⟨rfl, rfl⟩ : (USeg.cubic (reflect (last.cubic.getD st.cur) st.cur) b p = seg) ∧ ({ cur := p, cubic := some b } : SvgSt) = st' := by
      rw [hcp]; simpa [svgGroup] using hg
    generalize hq : reflect (last.cubic.getD st.cur) st.cur = q
    have he : pathCommand c last 'S' [b, p] = .ok (c.added (.curve (c.gs.ctm.apply q) (c.gs.ctm.apply b) (c.gs.ctm.apply p)) (c.gs.ctm.apply p), { cubic := some q }) := by
      simp [pathCommand, keep, arg, exec, Ctx.curveDev, Ctx.added, h2, hloc, hq]
    refine ⟨_, _, _, he, rfl, rfl, ⟨h1, ?_, rfl, fun hne => absurd rfl hne⟩, ?_⟩
    · simp [h1, Ctx.added]
    · rw [h1]; exact fun us ds h => Same.cubic (fun t => cubic_through m _ q b p t) h
  · obtain ⟨k, p, rfl⟩ := List.length_eq_two.mp hl
    obtain ⟨rfl, rfl⟩ : (USeg.quad k p = seg) ∧ ({ cur := p, quad := some k } : SvgSt) = st' := by simpa [svgGroup] using hg
    have he : pathCommand c last 'Q' [k, p] = .ok (c.added (.curve (c.gs.ctm.apply ((2 * k.1 + st.cur.1) / 3, (2 * k.2 + st.cur.2) / 3))
        (c.gs.ctm.apply ((2 * k.1 + p.1) / 3, (2 * k.2 + p.2) / 3)) (c.gs.ctm.apply p)) (c.gs.ctm.apply p), { quadratic := some k }) := by
      simp [pathCommand, keep, arg, exec, Ctx.curveDev, Ctx.added, h2, hloc, quadraticCall]
    refine ⟨_, _, _, he, rfl, rfl, ⟨h1, ?_, rfl, fun _ => rfl⟩, ?_⟩
    · simp [h1, Ctx.added]
    · rw [h1]; exact fun us ds h => Same.quad (fun t => quad_through m _ k p t) h
  · obtain ⟨p, rfl⟩ := List.length_eq_one_iff.mp hl
    have hcp : reflect (last.quadratic.getD st.cur) st.cur = smooth st.quad st.cur := by
      rw [h3]
      cases st.quad with
      | none => exact reflect_self _
      | some q => exact reflect_eq q _
    obtain ⟨rfl, rfl⟩ : (USeg.quad (reflect (last.quadratic.getD st.cur) st.cur) p = seg) ∧
        ({ cur := p, quad := some (reflect (last.quadratic.getD st.cur) st.cur) } : SvgSt) = st' := by
      rw [hcp]; simpa [svgGroup] using hg
    generalize hq : reflect (last.quadratic.getD st.cur) st.cur = k
    have he : pathCommand c last 'T' [p] = .ok (c.added (.curve (c.gs.ctm.apply ((2 * k.1 + st.cur.1) / 3, (2 * k.2 + st.cur.2) / 3))
        (c.gs.ctm.apply ((2 * k.1 + p.1) / 3, (2 * k.2 + p.2) / 3)) (c.gs.ctm.apply p)) (c.gs.ctm.apply p), { quadratic := some k }) := by
      simp [pathCommand, keep, arg, exec, Ctx.curveDev, Ctx.added, h2, hloc, hq, quadraticCall]
    refine ⟨_, _, _, he, rfl, rfl, ⟨h1, ?_, rfl, fun _ => rfl⟩, ?_⟩
    · simp [h1, Ctx.added]
    · rw [h1]; exact fun us ds h => Same.quad (fun t => quad_through m _ k p t) h

theorem loop_ok {m : Mat} (hm : m.det ≠ 0) {cmds : List (Char × List Pt)} :
    ∀ {prev : Char} {c : Ctx} {last : Last} {st : SvgSt} {segs : List USeg}, Inv m prev c last st → SvgCommands st cmds segs →
      (∀ x ∈ cmds, arity x.1 = some x.2.length) → List.IsChain (fun a b => ¬ (a = 'S' ∧ b = 'S')) (prev :: cmds.map (·.1)) →
      ∃ c' ds, drawPathLoop c last cmds = .ok c' ∧ c'.path = c.path ++ ds ∧ c'.gs = c.gs ∧ Same m st.cur segs ds := by
  induction cmds with
  | nil =>
    intro prev c last st segs _ hc _ _
    cases hc
    exact ⟨c, [], rfl, by simp, rfl, Same.nil _⟩
  | cons x cmds ih =>
    intro prev c last st segs hi hc hone hch
    cases hc with
    | @cons _ name n args gs segs st' _ segs' ha hgr hne hsg hrest =>
      have hax : arity name = some args.length := hone (name, args) (by simp)
      have hn : args.length = n := by
        rw [ha] at hax
        exact (Option.some.inj hax).symm
      have hpos : 0 < n := by
        rcases arity_cases ha with ⟨_, h⟩ | ⟨_, h⟩ | ⟨_, h⟩ | ⟨_, h⟩ | ⟨_, h⟩ | ⟨_, h⟩ <;> omega
      have := groups_one hpos hgr hn
      subst this
      obtain ⟨seg, rfl, hg⟩ := svgGroups_one hsg
      simp only [List.map_cons, List.isChain_cons_cons] at hch
      obtain ⟨c1, last1, d, he, hp1, hgs1, hi1, hsame⟩ := step_ok hm hi hax hch.1 hg
      obtain ⟨c2, ds, he2, hp2, hgs2, hs2⟩ := ih hi1 hrest (fun y hy => hone y (List.mem_cons_of_mem _ hy)) hch.2
      refine ⟨c2, d :: ds, ?_, ?_, hgs2.trans hgs1, hsame _ _ hs2⟩
      · unfold drawPathLoop
        rw [he]
        exact he2
      · rw [hp2, hp1, List.append_assoc]; rfl

end Verif.CairoDraw
