import Verif.Proofs.Layout2

/-! # Properties of layout (C29–C36, C40, C41)

`setRect env uid a kids rect` lays out the tree with root `uid`; `env'` are the final rectangles.
The theorems speak about every box `b` of the tree, at any depth. -/

namespace Verif.Layout
open Spec

/-! ### concrete trees for the examples -/

def exAttrs (w h : Size) : Attrs := { x := none, y := none, width := w, height := h }

/-- Looks up rectangles after a successful layout. -/
def look (r : Except Err Env) (us : List Nat) : Option (List (Option Rect)) :=
  match r with
  | .ok env => some (us.map env)
  | .error _ => none

/-- The exception raised by a failing layout. -/
def failure (r : Except Err Env) : Option Err :=
  match r with
  | .ok _ => none
  | .error e => some e

/-- Vertical root with a box of size 10 × 20 (itself horizontal, two children, one with paddings), an
unmanaged box and a box of 30%. -/
def exTree : Forest :=
  .node 1 { exAttrs { minSize := 10 } { minSize := 20 } with horizontal := true }
    (.node 2 { exAttrs { minSize := 4 } { minSize := 6 } with pLeft := 1, pBottom := 2 } .nil
    (.node 3 (exAttrs { minSize := 5 } { minSize := 5 }) .nil .nil))
  (.node 4 { exAttrs { minSize := 50 } { minSize := 10 } with x := some (.align (1/2)), y := some (.ratio (1/4)) } .nil
  (.node 5 (exAttrs { minSize := 7 } { ratio := some (3/10) }) .nil .nil))

/-- Vertical root with fill(1), a box of height 20 and fill(2). -/
def exFill : Forest :=
  .node 1 (exAttrs {} { fill := 1 }) .nil
  (.node 2 (exAttrs {} { minSize := 20 }) .nil
  (.node 3 (exAttrs {} { fill := 2 }) .nil .nil))

def exRoot : Attrs := exAttrs { fill := 1 } { fill := 1 }
def noEnv : Env := fun _ => none

/-! ### C29 -/

/-- **C29**: in every box, along its main axis, each managed child starts exactly where the previous
one ends (rectangles including paddings; all managed children have one). -/
theorem C29_stacked (env env' : Env) (u : Nat) (a : Attrs) (kids : Forest) (rect : Rect)
    (hn : (uids (.node u a kids .nil)).Nodup) (h : setRect env u a kids rect = .ok env') :
    ∀ b ∈ boxes (.node u a kids .nil),
      (managedRects env' b.2.1.horizontal b.2.2).length =
        ((tops b.2.2).filter (fun c => Managed b.2.1.horizontal c.2.1)).length ∧
      (managedRects env' b.2.1.horizontal b.2.2).IsChain
        (fun p q => start b.2.1.horizontal q = start b.2.1.horizontal p + extent b.2.1.horizontal p) := by
  intro b hb
  obtain ⟨e1, e2, r, pre, post, he, hs, hf, hn1, hd, hself⟩ := setRect_box hn h b hb
  have hc : managedRects env' b.2.1.horizontal b.2.2 = managedRects e2 b.2.1.horizontal b.2.2 :=
    managedRects_congr (fun v hv => hf v (hd v (List.mem_cons_of_mem _ hv)))
  constructor
  · apply managedRects_length
    intro c hc
    rw [hf c.1 (hd c.1 (List.mem_cons_of_mem _ (tops_mem_uids hc)))]
    exact setRect_some hs c.1 (List.mem_cons_of_mem _ (tops_mem_uids hc))
  · rw [hc]
    unfold setRect at hs
    exact stacked_chain _ _ (setKids_stacked _ _ _ _ _ _ _ (List.nodup_cons.mp hn1).2 hs)

example : (uids (.node 0 exRoot exTree .nil)).Nodup := by decide
example : look (setRect noEnv 0 exRoot exTree ⟨0, 0, 100, 100⟩) [1, 2, 3, 4, 5] =
    some [some ⟨45, 25, 10, 20⟩, some ⟨91/2 + 1, 32, 3, 4⟩, some ⟨99/2, 65/2, 5, 5⟩, some ⟨25, 25, 50, 10⟩,
      some ⟨93/2, 45, 7, 30⟩] := by decide +kernel

/-! ### C30 -/

/-- **C30**: in every box whose managed children do not fill (and have no dynamic size), the space
before the first and after the last managed child is the same. -/
theorem C30_centred (env env' : Env) (u : Nat) (a : Attrs) (kids : Forest) (rect : Rect)
    (hn : (uids (.node u a kids .nil)).Nodup) (h : setRect env u a kids rect = .ok env') :
    ∀ b ∈ boxes (.node u a kids .nil),
      (∀ c ∈ tops b.2.2, Managed b.2.1.horizontal c.2.1 →
        Static b.2.1.horizontal c.2.1 ∧ fillOf b.2.1.horizontal c.2.1 = 0) →
      ∃ inner, env' b.1 = some inner ∧ ∀ first last,
        (managedRects env' b.2.1.horizontal b.2.2).head? = some first →
        (managedRects env' b.2.1.horizontal b.2.2).getLast? = some last →
        start b.2.1.horizontal first - start b.2.1.horizontal inner =
          (start b.2.1.horizontal inner + extent b.2.1.horizontal inner) -
            (start b.2.1.horizontal last + extent b.2.1.horizontal last) := by
  intro b hb hstat
  obtain ⟨e1, e2, r, pre, post, he, hs, hf, hn1, hd, hself⟩ := setRect_box hn h b hb
  have hc : managedRects env' b.2.1.horizontal b.2.2 = managedRects e2 b.2.1.horizontal b.2.2 :=
    managedRects_congr (fun v hv => hf v (hd v (List.mem_cons_of_mem _ hv)))
  refine ⟨_, hself, ?_⟩
  rw [hc]
  intro first last hfirst hlast
  obtain ⟨free, h0, -⟩ := setRect_mainAxis (List.nodup_cons.mp hn1).2 (fun c hc hm => (hstat c hc hm).1) hs
  obtain ⟨hst, htot⟩ := h0 (by
    apply List.sum_eq_zero
    intro n hn
    obtain ⟨c, hc, rfl⟩ := List.mem_map.mp hn
    have hc' := List.mem_filter.mp hc
    exact (hstat c hc'.1 (by simpa using hc'.2)).2)
  rw [stacked_head hst hfirst, stacked_last _ _ hst _ hlast, htot]
  ring

/-! ### C31 -/

/-- **C31**: if some managed child of a box fills (and no managed child has a dynamic size), the
managed children start at the start of the box's inner area, together take up exactly its extent,
and the sizes of the filling children are proportional to their fill numbers. -/
theorem C31_fill (env env' : Env) (u : Nat) (a : Attrs) (kids : Forest) (rect : Rect)
    (hn : (uids (.node u a kids .nil)).Nodup) (h : setRect env u a kids rect = .ok env') :
    ∀ b ∈ boxes (.node u a kids .nil),
      (∀ c ∈ tops b.2.2, Managed b.2.1.horizontal c.2.1 → Static b.2.1.horizontal c.2.1) →
      (∃ c ∈ tops b.2.2, Managed b.2.1.horizontal c.2.1 ∧ fillOf b.2.1.horizontal c.2.1 ≠ 0) →
      ∃ inner, env' b.1 = some inner ∧
        ((managedRects env' b.2.1.horizontal b.2.2).map (extent b.2.1.horizontal)).sum =
          extent b.2.1.horizontal inner ∧
        (∀ first, (managedRects env' b.2.1.horizontal b.2.2).head? = some first →
          start b.2.1.horizontal first = start b.2.1.horizontal inner) ∧
        ∃ unit, ∀ c ∈ tops b.2.2, Managed b.2.1.horizontal c.2.1 → fillOf b.2.1.horizontal c.2.1 ≠ 0 →
          ∃ r, env' c.1 = some r ∧ extent b.2.1.horizontal (grow c.2.1 r) = unit * fillOf b.2.1.horizontal c.2.1 := by
  intro b hb hstat ⟨c0, hc0, hm0, hf0⟩
  obtain ⟨e1, e2, r, pre, post, he, hs, hf, hn1, hd, hself⟩ := setRect_box hn h b hb
  have hc : managedRects env' b.2.1.horizontal b.2.2 = managedRects e2 b.2.1.horizontal b.2.2 :=
    managedRects_congr (fun v hv => hf v (hd v (List.mem_cons_of_mem _ hv)))
  refine ⟨_, hself, ?_⟩
  rw [hc]
  obtain ⟨free, -, h0⟩ := setRect_mainAxis (List.nodup_cons.mp hn1).2 hstat hs
  obtain ⟨hst, htot⟩ := h0 (by
    intro hz
    have := List.sum_eq_zero_iff.mp hz (fillOf b.2.1.horizontal c0.2.1)
      (List.mem_map.mpr ⟨c0, List.mem_filter.mpr ⟨hc0, by simpa using hm0⟩, rfl⟩)
    exact hf0 this)
  refine ⟨htot, fun first hfirst => stacked_head hst hfirst, ?_⟩
  have hs' := hs
  unfold setRect at hs'
  refine ⟨(fillUnitAndStart b.2.1.horizontal (b.2.1.inner r) (requests b.2.2)).1, ?_⟩
  intro c hcm hm hfl
  obtain ⟨e, rc, dd0, dd1, pre', post', he', hcr, hu, hf'⟩ :=
    setKids_top _ _ _ _ _ _ _ (List.nodup_cons.mp hn1).2 hs' c hcm
  refine ⟨_, (hf c.1 (hd c.1 (List.mem_cons_of_mem _ (tops_mem_uids hcm)))).trans hu, ?_⟩
  rw [grow_inner]
  have hx := childRect_extent hcr b.2.1.horizontal
  rw [if_pos rfl] at hx
  obtain ⟨g1, g2, g3⟩ := request_fields b.2.1.horizontal c.2.1 (requests c.2.2)
  have hl := g3.trans (hstat c hcm hm)
  rw [compute_main hl hx]
  unfold taken
  rw [if_pos (by rw [g1]; exact hfl), g1]
  simp [fillOf]

example : look (setRect noEnv 0 exRoot exFill ⟨0, 0, 90, 80⟩) [1, 2, 3] =
    some [some ⟨45, 0, 0, 20⟩, some ⟨45, 20, 0, 20⟩, some ⟨45, 40, 0, 40⟩] := by decide +kernel
example : (∀ c ∈ tops exFill, Managed false c.2.1 → Static false c.2.1) ∧
    ∃ c ∈ tops exFill, Managed false c.2.1 ∧ fillOf false c.2.1 ≠ 0 := by
  constructor
  · intro c hc _
    simp only [exFill, tops, List.mem_cons, List.not_mem_nil, or_false] at hc
    rcases hc with rfl | rfl | rfl <;> rfl
  · exact ⟨_, by simp only [exFill, tops]; exact List.mem_cons_self, by decide, by decide⟩

/-! ### C32 -/

/-- **C32** is false for `fill`: a box with `height="fill"` whose content is 50 high gets only the
remaining 10. -/
theorem C32_minimal_size_false :
    look (setRect noEnv 0 exRoot
      (.node 1 (exAttrs {} { minSize := 90 }) .nil
      (.node 2 (exAttrs {} { fill := 1 }) (.node 3 (exAttrs {} { minSize := 50 }) .nil .nil) .nil)) ⟨0, 0, 100, 100⟩) [2, 3]
      = some [some ⟨50, 90, 0, 10⟩, some ⟨50, 70, 0, 50⟩] := by decide +kernel

/-- **C32** for boxes that do not fill the axis (and have no dynamic size): the final size including
paddings is at least the requested size, at least the requested fraction of the parent, and at least
what the managed content needs plus paddings. -/
theorem C32_minimal_size_partial (env env' : Env) (u : Nat) (a : Attrs) (kids : Forest) (rect : Rect)
    (hn : (uids (.node u a kids .nil)).Nodup) (h : setRect env u a kids rect = .ok env') :
    ∀ b ∈ boxes (.node u a kids .nil), ∀ c ∈ tops b.2.2, ∀ axis, fillOf axis c.2.1 = 0 → Static axis c.2.1 →
      ∃ p r, env' b.1 = some p ∧ env' c.1 = some r ∧
        (sizeOn axis c.2.1).minSize ≤ extent axis (grow c.2.1 r) ∧
        content axis c.2.1.horizontal c.2.2 + pads axis c.2.1 ≤ extent axis (grow c.2.1 r) ∧
        ∀ q, (sizeOn axis c.2.1).ratio = some q → q ≠ 0 → extent axis p * q ≤ extent axis (grow c.2.1 r) := by
  intro b hb c hc axis hf hst
  obtain ⟨e, p, r, fu, dd0, dd1, pre, post, -, hp, hr, hcr, -⟩ := setRect_child hn h b hb c hc
  refine ⟨p, _, hp, hr, ?_⟩
  rw [grow_inner]
  have hx := childRect_extent hcr axis
  obtain ⟨g1, g2, g3⟩ := request_fields axis c.2.1 (requests c.2.2)
  rw [compute_nofill (g3.trans hst) (g1.trans hf) hx, g2, request_minSize]
  cases hq : (sizeOn axis c.2.1).ratio with
  | none => exact ⟨le_max_left _ _, le_max_right _ _, fun q hq => by cases hq⟩
  | some q =>
    simp only
    split
    · exact ⟨le_trans (le_max_left _ _) (le_max_right _ _), le_trans (le_max_right _ _) (le_max_right _ _),
        fun q' hq' _ => by injection hq' with hq'; subst hq'; exact le_max_left _ _⟩
    · exact ⟨le_max_left _ _, le_max_right _ _, fun q' hq' hq'' => by
        injection hq' with hq'; subst hq'; contradiction⟩

example : content true true (.node 2 { exAttrs { minSize := 4 } { minSize := 6 } with pLeft := 1, pBottom := 2 } .nil
    (.node 3 (exAttrs { minSize := 5 } { minSize := 5 }) .nil .nil)) = 9 := by decide +kernel

/-! ### C33 -/

/-- **C33**: if all boxes have fixed or default sizes and non-negative paddings, and the area of the
slide is at least as large as its content needs, then at every depth every managed box lies inside
the inner rectangle of its parent, along each axis on which it has no explicit position. -/
theorem C33_inside (env env' : Env) (u : Nat) (a : Attrs) (kids : Forest) (rect : Rect)
    (hn : (uids (.node u a kids .nil)).Nodup) (h : setRect env u a kids rect = .ok env')
    (hp : ∀ b ∈ boxes kids, Plain b.2.1)
    (hs : ∀ axis, content axis a.horizontal kids + pads axis a ≤ extent axis rect) :
    ∀ b ∈ boxes (.node u a kids .nil), ∀ c ∈ tops b.2.2, ∃ p r, env' b.1 = some p ∧ env' c.1 = some r ∧
      (Managed b.2.1.horizontal c.2.1 → ∀ axis, posOn axis c.2.1 = none → Within axis (grow c.2.1 r) p) := by
  intro b hb c hc
  have hb' := hb
  simp only [boxes, List.append_nil, List.mem_cons] at hb'
  rcases hb' with rfl | hbk
  · have hnk : (uids kids).Nodup := by
      simp only [uids, List.append_nil, List.nodup_cons] at hn; exact hn.2
    obtain ⟨r, hr, hw⟩ := setRect_within hnk hp h (fun axis => by
      rw [inner_extent]; have := hs axis; linarith) c hc
    refine ⟨_, r, setRect_self h ?_, hr, hw⟩
    simp only [uids, List.append_nil, List.nodup_cons] at hn; exact hn.1
  · -- a box below the root: its size is what its content needs
    have hpar : ∃ p ∈ boxes (.node u a kids .nil), b ∈ tops p.2.2 := by
      rcases boxes_parent hbk with hb1 | ⟨p, hp1, hb1⟩
      · exact ⟨(u, a, kids), by simp [boxes], hb1⟩
      · exact ⟨p, by simp [boxes, hp1], hb1⟩
    obtain ⟨p, hpm, hbt⟩ := hpar
    obtain ⟨e, pr, rb, fu, dd0, dd1, -, -, -, -, hrb, hcr, -⟩ := setRect_child hn h p hpm b hbt
    obtain ⟨e1, e2, r, pre, post, he, hsr, hf, hn1, hd, hself⟩ := setRect_box hn h b hb
    have hrr : r = rb := by
      have := hself.symm.trans hrb
      injection this with this
      have h2 := congrArg (grow b.2.1) this
      rwa [grow_inner, grow_inner] at h2
    subst hrr
    have hext := plain_extent (hp b hbk) hcr
    obtain ⟨rc, hrc, hw⟩ := setRect_within (List.nodup_cons.mp hn1).2
      (fun x hx => hp x (boxes_sub hbk hx)) hsr (fun axis => by
        rw [inner_extent, hext axis]
        have := le_max_right (sizeOn axis b.2.1).minSize (content axis b.2.1.horizontal b.2.2 + pads axis b.2.1)
        linarith) c hc
    exact ⟨_, rc, hself, (hf c.1 (hd c.1 (List.mem_cons_of_mem _ (tops_mem_uids hc)))).trans hrc, hw⟩

/-- A tree for which the hypotheses of C33 hold. -/
def exPlain : Forest :=
  .node 1 { exAttrs { minSize := 10 } { minSize := 20 } with horizontal := true }
    (.node 2 { exAttrs { minSize := 4 } { minSize := 6 } with pLeft := 1, pBottom := 2 } .nil
    (.node 3 (exAttrs { minSize := 5 } { minSize := 5 }) .nil .nil))
  (.node 4 { exAttrs { minSize := 50 } { minSize := 10 } with x := some (.fix 500) } .nil .nil)

example : (∀ b ∈ boxes exPlain, Plain b.2.1) ∧ (∀ axis, content axis false exPlain + pads axis exRoot ≤ extent axis ⟨0, 0, 60, 60⟩) ∧
    look (setRect noEnv 0 exRoot exPlain ⟨0, 0, 60, 60⟩) [1, 4] = some [some ⟨25, 15, 10, 20⟩, some ⟨500, 35, 50, 10⟩] := by
  refine ⟨?_, by decide +kernel, by decide +kernel⟩
  intro b hb
  simp only [exPlain, boxes, List.nil_append, List.append_nil, List.cons_append, List.mem_cons, List.not_mem_nil, or_false] at hb
  rcases hb with rfl | rfl | rfl | rfl <;>
    exact ⟨by intro axis; cases axis <;> exact ⟨rfl, rfl, rfl⟩, by decide, by decide, by decide, by decide⟩

/-! ### C34 -/

/-- **C34**: each padding is the most specific one given, and the area recorded for a box (used for
its content) is the rectangle given to the box, moved and shrunk by the paddings. -/
theorem C34_padding (b : BoxArgs) (a : Attrs) (hb : newAttrs b = .ok a) :
    a.pLeft = mostSpecific [b.pLeft, b.pX, b.padding] ∧
    a.pRight = mostSpecific [b.pRight, b.pX, b.padding] ∧
    a.pTop = mostSpecific [b.pTop, b.pY, b.padding] ∧
    a.pBottom = mostSpecific [b.pBottom, b.pY, b.padding] ∧
    ∀ (env env' : Env) (u : Nat) (kids : Forest) (rect : Rect), (uids (.node u a kids .nil)).Nodup →
      setRect env u a kids rect = .ok env' →
      env' u = some ⟨rect.x + a.pLeft, rect.y + a.pTop, rect.width - a.pLeft - a.pRight,
        rect.height - a.pTop - a.pBottom⟩ := by
  have hpad : ∀ x y z, setPadding x y z = mostSpecific [x, y, z] := by
    intro x y z
    cases x <;> cases y <;> cases z <;> rfl
  unfold newAttrs at hb
  split at hb
  · cases hb
  · split at hb
    · cases hb
    · split at hb
      · cases hb
      · split at hb
        · cases hb
        · injection hb with hb
          subst hb
          refine ⟨hpad _ _ _, hpad _ _ _, hpad _ _ _, hpad _ _ _, ?_⟩
          intro env env' u kids rect hn h
          rw [setRect_self h (by simp only [uids, List.append_nil, List.nodup_cons] at hn; exact hn.1)]
          rfl

example : ∃ a, newAttrs { padding := some 5, pX := some 3, pLeft := some 0 } = .ok a ∧
    (a.pLeft, a.pRight, a.pTop, a.pBottom) = (0, 3, 5, 5) := ⟨_, rfl, by decide +kernel⟩

/-! ### C35 -/

/-- **C35** is false: in a horizontal box, `y="50%"` means half of the *width* of the parent
(layout.py:165). -/
theorem C35_explicit_positions_false :
    look (setRect noEnv 0 { exRoot with horizontal := true }
      (.node 1 { exAttrs { minSize := 10 } { minSize := 10 } with y := some (.ratio (1/2)) } .nil .nil) ⟨0, 0, 200, 100⟩) [1]
      = some [some ⟨95, 100, 10, 10⟩] := by decide +kernel

/-- **C35**, everything except relative `y` in a horizontal parent: the rectangle `R` (with paddings)
of a box with explicit position, relative to the inner rectangle `P` of its parent. -/
theorem C35_explicit_positions_partial (env env' : Env) (u : Nat) (a : Attrs) (kids : Forest) (rect : Rect)
    (hn : (uids (.node u a kids .nil)).Nodup) (h : setRect env u a kids rect = .ok env') :
    ∀ b ∈ boxes (.node u a kids .nil), ∀ c ∈ tops b.2.2, ∃ P r R, env' b.1 = some P ∧ env' c.1 = some r ∧
      R = grow c.2.1 r ∧ ∀ axis,
        (∀ q, posOn axis c.2.1 = some (.fix q) → start axis R = start axis P + q) ∧
        (∀ q, posOn axis c.2.1 = some (.ratio q) → (axis = true ∨ b.2.1.horizontal = false) →
          start axis R = start axis P + extent axis P * q) ∧
        (∀ q, posOn axis c.2.1 = some (.align q) → (axis = true ∨ b.2.1.horizontal = false) →
          start axis R = start axis P + (extent axis P - extent axis R) * q) ∧
        (posOn axis c.2.1 = none → axis ≠ b.2.1.horizontal →
          start axis R - start axis P = (start axis P + extent axis P) - (start axis R + extent axis R)) := by
  intro b hb c hc
  obtain ⟨e, p, r, fu, dd0, dd1, pre, post, -, hp, hr, hcr, -⟩ := setRect_child hn h b hb c hc
  refine ⟨p, _, r, hp, hr, (grow_inner _ _).symm, ?_⟩
  obtain ⟨-, -, hx, hy, hxn, hyn, -⟩ := childRect_ok hcr
  intro axis
  cases axis with
  | true =>
    simp only [posOn, start, extent, if_true, true_or, forall_true_left]
    refine ⟨?_, ?_, ?_, ?_⟩
    · intro q hq; have := hx _ hq; injection this with this; exact this.symm
    · intro q hq; have := hx _ hq; injection this with this; exact this.symm
    · intro q hq; have := hx _ hq; injection this with this; exact this.symm
    · intro hq hh
      have hh' : b.2.1.horizontal = false := by cases hb : b.2.1.horizontal <;> simp_all
      have := hxn hq
      rw [hh'] at this
      simp only [Bool.false_eq_true, if_false] at this
      rw [this]; ring
  | false =>
    simp only [posOn, start, extent, Bool.false_eq_true, if_false, false_or]
    refine ⟨?_, ?_, ?_, ?_⟩
    · intro q hq; have := hy _ hq; injection this with this; exact this.symm
    · intro q hq hh; have := hy _ hq; rw [hh] at this
      injection this with this; exact this.symm
    · intro q hq hh; have := hy _ hq; rw [hh] at this
      injection this with this; exact this.symm
    · intro hq hh
      have hh' : b.2.1.horizontal = true := by cases hb : b.2.1.horizontal <;> simp_all
      have := hyn hq
      rw [hh'] at this
      simp only [if_true] at this
      rw [this]; ring

/-- `[0%]`, `[50%]` and `[100%]` are start, middle and end. -/
theorem C35_align_meaning (P L R : Rat) :
    P + (L - R) * 0 = P ∧ (P + (L - R) * (1/2)) + R / 2 = P + L / 2 ∧ (P + (L - R) * 1) + R = P + L := by
  refine ⟨by ring, by ring, by ring⟩

/-! ### C36 -/

/-- `u` gets its rectangle before `c`: it was created earlier, or contains `c`. -/
def Earlier (f : Forest) (u c : Nat) : Prop := u ∈ (uids f).takeWhile (· ≠ c)

/-- **C36** is false: a box placed at a position of a box that comes later fails to lay out. -/
theorem C36_dynamic_positions_false :
    failure (setRect noEnv 0 exRoot
      (.node 1 { exAttrs { minSize := 10 } { minSize := 10 } with x := some (.ref 2 true (.fix 0)) } .nil
      (.node 2 (exAttrs { minSize := 10 } { minSize := 10 }) .nil .nil)) ⟨0, 0, 200, 100⟩) = some .attribute := by
  decide +kernel

theorem takeWhile_pre {pre post : List Nat} {c : Nat} (hc : c ∉ pre) :
    (pre ++ c :: post).takeWhile (· ≠ c) = pre := by
  induction pre with
  | nil => simp
  | cons x xs ih =>
    simp only [List.mem_cons, not_or] at hc
    rw [List.cons_append, List.takeWhile_cons, if_pos (by simpa using fun h => hc.1 h.symm), ih hc.2]

theorem denotes_any {env : Env} {p : Pos} {o full self v : Rat} (h : Denotes env p o full self v)
    (hr : refs p ≠ []) : ∀ o' full' self', Denotes env p o' full' self' v := by
  induction h with
  | fix => exact absurd rfl hr
  | ratio => exact absurd rfl hr
  | align => exact absurd rfl hr
  | ref h hv ih => intro o' full' self'; exact .ref h hv
  | map hv ih => intro o' full' self'; exact .map (ih hr o' full' self')
  | fn h => intro o' full' self'; exact .fn h

/-- **C36** for references to boxes that come earlier (or contain the box): a dynamic position or size
resolves to its value with respect to the final rectangles. -/
theorem C36_dynamic_positions_partial (env env' : Env) (u : Nat) (a : Attrs) (kids : Forest) (rect : Rect)
    (hn : (uids (.node u a kids .nil)).Nodup) (h : setRect env u a kids rect = .ok env') :
    ∀ b ∈ boxes (.node u a kids .nil), ∀ c ∈ tops b.2.2, ∃ r R, env' c.1 = some r ∧ R = grow c.2.1 r ∧
      ∀ axis,
        (∀ p, posOn axis c.2.1 = some p → refs p ≠ [] → (∀ v ∈ refs p, Earlier (.node u a kids .nil) v c.1) →
          ∀ o full self, Denotes env' p o full self (start axis R)) ∧
        (∀ p, (sizeOn axis c.2.1).lazy = some p → (∀ v ∈ refs p, Earlier (.node u a kids .nil) v c.1) →
          Denotes env' p 0 0 0 (extent axis R)) := by
  intro b hb c hc
  obtain ⟨e, P, r, fu, dd0, dd1, pre, post, he, hp, hr, hcr, hfr⟩ := setRect_child hn h b hb c hc
  refine ⟨_, r, hr, (grow_inner _ _).symm, ?_⟩
  have hn' := hn
  rw [he] at hn'
  have hcpre : c.1 ∉ pre := fun hm => (List.nodup_append.mp hn').2.2 _ hm _ (List.mem_cons_self) rfl
  have hagree : ∀ p, (∀ v ∈ refs p, Earlier (.node u a kids .nil) v c.1) → ∀ v ∈ refs p, e v = env' v := by
    intro p hE v hv
    have := hE v hv
    unfold Earlier at this
    rw [he, takeWhile_pre hcpre] at this
    exact (hfr v (fun hm => (List.nodup_append.mp hn').2.2 _ this _ hm rfl)).symm
  obtain ⟨-, -, hx, hy, -, -, -⟩ := childRect_ok hcr
  intro axis
  constructor
  · intro p hpos hne hE
    have : ∃ o full self, Denotes e p o full self (start axis r) := by
      cases axis with
      | true => exact ⟨_, _, _, compute_denotes (hx p (by simpa [posOn] using hpos))⟩
      | false => exact ⟨_, _, _, compute_denotes (hy p (by simpa [posOn] using hpos))⟩
    obtain ⟨o, full, self, hd⟩ := this
    exact denotes_any (denotes_congr hd (hagree p hE)) hne
  · intro p hl hE
    have hsz := childRect_extent hcr axis
    have hl' := (request_fields axis c.2.1 (requests c.2.2)).2.2.trans hl
    unfold Size.compute at hsz
    rw [hl'] at hsz
    exact denotes_congr (compute_denotes hsz) (hagree p hE)

/-- A box placed ten to the right of the middle of an earlier box. -/
example : look (setRect noEnv 0 exRoot
      (.node 1 (exAttrs { minSize := 10 } { minSize := 10 }) .nil
      (.node 2 { exAttrs { minSize := 10 } { minSize := 10 } with x := some (.map (· + 10) (.ref 1 true (.ratio (1/2)))) } .nil .nil))
      ⟨0, 0, 200, 100⟩) [1, 2] = some [some ⟨95, 40, 10, 10⟩, some ⟨110, 50, 10, 10⟩] ∧
    ∀ v ∈ refs (.map (· + 10) (.ref 1 true (.ratio (1/2)))), v ∈ [0, 1, 2].takeWhile (· ≠ 2) := by
  refine ⟨by decide +kernel, by simp [refs]⟩

/-! ### C40 -/

/-- **C40**: moving the area given to a tree without dynamic values moves every box by the same vector
and changes no size. -/
theorem C40_translation (env env1 : Env) (u : Nat) (a : Attrs) (kids : Forest) (rect : Rect) (dx dy : Rat)
    (hs : ∀ b ∈ boxes kids, NoDynamic b.2.1) (h : setRect env u a kids rect = .ok env1) :
    ∃ env2, setRect env u a kids (move dx dy rect) = .ok env2 ∧
      ∀ v ∈ uids (.node u a kids .nil), (env1 v).isSome ∧ env2 v = (env1 v).map (move dx dy) := by
  have h' := h
  unfold setRect at h
  obtain ⟨e2, hk, hv⟩ := setKids_move dx dy kids _ (env.set u (a.inner (move dx dy rect))) _ _ _ _ _ hs h
  refine ⟨e2, ?_, ?_⟩
  · unfold setRect
    simp only [inner_move, fillUnitAndStart_move]
    rw [inner_move] at hk
    exact hk
  · intro v hvm
    simp only [uids, List.append_nil] at hvm
    refine ⟨setRect_some h' v hvm, ?_⟩
    apply hv
    rcases List.mem_cons.mp hvm with rfl | hvm
    · right; simp [Env.set, inner_move]
    · left; exact hvm

example : (∀ b ∈ boxes exTree, NoDynamic b.2.1) ∧
    look (setRect noEnv 0 exRoot exTree (move 7 9 ⟨0, 0, 100, 100⟩)) [1, 2] =
      some [some ⟨52, 34, 10, 20⟩, some ⟨91/2 + 8, 41, 3, 4⟩] := by
  refine ⟨?_, by decide +kernel⟩
  intro b hb
  simp only [exTree, boxes, List.nil_append, List.append_nil, List.cons_append, List.mem_cons, List.not_mem_nil, or_false] at hb
  rcases hb with rfl | rfl | rfl | rfl | rfl <;>
    (intro axis; cases axis <;> refine ⟨fun p hp => ?_, rfl⟩ <;>
      (simp [posOn, exAttrs] at hp) <;> (subst hp; trivial))

/-! ### C41 -/

/-- **C41**: the rectangle (with paddings) of an overlay is the inner rectangle of its parent, whatever
the orientation of the parent, if none of the four arguments is given and its content (boxes and ensured sizes `w`, `h` of items) is not larger. -/
theorem C41_overlay (env env' : Env) (u : Nat) (a : Attrs) (kids : Forest) (rect : Rect)
    (hn : (uids (.node u a kids .nil)).Nodup) (h : setRect env u a kids rect = .ok env')
    (args : BoxArgs) (hargs : args.x = .none ∧ args.y = .none ∧ args.width = .none ∧ args.height = .none) (ao : Attrs)
    (hao : newAttrs (overlayArgs args) = .ok ao) (w ht : Rat) :
    ∀ b ∈ boxes (.node u a kids .nil), ∀ c ∈ tops b.2.2,
      c.2.1 = { ao with width := { ao.width with minSize := w }, height := { ao.height with minSize := ht } } →
      ∀ P, env' b.1 = some P → w ≤ P.width → ht ≤ P.height →
      (∀ axis, content axis c.2.1.horizontal c.2.2 + pads axis c.2.1 ≤ extent axis P) →
      ∃ r, env' c.1 = some r ∧ grow c.2.1 r = P := by
  intro b hb c hc hca P hP hw hh hcont
  have hao' : ao.x = some (.fix 0) ∧ ao.y = some (.fix 0) ∧ ao.width = { ratio := some 1 } ∧ ao.height = { ratio := some 1 } := by
    have e1 : parseSize (orZero (.str "100%".toList)) = .ok { ratio := some 1 } := by
      show parseSize (.str "100%".toList) = _
      simp only [parseSize]
      have d1 : allDigits (chomp "100%".toList) = false := by decide
      have d2 : ((chomp "100%".toList).getLast? = some '%' ∧ allDigits (chomp "100%".toList).dropLast = true) := by decide
      have d3 : ((intOfDigits (chomp "100%".toList).dropLast : Nat) : Rat) / 100 = 1 := by
        have : intOfDigits (chomp "100%".toList).dropLast = 100 := by decide
        rw [this]; norm_num
      rw [if_neg (by rw [d1]; decide), if_pos d2, d3]
    have e2 : newAttrs (overlayArgs args) = .ok {
        x := some (.fix 0), y := some (.fix 0), width := { ratio := some 1 }, height := { ratio := some 1 }
        pLeft := setPadding args.pLeft args.pX args.padding
        pRight := setPadding args.pRight args.pX args.padding
        pTop := setPadding args.pTop args.pY args.padding
        pBottom := setPadding args.pBottom args.pY args.padding
        horizontal := args.horizontal, widthUndef := false, heightUndef := false } := by
      unfold newAttrs overlayArgs
      simp only [hargs.1, hargs.2.1, hargs.2.2.1, hargs.2.2.2, setDefault, isNoneArg, if_true, e1]
      rfl
    rw [hao] at e2
    injection e2 with e2
    subst e2
    exact ⟨rfl, rfl, rfl, rfl⟩
  obtain ⟨h1, h2, h3, h4⟩ := hao'
  obtain ⟨e, p, r, fu, dd0, dd1, pre, post, -, hp, hr, hcr, -⟩ := setRect_child hn h b hb c hc
  have hpP : p = P := by rw [hP] at hp; injection hp with hp; exact hp.symm
  subst hpP
  refine ⟨_, hr, ?_⟩
  rw [grow_inner]
  obtain ⟨-, -, hx, hy, -, -, -⟩ := childRect_ok hcr
  have hsz : ∀ axis, extent axis r = extent axis p := by
    intro axis
    have hx := childRect_extent hcr axis
    obtain ⟨g1, g2, g3⟩ := request_fields axis c.2.1 (requests c.2.2)
    have f1 : (sizeOn axis c.2.1).fill = 0 := by rw [hca]; cases axis <;> simp [sizeOn, h3, h4]
    have f2 : (sizeOn axis c.2.1).ratio = some 1 := by rw [hca]; cases axis <;> simp [sizeOn, h3, h4]
    have f3 : (sizeOn axis c.2.1).lazy = none := by rw [hca]; cases axis <;> simp [sizeOn, h3, h4]
    have f4 : (sizeOn axis c.2.1).minSize ≤ extent axis p := by
      rw [hca]; cases axis <;> simp [sizeOn, extent, hw, hh]
    rw [compute_nofill (g3.trans f3) (g1.trans f1) hx, g2, f2, request_minSize]
    simp only [ne_eq, one_ne_zero, not_false_eq_true, if_true, mul_one]
    exact max_eq_left (max_le f4 (hcont axis))
  have hxx := hx (.fix 0) (by rw [hca]; exact h1)
  have hyy := hy (.fix 0) (by rw [hca]; exact h2)
  simp only [Pos.compute, add_zero, Except.ok.injEq] at hxx hyy
  have hww := hsz true
  have hhh := hsz false
  simp only [extent, if_true, Bool.false_eq_true, if_false] at hww hhh
  cases r; cases p; simp_all

example : ∃ ao, newAttrs (overlayArgs { padding := some 5 }) = .ok ao ∧
    look (setRect noEnv 0 { exRoot with horizontal := true } (.node 1 ao .nil .nil) ⟨1, 2, 200, 100⟩) [1] =
      some [some ⟨6, 7, 190, 90⟩] := ⟨_, rfl, by decide +kernel⟩

end Verif.Layout
