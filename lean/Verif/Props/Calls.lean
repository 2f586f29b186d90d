import Verif.Proofs.Calls

/-! # Property C124: boxes are where the calls say -/

namespace Verif.Slide
open Verif.Layout (Attrs Forest Env newAttrs Arg Pos Size BoxArgs)
open Verif.Layout.Spec Verif.Slide.Spec
open Verif.Scene.Spec (padded)

theorem says_cases {a : Arg} {v : Pos} (h : PosSays a v) : refs v ≠ [] ∨ (∃ q, v = .fix q) ∨ (∃ q, v = .ratio q) ∨ ∃ q, v = .align q := by
  cases h with
  | number => exact .inr (.inl ⟨_, rfl⟩)
  | text h =>
    cases h with
    | number => exact .inr (.inl ⟨_, rfl⟩)
    | percent => exact .inr (.inr (.inl ⟨_, rfl⟩))
    | align => exact .inr (.inr (.inr ⟨_, rfl⟩))
  | dynamic h => exact .inl h

/-- **C124**, one box. After any calls on a slide, if the rectangles can be computed: the box made by `box(…)` in the box `p`, with its paddings, is on each axis

* at the place that the argument for the position says: a number and a percentage with respect to the inner area of `p`, an alignment with respect to the free room in it,
  a value that depends on other boxes with respect to where these boxes are in the end (relative `y` in a row: see C35);
* in the middle of `p`, if there is no such argument and `p` is not stacked on this axis;
* as large as the argument for the size says: as the value that depends on other boxes, as the inner area of `p` for `fill` across the direction of `p`,
  and at least as large as the number or the percentage says; exactly, if nothing is put into the box. -/
theorem C124_box (w h : Rat) (cs : List Call) (s : State) (hr : run (newSlide w h) cs = .ok s) (width height : Rat) (env : Env) (he : s.rects width height = .ok env)
    (k p : Nat) (c : BoxCall) (hk : cs[k]? = some (.box p c)) :
    ∃ P R, env p = some P ∧ Outer env (k + 1, c.layout) R ∧ ∀ axis,
      (∀ v, PosSays (posArg axis c.layout) v → (axis = false → row cs p = true → Absolute v) →
        Denotes env v (start axis P) (extent axis P) (extent axis R) (start axis R)) ∧
      (posArg axis c.layout = .none → axis ≠ row cs p → start axis R - start axis P = (start axis P + extent axis P) - (start axis R + extent axis R)) ∧
      ∀ sz, SizeSays (extentArg axis c.layout) sz →
        (∀ v, sz.lazy = some v → Denotes env v 0 0 0 (extent axis R)) ∧
        (sz.lazy = none → sz.fill ≠ 0 → axis ≠ row cs p → extent axis R = extent axis P) ∧
        (sz.lazy = none → sz.fill = 0 → sz.minSize ≤ extent axis R ∧ (∀ q, sz.ratio = some q → q ≠ 0 → extent axis P * q ≤ extent axis R) ∧
          (Untouched cs (k + 1) →
            (sz.ratio = none → extent axis R = max sz.minSize (padsOf axis c.layout)) ∧
            ∀ q, sz.ratio = some q → q ≠ 0 → extent axis R = max (extent axis P * q) (max sz.minSize (padsOf axis c.layout)))) := by
  have hl := run_laid hr (newSlide_laid w h)
  obtain ⟨ra, rk, hroot⟩ := hl.root
  have hn := hl.nodup
  obtain ⟨a, b, bk, bp, kids, ha, hab, hb, ht⟩ := box_child hr hk
  have hrow : bp.horizontal = row cs p := row_horizontal hr hb (made_uids cs hr p (Verif.Layout.boxes_uids hb))
  have hbk := Verif.Layout.boxes_sub hb (Verif.Layout.tops_boxes ht)
  unfold State.rects at he
  rw [hroot] at he hn hb
  obtain ⟨e, P, r, fu, dd0, dd1, hcr, hP, hq, hkeep⟩ := Verif.Layout.setRect_child_kept hn (fun _ _ => rfl) he hb ht
  obtain ⟨P1, q1, R1, hP1, hq1, rfl, hpos⟩ := Verif.Layout.C35_explicit_positions_partial _ _ _ _ _ _ hn he _ hb _ ht
  obtain ⟨P2, q2, hP2, hq2, hsz⟩ := Verif.Layout.C105_sizes _ _ _ _ _ _ hn he _ hb _ ht
  dsimp only at *
  rw [hP] at hP1 hP2
  rw [hq] at hq1 hq2
  injection hP1 with e; subst e
  injection hP2 with e; subst e
  injection hq1 with e; subst e
  injection hq2 with e; subst e
  have hR := grow_padded ha hab (b.inner r)
  rw [Verif.Layout.grow_inner] at hR hpos hsz
  rw [hrow] at hpos hsz hcr
  refine ⟨P, r, hP, ⟨_, hq, hR⟩, ?_⟩
  obtain ⟨-, -, hx, hy, -, -, -⟩ := Verif.Layout.childRect_ok hcr
  intro axis
  refine ⟨fun v hv habs => ?_, fun hv hax => ?_, fun sz hs => ?_⟩
  · have hp : posOn axis b = some v := pos_says hv (posOn_arg ha hab axis)
    obtain ⟨p1, p2, p3, -⟩ := hpos axis
    have hax : ¬ Absolute v → axis = true ∨ row cs p = false := by
      intro hq
      cases axis with
      | true => exact .inl rfl
      | false =>
        cases hrw : row cs p with
        | false => exact .inr rfl
        | true => exact absurd (habs rfl hrw) hq
    rcases says_cases hv with hd | ⟨q, rfl⟩ | ⟨q, rfl⟩ | ⟨q, rfl⟩
    · have : ∃ o full self, Denotes e v o full self (start axis r) := by
        cases axis with
        | true => exact ⟨_, _, _, Verif.Layout.compute_denotes (hx v (by simpa [posOn] using hp))⟩
        | false => exact ⟨_, _, _, Verif.Layout.compute_denotes (hy v (by simpa [posOn] using hp))⟩
      obtain ⟨o, full, self, hd'⟩ := this
      exact Verif.Layout.denotes_any (Verif.Layout.denotes_mono hd' hkeep) hd _ _ _
    · rw [p1 _ hp]; exact .fix
    · rw [p2 _ hp (hax (fun h => h))]; exact .ratio
    · rw [p3 _ hp (hax (fun h => h))]; exact .align
  · have hp : posOn axis b = none := (unplaced_iff (posOn_arg ha hab axis)).mpr hv
    exact (hpos axis).2.2.2 hp hax
  · obtain ⟨g1, g2, g3, g4, g5⟩ := sizeOn_arg ha hab axis hs
    have hext := Verif.Layout.childRect_extent hcr axis
    refine ⟨fun v hv => ?_, fun hlz hf hax => ?_, fun hlz hf => ?_⟩
    · have hl' := (Verif.Layout.request_fields axis b (Verif.Layout.requests bk)).2.2.trans (g3.trans hv)
      unfold Verif.Layout.Size.compute at hext
      rw [hl'] at hext
      exact Verif.Layout.denotes_mono (Verif.Layout.compute_denotes hext) hkeep
    · exact (hsz axis (g3.trans hlz)).2.2 (by unfold fillOf; rw [g1]; exact hf) hax
    · obtain ⟨s1, s2, -⟩ := hsz axis (g3.trans hlz)
      have hf' : fillOf axis b = 0 := g1.trans hf
      refine ⟨?_, fun q hq h0 => ?_, fun hu => ⟨fun hz => ?_, fun q hz h0 => ?_⟩⟩
      · by_cases hz : ∃ q, sz.ratio = some q ∧ q ≠ 0
        · obtain ⟨q, hq, h0⟩ := hz
          rw [s2 hf' q (g2.trans hq) h0]
          exact g4.trans ((le_max_left _ _).trans (le_max_right _ _))
        · cases hq : sz.ratio with
          | none =>
            rw [s1 hf' (g2.trans hq)]
            exact g4.trans (le_max_left _ _)
          | some q =>
            have h0 : q = 0 := by by_contra h0; exact hz ⟨q, hq, h0⟩
            obtain ⟨e1, e2, e3⟩ := Verif.Layout.request_fields axis b (Verif.Layout.requests bk)
            rw [Verif.Layout.compute_nofill (e3.trans (g3.trans hlz)) (e1.trans hf') hext, e2, g2, hq, Verif.Layout.request_minSize]
            simp only [h0, ne_eq, not_true_eq_false, if_false]
            exact g4.trans (le_max_left _ _)
      · rw [s2 hf' q (g2.trans hq) h0]
        exact le_max_left _ _
      · obtain ⟨e1, rfl⟩ := box_untouched hr hk hu hbk
        rw [ha] at e1; injection e1 with e1; subst e1
        rw [s1 hf' (g2.trans hz), g5, pads_padsOf ha]
        simp [content, needs, largest]
      · obtain ⟨e1, rfl⟩ := box_untouched hr hk hu hbk
        rw [ha] at e1; injection e1 with e1; subst e1
        rw [s2 hf' q (g2.trans hz) h0, g5, pads_padsOf ha]
        simp [content, needs, largest]

/-- **C124**, the boxes in a box. After any calls on a slide, if the rectangles can be computed: the boxes made in `p` without a position along the direction of `p` (from left to right if `p` was made
with `horizontal=True`, otherwise from top to bottom) are put side by side without gaps, first those that were prepended, the newest first, and then the others as they were made. If none of them
fills, together they are in the middle of `p`. If some fill, together they are exactly as long as `p`, and the filling ones share what the others leave in the ratio of their numbers. -/
theorem C124_stack (w h : Rat) (cs : List Call) (s : State) (hr : run (newSlide w h) cs = .ok s) (width height : Rat) (env : Env) (he : s.rects width height = .ok env)
    (p : Nat) (hp : p = 0 ∨ ∃ b, madeBy cs p = some b) :
    ∃ P Rs, env p = some P ∧ List.Forall₂ (Outer env) (stackOf cs p) Rs ∧
      Rs.IsChain (fun q r => start (row cs p) r = start (row cs p) q + extent (row cs p) q) ∧
      ((∀ x ∈ stackOf cs p, ∃ sz, SizeSays (extentArg (row cs p) x.2) sz ∧ sz.lazy = none ∧ sz.fill = 0) → ∀ first last, Rs.head? = some first → Rs.getLast? = some last →
        start (row cs p) first - start (row cs p) P = (start (row cs p) P + extent (row cs p) P) - (start (row cs p) last + extent (row cs p) last)) ∧
      ((∀ x ∈ stackOf cs p, ∃ sz, SizeSays (extentArg (row cs p) x.2) sz ∧ sz.lazy = none) → (∃ x ∈ stackOf cs p, ∃ sz, SizeSays (extentArg (row cs p) x.2) sz ∧ sz.fill ≠ 0) →
        (Rs.map (extent (row cs p))).sum = extent (row cs p) P ∧ (∀ first, Rs.head? = some first → start (row cs p) first = start (row cs p) P) ∧
        ∃ unit : Rat, ∀ x ∈ stackOf cs p, ∀ sz R, SizeSays (extentArg (row cs p) x.2) sz → sz.fill ≠ 0 → Outer env x R → extent (row cs p) R = unit * sz.fill) := by
  have hl := run_laid hr (newSlide_laid w h)
  obtain ⟨ra, rk, hroot⟩ := hl.root
  have hn := hl.nodup
  have hpu : p ∈ uids s.layouts := by
    rcases hp with rfl | ⟨b, hb⟩
    · rw [hroot]; simp [uids]
    · cases p with
      | zero => rw [hroot]; simp [uids]
      | succ k =>
        simp only [madeBy] at hb
        split at hb
        · rename_i q c hk
          obtain ⟨a, b, bk, bp, kids, -, -, h3, h4⟩ := box_child hr hk
          exact Verif.Layout.boxes_uids (Verif.Layout.boxes_sub h3 (Verif.Layout.tops_boxes h4))
        · cases hb
  obtain ⟨bp, kids, hb⟩ : ∃ bp kids, (p, bp, kids) ∈ boxes s.layouts := by
    rw [← look_isSome] at hpu
    obtain ⟨x, hx⟩ := Option.isSome_iff_exists.mp hpu
    exact ⟨_, _, look_boxes hx⟩
  have hrow : bp.horizontal = row cs p := row_horizontal hr hb hp
  obtain ⟨hord, hst⟩ := box_stems hr hb
  unfold State.rects at he
  rw [hroot] at he hn hb
  obtain ⟨-, hchain⟩ := Verif.Layout.C29_stacked _ _ _ _ _ _ hn he _ hb
  have h30 := Verif.Layout.C30_centred _ _ _ _ _ _ hn he _ hb
  have h31 := Verif.Layout.C31_fill _ _ _ _ _ _ hn he _ hb
  obtain ⟨e1, e2, r, pre, post, -, -, -, -, -, hself⟩ := Verif.Layout.setRect_box hn he _ hb
  dsimp only at hchain h30 h31 hself
  rw [hrow] at hchain h30 h31
  have hsome : ∀ t ∈ tops kids, (env t.1).isSome := by
    intro t ht
    obtain ⟨_, _, _, _, hx, -⟩ := Verif.Layout.C35_explicit_positions_partial _ _ _ _ _ _ hn he _ hb _ ht
    rw [hx]; rfl
  have hmem : ∀ t ∈ tops kids, Managed (row cs p) t.2.1 → ∃ b, (t.1, b) ∈ stackOf cs p ∧ Stems cs t b := by
    intro t ht hm
    obtain ⟨b, hb⟩ := hst t ht
    refine ⟨b, List.mem_filterMap.mpr ⟨t.1, ?_, (stems_unplaced hb _).1 hm⟩, hb⟩
    rw [← hord]
    exact List.mem_map_of_mem ht
  have hmem' : ∀ x ∈ stackOf cs p, ∃ t ∈ tops kids, t.1 = x.1 ∧ Managed (row cs p) t.2.1 ∧ Stems cs t x.2 := by
    intro x hx
    obtain ⟨u, hu, hux⟩ := List.mem_filterMap.mp hx
    rw [← hord] at hu
    obtain ⟨t, ht, rfl⟩ := List.mem_map.mp hu
    obtain ⟨b, hb⟩ := hst t ht
    obtain ⟨k1, k2⟩ := stems_unplaced hb (row cs p)
    by_cases hm : Managed (row cs p) t.2.1
    · rw [k1 hm] at hux
      injection hux with hux
      subst hux
      exact ⟨t, ht, rfl, hm, hb⟩
    · rw [k2 hm] at hux; cases hux
  have hsz : ∀ {t b sz}, Stems cs t b → SizeSays (extentArg (row cs p) b) sz → fillOf (row cs p) t.2.1 = sz.fill ∧ (sizeOn (row cs p) t.2.1).lazy = sz.lazy := by
    rintro t b sz ⟨-, a, ha, hab⟩ h
    obtain ⟨g1, -, g3, -⟩ := sizeOn_arg ha hab (row cs p) h
    exact ⟨g1, g3⟩
  refine ⟨_, managedRects env (row cs p) kids, hself, ?_, hchain, fun hall => ?_, fun hall hsome' => ?_⟩
  · have := stack_rects (hor := row cs p) hst hsome
    rw [hord] at this
    exact this
  · obtain ⟨P, hP, hcen⟩ := h30 (by
      intro t ht hm
      obtain ⟨b, hb1, hb2⟩ := hmem t ht hm
      obtain ⟨sz, h1, h2, h3⟩ := hall _ hb1
      obtain ⟨g1, g2⟩ := hsz hb2 h1
      exact ⟨g2.trans h2, g1.trans h3⟩)
    rw [hself] at hP; injection hP with hP; subst hP
    exact hcen
  · obtain ⟨P, hP, hsum, hfirst, unit, hunit⟩ := h31 (by
      intro t ht hm
      obtain ⟨b, hb1, hb2⟩ := hmem t ht hm
      obtain ⟨sz, h1, h2⟩ := hall _ hb1
      exact (hsz hb2 h1).2.trans h2) (by
      obtain ⟨x, hx, sz, h1, h2⟩ := hsome'
      obtain ⟨t, ht, -, hm, hts⟩ := hmem' x hx
      exact ⟨t, ht, hm, by rw [(hsz hts h1).1]; exact h2⟩)
    rw [hself] at hP; injection hP with hP; subst hP
    refine ⟨hsum, hfirst, unit, fun x hx sz R h1 h2 hR => ?_⟩
    obtain ⟨t, ht, htx, hm, hts⟩ := hmem' x hx
    obtain ⟨g1, -⟩ := hsz hts h1
    obtain ⟨q, hq, hext⟩ := hunit t ht hm (by rw [g1]; exact h2)
    obtain ⟨q', hq', rfl⟩ := hR
    rw [htx] at hq
    rw [hq] at hq'; injection hq' with hq'; subst hq'
    obtain ⟨-, a, ha, hab⟩ := hts
    rw [← grow_padded ha hab, hext, g1]

/-! ### an example -/

/-- A row with a box that fills, a box of width 30 that was prepended, and a box at a fixed place next to the first one; a text in the second box. -/
def exCalls : List Call :=
  [.box 0 { layout := { width := .str "50%".toList, height := .num 40, horizontal := true } },
   .box 1 { layout := { width := .str "fill(2)".toList, height := .str "fill".toList } },
   .box 1 { layout := { width := .num 30, prepend := true, padding := some 2 } },
   .text 3 10 12 false,
   .box 1 { layout := { x := .lazy (.ref 2 true (.ratio (1/2))), y := .num 5, width := .num 7 } }]

example : (match run (newSlide 200 100) exCalls with
    | .ok s => (match s.rects 200 100 with | .ok env => [0, 1, 2, 3, 5].map env | .error _ => [])
    | .error _ => []) = [some ⟨0, 0, 200, 100⟩, some ⟨50, 30, 100, 40⟩, some ⟨80, 30, 70, 40⟩, some ⟨52, 44, 26, 12⟩, some ⟨115, 35, 7, 0⟩] := by decide +kernel

example : row exCalls 1 = true ∧ (stackOf exCalls 1).map (·.1) = [3, 2] ∧ Untouched exCalls 2 := by
  refine ⟨by decide, by decide, ?_⟩
  intro c hc
  simp only [exCalls, List.mem_cons, List.not_mem_nil, or_false] at hc
  rcases hc with rfl | rfl | rfl | rfl | rfl <;> simp

end Verif.Slide
