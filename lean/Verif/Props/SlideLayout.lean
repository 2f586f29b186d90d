import Verif.Proofs.SlideLayout
import Verif.Props.Draw

/-! # Properties C27, C29 (order of layouts), C99 and C100: layouts made by API calls -/

namespace Verif.Slide
open Spec
open Verif.Layout (Attrs Forest BoxArgs)
open Verif.Layout.Spec (tops uids boxes managedRects start extent pads grow sizeOn)

theorem Reachable.laid {s : State} (h : Reachable s) : Laid s := by
  obtain ⟨w, h, cs, hr⟩ := h
  exact run_laid hr (newSlide_laid w h)

/-! ### C27 -/

/-- **C27, layout.** In the layout of its parent the new box is the first with `prepend` and the last otherwise, also if it is painted
above or below another one; it has no children yet; the order of the children of all other boxes does not change. -/
theorem C27_layout {s s' : State} (hr : Reachable s) {p : Nat} {c : BoxCall} (h : exec s (.box p c) = (s', none)) :
    (∃ a l, layoutOf p s.layouts = some (a, l) ∧
      layoutOf p s'.layouts = some (a, if c.layout.prepend then s.next :: l else l ++ [s.next])) ∧
    (∃ a, layoutOf s.next s'.layouts = some (a, [])) ∧
    ∀ v, v ≠ p → v ≠ s.next → layoutOf v s'.layouts = layoutOf v s.layouts := by
  have hl := hr.laid
  have hp : s.tree.has p = true := exec_parent h
  obtain ⟨-, hs⟩ := exec_layouts h
  simp only [layoutsAfter] at hs
  have hb := h
  simp only [exec] at hb
  rw [if_pos hp] at hb
  cases ha : Verif.Layout.newAttrs c.layout with
  | error e => unfold boxCall at hb; rw [ha] at hb; cases hb
  | ok a =>
    rw [ha] at hs
    dsimp only at hs
    rw [hs]
    have hpu := hl.has p hp
    refine ⟨?_, ⟨a, layoutOf_new hpu (fun h' => absurd (hl.lt _ h') (by omega))⟩, fun v h1 h2 => layoutOf_others h1 h2⟩
    have : ∃ x, layoutOf p s.layouts = some x := by
      rw [layoutOf_look]
      have := look_isSome.mpr hpu
      obtain ⟨y, hy⟩ := Option.isSome_iff_exists.mp this
      exact ⟨_, by rw [hy]; rfl⟩
    obtain ⟨⟨b, l⟩, hx⟩ := this
    exact ⟨b, l, hx, by rw [layoutOf_parent, hx]; rfl⟩

example : let s := stateOf [.box 0 {}, .box 0 {}, .box 0 { above := some 1 }, .box 0 { layout := { prepend := true } }]
    (layoutOf 0 s.layouts).map (·.2) = some [4, 1, 2, 3] ∧ (kidsOf 0 s.tree).map (·.map Child.uid) = some [4, 1, 3, 2] := by decide +kernel

/-! ### C29 -/

theorem createdIn_snoc (p : Nat) (b : Bool) (cs : List Call) (c : Call) : ∀ n,
    createdIn p b n (cs ++ [c]) = createdIn p b n cs ++
      (match c with
       | .box q d => if q = p ∧ d.layout.prepend = b then [n + cs.length] else []
       | _ => []) := by
  induction cs with
  | nil =>
    intro n
    cases c with
    | box q d => simp only [List.nil_append, createdIn, List.length_nil, Nat.add_zero]
    | _ => simp [createdIn]
  | cons d cs ih =>
    intro n
    have e : n + 1 + cs.length = n + (d :: cs).length := by simp; omega
    rw [← e]
    cases d with
    | box q d =>
      simp only [List.cons_append, createdIn, ih]
      split
      · simp
      · rfl
    | _ => simp only [List.cons_append, createdIn, ih]

theorem run_snoc {s s' : State} {cs : List Call} {c : Call} (h : run s (cs ++ [c]) = .ok s') :
    ∃ s1, run s cs = .ok s1 ∧ exec s1 c = (s', none) := by
  obtain ⟨s1, h1, h2⟩ := run_append h
  refine ⟨s1, h1, ?_⟩
  simp only [run] at h2
  split at h2
  · cases h2
  · rename_i s2 he
    injection h2 with h2; subst h2; exact he

theorem run_next {s s' : State} {cs : List Call} (h : run s cs = .ok s') : s'.next = s.next + cs.length := by
  induction cs generalizing s with
  | nil => injection h with h; subst h; rfl
  | cons c cs ih =>
    simp only [run] at h
    split at h
    · cases h
    · rename_i s1 he
      rw [ih h, (exec_layouts he).1]; simp; omega

theorem order_aux (w h : Rat) (cs : List Call) : ∀ (s : State), run (newSlide w h) cs = .ok s → ∀ p,
    (p ∈ uids s.layouts → ∃ a, layoutOf p s.layouts = some (a, (createdIn p true 1 cs).reverse ++ createdIn p false 1 cs)) ∧
    (p ∉ uids s.layouts → ∀ b, createdIn p b 1 cs = []) := by
  induction cs using List.reverseRecOn with
  | nil =>
    intro s hs p
    injection hs with hs; subst hs
    refine ⟨?_, fun _ _ => rfl⟩
    intro hp
    simp only [newSlide, uids, List.append_nil, List.mem_singleton] at hp
    subst hp
    exact ⟨_, rfl⟩
  | append_singleton cs c ih =>
    intro s hs p
    obtain ⟨s1, h1, h2⟩ := run_snoc hs
    have hl := run_laid h1 (newSlide_laid w h)
    have hl' := exec_laid h2 hl
    have hnext : s1.next = 1 + cs.length := run_next h1
    obtain ⟨-, hlay⟩ := exec_layouts h2
    have hp2 := exec_parent h2
    obtain ⟨ih1, ih2⟩ := ih s1 h1 p
    have same : (∀ b, createdIn p b 1 (cs ++ [c]) = createdIn p b 1 cs) →
        uids s.layouts = uids s1.layouts → ((layoutOf p s.layouts).map (·.2) = (layoutOf p s1.layouts).map (·.2)) →
        (p ∈ uids s.layouts → ∃ a, layoutOf p s.layouts = some (a, (createdIn p true 1 (cs ++ [c])).reverse ++ createdIn p false 1 (cs ++ [c]))) ∧
        (p ∉ uids s.layouts → ∀ b, createdIn p b 1 (cs ++ [c]) = []) := by
      intro e1 e2 e3
      simp only [e1, e2]
      refine ⟨fun hp => ?_, ih2⟩
      obtain ⟨a, ha⟩ := ih1 hp
      rw [ha] at e3
      cases hx : layoutOf p s.layouts with
      | none => rw [hx] at e3; cases e3
      | some x =>
        rw [hx] at e3
        injection e3 with e3
        exact ⟨x.1, congrArg some (Prod.ext rfl e3)⟩
    have keep : ∀ {q : Nat} {g : Attrs → Forest → Attrs}, s.layouts = modifyLayout q (fun a k => (g a k, k)) s1.layouts →
        uids s.layouts = uids s1.layouts ∧ (layoutOf p s.layouts).map (·.2) = (layoutOf p s1.layouts).map (·.2) := by
      intro q g e
      rw [e]
      refine ⟨uids_keep (fun _ _ => rfl) _, ?_⟩
      by_cases hpq : p = q
      · subst hpq
        rw [layoutOf_look, look_modify, layoutOf_look]
        cases look p s1.layouts <;> rfl
      · rw [layoutOf_other hpq (fun _ _ => rfl)]
    cases c with
    | text q tw th fit =>
      obtain ⟨e1, e2⟩ := keep hlay
      exact same (fun b => by rw [createdIn_snoc]; simp) e1 e2
    | shape q => exact same (fun b => by rw [createdIn_snoc]; simp) (by rw [hlay]; rfl) (by rw [hlay]; rfl)
    | image q iw ih steps =>
      obtain ⟨e1, e2⟩ := keep hlay
      exact same (fun b => by rw [createdIn_snoc]; simp) e1 e2
    | box q d =>
      obtain ⟨⟨a, l, k1, k2⟩, ⟨a', k3⟩, k4⟩ := C27_layout ⟨w, h, cs, h1⟩ h2
      have hq : q ∈ uids s1.layouts := hl.has q hp2
      have hfresh : s1.next ∉ uids s1.layouts := fun h' => absurd (hl.lt _ h') (by omega)
      have hqn : q ≠ s1.next := by rintro rfl; exact hfresh hq
      have hc : ∀ b, createdIn p b 1 (cs ++ [.box q d]) = createdIn p b 1 cs ++ (if q = p ∧ d.layout.prepend = b then [s1.next] else []) := by
        intro b; rw [createdIn_snoc, hnext]
      by_cases hpq : p = q
      · subst hpq
        refine ⟨fun _ => ?_, fun hn => ?_⟩
        · obtain ⟨a2, ha2⟩ := ih1 hq
          rw [ha2] at k1
          injection k1 with k1
          injection k1 with k5 k6
          subst k5 k6
          refine ⟨a2, ?_⟩
          rw [k2, hc, hc]
          cases d.layout.prepend <;> simp
        · exfalso
          apply hn
          have := look_isSome (u := p) (f := s.layouts)
          rw [← this]
          rw [layoutOf_look] at k2
          cases hx : look p s.layouts with
          | none => rw [hx] at k2; cases k2
          | some x => rfl
      · have hc' : ∀ b, createdIn p b 1 (cs ++ [.box q d]) = createdIn p b 1 cs := by
          intro b; rw [hc, if_neg (by rintro ⟨h, -⟩; exact hpq h.symm)]; simp
        simp only [hc']
        by_cases hpn : p = s1.next
        · subst hpn
          refine ⟨fun _ => ?_, fun _ b => ih2 hfresh b⟩
          rw [ih2 hfresh, ih2 hfresh]
          exact ⟨a', k3⟩
        · have hk := k4 p hpq hpn
          refine ⟨fun hpu => ?_, fun hpu => ih2 (fun h' => hpu ?_)⟩
          · rw [hk]
            refine ih1 ?_
            rw [← look_isSome] at hpu ⊢
            rw [layoutOf_look, layoutOf_look] at hk
            cases hx : look p s1.layouts with
            | some x => rfl
            | none =>
              rw [hx] at hk
              cases hy : look p s.layouts with
              | none => rw [hy] at hpu; cases hpu
              | some y => rw [hy] at hk; cases hk
          · rw [← look_isSome] at h' ⊢
            rw [layoutOf_look, layoutOf_look] at hk
            cases hx : look p s.layouts with
            | some x => rfl
            | none =>
              rw [hx] at hk
              cases hy : look p s1.layouts with
              | none => rw [hy] at h'; cases h'
              | some y => rw [hy] at hk; cases hk

/-- **C29 at the level of the calls.** After any history of calls, the layout children of a box are the boxes created in it: first those
created with `prepend`, the newest first, and then the others, in creation order; and the managed ones among them are placed in this order,
each starting where the one before ends. -/
theorem C29_calls (w h : Rat) (cs : List Call) (s : State) (hr : run (newSlide w h) cs = .ok s) (p : Nat) (hp : s.tree.has p = true)
    (width height : Rat) (env : Verif.Layout.Env) (he : s.rects width height = .ok env) :
    ∃ a kids, (p, a, kids) ∈ boxes s.layouts ∧ (tops kids).map (·.1) = (createdIn p true 1 cs).reverse ++ createdIn p false 1 cs ∧
      (managedRects env a.horizontal kids).IsChain (fun q r => start a.horizontal r = start a.horizontal q + extent a.horizontal q) := by
  have hl := run_laid hr (newSlide_laid w h)
  obtain ⟨a, ha⟩ := (order_aux w h cs s hr p).1 (hl.has p hp)
  rw [layoutOf_look] at ha
  cases hx : look p s.layouts with
  | none => rw [hx] at ha; cases ha
  | some x =>
    obtain ⟨b, k⟩ := x
    rw [hx] at ha
    injection ha with ha
    injection ha with h1 h2
    have hb := look_boxes hx
    refine ⟨b, k, hb, h2, ?_⟩
    obtain ⟨ra, rk, hroot⟩ := hl.root
    unfold State.rects at he
    have hn := hl.nodup
    rw [hroot] at he hn hb
    exact (Verif.Layout.C29_stacked _ _ _ _ _ _ hn he _ hb).2

example : createdIn 0 true 1 [.box 0 {}, .box 1 {}, .box 0 { layout := { prepend := true } }, .shape 0, .box 0 { layout := { prepend := true } }] = [3, 5] ∧
    createdIn 0 false 1 [.box 0 {}, .box 1 {}, .box 0 { layout := { prepend := true } }, .shape 0, .box 0 {}] = [1, 5] := by decide

/-! ### C99 -/

theorem Spec.Raised.refl (a : Attrs) : Raised a a := ⟨le_refl _, le_refl _, rfl⟩

theorem Spec.Raised.trans {a b c : Attrs} (h1 : Raised a b) (h2 : Raised b c) : Raised a c := by
  obtain ⟨p1, p2, p3⟩ := h1
  obtain ⟨q1, q2, q3⟩ := h2
  refine ⟨p1.trans q1, p2.trans q2, ?_⟩
  rw [p3] at q3
  exact q3

theorem ensure_raised (s : Verif.Layout.Size) (q : Rat) : s.minSize ≤ (s.ensure q).minSize ∧ q ≤ (s.ensure q).minSize ∧
    s.ensure q = { s with minSize := (s.ensure q).minSize } := by
  unfold Verif.Layout.Size.ensure
  split
  · rename_i h; exact ⟨le_refl _, h, rfl⟩
  · rename_i h; exact ⟨(not_le.mp h).le, le_refl _, rfl⟩

theorem ensureWidth_raised (w : Rat) (a : Attrs) : Raised a (ensureWidth w a) ∧ w + a.pLeft + a.pRight ≤ (ensureWidth w a).width.minSize := by
  obtain ⟨h1, h2, h3⟩ := ensure_raised a.width (w + a.pLeft + a.pRight)
  refine ⟨⟨h1, le_refl _, ?_⟩, h2⟩
  unfold ensureWidth
  rw [h3]

theorem ensureHeight_raised (h : Rat) (a : Attrs) : Raised a (ensureHeight h a) ∧ h + a.pTop + a.pBottom ≤ (ensureHeight h a).height.minSize := by
  obtain ⟨h1, h2, h3⟩ := ensure_raised a.height (h + a.pTop + a.pBottom)
  refine ⟨⟨le_refl _, h1, ?_⟩, h2⟩
  unfold ensureHeight
  rw [h3]

theorem Spec.Raised.pads {a b : Attrs} (h : Raised a b) (axis : Bool) : pads axis b = pads axis a := by
  rw [h.2.2]; cases axis <;> rfl

theorem ensureSize_raised (w h : Rat) (a : Attrs) : Raised a (ensureSize w h a) ∧
    ∀ axis, (if axis then w else h) + pads axis a ≤ (sizeOn axis (ensureSize w h a)).minSize := by
  obtain ⟨h1, h2⟩ := ensureWidth_raised w a
  obtain ⟨h3, h4⟩ := ensureHeight_raised h (ensureWidth w a)
  refine ⟨h1.trans h3, ?_⟩
  intro axis
  cases axis
  · have : pads false (ensureWidth w a) = pads false a := h1.pads false
    simp only [Bool.false_eq_true, if_false, sizeOn]
    have e : h + (ensureWidth w a).pTop + (ensureWidth w a).pBottom = h + pads false a := by
      rw [← this]; unfold Verif.Layout.Spec.pads; simp; ring
    rw [← e]; exact h4
  · simp only [if_true, sizeOn]
    refine le_trans ?_ h3.1
    have e : w + a.pLeft + a.pRight = w + pads true a := by unfold Verif.Layout.Spec.pads; simp; ring
    rw [← e]; exact h2

theorem textSize_raised (w h : Rat) (fit : Bool) (a : Attrs) : Raised a (textSize w h fit a) := by
  unfold textSize
  cases fit
  · exact (ensureSize_raised w h a).1
  · simp only [Bool.not_true, Bool.false_eq_true, if_false]
    split <;> split
    · exact (ensureWidth_raised _ _).1.trans (ensureHeight_raised _ _).1
    · exact (ensureWidth_raised _ _).1
    · exact (ensureHeight_raised _ _).1
    · exact .refl _

theorem imageSize_raised (w h : Rat) (a : Attrs) (k : Forest) : Raised a (imageSize w h a k) := by
  unfold imageSize
  split
  · exact (ensureSize_raised _ _ _).1
  · exact (ensureSize_raised _ _ _).1

/-- A call keeps the attributes of the layouts, apart from raising minimal sizes. -/
theorem exec_raised {s s' : State} (hl : Laid s) {c : Call} (h : exec s c = (s', none)) {u : Nat} {a : Attrs} {l : List Nat}
    (hu : layoutOf u s.layouts = some (a, l)) : ∃ b l', layoutOf u s'.layouts = some (b, l') ∧ Raised a b := by
  obtain ⟨-, hs⟩ := exec_layouts h
  have huu : u ∈ uids s.layouts := by
    rw [← look_isSome]
    rw [layoutOf_look] at hu
    cases hx : look u s.layouts with
    | none => rw [hx] at hu; cases hu
    | some x => rfl
  have keep : ∀ {q : Nat} {g : Attrs → Forest → Attrs}, (∀ a k, Raised a (g a k)) → s'.layouts = modifyLayout q (fun a k => (g a k, k)) s.layouts →
      ∃ b l', layoutOf u s'.layouts = some (b, l') ∧ Raised a b := by
    intro q g hg e
    rw [e]
    by_cases hq : u = q
    · subst hq
      rw [layoutOf_look] at hu
      rw [layoutOf_look, look_modify]
      cases hx : look u s.layouts with
      | none => rw [hx] at hu; cases hu
      | some x =>
        rw [hx] at hu
        injection hu with hu
        injection hu with h1 h2
        subst h1
        exact ⟨_, _, rfl, hg _ _⟩
    · rw [layoutOf_other hq (fun _ _ => rfl)]
      exact ⟨a, l, hu, .refl _⟩
  cases c with
  | box p c =>
    simp only [layoutsAfter] at hs
    split at hs
    · rw [hs]
      by_cases hup : u = p
      · subst hup
        rw [layoutOf_parent, hu]
        exact ⟨_, _, rfl, .refl _⟩
      · rw [layoutOf_others hup (by rintro rfl; exact absurd (hl.lt _ huu) (by omega))]
        exact ⟨a, l, hu, .refl _⟩
    · rw [hs]; exact ⟨a, l, hu, .refl _⟩
  | text p w ht fit => exact keep (fun a k => textSize_raised _ _ _ _) hs
  | shape p => simp only [layoutsAfter] at hs; rw [hs]; exact ⟨a, l, hu, .refl _⟩
  | image p w ht steps => exact keep (fun a k => imageSize_raised _ _ _ _) hs

theorem run_raised {s s' : State} (hl : Laid s) {cs : List Call} (h : run s cs = .ok s') {u : Nat} {a : Attrs} {l : List Nat}
    (hu : layoutOf u s.layouts = some (a, l)) : ∃ b l', layoutOf u s'.layouts = some (b, l') ∧ Raised a b := by
  induction cs generalizing s a l with
  | nil => injection h with h; subst h; exact ⟨a, l, hu, .refl _⟩
  | cons c cs ih =>
    simp only [run] at h
    split at h
    · cases h
    · rename_i s1 he
      obtain ⟨b, l', h1, h2⟩ := exec_raised hl he hu
      obtain ⟨b', l'', h3, h4⟩ := ih (exec_laid he hl) h h1
      exact ⟨b', l'', h3, h2.trans h4⟩

/-- The layout of a box, in the whole history: created with the attributes of its arguments; later calls raise the minimal sizes. -/
theorem box_attrs {w h : Rat} {pre post : List Call} {q : Nat} {c : BoxCall} {s : State}
    (hr : run (newSlide w h) (pre ++ .box q c :: post) = .ok s) :
    ∃ a b l, Verif.Layout.newAttrs c.layout = .ok a ∧ layoutOf (pre.length + 1) s.layouts = some (b, l) ∧ Raised a b := by
  obtain ⟨s1, h1, h2⟩ := run_append hr
  simp only [run] at h2
  split at h2
  · cases h2
  · rename_i s2 he
    have hl := run_laid h1 (newSlide_laid w h)
    have hn : s1.next = pre.length + 1 := by rw [run_next h1]; simp [newSlide]; omega
    have hp : s1.tree.has q = true := exec_parent he
    have hb := he
    simp only [exec] at hb
    rw [if_pos hp] at hb
    cases ha : Verif.Layout.newAttrs c.layout with
    | error e => unfold boxCall at hb; rw [ha] at hb; cases hb
    | ok a =>
      obtain ⟨-, hs⟩ := exec_layouts he
      simp only [layoutsAfter, ha] at hs
      have hnew : layoutOf s1.next s2.layouts = some (a, []) := by
        rw [hs]
        exact layoutOf_new (hl.has q hp) (fun h' => absurd (hl.lt _ h') (by omega))
      obtain ⟨b, l, h3, h4⟩ := run_raised (exec_laid he hl) h2 hnew
      exact ⟨a, b, l, rfl, by rw [← hn]; exact h3, h4⟩


theorem orZero_bounded {x : Verif.Layout.Arg} (h : Bounded x) {v : Verif.Layout.Size}
    (hv : Verif.Layout.parseSize (Verif.Layout.orZero x) = .ok v) : v.fill = 0 ∧ v.lazy = none := by
  cases x with
  | none => injection hv with hv; subst hv; exact ⟨rfl, rfl⟩
  | num q => injection hv with hv; subst hv; exact ⟨rfl, rfl⟩
  | lazy p => exact h.elim
  | other => cases hv
  | str s =>
    cases s with
    | nil => injection hv with hv; subst hv; exact ⟨rfl, rfl⟩
    | cons ch t =>
      have hf : ¬ "fill".toList <+: Verif.Layout.chomp (ch :: t) := by
        intro h'
        apply h
        unfold Verif.Layout.chomp at h'
        split at h'
        · exact h'.trans (List.dropLast_prefix _)
        · exact h'
      simp only [Verif.Layout.orZero, Verif.Layout.parseSize] at hv
      generalize Verif.Layout.chomp (ch :: t) = u at hv hf
      split at hv
      · injection hv with hv; subst hv; exact ⟨rfl, rfl⟩
      · split at hv
        · injection hv with hv; subst hv; exact ⟨rfl, rfl⟩
        · split at hv
          · rename_i hu; exact absurd (by rw [hu]; exact List.prefix_refl _) hf
          · split at hv
            · rename_i hp
              exact absurd ((show "fill".toList <+: "fill(".toList from ⟨['('], rfl⟩).trans (List.isPrefixOf_iff_prefix.mp hp)) hf
            · cases hv

theorem newAttrs_size {b : BoxArgs} {a : Attrs} (h : Verif.Layout.newAttrs b = .ok a) (axis : Bool) :
    Verif.Layout.parseSize (Verif.Layout.orZero (if axis then b.width else b.height)) = .ok (sizeOn axis a) ∧
    a.widthUndef = Verif.Layout.isNoneArg b.width ∧ a.heightUndef = Verif.Layout.isNoneArg b.height := by
  unfold Verif.Layout.newAttrs at h
  split at h
  · cases h
  · split at h
    · cases h
    · split at h
      · cases h
      · rename_i w hw
        split at h
        · cases h
        · rename_i hh hhh
          injection h with h
          subst h
          cases axis
          · exact ⟨hhh, rfl, rfl⟩
          · exact ⟨hw, rfl, rfl⟩

/-- The rectangle of a box is at least as large as its minimal size, unless it is `fill` or dynamic. -/
theorem rect_ge {s : State} (hl : Laid s) {width height : Rat} {env : Verif.Layout.Env} (he : s.rects width height = .ok env) {u : Nat}
    (hu : u ≠ 0) {b : Attrs} {l : List Nat} (hb : layoutOf u s.layouts = some (b, l)) :
    ∃ r, env u = some r ∧ ∀ axis, (sizeOn axis b).fill = 0 → (sizeOn axis b).lazy = none → (sizeOn axis b).minSize ≤ extent axis r + pads axis b := by
  obtain ⟨ra, rk, hroot⟩ := hl.root
  have hn := hl.nodup
  unfold State.rects at he
  rw [hroot] at he hn hb
  rw [layoutOf_look] at hb
  cases hx : look u (.node 0 ra rk .nil) with
  | none => rw [hx] at hb; cases hb
  | some x =>
    obtain ⟨b', k⟩ := x
    rw [hx] at hb
    injection hb with hb
    injection hb with h1 h2
    dsimp only at h1
    subst h1
    have hm := look_boxes hx
    simp only [boxes, List.append_nil, List.mem_cons] at hm
    have hk : (u, b', k) ∈ boxes rk := by
      rcases hm with hm | hm
      · injection hm with hm _; exact absurd hm hu
      · exact hm
    have : ∃ p ∈ boxes (.node 0 ra rk .nil), (u, b', k) ∈ tops p.2.2 := by
      rcases Verif.Layout.boxes_parent hk with h | ⟨p, h3, h4⟩
      · exact ⟨(0, ra, rk), by simp [boxes], h⟩
      · exact ⟨p, by simp [boxes, h3], h4⟩
    obtain ⟨p, hp, hpt⟩ := this
    obtain ⟨e, pr, r, fu, dd0, dd1, pre, post, -, -, hr, -, -⟩ := Verif.Layout.setRect_child hn he p hp _ hpt
    refine ⟨_, hr, ?_⟩
    intro axis hf hs
    obtain ⟨p', r', -, hr', h3, -⟩ := Verif.Layout.C32_minimal_size_partial _ _ _ _ _ _ hn he p hp _ hpt axis hf hs
    rw [hr] at hr'
    injection hr' with hr'
    rw [← hr', Verif.Layout.grow_inner] at h3
    rw [Verif.Layout.inner_extent]
    linarith

/-- What a call that takes room requests. -/
theorem exec_takes {s s' : State} {c : BoxCall} {d : Call} (h : exec s d = (s', none)) {axis : Bool} {q : Rat} (ht : Takes c d axis q)
    {a b : Attrs} {l : List Nat} (ha : Verif.Layout.newAttrs c.layout = .ok a) (hb : layoutOf (target d) s.layouts = some (b, l))
    (hab : Raised a b) : ∃ b' l', layoutOf (target d) s'.layouts = some (b', l') ∧ Raised b b' ∧ q + pads axis b ≤ (sizeOn axis b').minSize := by
  obtain ⟨-, hs⟩ := exec_layouts h
  obtain ⟨-, e1, e2⟩ := newAttrs_size ha axis
  have e1' : b.widthUndef = Verif.Layout.isNoneArg c.layout.width := by rw [hab.2.2]; exact e1
  have e2' : b.heightUndef = Verif.Layout.isNoneArg c.layout.height := by rw [hab.2.2]; exact e2
  have key : ∀ {p : Nat} {g : Attrs → Forest → Attrs}, target d = p → s'.layouts = modifyLayout p (fun a k => (g a k, k)) s.layouts →
      ∃ k l', layoutOf (target d) s'.layouts = some (g b k, l') := by
    intro p g hp e
    rw [hp] at hb ⊢
    rw [layoutOf_look] at hb
    rw [e, layoutOf_look, look_modify]
    cases hx : look p s.layouts with
    | none => rw [hx] at hb; cases hb
    | some x =>
      rw [hx] at hb
      injection hb with hb
      injection hb with h1 h2
      subst h1
      exact ⟨_, _, rfl⟩
  cases ht with
  | text =>
    obtain ⟨k, l', h1⟩ := key rfl hs
    exact ⟨_, l', h1, textSize_raised _ _ _ _, (ensureSize_raised _ _ _).2 axis⟩
  | @scaled p w ht _ hn =>
    obtain ⟨k, l', h1⟩ := key rfl hs
    refine ⟨_, l', h1, textSize_raised _ _ _ _, ?_⟩
    unfold textSize
    simp only [Bool.not_true, Bool.false_eq_true, if_false]
    cases axis
    · simp only [sizeArg, Bool.false_eq_true, if_false] at hn
      rw [hn] at e2'
      have e3 : (if b.widthUndef = true then ensureWidth w b else b).heightUndef = true := by
        split
        · exact e2'
        · exact e2'
      rw [if_pos e3]
      have h2 := (ensureHeight_raised ht (if b.widthUndef = true then ensureWidth w b else b)).2
      have h3 : pads false (if b.widthUndef = true then ensureWidth w b else b) = pads false b := by
        split <;> rfl
      simp only [Bool.false_eq_true, if_false, sizeOn]
      rw [← h3]
      unfold Verif.Layout.Spec.pads
      simp only [Bool.false_eq_true, if_false]
      rw [← add_assoc]
      exact h2
    · simp only [sizeArg, if_true] at hn
      rw [hn] at e1'
      rw [if_pos (show b.widthUndef = true from e1')]
      have h2 := (ensureWidth_raised w b).2
      simp only [if_true, sizeOn]
      unfold Verif.Layout.Spec.pads
      simp only [if_true]
      rw [← add_assoc]
      split <;> exact h2
  | image hw hh =>
    obtain ⟨k, l', h1⟩ := key rfl hs
    refine ⟨_, l', h1, imageSize_raised _ _ _ _, ?_⟩
    unfold imageSize
    rw [hw] at e1'
    rw [hh] at e2'
    rw [e1', e2']
    exact (ensureSize_raised _ _ _).2 axis

/-- A history in which a box is created and something is added to it. -/
def history (pre mid post : List Call) (q : Nat) (c : BoxCall) (d : Call) : List Call := pre ++ .box q c :: (mid ++ d :: post)

theorem takes_fits {w h : Rat} {pre mid post : List Call} {q : Nat} {c : BoxCall} {d : Call} {s : State}
    (hr : run (newSlide w h) (history pre mid post q c d) = .ok s) (hd : target d = pre.length + 1)
    (P : Attrs → Prop) (hP : ∀ s1 s2 : State, exec s1 d = (s2, none) → ∀ a b l, Verif.Layout.newAttrs c.layout = .ok a →
      layoutOf (target d) s1.layouts = some (b, l) → Raised a b → ∃ b' l', layoutOf (target d) s2.layouts = some (b', l') ∧ Raised b b' ∧ P b')
    (hmono : ∀ a b, Raised a b → P a → P b) :
    ∃ a b l, Verif.Layout.newAttrs c.layout = .ok a ∧ layoutOf (target d) s.layouts = some (b, l) ∧ Raised a b ∧ P b := by
  have e : history pre mid post q c d = (pre ++ .box q c :: mid) ++ d :: post := by simp [history]
  rw [e] at hr
  obtain ⟨s1, h1, h2⟩ := run_append hr
  simp only [run] at h2
  split at h2
  · cases h2
  · rename_i s2 he
    obtain ⟨a, b, l, h3, h4, h5⟩ := box_attrs h1
    rw [← hd] at h4
    obtain ⟨b', l', h6, h7, h8⟩ := hP s1 s2 he a b l h3 h4 h5
    have hl := run_laid h1 (newSlide_laid w h)
    obtain ⟨b'', l'', h9, h10⟩ := run_raised (exec_laid he hl) h2 h6
    exact ⟨a, b'', l'', h3, h9, (h5.trans h7).trans h10, hmono _ _ h10 h8⟩

/-- The minimal sizes of a layout are kept by `Raised`, and so are the other fields. -/
theorem Spec.Raised.sizes {a b : Attrs} (h : Raised a b) (axis : Bool) : (sizeOn axis a).minSize ≤ (sizeOn axis b).minSize ∧
    (sizeOn axis b).fill = (sizeOn axis a).fill ∧ (sizeOn axis b).lazy = (sizeOn axis a).lazy := by
  cases axis
  · exact ⟨h.2.1, by rw [h.2.2]; rfl, by rw [h.2.2]; rfl⟩
  · exact ⟨h.1, by rw [h.2.2]; rfl, by rw [h.2.2]; rfl⟩

/-- **C99 is false of the code**: a text in a box of height `fill` is higher than its box, if the other boxes leave less room. -/
theorem C99_fits_false : ¬ ∀ (w h : Rat) (pre mid post : List Call) (q : Nat) (c : BoxCall) (d : Call) (s : State) (axis : Bool) (room : Rat)
    (env : Verif.Layout.Env), run (newSlide w h) (history pre mid post q c d) = .ok s → target d = pre.length + 1 → Takes c d axis room →
    s.rects w h = .ok env → ∃ r, env (pre.length + 1) = some r ∧ room ≤ extent axis r := by
  intro hall
  have hc : ∃ s env, run (newSlide 100 100) (history [] [.box 0 {}, .text 2 50 90 false] [] 0 { layout := { height := .str "fill".toList } } (.text 1 30 20 false)) = .ok s ∧
      s.rects 100 100 = .ok env ∧ env 1 = some ⟨35, 0, 30, 10⟩ := by
    have : (match run (newSlide 100 100) (history [] [.box 0 {}, .text 2 50 90 false] [] 0 { layout := { height := .str "fill".toList } } (.text 1 30 20 false)) with
      | .ok s => (match s.rects 100 100 with | .ok env => env 1 | .error _ => none)
      | .error _ => none) = some ⟨35, 0, 30, 10⟩ := by decide +kernel
    split at this
    · rename_i s hs
      split at this
      · rename_i env he; exact ⟨s, env, hs, he, this⟩
      · cases this
    · cases this
  obtain ⟨s, env, h1, h2, h3⟩ := hc
  obtain ⟨r, h4, h5⟩ := hall 100 100 _ _ _ _ _ _ _ false 20 env h1 rfl .text h2
  rw [show ([] : List Call).length + 1 = 1 from rfl, h3] at h4
  injection h4 with h4
  subst h4
  revert h5
  decide +kernel

/-- **C99, the part that holds**: whatever else happens on the slide before and after, a text or image lies in the area of its box, if the
size of the box along the axis is not given as `fill` or as a dynamic value. (Missing: these, and things put directly on the slide.) -/
theorem C99_fits_partial (w h width height : Rat) (pre mid post : List Call) (q : Nat) (c : BoxCall) (d : Call) (s : State) (axis : Bool) (room : Rat)
    (env : Verif.Layout.Env) (hr : run (newSlide w h) (history pre mid post q c d) = .ok s) (hd : target d = pre.length + 1)
    (ht : Takes c d axis room) (hb : Bounded (sizeArg axis c)) (he : s.rects width height = .ok env) :
    ∃ r, env (pre.length + 1) = some r ∧ room ≤ extent axis r := by
  obtain ⟨a, b, l, h1, h2, h3, h4⟩ := takes_fits hr hd (fun b => room + pads axis b ≤ (sizeOn axis b).minSize)
    (fun s1 s2 hx a b l h1 h2 h3 => by
      obtain ⟨b', l', g1, g2, g3⟩ := exec_takes hx ht h1 h2 h3
      exact ⟨b', l', g1, g2, by rw [g2.pads]; exact g3⟩)
    (fun a b hab h => by rw [hab.pads]; exact h.trans (hab.sizes axis).1)
  obtain ⟨r, h5, h6⟩ := rect_ge (run_laid hr (newSlide_laid w h)) he (by rw [hd]; omega) h2
  rw [hd] at h5
  refine ⟨r, h5, ?_⟩
  have hz := orZero_bounded hb (newAttrs_size h1 axis).1
  obtain ⟨-, k1, k2⟩ := h3.sizes axis
  have := h6 axis (k1.trans hz.1) (k2.trans hz.2)
  linarith

/-- A text in a box of 20 % that is created in another box with paddings: the box is enlarged. -/
example : (match run (newSlide 100 100) (history [.box 0 { layout := { padding := some 5 } }] [.shape 2] [.box 1 {}] 1 { layout := { width := .str "20%".toList } } (.text 2 30 20 false)) with
    | .ok s => (match s.rects 100 100 with | .ok env => env 2 | .error _ => none)
    | .error _ => none) = some ⟨35, 40, 30, 20⟩ := by decide +kernel

/-! ### C100 -/

/-- Where an image is drawn that was put in a box of a slide, without explicit scale. -/
def drawnImage (env : Verif.Layout.Env) (u : Nat) (iw ih : Rat) : Option Rect :=
  match env u with
  | none => none
  | some r => (Verif.Layout.imageRect r iw ih none).toOption

/-- One rectangle lies in another. -/
def Inside (r p : Rect) : Prop := p.x ≤ r.x ∧ r.x + r.width ≤ p.x + p.width ∧ p.y ≤ r.y ∧ r.y + r.height ≤ p.y + p.height

instance (r p : Rect) : Decidable (Inside r p) := by unfold Inside; infer_instance

/-- **C100 is false of the code**: with a width given in percent the box gets no height, and the image is drawn far outside of it, over
the neighbours. -/
theorem C100_image_false : ∃ s env r, run (newSlide 100 100) (history [] [] [.box 0 {}, .text 3 60 20 false] 0 { layout := { width := .str "50%".toList } } (.image 1 40 40 none)) = .ok s ∧
    s.rects 100 100 = .ok env ∧ env 1 = some ⟨25, 40, 50, 0⟩ ∧ env 3 = some ⟨20, 40, 60, 20⟩ ∧
    drawnImage env 1 40 40 = some r ∧ r = ⟨25, 15, 50, 50⟩ ∧ ¬ Inside r ⟨25, 40, 50, 0⟩ := by
  have : (match run (newSlide 100 100) (history [] [] [.box 0 {}, .text 3 60 20 false] 0 { layout := { width := .str "50%".toList } } (.image 1 40 40 none)) with
    | .ok s => (match s.rects 100 100 with | .ok env => some (env 1, env 3, drawnImage env 1 40 40) | .error _ => none)
    | .error _ => none) = some (some ⟨25, 40, 50, 0⟩, some ⟨20, 40, 60, 20⟩, some ⟨25, 15, 50, 50⟩) := by decide +kernel
  split at this
  · rename_i s hs
    split at this
    · rename_i env he
      injection this with this
      injection this with h1 this
      injection this with h2 h3
      exact ⟨s, env, _, hs, he, h1, h2, h3, rfl, by decide +kernel⟩
    · cases this
  · cases this

/-- What an image requests from a box of which a size was given. -/
theorem imageSize_given {iw ih : Rat} (hw : 0 < iw) (hh : 0 < ih) {a : Attrs} {k : Forest} (hu : (a.widthUndef && a.heightUndef) = false) :
    a.width.minSize * ih / iw + pads false a ≤ (imageSize iw ih a k).height.minSize ∧
    a.height.minSize * iw / ih + pads true a ≤ (imageSize iw ih a k).width.minSize := by
  unfold imageSize
  rw [hu]
  simp only [Bool.false_eq_true, if_false]
  generalize Verif.Layout.minChildrenSize a.horizontal (Verif.Layout.requests k) = m
  have hr := (ensureSize_raised (max a.height.minSize m.2 * iw / ih) (max a.width.minSize m.1 * ih / iw) a).2
  have h1 := hr false
  have h2 := hr true
  simp only [Bool.false_eq_true, if_false, if_true, sizeOn] at h1 h2
  constructor
  · refine le_trans (add_le_add_left ?_ _) h1
    exact div_le_div_of_nonneg_right (mul_le_mul_of_nonneg_right (le_max_left _ _) hh.le) hw.le
  · refine le_trans (add_le_add_left ?_ _) h2
    exact div_le_div_of_nonneg_right (mul_le_mul_of_nonneg_right (le_max_left _ _) hw.le) hh.le

/-- The extent of the drawn image along an axis. -/
theorem drawn_extent {r : Rect} {iw ih q : Rat} (hw : 0 < iw) (hh : 0 < ih) (hrw : 0 < r.width) (hrh : 0 < r.height) (axis : Bool)
    (h1 : q ≤ extent axis r) (h2 : q * (if axis then ih else iw) / (if axis then iw else ih) ≤ extent (!axis) r) :
    ∃ d, Verif.Layout.imageRect r iw ih none = .ok d ∧ Inside d r ∧ d.width * ih = d.height * iw ∧ q ≤ extent axis d := by
  obtain ⟨d, e1, e2, e3, e4, e5, e6, e7, e8, e9⟩ := Verif.Layout.C42_image r iw ih hrw hrh hw hh
  refine ⟨d, e1, ⟨by linarith, by linarith, by linarith, by linarith⟩, e4, ?_⟩
  cases axis
  · simp only [extent, Bool.not_false, Bool.false_eq_true, if_false, if_true] at h1 h2 ⊢
    rw [div_le_iff₀ hh] at h2
    rcases e9 with e9 | e9
    · rw [← e9] at h2
      by_contra hc
      have := mul_lt_mul_of_pos_right (not_le.mp hc) hw
      nlinarith
    · rw [e9]; exact h1
  · simp only [extent, Bool.not_true, Bool.false_eq_true, if_false, if_true] at h1 h2 ⊢
    rw [div_le_iff₀ hw] at h2
    rcases e9 with e9 | e9
    · rw [e9]; exact h1
    · rw [← e9] at h2
      by_contra hc
      have := mul_lt_mul_of_pos_right (not_le.mp hc) hh
      nlinarith

/-- **C100, the part that holds**: if the width (or the height) of the box is given as a number that is larger than the paddings, and the other
size is not `fill` or dynamic, then, whatever else happens on the slide, the image is drawn inside the box with its aspect ratio, and at least
as wide (or high) as given, less the paddings. (Missing: percentages, `fill` and dynamic sizes.) -/
theorem C100_image_partial (w h width height : Rat) (pre mid post : List Call) (q : Nat) (c : BoxCall) (iw ih : Rat) (steps : Option Int) (s : State)
    (axis : Bool) (size : Rat) (env : Verif.Layout.Env) (hr : run (newSlide w h) (history pre mid post q c (.image (pre.length + 1) iw ih steps)) = .ok s)
    (hw : 0 < iw) (hh : 0 < ih) (hs : sizeArg axis c = .num size) (hb : Bounded (sizeArg (!axis) c)) (a : Attrs)
    (ha : Verif.Layout.newAttrs c.layout = .ok a) (hp : ∀ ax, 0 ≤ pads ax a) (hsize : pads axis a < size) (he : s.rects width height = .ok env) :
    ∃ r d, env (pre.length + 1) = some r ∧ Verif.Layout.imageRect r iw ih none = .ok d ∧ Inside d r ∧ d.width * ih = d.height * iw ∧
      size - pads axis a ≤ extent axis d := by
  have hsz : (sizeOn axis a).minSize = size ∧ (sizeOn axis a).fill = 0 ∧ (sizeOn axis a).lazy = none := by
    have := (newAttrs_size ha axis).1
    rw [show (if axis = true then c.layout.width else c.layout.height) = .num size from hs] at this
    injection this with this
    rw [← this]; exact ⟨rfl, rfl, rfl⟩
  have hund : (a.widthUndef && a.heightUndef) = false := by
    obtain ⟨-, e1, e2⟩ := newAttrs_size ha axis
    rw [e1, e2]
    cases axis
    · rw [show c.layout.height = .num size from hs]; simp [Verif.Layout.isNoneArg]
    · rw [show c.layout.width = .num size from hs]; simp [Verif.Layout.isNoneArg]
  obtain ⟨a', b, l, h1, h2, h3, h4⟩ := takes_fits hr (by rfl)
    (fun b => size * (if axis then ih else iw) / (if axis then iw else ih) + pads (!axis) b ≤ (sizeOn (!axis) b).minSize)
    (fun s1 s2 hx a' b l h1 h2 h3 => by
      rw [ha] at h1
      injection h1 with h1
      subst h1
      obtain ⟨-, hlay⟩ := exec_layouts hx
      simp only [layoutsAfter] at hlay
      simp only [target] at h2 ⊢
      rw [layoutOf_look] at h2
      rw [hlay, layoutOf_look, look_modify]
      cases hx : look (pre.length + 1) s1.layouts with
      | none => rw [hx] at h2; cases h2
      | some x =>
        rw [hx] at h2
        injection h2 with h2
        injection h2 with h4 h5
        subst h4
        refine ⟨_, _, rfl, imageSize_raised _ _ _ _, ?_⟩
        have hund' : (x.1.widthUndef && x.1.heightUndef) = false := by rw [h3.2.2]; exact hund
        obtain ⟨g1, g2⟩ := imageSize_given (k := x.2) hw hh hund'
        have hpad := (imageSize_raised iw ih x.1 x.2).pads
        have hmin := (h3.sizes axis).1
        rw [hsz.1] at hmin
        rw [hpad]
        cases axis
        · simp only [Bool.not_false, Bool.false_eq_true, if_false, if_true, sizeOn] at hmin ⊢
          refine le_trans (add_le_add_left ?_ _) g2
          exact div_le_div_of_nonneg_right (mul_le_mul_of_nonneg_right hmin hw.le) hh.le
        · simp only [Bool.not_true, Bool.false_eq_true, if_false, if_true, sizeOn] at hmin ⊢
          refine le_trans (add_le_add_left ?_ _) g1
          exact div_le_div_of_nonneg_right (mul_le_mul_of_nonneg_right hmin hh.le) hw.le)
    (fun a b hab h => by rw [hab.pads]; exact h.trans (hab.sizes _).1)
  rw [ha] at h1
  injection h1 with h1
  subst h1
  obtain ⟨r, h5, h6⟩ := rect_ge (run_laid hr (newSlide_laid w h)) he (by simp [target]) h2
  have hz := orZero_bounded hb (newAttrs_size ha (!axis)).1
  obtain ⟨k0, k1, k2⟩ := h3.sizes axis
  obtain ⟨-, k3, k4⟩ := h3.sizes (!axis)
  have m1 := h6 axis (k1.trans hsz.2.1) (k2.trans hsz.2.2)
  have m2 := h6 (!axis) (k3.trans hz.1) (k4.trans hz.2)
  rw [h3.pads] at m1 m2
  rw [h3.pads] at h4
  rw [hsz.1] at k0
  have hpos : 0 < (if axis = true then ih else iw) / (if axis = true then iw else ih) := by
    cases axis
    · exact div_pos hw hh
    · exact div_pos hh hw
  have hsz0 : 0 < size := lt_of_le_of_lt (hp axis) hsize
  have n1 : size - pads axis a ≤ extent axis r := by linarith
  have n2 : size * (if axis = true then ih else iw) / (if axis = true then iw else ih) ≤ extent (!axis) r := by linarith
  have n3 : (size - pads axis a) * (if axis = true then ih else iw) / (if axis = true then iw else ih) ≤ extent (!axis) r := by
    refine le_trans ?_ n2
    rw [mul_div_assoc, mul_div_assoc]
    exact mul_le_mul_of_nonneg_right (by have := hp axis; linarith) hpos.le
  have p1 : 0 < extent axis r := lt_of_lt_of_le (by linarith) n1
  have p2 : 0 < extent (!axis) r := lt_of_lt_of_le (by rw [mul_div_assoc]; exact mul_pos hsz0 hpos) n2
  have : 0 < r.width ∧ 0 < r.height := by
    cases axis
    · exact ⟨p2, p1⟩
    · exact ⟨p1, p2⟩
  obtain ⟨d, f1, f2, f3, f4⟩ := drawn_extent hw hh this.1 this.2 axis n1 n3
  exact ⟨r, d, h5, f1, f2, f3, f4⟩

/-- An image of 40 × 20 in a box of width 50 with paddings of 5: drawn 40 wide. -/
example : (match run (newSlide 100 100) (history [] [] [] 0 { layout := { width := .num 50, padding := some 5 } } (.image 1 40 20 none)) with
    | .ok s => (match s.rects 100 100 with | .ok env => (env 1, drawnImage env 1 40 20) | .error _ => (none, none))
    | .error _ => (none, none)) = (some ⟨30, 75 / 2, 40, 25⟩, some ⟨30, 40, 40, 20⟩) := by decide +kernel

end Verif.Slide
