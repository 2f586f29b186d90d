import Verif.Proofs.Independent
import Verif.Props.SlideLayout

/-! # Property C104: boxes placed by hand do not influence the others -/

namespace Verif.Slide
open Spec
open Verif.Layout (Attrs Forest BoxArgs Env)
open Verif.Layout.Spec (tops uids boxes posOn without inside Explicit Ignores)

theorem rects_root {s : State} {a : Attrs} {kids : Forest} (h : s.layouts = .node 0 a kids .nil) (w ht : Rat) :
    s.rects w ht = Verif.Layout.setRect (fun _ => none) 0 a kids ⟨0, 0, w, ht⟩ := by
  unfold State.rects; rw [h]

theorem run_concat {s m s' : State} {cs ds : List Call} (h : run s cs = .ok m) (h' : run m ds = .ok s') : run s (cs ++ ds) = .ok s' := by
  induction cs generalizing s with
  | nil => injection h with h; subst h; exact h'
  | cons c cs ih =>
    simp only [run, List.cons_append] at h ⊢
    split at h
    · cases h
    · exact ih h

/-- **C104, leaving it out.** A box `u` with an explicit position along the main axis of its parent, to which no position or size of a
box outside of it refers, can be left out of the slide together with everything in it: the layout still works and all other boxes have
the same rectangles. -/
theorem C104_without {s : State} (hr : Reachable s) (u : Nat) (hu : u ≠ 0) (hex : Explicit u false s.layouts)
    (hig : ∀ b ∈ boxes (without u s.layouts), b.1 ≠ 0 → Ignores (inside u s.layouts) b.2.1) (w ht : Rat) (env : Env) (he : s.rects w ht = .ok env) :
    ∃ env', State.rects { s with layouts := without u s.layouts } w ht = .ok env' ∧ ∀ v, v ∉ inside u s.layouts → env' v = env v := by
  obtain ⟨a, kids, hk⟩ := hr.laid.root
  rw [rects_root hk] at he
  have hnd := hr.laid.nodup
  rw [hk] at hex hig hnd ⊢
  have hne : ∀ b ∈ boxes (without u kids), b.1 ≠ 0 := by
    intro b hb h0
    simp only [uids, List.append_nil, List.nodup_cons] at hnd
    exact hnd.1 (h0 ▸ Verif.Layout.without_sub u kids b.1 (Verif.Layout.boxes_uids hb))
  simp only [without, if_neg (Ne.symm hu), inside, boxes, List.mem_cons, List.append_nil] at hig ⊢
  obtain ⟨env', h1, h2⟩ := Verif.Layout.setRect_without (e2 := fun _ => none) (us := inside u kids) (fun _ _ => rfl) (fun _ h => h)
    (fun b hb => hig b (.inr hb) (hne b hb)) hex.2.1 he
  exact ⟨env', h1, fun v hv => (h2 v hv).symm⟩

/-- The box on which a method is called. -/
def Call.target : Call → Nat
  | .box p _ | .text p _ _ _ | .shape p | .image p _ _ _ => p

theorem without_modify {u q : Nat} {g : Attrs → Forest → Attrs × Forest} : ∀ {f : Forest}, q ∉ uids (without u f) →
    without u (modifyLayout q g f) = without u f := by
  intro f
  induction f with
  | nil => intro _; rfl
  | node v a kids rest ihk ihr =>
    intro hq
    simp only [without] at hq
    by_cases hv : v = u
    · rw [if_pos hv] at hq
      simp only [modifyLayout]
      split
      · simp [without, hv]
      · simp only [without, if_pos hv, ihr hq]
    · rw [if_neg hv] at hq
      simp only [uids, List.mem_cons, List.mem_append, not_or] at hq
      simp only [modifyLayout, if_neg (Ne.symm hq.1), without, if_neg hv, ihk hq.2.1, ihr hq.2.2]

theorem explicit_modify {u q : Nat} {g : Attrs → Forest → Attrs × Forest} : ∀ {f : Forest},
    (∀ b ∈ boxes f, b.1 = q → (∀ hor, posOn hor (g b.2.1 b.2.2).1 = posOn hor b.2.1) ∧
      (Explicit u b.2.1.horizontal b.2.2 → Explicit u (g b.2.1 b.2.2).1.horizontal (g b.2.1 b.2.2).2)) →
    ∀ hor, Explicit u hor f → Explicit u hor (modifyLayout q g f) := by
  intro f
  induction f with
  | nil => intro _ _ h; exact h
  | node v a kids rest ihk ihr =>
    intro hg hor h
    simp only [boxes, List.mem_cons, List.mem_append] at hg
    simp only [modifyLayout]
    split
    · rename_i hv
      obtain ⟨h1, h2⟩ := hg (v, a, kids) (.inl rfl) hv
      exact ⟨fun hu => by rw [h1]; exact h.1 hu, h2 h.2.1, h.2.2⟩
    · exact ⟨h.1, ihk (fun b hb => hg b (.inr (.inl hb))) _ h.2.1, ihr (fun b hb => hg b (.inr (.inr hb))) _ h.2.2⟩

theorem explicit_append {u n : Nat} {a : Attrs} {hor : Bool} (ha : n = u → (posOn hor a).isSome) : ∀ {f : Forest},
    Explicit u hor f → Explicit u hor (appendLayout n a f) := by
  intro f
  induction f with
  | nil => intro _; exact ⟨ha, trivial, trivial⟩
  | node v b kids rest _ ihr => intro h; exact ⟨h.1, h.2.1, ihr h.2.2⟩

theorem without_append {n : Nat} {a : Attrs} : ∀ {f : Forest}, n ∉ uids f → without n (appendLayout n a f) = f := by
  intro f
  induction f with
  | nil => intro _; simp [appendLayout, without]
  | node v b kids rest _ ihr =>
    intro h
    simp only [uids, List.mem_cons, List.mem_append, not_or] at h
    simp only [appendLayout, without, if_neg (Ne.symm h.1), ihr h.2.2, Verif.Layout.without_absent h.2.1]

theorem without_add {p n : Nat} {a : Attrs} {prepend : Bool} {f : Forest} (hn : n ∉ uids f) : without n (addLayout p n a prepend f) = f := by
  unfold addLayout
  induction f with
  | nil => rfl
  | node v b kids rest ihk ihr =>
    simp only [uids, List.mem_cons, List.mem_append, not_or] at hn
    simp only [modifyLayout]
    split
    · simp only [without, if_neg (Ne.symm hn.1), Verif.Layout.without_absent hn.2.2]
      cases prepend
      · simp [without_append hn.2.1]
      · simp [without, Verif.Layout.without_absent hn.2.1]
    · simp only [without, if_neg (Ne.symm hn.1), ihk hn.2.1, ihr hn.2.2]

theorem explicit_add {u p n : Nat} {a : Attrs} {prepend : Bool} {f : Forest}
    (ha : n = u → ∀ b ∈ boxes f, b.1 = p → (posOn b.2.1.horizontal a).isSome) {hor : Bool} (h : Explicit u hor f) :
    Explicit u hor (addLayout p n a prepend f) := by
  unfold addLayout
  refine explicit_modify ?_ hor h
  intro b hb hp
  refine ⟨fun _ => rfl, fun hk => ?_⟩
  simp only
  cases prepend
  · exact explicit_append (fun hn => ha hn b hb hp) hk
  · exact ⟨fun hn => ha hn b hb hp, trivial, hk⟩

theorem textSize_pos (w h : Rat) (fit : Bool) (a : Attrs) : (∀ hor, posOn hor (textSize w h fit a) = posOn hor a) ∧
    (textSize w h fit a).horizontal = a.horizontal := by
  unfold textSize ensureSize ensureHeight ensureWidth
  constructor
  · intro hor; cases hor <;> simp only [posOn] <;> split_ifs <;> rfl
  · simp only []
    split_ifs <;> rfl

theorem imageSize_pos (w h : Rat) (a : Attrs) (k : Forest) : (∀ hor, posOn hor (imageSize w h a k) = posOn hor a) ∧
    (imageSize w h a k).horizontal = a.horizontal := by
  unfold imageSize ensureSize ensureHeight ensureWidth
  constructor
  · intro hor; cases hor <;> simp only [posOn] <;> split_ifs <;> rfl
  · split_ifs <;> rfl

/-- Filling a box made last does not change what is outside of it. -/
theorem fill_without {n : Nat} {base : Forest} (hb : ∀ v ∈ uids base, v < n) : ∀ (cs : List Call) {s s' : State}, run s cs = .ok s' →
    n < s.next → (∀ c ∈ cs, n ≤ c.target) → without n s.layouts = base → Explicit n false s.layouts →
    without n s'.layouts = base ∧ Explicit n false s'.layouts := by
  intro cs
  induction cs with
  | nil => intro s s' h _ _ hw hx; injection h with h; subst h; exact ⟨hw, hx⟩
  | cons c cs ih =>
    intro s s' h hnext ht hw hx
    simp only [run] at h
    split at h
    · cases h
    · rename_i s1 he
      obtain ⟨hn, hs⟩ := exec_layouts he
      have hp := exec_parent he
      have htc : c.target ∉ uids (without n s.layouts) := by
        rw [hw]
        intro hm
        have := hb _ hm
        have := ht c (by simp)
        omega
      refine ih h (by omega) (fun d hd => ht d (by simp [hd])) ?_ ?_
      · cases c with
        | box p b =>
          simp only [layoutsAfter] at hs
          rw [hs]
          split
          · rw [← hw]; exact without_modify htc
          · exact hw
        | text p w h' fit => simp only [layoutsAfter] at hs; rw [hs, ← hw]; exact without_modify htc
        | shape p => simp only [layoutsAfter] at hs; rw [hs]; exact hw
        | image p w h' steps => simp only [layoutsAfter] at hs; rw [hs, ← hw]; exact without_modify htc
      · cases c with
        | box p b =>
          simp only [layoutsAfter] at hs
          rw [hs]
          split
          · exact explicit_add (fun h => absurd h (by omega)) hx
          · exact hx
        | text p w h' fit =>
          simp only [layoutsAfter] at hs
          rw [hs]
          refine explicit_modify ?_ _ hx
          intro b _ _
          exact ⟨(textSize_pos w h' fit b.2.1).1, fun h => by simp only; rw [(textSize_pos w h' fit b.2.1).2]; exact h⟩
        | shape p => simp only [layoutsAfter] at hs; rw [hs]; exact hx
        | image p w h' steps =>
          simp only [layoutsAfter] at hs
          rw [hs]
          refine explicit_modify ?_ _ hx
          intro b _ _
          exact ⟨(imageSize_pos w h' b.2.1 b.2.2).1, fun h => by simp only; rw [(imageSize_pos w h' b.2.1 b.2.2).2]; exact h⟩

/-- **C104, adding it.** A slide is laid out once before and once after a box with an explicit position along the main axis of its
parent was added and filled (by calls on it and on boxes created later): every earlier box has the same rectangle both times. -/
theorem C104_added {s s1 s2 : State} (hr : Reachable s) {p : Nat} {c : BoxCall} (h : exec s (.box p c) = (s1, none))
    (hex : ∀ b ∈ boxes s.layouts, b.1 = p → (if b.2.1.horizontal then c.layout.x else c.layout.y) ≠ .none)
    {cs : List Call} (hrun : run s1 cs = .ok s2) (hcs : ∀ d ∈ cs, s.next ≤ d.target)
    (w ht : Rat) {env env2 : Env} (he : s.rects w ht = .ok env) (he2 : s2.rects w ht = .ok env2) :
    ∀ v, s.tree.has v = true → env2 v = env v := by
  have hl := hr.laid
  have hl1 := exec_laid h hl
  have hl2 := run_laid hrun hl1
  have hp : s.tree.has p = true := exec_parent h
  obtain ⟨hn, hs⟩ := exec_layouts h
  simp only [layoutsAfter] at hs
  have hb := h
  simp only [exec] at hb
  rw [if_pos hp] at hb
  have hfresh : s.next ∉ uids s.layouts := fun h' => absurd (hl.lt _ h') (by omega)
  cases ha : Verif.Layout.newAttrs c.layout with
  | error e => unfold boxCall at hb; rw [ha] at hb; cases hb
  | ok a =>
    rw [ha] at hs
    dsimp only at hs
    have hpos : ∀ b ∈ boxes s.layouts, b.1 = p → (posOn b.2.1.horizontal a).isSome := by
      intro b hb hbp
      have hne := hex b hb hbp
      have some_of : ∀ (x : Verif.Layout.Arg) (y : Option Verif.Layout.Pos), x ≠ .none → Verif.Layout.parseOptPos x = .ok y → y.isSome := by
        intro x y hx hy
        unfold Verif.Layout.parseOptPos at hy
        split at hy
        · exact absurd rfl hx
        · split at hy
          · injection hy with hy; subst hy; rfl
          · cases hy
      unfold Verif.Layout.newAttrs at ha
      split at ha
      · cases ha
      rename_i x hx
      split at ha
      · cases ha
      rename_i y hy
      split at ha
      · cases ha
      split at ha
      · cases ha
      injection ha with ha
      subst ha
      unfold posOn
      cases hh : b.2.1.horizontal
      · rw [hh] at hne; exact some_of _ _ hne hy
      · rw [hh] at hne; exact some_of _ _ hne hx
    have hw1 : without s.next s1.layouts = s.layouts := by rw [hs]; exact without_add hfresh
    have hx1 : Explicit s.next false s1.layouts := by
      rw [hs]; exact explicit_add (fun _ => hpos) (Verif.Layout.Explicit_absent hfresh _)
    obtain ⟨hw2, hx2⟩ := fill_without hl.lt cs hrun (by omega) hcs hw1 hx1
    have hdis := Verif.Layout.inside_disjoint (u := s.next) hl2.nodup
    rw [hw2] at hdis
    obtain ⟨a0, k0, hk0⟩ := hl.root
    have he' := he
    rw [rects_root hk0] at he'
    have hpos0 : 0 ∈ uids s.layouts := by rw [hk0]; simp [uids]
    have h0 : s.next ≠ 0 := by have := hl.lt 0 hpos0; omega
    have hr2 : Reachable s2 := by
      obtain ⟨w0, h0, cs0, hr0⟩ := hr
      refine ⟨w0, h0, cs0 ++ .box p c :: cs, ?_⟩
      refine run_concat hr0 ?_
      simp only [run, h]
      exact hrun
    have hign : ∀ b ∈ boxes s.layouts, b.1 ≠ 0 → Ignores (inside s.next s2.layouts) b.2.1 := by
      intro b hb hb0
      rw [hk0] at hb hdis
      simp only [uids, List.append_nil, List.mem_cons, not_or] at hdis
      simp only [boxes, List.mem_cons, List.append_nil] at hb
      rcases hb with rfl | hb
      · exact absurd rfl hb0
      · unfold Verif.Layout.setRect at he'
        refine Verif.Layout.setKids_ignores _ k0 _ _ _ _ _ _ ?_ he' b hb
        intro v hv
        exact ⟨by unfold Verif.Layout.Env.set; rw [if_neg (hdis v hv).1], (hdis v hv).2⟩
    obtain ⟨env', h1, h2⟩ := C104_without hr2 s.next h0 hx2 (by rw [hw2]; exact hign) w ht env2 he2
    rw [hw2] at h1
    have : State.rects { s2 with layouts := s.layouts } w ht = s.rects w ht := rfl
    rw [this, he] at h1
    injection h1 with h1
    subst h1
    intro v hv
    exact (h2 v (fun hm => hdis v hm (hl.has v hv))).symm

/-- `overlay()` (elsie/boxtree/boxmixin.py:163-172) passes both coordinates (the given ones or 0), so `C104_added` is about every overlay. -/
theorem overlay_explicit (b : BoxArgs) (hor : Bool) :
    (if hor then (Verif.Layout.overlayArgs b).x else (Verif.Layout.overlayArgs b).y) ≠ .none := by
  have key : ∀ a, Verif.Layout.setDefault a (.num 0) ≠ .none := by
    intro a
    cases a <;> simp [Verif.Layout.setDefault, Verif.Layout.isNoneArg]
  cases hor
  · exact key b.y
  · exact key b.x

/-- A box of height 30, then an overlay of the slide with a text of 700 × 900 in it: the overlay comes first in the layout and
is larger than the slide, but the box stays at y = 285. -/
example : let s := stateOf [.text 0 10 20 false, .box 0 { layout := { height := .num 30 } }]
    let s2 := stateOf [.text 0 10 20 false, .box 0 { layout := { height := .num 30 } }, .box 0 { layout := { Verif.Layout.overlayArgs {} with prepend := true } },
      .box 3 {}, .text 4 700 900 false]
    (s.rects 800 600).toOption.bind (fun e => e 2) = some ⟨400, 285, 0, 30⟩ ∧
    (s2.rects 800 600).toOption.bind (fun e => e 2) = some ⟨400, 285, 0, 30⟩ ∧
    (s2.rects 800 600).toOption.bind (fun e => e 4) = some ⟨50, 0, 700, 900⟩ := by decide +kernel

/-- A position along the other axis only is not enough: such a box moves the one before it up. -/
example : let s2 := stateOf [.text 0 10 20 false, .box 0 { layout := { height := .num 30 } }, .box 0 { layout := { x := .num 0, height := .num 100 } }]
    (s2.rects 800 600).toOption.bind (fun e => e 2) = some ⟨400, 235, 0, 30⟩ := by decide +kernel

end Verif.Slide
