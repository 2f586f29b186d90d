import Verif.Proofs.AcceptLayout

/-! # Property C144: which calls are accepted, and which slides can be laid out -/

namespace Verif.Slide
open Verif.Show.Spec
open Verif.Layout (Attrs Forest Env newAttrs Arg Pos Size BoxArgs parseOptPos parseSize orZero NodeOk EvOpt Ev)
open Verif.Layout.Spec Verif.Slide.Spec

/-- A state after calls, in terms of the calls. -/
theorem exec_accepted {w h : Rat} {cs : List Call} {s : State} (hr : run (newSlide w h) cs = .ok s) (c : Call) :
    (∃ s', exec s c = (s', none)) ↔ IsBox cs (target c) ∧ ∀ p b, c = .box p b → ArgsOk cs p b := by
  have hb := has_isBox w h cs s hr
  cases hc : isBox c with
  | false =>
    rw [exec_item hc, hb]
    refine ⟨fun h => ⟨h, ?_⟩, fun h => h.1⟩
    rintro p b rfl
    cases hc
  | true =>
    cases c with
    | box p b =>
      have hp : Pages cs s.maxStep := by
        rw [(C21_page_count w h cs s hr).2]
        exact ((C21_page_count w h cs s hr).1 _).mpr rfl
      cases hx : s.tree.has p with
      | false =>
        have h1 : ¬ IsBox cs p := by rw [← hb, hx]; simp
        have h2 : ¬ ∃ s', exec s (.box p b) = (s', none) := by simp [exec, hx]
        simp only [target, h1, h2, false_and]
      | true =>
        obtain ⟨l, hl⟩ := kidsOf_some s.tree hx
        have hk : kidUids p s.tree = some (l.map Child.uid) := by simp [kidUids, hl]
        have hf0 : Fresh (newSlide w h) := Reachable.fresh ⟨w, h, [], rfl⟩
        have hi0 : Inv (newSlide w h) := Reachable.inv ⟨w, h, [], rfl⟩
        have ho : Ordered cs s := by simpa using ordered_run (ordered_new w h) (tells_new w h) hf0 hi0 .new hr
        have hm := fun u => kids_mem (ho.boxes p _ hk) u
        rw [exec_box hk, newAttrs_ok, show_ok]
        have hplace : placeIn (l.map Child.uid) b.above b.below ↔ PlaceOk cs p b.above b.below := by
          cases b.above with
          | none => cases b.below with
            | none => exact Iff.rfl
            | some c => exact hm c
          | some a => cases b.below with
            | none => exact hm a
            | some c => exact Iff.rfl
        rw [hplace]
        constructor
        · rintro ⟨⟨h1, h2, h3, h4⟩, h5, h6⟩
          refine ⟨(hb p).mp hx, ?_⟩
          intro p' b' e
          injection e with e1 e2; subst e1; subst e2
          exact ⟨h1, h2, h3, h4, ⟨_, hp, h5⟩, h6⟩
        · rintro ⟨-, h⟩
          obtain ⟨h1, h2, h3, h4, ⟨cur, hcur, h5⟩, h6⟩ := h p b rfl
          rw [pages_one hcur hp] at h5
          exact ⟨⟨h1, h2, h3, h4⟩, h5, h6⟩
    | _ => cases hc

/-- **C144, calls.** A sequence of calls is accepted if and only if every call is on a box that exists and the arguments for every new box are right: the positions and sizes are of the documented forms
(up to C38 and C39), the selector is legal on a slide with the pages the earlier calls have made, and `above` or `below` name something in the same box. Otherwise an exception is raised. -/
theorem C144_accepted (w h : Rat) (cs : List Call) : (∃ s, run (newSlide w h) cs = .ok s) ↔ Accepted cs := by
  induction cs using List.reverseRecOn with
  | nil => exact ⟨fun _ => .nothing, fun _ => ⟨_, rfl⟩⟩
  | append_singleton cs c ih =>
    constructor
    · rintro ⟨s, hs⟩
      obtain ⟨s1, h1, h2⟩ := run_append hs
      have he : exec s1 c = (s, none) := by
        simp only [run] at h2
        split at h2
        · cases h2
        · rename_i s2 he
          injection h2 with h2; subst h2; exact he
      obtain ⟨g1, g2⟩ := (exec_accepted h1 c).mp ⟨s, he⟩
      exact .call (ih.mp ⟨s1, h1⟩) g1 g2
    · intro ha
      generalize hg : cs ++ [c] = ds at ha
      cases ha with
      | nothing => simp at hg
      | call h1 h2 h3 =>
        obtain ⟨e1, e2⟩ := snoc_inj hg
        subst e1; subst e2
        obtain ⟨s1, hs1⟩ := ih.mpr h1
        obtain ⟨s2, hs2⟩ := (exec_accepted hs1 c).mpr ⟨h2, h3⟩
        exact ⟨s2, run_then hs1 hs2⟩

theorem layoutWalk_unique {cs : List Call} {us l l' : List Nat} (h : LayoutWalk cs us l) (h' : LayoutWalk cs us l') : l = l' := by
  induction h generalizing l' with
  | nil => cases h'; rfl
  | cons h1 h2 ih1 ih2 =>
    cases h' with
    | cons g1 g2 => rw [ih1 g1, ih2 g2]

theorem forest_walk {cs : List Call} (f : Forest) : (∀ b ∈ boxes f, (tops b.2.2).map (·.1) = inOrder cs b.1) → LayoutWalk cs ((tops f).map (·.1)) (uids f) := by
  induction f with
  | nil => intro _; exact .nil
  | node u a kids rest ihk ihr =>
    intro h
    have h1 := ihk (fun b hb => h b (.tail _ (List.mem_append_left _ hb)))
    have h2 := ihr (fun b hb => h b (.tail _ (List.mem_append_right _ hb)))
    have h0 := h (u, a, kids) (.head _)
    dsimp only at h0
    rw [h0] at h1
    simpa [tops, uids] using LayoutWalk.cons h1 h2

/-- Only dynamic values refer to other boxes. -/
theorem pos_dynamic {D : Nat → Prop} {a : Arg} {p : Option Pos} (hp : parseOptPos a = .ok p) : EvOpt D p ↔ ∀ v, a = .lazy v → Ev D v := by
  cases a with
  | none => injection hp with hp; subst hp; simp [EvOpt]
  | num q => injection hp with hp; subst hp; simp [EvOpt, Ev, Says, refs]
  | lazy v =>
    injection hp with hp; subst hp
    simp only [EvOpt, Option.some.injEq, forall_eq', Arg.lazy.injEq]
  | other => cases hp
  | str s =>
    have h0 : ∃ q, Verif.Layout.parsePos (.str s) = .ok q ∧ p = some q := by
      unfold parseOptPos at hp
      simp only at hp
      split at hp
      · rename_i q hq
        injection hp with hp
        exact ⟨q, hq, hp.symm⟩
      · cases hp
    obtain ⟨q, hq, rfl⟩ := h0
    simp only [EvOpt, Option.some.injEq, forall_eq', reduceCtorEq, false_implies, implies_true, iff_true]
    rcases Verif.Layout.C39_position_strings_partial s with ⟨v, t, nl, h1, -, h3, -⟩ | ⟨msg, h1, -⟩
    · rw [hq] at h1; injection h1 with h1; subst h1
      cases h3 <;> simp [Ev, Says, refs]
    · rw [hq] at h1; cases h1

theorem size_dynamic {D : Nat → Prop} {a : Arg} {p : Size} (hp : parseSize (orZero a) = .ok p) : EvOpt D p.lazy ↔ ∀ v, a = .lazy v → Ev D v := by
  cases a with
  | none => injection hp with hp; subst hp; simp [EvOpt]
  | num q => injection hp with hp; subst hp; simp [EvOpt]
  | lazy v =>
    injection hp with hp; subst hp
    simp only [EvOpt, Option.some.injEq, forall_eq', Arg.lazy.injEq]
  | other => cases hp
  | str s =>
    simp only [reduceCtorEq, false_implies, implies_true, iff_true]
    cases s with
    | nil => injection hp with hp; subst hp; simp [EvOpt]
    | cons c0 s0 =>
      have h0 : orZero (.str (c0 :: s0)) = .str (c0 :: s0) := rfl
      rw [h0] at hp
      rcases Verif.Layout.C38_size_strings_partial (c0 :: s0) with ⟨v, t, k, nl, h1, -, h3, -⟩ | ⟨msg, h1, -⟩
      · rw [hp] at h1; injection h1 with h1; subst h1
        cases h3 <;> simp [EvOpt]
      · rw [hp] at h1; cases h1

theorem node_dynamic {D : Nat → Prop} {c : BoxArgs} {a b : Attrs} (ha : newAttrs c = .ok a) (hab : Raised a b) : NodeOk D b ↔ ∀ v, DynamicArg c v → Ev D v := by
  obtain ⟨h1, h2, h3, h4⟩ := Verif.Layout.newAttrs_sizes ha
  unfold NodeOk
  rw [hab.2.2]
  dsimp only
  rw [pos_dynamic h1, pos_dynamic h2, size_dynamic h3, size_dynamic h4]
  unfold DynamicArg
  constructor
  · rintro ⟨g1, g2, g3, g4⟩ v (h | h | h | h)
    · exact g1 v h
    · exact g2 v h
    · exact g3 v h
    · exact g4 v h
  · intro h
    exact ⟨fun v e => h v (.inl e), fun v e => h v (.inr (.inl e)), fun v e => h v (.inr (.inr (.inl e))), fun v e => h v (.inr (.inr (.inr e)))⟩

/-- **C144, layout.** The boxes are laid out in one order: the slide, then each box of it (those that were prepended first, the newest before the others), followed by everything in it.
After accepted calls the slide can be laid out if and only if every dynamic position and size says something and refers only to boxes that come before its own box in this order. -/
theorem C144_laid_out (w h : Rat) (cs : List Call) (s : State) (hr : run (newSlide w h) cs = .ok s) (width height : Rat) :
    ∃ order, LayoutWalk cs [0] order ∧ (∀ o, LayoutWalk cs [0] o → o = order) ∧ order.Nodup ∧ (∀ u, u ∈ order ↔ IsBox cs u) ∧
      ((∃ env, s.rects width height = .ok env) ↔ ∀ (k p : Nat) (c : BoxCall), cs[k]? = some (.box p c) → ∀ v, DynamicArg c.layout v →
        Says v ∧ ∀ u ∈ refs v, ∃ l r, order = l ++ (k + 1) :: r ∧ u ∈ l) := by
  have hl := run_laid hr (newSlide_laid w h)
  obtain ⟨a0, kids, hroot⟩ := hl.root
  have hw : LayoutWalk cs [0] (uids s.layouts) := by
    have := forest_walk (cs := cs) s.layouts (fun b hb => (box_stems hr (p := b.1) (bp := b.2.1) (kids := b.2.2) hb).1)
    have e : (tops s.layouts).map (·.1) = [0] := by rw [hroot]; rfl
    rwa [e] at this
  have hu : uids s.layouts = 0 :: uids kids := by rw [hroot]; simp [uids]
  refine ⟨uids s.layouts, hw, fun o ho => layoutWalk_unique ho hw, hl.nodup, fun u => ⟨fun hm => made_uids cs hr u hm, fun hm => hl.has u ((has_isBox w h cs s hr u).mpr hm)⟩, ?_⟩
  have hrect : (∃ env, s.rects width height = .ok env) ↔ Verif.Layout.ListOk (fun u => u = 0) (boxes kids) := by
    unfold State.rects
    rw [hroot]
    exact Verif.Layout.setRect_ok 0 a0 kids _
  rw [hrect, Verif.Layout.listOk_iff]
  have hnd := hl.nodup
  rw [hu] at hnd
  have hsub : ∀ b ∈ boxes kids, b ∈ boxes s.layouts := fun b hb => by rw [hroot]; exact .tail _ (List.mem_append_left _ hb)
  constructor
  · intro hok k p c hk v hv
    obtain ⟨a, b, bk, bp, pk, h1, h2, h3, h4⟩ := box_child hr hk
    have hmb := Verif.Layout.boxes_sub h3 (Verif.Layout.tops_boxes h4)
    have hmk : (k + 1, b, bk) ∈ boxes kids := by
      rw [hroot] at hmb
      simp only [boxes, List.append_nil, List.mem_cons] at hmb
      rcases hmb with e | hmb
      · injection e with e; omega
      · exact hmb
    obtain ⟨l1, l2, hsplit⟩ := List.append_of_mem hmk
    obtain ⟨g1, g2⟩ := (node_dynamic h1 h2).mp (hok l1 _ l2 hsplit) v hv
    refine ⟨g1, fun u hu' => ⟨0 :: l1.map (·.1), l2.map (·.1), ?_, ?_⟩⟩
    · rw [hu, ← Verif.Layout.boxes_fst, hsplit]
      simp
    · rcases g2 u hu' with rfl | h
      · exact .head _
      · exact .tail _ h
  · intro hok l1 b l2 hsplit
    obtain ⟨u, a, bk⟩ := b
    have hmk : (u, a, bk) ∈ boxes kids := by rw [hsplit]; simp
    have hms : u ∈ uids s.layouts := Verif.Layout.boxes_uids (hsub _ hmk)
    have hu0 : u ≠ 0 := by
      rintro rfl
      exact (List.nodup_cons.mp hnd).1 (Verif.Layout.boxes_uids hmk)
    rcases made_uids cs hr u hms with h0 | ⟨c', hc'⟩
    · exact absurd h0 hu0
    obtain ⟨k, rfl⟩ := Nat.exists_eq_succ_of_ne_zero hu0
    simp only [madeBy] at hc'
    split at hc'
    · rename_i p c hk
      injection hc' with hc'
      obtain ⟨a', b', bk', bp, pk, h1, h2, h3, h4⟩ := box_child hr hk
      have := Verif.Layout.boxes_unique hl.nodup (hsub _ hmk) (Verif.Layout.boxes_sub h3 (Verif.Layout.tops_boxes h4)) rfl
      injection this with _ this
      injection this with e1 _
      subst e1
      refine (node_dynamic h1 h2).mpr (fun v hv => ?_)
      obtain ⟨g1, g2⟩ := hok k p c hk v hv
      refine ⟨g1, fun x hx => ?_⟩
      obtain ⟨l, r, he, hxl⟩ := g2 x hx
      have he' : (0 :: l1.map (·.1)) ++ (k + 1) :: l2.map (·.1) = l ++ (k + 1) :: r := by
        rw [← he, hu, ← Verif.Layout.boxes_fst, hsplit]
        simp
      have hnd' : ((0 :: l1.map (·.1)) ++ (k + 1) :: l2.map (·.1)).Nodup := by
        rw [he', ← he]; exact hl.nodup
      have n1 : k + 1 ∉ 0 :: l1.map (·.1) := by
        intro hm
        exact (List.nodup_append.mp hnd').2.2 _ hm _ (.head _) rfl
      have n2 : k + 1 ∉ l := by
        rw [he'] at hnd'
        intro hm
        exact (List.nodup_append.mp hnd').2.2 _ hm _ (.head _) rfl
      obtain ⟨e1, -⟩ := split_unique n1 n2 he'
      rw [← e1] at hxl
      rcases List.mem_cons.mp hxl with h | h
      · exact .inl h
      · exact .inr h
    · cases hc'

/-- **C144, without dynamic values** every slide that was accepted can be laid out. -/
theorem C144_static (w h : Rat) (cs : List Call) (s : State) (hr : run (newSlide w h) cs = .ok s) (hd : ∀ p c, Call.box p c ∈ cs → ∀ v, ¬ DynamicArg c.layout v) (width height : Rat) :
    ∃ env, s.rects width height = .ok env := by
  obtain ⟨order, -, -, -, -, h⟩ := C144_laid_out w h cs s hr width height
  exact h.mpr (fun k p c hk v hv => absurd hv (hd p c (List.mem_of_getElem? hk) v))

/-- Calls with `next+`, `above` and a dynamic position that are accepted and can be laid out. -/
def exGood : List Call :=
  [.box 0 { layout := { width := .str "50%".toList }, show_ := .str "next+".toList }, .shape 0, .box 0 { layout := { x := .lazy (.ref 1 true (.fix 0)), y := .num 0, height := .str "fill(2)".toList }, above := some 2 },
   .text 3 10 20 false]

/-- The same with a box that is prepended: it is laid out before the box it refers to. -/
def exLate : List Call := [.box 0 { layout := { width := .num 5 } }, .box 0 { layout := { x := .lazy (.ref 1 true (.fix 0)), prepend := true } }]

/-- `above` names something that is in another box; the range is reversed; the size is not a documented one. -/
def exWrong : List (List Call) :=
  [[.box 0 {}, .shape 1, .box 0 { above := some 2 }], [.box 0 { show_ := .str "3-2".toList }], [.box 0 { layout := { width := .str "10px".toList } }]]

example : Accepted exGood ∧ (∃ s env, run (newSlide 100 80) exGood = .ok s ∧ s.rects 100 80 = .ok env) ∧ Accepted exLate ∧ (∃ s e, run (newSlide 100 80) exLate = .ok s ∧ s.rects 100 80 = .error e) ∧ ∀ cs ∈ exWrong, ¬ Accepted cs := by
  have h1 : (match run (newSlide 100 80) exGood with | .ok s => (match s.rects 100 80 with | .ok _ => true | .error _ => false) | .error _ => false) = true := by decide +kernel
  have h2 : (match run (newSlide 100 80) exLate with | .ok s => (match s.rects 100 80 with | .ok _ => false | .error _ => true) | .error _ => false) = true := by decide +kernel
  have h3 : ∀ cs ∈ exWrong, (match run (newSlide 100 80) cs with | .ok _ => true | .error _ => false) = false := by decide +kernel
  have g1 : ∃ s env, run (newSlide 100 80) exGood = .ok s ∧ s.rects 100 80 = .ok env := by
    split at h1
    · rename_i s hs
      split at h1
      · rename_i env he; exact ⟨s, env, hs, he⟩
      · cases h1
    · cases h1
  have g2 : ∃ s e, run (newSlide 100 80) exLate = .ok s ∧ s.rects 100 80 = .error e := by
    split at h2
    · rename_i s hs
      split at h2
      · cases h2
      · rename_i e he; exact ⟨s, e, hs, he⟩
    · cases h2
  refine ⟨(C144_accepted 100 80 _).mp (let ⟨s, _, h, _⟩ := g1; ⟨s, h⟩), g1, (C144_accepted 100 80 _).mp (let ⟨s, _, h, _⟩ := g2; ⟨s, h⟩), g2, ?_⟩
  intro cs hc ha
  obtain ⟨s, hs⟩ := (C144_accepted 100 80 cs).mpr ha
  have := h3 cs hc
  rw [hs] at this
  cases this

end Verif.Slide
