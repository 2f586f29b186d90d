import Verif.Props.Calls
import Verif.Spec.Need

/-! # Property C139: boxes are as large as they need to be -/

namespace Verif.Slide
open Verif.Layout (Attrs Forest Env newAttrs Arg Pos Size BoxArgs)
open Verif.Layout.Spec Verif.Slide.Spec

theorem foldl_max_le (l : List Rat) : ∀ m, m ≤ l.foldl max m := by
  induction l with
  | nil => intro m; exact le_refl _
  | cons q l ih => intro m; exact (le_max_left _ _).trans (ih _)

theorem foldl_max_max (l : List Rat) : ∀ a b : Rat, l.foldl max (max a b) = max a (l.foldl max b) := by
  induction l with
  | nil => intro a b; rfl
  | cons q l ih => intro a b; simp only [List.foldl_cons]; rw [max_assoc, ih]

theorem max_foldl (l : List Rat) (m t : Rat) : max (l.foldl max m) t = l.foldl max (max m t) := by
  rw [max_comm, ← foldl_max_max, max_comm]

theorem ensure_min (s : Size) (q : Rat) : (s.ensure q).minSize = max s.minSize q := by
  unfold Verif.Layout.Size.ensure
  split
  · rename_i h; exact (max_eq_left h).symm
  · rename_i h; exact (max_eq_right (le_of_lt (not_le.mp h))).symm

theorem ensureWidth_min (w : Rat) (a : Attrs) (axis : Bool) : (sizeOn axis (ensureWidth w a)).minSize = if axis then max (sizeOn axis a).minSize (w + pads axis a) else (sizeOn axis a).minSize := by
  cases axis
  · rfl
  · simp only [if_true, sizeOn, ensureWidth, ensure_min, pads, add_assoc]

theorem ensureHeight_min (h : Rat) (a : Attrs) (axis : Bool) : (sizeOn axis (ensureHeight h a)).minSize = if axis then (sizeOn axis a).minSize else max (sizeOn axis a).minSize (h + pads axis a) := by
  cases axis
  · simp only [sizeOn, ensureHeight, ensure_min, pads, add_assoc, Bool.false_eq_true, if_false]
  · rfl

theorem ensureSize_min (w h : Rat) (a : Attrs) (axis : Bool) : (sizeOn axis (ensureSize w h a)).minSize = max (sizeOn axis a).minSize ((if axis then w else h) + pads axis a) := by
  unfold ensureSize
  rw [ensureHeight_min]
  cases axis
  · have := ensureWidth_min w a false
    simp only [Bool.false_eq_true, if_false] at this ⊢
    rw [this]; rfl
  · have := ensureWidth_min w a true
    simp only [if_true] at this ⊢
    exact this

theorem none_iff {a : Arg} : Verif.Layout.isNoneArg a = true ↔ unsized a = true := by
  cases a <;> simp [Verif.Layout.isNoneArg, unsized]

theorem newAttrs_undef {b : BoxArgs} {a : Attrs} (h : newAttrs b = .ok a) : (a.widthUndef = true ↔ unsized b.width = true) ∧ (a.heightUndef = true ↔ unsized b.height = true) := by
  unfold newAttrs at h
  repeat' split at h
  all_goals first | (cases h; done) | (injection h with h; subst h; constructor <;> exact none_iff)

theorem textSize_min {b : BoxArgs} {a0 a : Attrs} (ha : newAttrs b = .ok a0) (hab : Raised a0 a) (u : Nat) (w h : Rat) (fit : Bool) (axis : Bool) :
    (sizeOn axis (textSize w h fit a)).minSize = max (sizeOn axis a).minSize (((asks axis u b (.text u w h fit)).map (· + pads axis a)).getD (sizeOn axis a).minSize) := by
  obtain ⟨hw, hh⟩ := newAttrs_undef ha
  have e1 : a.widthUndef = a0.widthUndef := by rw [hab.2.2]
  have e2 : a.heightUndef = a0.heightUndef := by rw [hab.2.2]
  rw [← e1] at hw
  rw [← e2] at hh
  cases fit
  · simp [asks, textSize, ensureSize_min]
  · simp only [textSize, Bool.not_true, Bool.false_eq_true, if_false, asks, true_and, false_or, reduceCtorEq]
    have e3 : (if a.widthUndef = true then ensureWidth w a else a).heightUndef = a.heightUndef := by split <;> rfl
    have e4 : ∀ x, pads x (if a.widthUndef = true then ensureWidth w a else a) = pads x a := by intro x; split <;> rfl
    rw [e3]
    cases axis
    · show _ = max _ ((Option.map _ (if unsized b.height = true then _ else _)).getD _)
      by_cases hu : a.heightUndef = true
      · rw [if_pos hu, if_pos (hh.mp hu), ensureHeight_min, e4]
        simp only [Bool.false_eq_true, if_false, Option.map_some, Option.getD_some]
        congr 1
        split <;> rfl
      · rw [if_neg hu, if_neg (fun h => hu (hh.mpr h))]
        simp only [Option.map_none, Option.getD_none, max_self]
        split <;> rfl
    · show _ = max _ ((Option.map _ (if unsized b.width = true then _ else _)).getD _)
      have e5 : (sizeOn true (if a.heightUndef = true then ensureHeight h (if a.widthUndef = true then ensureWidth w a else a) else if a.widthUndef = true then ensureWidth w a else a)).minSize =
          (sizeOn true (if a.widthUndef = true then ensureWidth w a else a)).minSize := by split <;> rfl
      rw [e5]
      by_cases hu : a.widthUndef = true
      · rw [if_pos hu, if_pos (hw.mp hu), ensureWidth_min]
        simp
      · rw [if_neg hu, if_neg (fun h => hu (hw.mpr h))]
        simp

/-- What a call does to the minimal sizes of a box. -/
theorem exec_asks {s s' : State} (hl : Laid s) {d : Call} (h : exec s d = (s', none)) {u : Nat} {b : BoxArgs} {a0 a : Attrs} {l : List Nat} (ha : newAttrs b = .ok a0) (hab : Raised a0 a)
    (hu : layoutOf u s.layouts = some (a, l)) (him : ImagesFree [d] u b) :
    ∃ a' l', layoutOf u s'.layouts = some (a', l') ∧ Raised a0 a' ∧
      ∀ axis, (sizeOn axis a').minSize = (([d].filterMap (asks axis u b)).map (· + padsOf axis b)).foldl max (sizeOn axis a).minSize := by
  obtain ⟨-, hs⟩ := exec_layouts h
  have huu : u ∈ uids s.layouts := by
    rw [← look_isSome]
    rw [layoutOf_look] at hu
    cases hx : look u s.layouts with
    | none => rw [hx] at hu; cases hu
    | some x => rfl
  have hpads : ∀ axis, pads axis a = padsOf axis b := fun axis => by rw [hab.pads axis, pads_padsOf ha]
  have same : layoutOf u s'.layouts = some (a, l) → (∀ axis, asks axis u b d = none) → ∃ a' l', layoutOf u s'.layouts = some (a', l') ∧ Raised a0 a' ∧
      ∀ axis, (sizeOn axis a').minSize = (([d].filterMap (asks axis u b)).map (· + padsOf axis b)).foldl max (sizeOn axis a).minSize := by
    intro h1 h2
    exact ⟨a, l, h1, hab, fun axis => by simp [h2]⟩
  cases d with
  | box p c =>
    simp only [layoutsAfter] at hs
    split at hs
    · rw [hs]
      by_cases hup : u = p
      · subst hup
        rw [layoutOf_parent, hu]
        exact ⟨_, _, rfl, hab, fun axis => rfl⟩
      · rw [layoutOf_others hup (by rintro rfl; exact absurd (hl.lt _ huu) (by omega))]
        exact ⟨_, _, hu, hab, fun axis => rfl⟩
    · exact same (by rw [hs]; exact hu) (fun _ => rfl)
  | shape p => exact same (by simp only [layoutsAfter] at hs; rw [hs]; exact hu) (fun _ => rfl)
  | text p w ht fit =>
    by_cases hp : u = p
    · subst hp
      rw [layoutOf_look] at hu
      rw [hs]
      simp only [layoutsAfter]
      rw [layoutOf_look, look_modify]
      cases hx : look u s.layouts with
      | none => rw [hx] at hu; cases hu
      | some x =>
        rw [hx] at hu
        injection hu with hu
        injection hu with h1 h2
        subst h1
        refine ⟨_, _, rfl, hab.trans (textSize_raised _ _ _ _), fun axis => ?_⟩
        dsimp only
        rw [textSize_min ha hab u, hpads]
        cases hq : asks axis u b (.text u w ht fit) with
        | none => simp [hq]
        | some q => simp [hq]
    · exact same (by rw [hs]; simp only [layoutsAfter]; rw [layoutOf_other hp (fun _ _ => rfl)]; exact hu) (fun axis => by simp [asks, Ne.symm hp])
  | image p w ht steps =>
    by_cases hp : u = p
    · subst hp
      rw [layoutOf_look] at hu
      rw [hs]
      simp only [layoutsAfter]
      rw [layoutOf_look, look_modify]
      cases hx : look u s.layouts with
      | none => rw [hx] at hu; cases hu
      | some x =>
        rw [hx] at hu
        injection hu with hu
        injection hu with h1 h2
        subst h1
        refine ⟨_, _, rfl, hab.trans (imageSize_raised _ _ _ _), fun axis => ?_⟩
        dsimp only
        obtain ⟨i1, i2⟩ := him u w ht steps List.mem_cons_self rfl
        obtain ⟨u1, u2⟩ := newAttrs_undef ha
        have e1 : x.1.widthUndef = true := by rw [hab.2.2]; exact u1.mpr i1
        have e2 : x.1.heightUndef = true := by rw [hab.2.2]; exact u2.mpr i2
        unfold imageSize
        rw [e1, e2, Bool.and_self, if_pos rfl, ensureSize_min, hpads]
        simp [asks]
    · exact same (by rw [hs]; simp only [layoutsAfter]; rw [layoutOf_other hp (fun _ _ => rfl)]; exact hu) (fun axis => by simp [asks, Ne.symm hp])

theorem run_asks {cs : List Call} {u : Nat} {b : BoxArgs} {a0 : Attrs} (ha : newAttrs b = .ok a0) : ∀ {s s' : State} {a : Attrs} {l : List Nat}, Laid s → run s cs = .ok s' → Raised a0 a →
    layoutOf u s.layouts = some (a, l) → ImagesFree cs u b →
    ∃ a' l', layoutOf u s'.layouts = some (a', l') ∧ Raised a0 a' ∧
      ∀ axis, (sizeOn axis a').minSize = ((cs.filterMap (asks axis u b)).map (· + padsOf axis b)).foldl max (sizeOn axis a).minSize := by
  induction cs with
  | nil => intro s s' a l _ h hab hu _; injection h with h; subst h; exact ⟨a, l, hu, hab, fun _ => rfl⟩
  | cons d cs ih =>
    intro s s' a l hl h hab hu him
    simp only [run] at h
    split at h
    · cases h
    · rename_i s1 he
      obtain ⟨a1, l1, k1, k2, k3⟩ := exec_asks hl he ha hab hu (fun p w ht st hm => him p w ht st (by rw [List.mem_singleton] at hm; rw [hm]; exact List.mem_cons_self))
      obtain ⟨a2, l2, k4, k5, k6⟩ := ih (exec_laid he hl) h k2 k1 (fun p w ht st hm => him p w ht st (.tail _ hm))
      refine ⟨a2, l2, k4, k5, fun axis => ?_⟩
      rw [k6, k3, ← List.foldl_append, ← List.map_append, ← List.filterMap_append, List.singleton_append]

/-- The box on which a call is made. -/
def onBox : Call → Nat
  | .box p _ => p
  | .text p _ _ _ => p
  | .shape p => p
  | .image p _ _ _ => p

/-- A call is made on a box that is there. -/
theorem onBox_le {w h : Rat} {cs : List Call} {s : State} (hr : run (newSlide w h) cs = .ok s) {k : Nat} {c : Call} (hk : cs[k]? = some c) : onBox c ≤ k := by
  obtain ⟨pre, post, rfl, hlen⟩ : ∃ pre post, cs = pre ++ c :: post ∧ pre.length = k := by
    obtain ⟨hlt, he⟩ := List.getElem?_eq_some_iff.mp hk
    refine ⟨cs.take k, cs.drop (k + 1), ?_, by simp; omega⟩
    rw [← he]
    simp
  obtain ⟨s1, h1, h2⟩ := run_append hr
  simp only [run] at h2
  split at h2
  · cases h2
  · rename_i s2 he
    have hl1 := run_laid h1 (newSlide_laid w h)
    have hn : s1.next = k + 1 := by rw [run_next h1]; simp [newSlide]; omega
    have hp := exec_parent he
    have key : ∀ p, s1.tree.has p = true → p ≤ k := fun p hp => by have := hl1.lt _ (hl1.has p hp); omega
    cases c <;> exact key _ hp

/-- The minimal sizes of a box at the end. -/
theorem box_asks {w h : Rat} {cs : List Call} {s : State} (hr : run (newSlide w h) cs = .ok s) {k p : Nat} {c : BoxCall}
    (hk : cs[k]? = some (.box p c)) (him : ImagesFree cs (k + 1) c.layout) {b : Attrs} {bk : Forest} (hb : (k + 1, b, bk) ∈ boxes s.layouts) (axis : Bool) {sz : Size}
    (hsz : SizeSays (extentArg axis c.layout) sz) :
    (sizeOn axis b).minSize = ((cs.filterMap (asks axis (k + 1) c.layout)).map (· + padsOf axis c.layout)).foldl max sz.minSize := by
  have hl := run_laid hr (newSlide_laid w h)
  obtain ⟨pre, post, rfl, hlen⟩ : ∃ pre post, cs = pre ++ .box p c :: post ∧ pre.length = k := by
    obtain ⟨hlt, he⟩ := List.getElem?_eq_some_iff.mp hk
    refine ⟨cs.take k, cs.drop (k + 1), ?_, by simp; omega⟩
    rw [← he]
    simp
  have hpre : pre.filterMap (asks axis (k + 1) c.layout) = [] := by
    rw [List.filterMap_eq_nil_iff]
    intro d hd
    obtain ⟨i, hi⟩ := List.getElem?_of_mem hd
    have hilt : i < pre.length := (List.getElem?_eq_some_iff.mp hi).1
    have hle := onBox_le hr (k := i) (c := d) (by rw [List.getElem?_append_left hilt]; exact hi)
    have hne : onBox d ≠ k + 1 := by omega
    cases d with
    | text q w ht fit => simp only [asks]; rw [if_neg (fun h => hne h.1)]
    | image q w ht st => simp only [asks]; rw [if_neg (show ¬ q = k + 1 from hne)]
    | box q c => rfl
    | shape q => rfl
  obtain ⟨s1, h1, h2⟩ := run_append hr
  simp only [run] at h2
  split at h2
  · cases h2
  · rename_i s2 he
    have hl1 := run_laid h1 (newSlide_laid w h)
    have hn : s1.next = k + 1 := by rw [run_next h1]; simp [newSlide]; omega
    have hp : s1.tree.has p = true := exec_parent he
    have hx := he
    simp only [exec] at hx
    rw [if_pos hp] at hx
    cases ha : newAttrs c.layout with
    | error e => unfold boxCall at hx; rw [ha] at hx; cases hx
    | ok a =>
      obtain ⟨-, hs⟩ := exec_layouts he
      simp only [layoutsAfter, ha] at hs
      have hnew : layoutOf s1.next s2.layouts = some (a, []) := by
        rw [hs]
        exact layoutOf_new (hl1.has p hp) (fun h' => absurd (hl1.lt _ h') (by omega))
      rw [hn] at hnew
      obtain ⟨a', l', k1, k2, k3⟩ := run_asks ha (exec_laid he hl1) h2 (.refl a) hnew (fun p w ht st hm => him p w ht st (by simp [hm]))
      rw [layoutOf_look] at k1
      obtain ⟨⟨a'', k'⟩, hy, e⟩ := Option.map_eq_some_iff.mp k1
      injection e with e1 e2
      dsimp only at e1 e2
      subst e1
      have := Verif.Layout.boxes_unique hl.nodup hb (look_boxes hy) rfl
      injection this with _ this
      injection this with e3 e4
      subst e3; subst e4
      rw [k3, (sizeOn_arg ha (.refl a) axis hsz).2.2.2.2, List.filterMap_append, hpre, List.filterMap_cons]
      rfl

/-- What a layout needs. -/
def least (axis : Bool) (x : Attrs × Forest) : Rat := max (sizeOn axis x.1).minSize (content axis x.1.horizontal x.2 + pads axis x.1)

theorem needs_tops (axis hor : Bool) (f : Forest) : needs axis hor f = (tops f).filterMap (fun t => if Managed hor t.2.1 then some (least axis t.2) else none) := by
  induction f with
  | nil => rfl
  | node u a kids rest _ ih =>
    simp only [needs, tops, List.filterMap_cons]
    by_cases hm : Managed hor a
    · rw [if_pos hm, if_pos hm, ih]; rfl
    · rw [if_neg hm, if_neg hm, ih]

theorem stack_needs {cs : List Call} {need : Nat → Rat} {axis hor : Bool} : ∀ {T : List (Nat × Attrs × Forest)}, (∀ t ∈ T, ∃ b, Stems cs t b) → (∀ t ∈ T, need t.1 = least axis t.2) →
    ((T.map (·.1)).filterMap (unplaced cs hor)).map (fun x => need x.1) = T.filterMap (fun t => if Managed hor t.2.1 then some (least axis t.2) else none) := by
  intro T
  induction T with
  | nil => intro _ _; rfl
  | cons t T ih =>
    intro h1 h2
    have ih := ih (fun t ht => h1 t (.tail _ ht)) (fun t ht => h2 t (.tail _ ht))
    obtain ⟨b, hb⟩ := h1 t List.mem_cons_self
    obtain ⟨k1, k2⟩ := stems_unplaced hb hor
    by_cases hm : Managed hor t.2.1
    · rw [List.map_cons, List.filterMap_cons, k1 hm, List.filterMap_cons, if_pos hm]
      simp only [List.map_cons]
      rw [ih, h2 t List.mem_cons_self]
    · rw [List.map_cons, List.filterMap_cons, k2 hm, List.filterMap_cons, if_neg hm]
      exact ih

/-- **C139.** After any calls on a slide, if the rectangles can be computed: every box that neither fills nor depends on other boxes is exactly as large, with its paddings, as it needs, or as the percentage
of the parent says, if that is more. What a box needs (`IsNeed`) is the size its argument asks for, or what is inside with the paddings: the texts and images put into it, and its stacked boxes, which add up
along its direction; across it the largest counts. Boxes placed by hand and drawings need no room. -/
theorem C139_sizes (w h : Rat) (cs : List Call) (s : State) (hr : run (newSlide w h) cs = .ok s) (width height : Rat) (env : Env) (he : s.rects width height = .ok env) :
    ∃ need, IsNeed cs need ∧ ∀ (k p : Nat) c axis sz, cs[k]? = some (.box p c) → SizeSays (extentArg axis c.layout) sz → sz.lazy = none → sz.fill = 0 →
      ∃ P R, env p = some P ∧ Outer env (k + 1, c.layout) R ∧ (sz.ratio = none → extent axis R = need axis (k + 1)) ∧
        ∀ q, sz.ratio = some q → q ≠ 0 → extent axis R = max (extent axis P * q) (need axis (k + 1)) := by
  have hl := run_laid hr (newSlide_laid w h)
  refine ⟨fun axis u => ((look u s.layouts).map (least axis)).getD 0, ?_, ?_⟩
  · intro axis u b sz hb hsz him
    cases u with
    | zero => cases hb
    | succ k =>
      simp only [madeBy] at hb
      split at hb
      swap
      · cases hb
      rename_i p c hk
      injection hb with hb
      subst hb
      obtain ⟨a, b, bk, bp, kids, ha, hab, hbp, ht⟩ := box_child hr hk
      have hbk := Verif.Layout.boxes_sub hbp (Verif.Layout.tops_boxes ht)
      have hlook : ∀ {u a k}, (u, a, k) ∈ boxes s.layouts → look u s.layouts = some (a, k) := by
        intro u a k hm
        obtain ⟨x, hx⟩ := Option.isSome_iff_exists.mp (look_isSome.mpr (Verif.Layout.boxes_uids hm))
        have := Verif.Layout.boxes_unique hl.nodup hm (look_boxes hx) rfl
        injection this with _ this
        rw [hx, this]
      show ((look (k + 1) s.layouts).map (least axis)).getD 0 = _
      rw [hlook hbk]
      simp only [Option.map_some, Option.getD_some]
      obtain ⟨hord, hst⟩ := box_stems hr hbk
      have hrow : b.horizontal = row cs (k + 1) := row_horizontal hr hbk (.inr ⟨c.layout, by simp [madeBy, hk]⟩)
      have hns : ((stackOf cs (k + 1)).map (fun x => ((look x.1 s.layouts).map (least axis)).getD 0)) = needs axis (row cs (k + 1)) bk := by
        rw [needs_tops]
        unfold stackOf
        rw [← hord]
        exact stack_needs (need := fun u => ((look u s.layouts).map (least axis)).getD 0) hst (fun t ht => by
          rw [hlook (Verif.Layout.boxes_sub hbk (Verif.Layout.tops_boxes (b := t) ht))]; rfl)
      have htog : together cs (fun axis u => ((look u s.layouts).map (least axis)).getD 0) axis (k + 1) = content axis b.horizontal bk := by
        unfold together content
        simp only
        rw [hns, hrow]
      have hpads : pads axis b = padsOf axis c.layout := by rw [hab.pads axis, pads_padsOf ha]
      unfold least
      rw [box_asks hr hk him hbk axis hsz, hpads, ← htog]
      simp only [largest, List.map_cons, List.foldl_cons]
      rw [max_foldl]
      rfl
  · intro k p c axis sz hk hs hlz hf
    obtain ⟨a, b, bk, bp, kids, ha, hab, hb, ht⟩ := box_child hr hk
    have hbk := Verif.Layout.boxes_sub hb (Verif.Layout.tops_boxes ht)
    obtain ⟨x, hx⟩ := Option.isSome_iff_exists.mp (look_isSome.mpr (Verif.Layout.boxes_uids hbk))
    have := Verif.Layout.boxes_unique hl.nodup hbk (look_boxes hx) rfl
    injection this with _ this
    have this : x = (b, bk) := this.symm
    obtain ⟨ra, rk, hroot⟩ := hl.root
    have hn := hl.nodup
    unfold State.rects at he
    rw [hroot] at he hn hb
    obtain ⟨P, r, hP, hq, hsz⟩ := Verif.Layout.C105_sizes _ _ _ _ _ _ hn he _ hb _ ht
    dsimp only at *
    obtain ⟨g1, g2, g3, g4, g5⟩ := sizeOn_arg ha hab axis hs
    obtain ⟨s1, s2, -⟩ := hsz axis (g3.trans hlz)
    rw [grow_padded ha hab] at s1 s2
    refine ⟨P, _, hP, ⟨r, hq, rfl⟩, fun hz => ?_, fun q hz h0 => ?_⟩
    · rw [s1 (g1.trans hf) (g2.trans hz), hx, this]; rfl
    · rw [s2 (g1.trans hf) q (g2.trans hz) h0, hx, this]; rfl

/-- `IsNeed` says what the boxes need: for calls that can be made there is at most one such function on the boxes of the slide, if no image is put into a box with a size. -/
theorem C139_need_unique (w h : Rat) (cs : List Call) (s : State) (hr : run (newSlide w h) cs = .ok s) (hs : ∀ axis u b, madeBy cs u = some b → (∃ sz, SizeSays (extentArg axis b) sz) ∧ ImagesFree cs u b)
    (n1 n2 : Bool → Nat → Rat) (h1 : IsNeed cs n1) (h2 : IsNeed cs n2) (axis : Bool) (u : Nat) (b : BoxArgs) (hu : madeBy cs u = some b) : n1 axis u = n2 axis u := by
  have hlt : ∀ u b, madeBy cs u = some b → u ≤ cs.length := by
    intro u b hb
    cases u with
    | zero => exact Nat.zero_le _
    | succ k =>
      simp only [madeBy] at hb
      split at hb
      · rename_i p c hk; exact (List.getElem?_eq_some_iff.mp hk).1
      · cases hb
  have key : ∀ m u b, madeBy cs u = some b → cs.length - u < m → n1 axis u = n2 axis u := by
    intro m
    induction m with
    | zero => intro u b _ h; omega
    | succ m ih =>
      intro u b hb hm
      obtain ⟨⟨sz, hsz⟩, him⟩ := hs axis u b hb
      rw [h1 axis u b sz hb hsz him, h2 axis u b sz hb hsz him]
      have : together cs n1 axis u = together cs n2 axis u := by
        unfold together
        have e : (stackOf cs u).map (fun x => n1 axis x.1) = (stackOf cs u).map (fun x => n2 axis x.1) := by
          apply List.map_congr_left
          intro x hx
          obtain ⟨v, hv, hvx⟩ := List.mem_filterMap.mp hx
          have hc : ∃ k c, v = 1 + k ∧ cs[k]? = some (.box u c) := by
            rcases List.mem_append.mp hv with hv | hv
            · exact createdIn_call (List.mem_reverse.mp hv)
            · exact createdIn_call hv
          obtain ⟨k, c, rfl, hk⟩ := hc
          have hle : u ≤ k := onBox_le hr hk
          have hkl : k < cs.length := (List.getElem?_eq_some_iff.mp hk).1
          have hmb : madeBy cs (1 + k) = some c.layout := by rw [Nat.add_comm]; simp [madeBy, hk]
          have hx1 : x.1 = 1 + k := by
            unfold unplaced at hvx
            rw [hmb] at hvx
            dsimp only at hvx
            split at hvx
            · injection hvx with hvx; rw [← hvx]
            · cases hvx
          rw [hx1]
          exact ih (1 + k) _ hmb (by have := hlt u b hb; omega)
        simp only
        rw [e]
      rw [this]
  exact key _ u b hu (Nat.lt_succ_self _)

/-! ### an example -/

/-- A column with padding 5; in it a row of two texts, the second one scaled to a box of width 30, then an image, and a box placed by hand. -/
def needCalls : List Call :=
  [.box 0 { layout := { padding := some 5 } },
   .box 1 { layout := { horizontal := true } },
   .box 2 { layout := { padding := some 2 } },
   .text 3 40 12 false,
   .box 2 { layout := { width := .num 30 } },
   .text 5 90 20 true,
   .box 1 {},
   .image 7 60 25 none,
   .box 1 { layout := { y := .num 0, width := .num 500 } }]

example : (match run (newSlide 200 100) needCalls with
    | .ok s => (match s.rects 200 100 with | .ok env => [1, 2, 3, 5, 7, 9].map env | .error _ => [])
    | .error _ => []) = [some ⟨63, 55/2, 74, 45⟩, some ⟨63, 55/2, 74, 20⟩, some ⟨65, 63/2, 40, 12⟩, some ⟨107, 55/2, 30, 20⟩, some ⟨70, 95/2, 60, 25⟩, some ⟨-150, 55/2, 500, 0⟩] := by decide +kernel

example : (run (newSlide 200 100) needCalls).isOk = true ∧ ∀ axis u b, madeBy needCalls u = some b → (∃ sz, SizeSays (extentArg axis b) sz) ∧ ImagesFree needCalls u b := by
  refine ⟨by decide +kernel, fun axis u b hb => ?_⟩
  have hu : u = 1 ∨ u = 2 ∨ u = 3 ∨ u = 5 ∨ u = 7 ∨ u = 9 := by
    rcases u with _ | _ | _ | _ | _ | _ | _ | _ | _ | _ | u
    all_goals first | (simp; done) | (cases hb; done)
  rcases hu with rfl | rfl | rfl | rfl | rfl | rfl <;> cases hb <;> refine ⟨by cases axis <;> first | exact ⟨_, .nothing⟩ | exact ⟨_, .number⟩, fun p w h st hm hp => ?_⟩
  all_goals
    simp only [needCalls, List.mem_cons, List.not_mem_nil, or_false, reduceCtorEq, false_or] at hm
    injection hm
    subst hp
    first | contradiction | exact ⟨rfl, rfl⟩

end Verif.Slide
