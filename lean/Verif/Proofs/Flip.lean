import Verif.Spec.Flip
import Mathlib.Tactic.Ring
import Mathlib.Algebra.Order.Ring.Unbundled.Rat
import Mathlib.Algebra.Order.Field.Basic

/-! # Lemmas for C111: exchanging the axes -/

namespace Verif.Layout
open Spec

def flipSize (s : Size) : Size := { minSize := s.minSize, ratio := s.ratio, fill := s.fill, lazy := s.lazy.map flipPos }

def flipAttrs (a : Attrs) : Attrs where
  x := a.y.map flipPos
  y := a.x.map flipPos
  width := flipSize a.height
  height := flipSize a.width
  pLeft := a.pTop
  pRight := a.pBottom
  pTop := a.pLeft
  pBottom := a.pRight
  horizontal := !a.horizontal
  widthUndef := a.heightUndef
  heightUndef := a.widthUndef

def flipForest : Forest → Forest
  | .nil => .nil
  | .node u a kids rest => .node u (flipAttrs a) (flipForest kids) (flipForest rest)

def flipEnv (env : Env) : Env := fun u => (env u).map flipRect

def flipRq (r : Attrs × Size × Size) : Attrs × Size × Size := (flipAttrs r.1, flipSize r.2.2, flipSize r.2.1)

theorem compute_flip (env : Env) (v : Pos) : ∀ o f s : Rat, (flipPos v).compute (flipEnv env) o f s = v.compute env o f s := by
  induction v with
  | empty => intros; rfl
  | fix q => intros; rfl
  | ratio q => intros; rfl
  | align q => intros; rfl
  | ref u hor v ih =>
    intro o f s
    simp only [flipPos, Pos.compute, flipEnv]
    cases env u with
    | none => rfl
    | some r =>
      simp only [Option.map_some, flipRect]
      cases hor
      · simpa [flipEnv] using ih r.y r.height 0
      · simpa [flipEnv] using ih r.x r.width 0
  | map g v ih =>
    intro o f s
    simp only [flipPos, Pos.compute, ih o f s]
  | fn u g =>
    intro o f s
    simp only [flipPos, Pos.compute, flipEnv]
    cases env u with
    | none => rfl
    | some r => rfl

theorem compute_absolute (env : Env) (v : Pos) (h : Absolute v) : ∀ o f g s : Rat, v.compute env o f s = v.compute env o g s := by
  induction v with
  | empty => intros; rfl
  | fix q => intros; rfl
  | ratio q => exact h.elim
  | align q => exact h.elim
  | ref u hor v ih => intros; rfl
  | map F v ih =>
    intro o f g s
    simp only [Pos.compute, ih h o f g s]
  | fn u g => intros; rfl

theorem size_compute_flip (env : Env) (s : Size) (full : Rat) (fu : Option Rat) :
    (flipSize s).compute (flipEnv env) full fu = s.compute env full fu := by
  obtain ⟨m, r, fl, lz⟩ := s
  simp only [flipSize, Size.compute]
  cases lz with
  | some v => exact compute_flip env v 0 0 0
  | none => rfl

theorem ensure_flip (s : Size) (q : Rat) : (flipSize s).ensure q = flipSize (s.ensure q) := by
  unfold Size.ensure
  by_cases h : q ≤ s.minSize
  · have h' : q ≤ (flipSize s).minSize := h
    rw [if_pos h, if_pos h']
  · have h' : ¬ q ≤ (flipSize s).minSize := h
    rw [if_neg h, if_neg h']
    rfl

theorem managed_flip (a : Attrs) (hor : Bool) : (flipAttrs a).managed (!hor) = a.managed hor := by
  unfold Attrs.managed flipAttrs
  cases hor <;> cases a.x <;> cases a.y <;> rfl

theorem filter_flip (hor : Bool) (l : List (Attrs × Size × Size)) :
    (l.map flipRq).filter (fun r => r.1.managed (!hor)) = (l.filter (fun r => r.1.managed hor)).map flipRq := by
  rw [List.filter_map]
  congr 1
  refine List.filter_congr fun r _ => ?_
  exact managed_flip r.1 hor

theorem minChildren_flip (hor : Bool) (l : List (Attrs × Size × Size)) :
    minChildrenSize (!hor) (l.map flipRq) = ((minChildrenSize hor l).2, (minChildrenSize hor l).1) := by
  unfold minChildrenSize
  simp only [filter_flip]
  generalize l.filter (fun r => r.1.managed hor) = m
  have e1 : (m.map flipRq).map (·.2.1.minSize) = m.map (·.2.2.minSize) := by
    simp [List.map_map]; intros; rfl
  have e2 : (m.map flipRq).map (·.2.2.minSize) = m.map (·.2.1.minSize) := by
    simp [List.map_map]; intros; rfl
  simp only [e1, e2, List.isEmpty_map]
  by_cases hm : m.isEmpty = true
  · simp [hm]
  · cases hor <;> simp [hm]

theorem sizeRequest_flip (a : Attrs) (l : List (Attrs × Size × Size)) :
    sizeRequest (flipAttrs a) (l.map flipRq) = (flipSize (sizeRequest a l).2, flipSize (sizeRequest a l).1) := by
  unfold sizeRequest
  have e : (flipAttrs a).horizontal = !a.horizontal := rfl
  simp only [e, minChildren_flip]
  simp only [flipAttrs, ensure_flip]

theorem requests_flip (f : Forest) : requests (flipForest f) = (requests f).map flipRq := by
  induction f with
  | nil => rfl
  | node u a kids rest ihk ihr => simp only [flipForest, requests, ihk, ihr, List.map_cons, sizeRequest_flip]; rfl

theorem fills_flip (hor : Bool) (size : Rat) (l : List (Attrs × Size × Size)) :
    fillsAndFree (!hor) size (l.map flipRq) = fillsAndFree hor size l := by
  unfold fillsAndFree
  simp only [filter_flip]
  generalize l.filter (fun r => r.1.managed hor) = m
  rw [List.foldl_map]
  congr 1
  funext acc r
  have e : (if (!hor) = true then (flipRq r).2.1 else (flipRq r).2.2) = flipSize (if hor = true then r.2.1 else r.2.2) := by
    cases hor <;> rfl
  simp only [e]
  rfl

theorem fillUnit_flip (hor : Bool) (r : Rect) (l : List (Attrs × Size × Size)) :
    fillUnitAndStart (!hor) (flipRect r) (l.map flipRq) = fillUnitAndStart hor r l := by
  unfold fillUnitAndStart
  have e1 : (if (!hor) = true then (flipRect r).width else (flipRect r).height) = (if hor = true then r.width else r.height) := by
    cases hor <;> rfl
  have e2 : (if (!hor) = true then (flipRect r).x else (flipRect r).y) = (if hor = true then r.x else r.y) := by
    cases hor <;> rfl
  simp only [e1, e2, fills_flip]

/-- A pair of sizes succeeds or fails with the same kinds of results whichever is computed first, except for which error is raised. -/
def SameUpToError {α : Type} (a b : Except Err α) : Prop :=
  match a, b with
  | .ok x, .ok y => x = y
  | .error _, .error _ => True
  | _, _ => False

theorem childRect_flip (env : Env) (hor : Bool) (r : Rect) (fu dd : Rat) (a : Attrs) (rq : Size × Size)
    (ha : ∀ v, (if hor then a.y else a.x) = some v → Absolute v) :
    SameUpToError (childRect (flipEnv env) (!hor) (flipRect r) fu dd (flipAttrs a) (flipSize rq.2, flipSize rq.1))
      ((childRect env hor r fu dd a rq).map (fun x => (flipRect x.1, x.2))) := by
  have hx : (flipAttrs a).x = a.y.map flipPos := rfl
  have hy : (flipAttrs a).y = a.x.map flipPos := rfl
  unfold childRect
  simp only [flipRect, size_compute_flip, hx, hy]
  cases hor with
  | false =>
    simp only [Bool.not_false, Bool.not_true, Bool.false_eq_true, if_true, if_false] at ha ⊢
    cases h1 : rq.1.compute env r.width none with
    | error e =>
      cases h2 : rq.2.compute env r.height (some fu) <;> simp only [Except.map, SameUpToError]
    | ok w =>
      cases h2 : rq.2.compute env r.height (some fu) with
      | error e => simp only [Except.map, SameUpToError]
      | ok h =>
        simp only
        cases hax : a.x with
        | none =>
          simp only [Option.map_none]
          cases hay : a.y with
          | none => simp only [Option.map_none, Except.map, SameUpToError]
          | some p =>
            simp only [Option.map_some, compute_flip env p]
            cases p.compute env r.y r.height h <;> simp only [Except.map, SameUpToError]
        | some q =>
          simp only [Option.map_some, compute_flip env q]
          rw [compute_absolute env q (ha q hax) r.x r.height r.width w]
          cases q.compute env r.x r.width w with
          | error e => simp only [Except.map, SameUpToError]
          | ok x =>
            simp only
            cases hay : a.y with
            | none => simp only [Option.map_none, Except.map, SameUpToError]
            | some p =>
              simp only [Option.map_some, compute_flip env p]
              cases p.compute env r.y r.height h <;> simp only [Except.map, SameUpToError]
  | true =>
    simp only [Bool.not_false, Bool.not_true, Bool.false_eq_true, if_true, if_false] at ha ⊢
    cases h1 : rq.1.compute env r.width (some fu) with
    | error e =>
      cases h2 : rq.2.compute env r.height none <;> simp only [Except.map, SameUpToError]
    | ok w =>
      cases h2 : rq.2.compute env r.height none with
      | error e => simp only [Except.map, SameUpToError]
      | ok h =>
        simp only
        cases hay : a.y with
        | none =>
          simp only [Option.map_none]
          cases hax : a.x with
          | none => simp only [Option.map_none, Except.map, SameUpToError]
          | some p =>
            simp only [Option.map_some, compute_flip env p]
            cases p.compute env r.x r.width w <;> simp only [Except.map, SameUpToError]
        | some q =>
          simp only [Option.map_some, compute_flip env q]
          rw [compute_absolute env q (ha q hay) r.y r.height r.width h]
          cases q.compute env r.y r.width h with
          | error e => simp only [Except.map, SameUpToError]
          | ok x =>
            simp only
            cases hax : a.x with
            | none => simp only [Option.map_none, Except.map, SameUpToError]
            | some p =>
              simp only [Option.map_some, compute_flip env p]
              cases p.compute env r.x r.width w <;> simp only [Except.map, SameUpToError]

theorem inner_flip (a : Attrs) (r : Rect) : (flipAttrs a).inner (flipRect r) = flipRect (a.inner r) := rfl

theorem set_flip (env : Env) (u : Nat) (r : Rect) : (flipEnv env).set u (flipRect r) = flipEnv (env.set u r) := by
  funext v
  simp only [Env.set, flipEnv]
  split <;> rfl

theorem setKids_flip (f : Forest) : ∀ (env : Env) (hor : Bool) (r : Rect) (fu dd : Rat), CrossAbsolute hor f →
    SameUpToError (setKids (flipEnv env) (!hor) (flipRect r) fu dd (flipForest f)) ((setKids env hor r fu dd f).map flipEnv) := by
  induction f with
  | nil => intros; exact rfl
  | node u a kids rest ihk ihr =>
    intro env hor r fu dd ⟨ha, hk, hr⟩
    simp only [flipForest, setKids, requests_flip, sizeRequest_flip]
    have hc := childRect_flip env hor r fu dd a (sizeRequest a (requests kids)) ha
    revert hc
    generalize childRect (flipEnv env) (!hor) (flipRect r) fu dd (flipAttrs a) (flipSize (sizeRequest a (requests kids)).2, flipSize (sizeRequest a (requests kids)).1) = X
    cases childRect env hor r fu dd a (sizeRequest a (requests kids)) with
    | error e => cases X <;> intro hc <;> first | exact hc.elim | trivial
    | ok x =>
      cases X with
      | error e => intro hc; exact hc.elim
      | ok y =>
        intro hc
        change y = _ at hc
        subst hc
        obtain ⟨x, dd'⟩ := x
        have eh : (flipAttrs a).horizontal = !a.horizontal := rfl
        simp only [inner_flip, set_flip, fillUnit_flip, eh]
        have hkk := ihk (env.set u (a.inner x)) a.horizontal (a.inner x) (fillUnitAndStart a.horizontal (a.inner x) (requests kids)).1
          (fillUnitAndStart a.horizontal (a.inner x) (requests kids)).2 hk
        revert hkk
        generalize setKids (flipEnv (env.set u (a.inner x))) (!a.horizontal) (flipRect (a.inner x)) (fillUnitAndStart a.horizontal (a.inner x) (requests kids)).1
          (fillUnitAndStart a.horizontal (a.inner x) (requests kids)).2 (flipForest kids) = Y
        cases setKids (env.set u (a.inner x)) a.horizontal (a.inner x) (fillUnitAndStart a.horizontal (a.inner x) (requests kids)).1
          (fillUnitAndStart a.horizontal (a.inner x) (requests kids)).2 kids with
        | error e => cases Y <;> intro hc <;> first | exact hc.elim | trivial
        | ok env' =>
          cases Y with
          | error e => intro hc; exact hc.elim
          | ok y =>
            intro hc
            change y = _ at hc
            subst hc
            exact ihr env' hor r fu dd' hr

/-! ### arguments -/

theorem parseSize_flip (a : Arg) : parseSize (orZero (flipArg a)) = (parseSize (orZero a)).map flipSize := by
  cases a with
  | none => simp [flipArg, orZero, parseSize, Except.map, flipSize]
  | num q => simp [flipArg, orZero, parseSize, Except.map, flipSize]
  | lazy v => simp [flipArg, orZero, parseSize, Except.map, flipSize]
  | other => rfl
  | str s =>
    cases s with
    | nil => simp [flipArg, orZero, parseSize, Except.map, flipSize]
    | cons c s =>
      simp only [flipArg, orZero, parseSize]
      split
      · simp [Except.map, flipSize]
      · split
        · simp [Except.map, flipSize]
        · split
          · simp [Except.map, flipSize]
          · split
            · cases fillNumber ((chomp (c :: s)).drop 5) <;> simp [Except.map, flipSize]
            · rfl

theorem parsePos_flip (a : Arg) : parsePos (flipArg a) = (parsePos a).map flipPos := by
  cases a with
  | none => rfl
  | num q => rfl
  | lazy v => rfl
  | other => rfl
  | str s =>
    simp only [flipArg, parsePos]
    split
    · rfl
    · split
      · rfl
      · split
        · split <;> rfl
        · rfl

theorem isNone_flip (a : Arg) : isNoneArg (flipArg a) = isNoneArg a := by cases a <;> rfl

theorem parseOptPos_flip (a : Arg) : parseOptPos (flipArg a) = (parseOptPos a).map (fun p => p.map flipPos) := by
  have h1 := parsePos_flip a
  have key : ∀ b : Arg, isNoneArg b = false → parseOptPos b = (match parsePos b with | .ok p => .ok (some p) | .error e => .error e) := by
    intro b hb; cases b with
    | none => cases hb
    | _ => rfl
  by_cases h : isNoneArg a = true
  · cases a with
    | none => rfl
    | _ => cases h
  · have hb : isNoneArg a = false := by simpa using h
    rw [key a hb, key _ (by rw [isNone_flip]; exact hb), h1]
    cases parsePos a <;> rfl

theorem newAttrs_flip (b : BoxArgs) : SameUpToError (newAttrs (flipArgs b)) ((newAttrs b).map flipAttrs) := by
  unfold newAttrs
  simp only [flipArgs, parseOptPos_flip, parseSize_flip, isNone_flip]
  cases parseOptPos b.x <;> cases parseOptPos b.y <;> cases parseSize (orZero b.width) <;> cases parseSize (orZero b.height) <;>
    simp only [Except.map, SameUpToError, flipAttrs]

end Verif.Layout

namespace Verif.Slide
open Spec Verif.Layout Verif.Layout.Spec

/-- The flipped state: the root stays a column. -/
def flipLayouts : Forest → Forest
  | .nil => .nil
  | .node u a kids rest => .node u { flipAttrs a with horizontal := a.horizontal } (flipForest kids) (flipForest rest)

def flipState (s : State) : State := { s with layouts := flipLayouts s.layouts }

theorem append_flip (u : Nat) (a : Attrs) (f : Forest) : appendLayout u (flipAttrs a) (flipForest f) = flipForest (appendLayout u a f) := by
  induction f with
  | nil => rfl
  | node v b kids rest _ ih => simp only [flipForest, appendLayout, ih]

theorem modify_flip (u : Nat) (g g' : Attrs → Forest → Attrs × Forest)
    (hg : ∀ a f, g' (flipAttrs a) (flipForest f) = (flipAttrs (g a f).1, flipForest (g a f).2)) (f : Forest) :
    modifyLayout u g' (flipForest f) = flipForest (modifyLayout u g f) := by
  induction f with
  | nil => rfl
  | node v b kids rest ihk ihr =>
    simp only [flipForest, modifyLayout]
    split
    · simp only [hg, flipForest]
    · simp only [ihk, ihr, flipForest]

/-- The root has number 0. -/
def RootIs0 : Forest → Prop
  | .nil => True
  | .node v _ _ _ => v = 0

theorem modify_root0 (u : Nat) (g : Attrs → Forest → Attrs × Forest) {f : Forest} (h : RootIs0 f) : RootIs0 (modifyLayout u g f) := by
  cases f with
  | nil => exact h
  | node v a kids rest =>
    simp only [modifyLayout]
    split <;> exact h

theorem modify_flipLayouts {u : Nat} (hu : u ≠ 0) (g g' : Attrs → Forest → Attrs × Forest)
    (hg : ∀ a f, g' (flipAttrs a) (flipForest f) = (flipAttrs (g a f).1, flipForest (g a f).2)) {f : Forest} (h0 : RootIs0 f) :
    modifyLayout u g' (flipLayouts f) = flipLayouts (modifyLayout u g f) := by
  cases f with
  | nil => rfl
  | node v b kids rest =>
    have hv : v ≠ u := fun h => hu (h ▸ h0)
    simp only [flipLayouts, modifyLayout, if_neg hv, modify_flip u g g' hg]

theorem addLayout_flip {p : Nat} (hp : p ≠ 0) (u : Nat) (a : Attrs) (pre : Bool) {f : Forest} (h0 : RootIs0 f) :
    addLayout p u (flipAttrs a) pre (flipLayouts f) = flipLayouts (addLayout p u a pre f) := by
  refine modify_flipLayouts hp _ _ ?_ h0
  intro b kids
  cases pre
  · simp [append_flip]
  · rfl

theorem ensureSize_flip (w h : Rat) (a : Attrs) : ensureSize h w (flipAttrs a) = flipAttrs (ensureSize w h a) := by
  unfold ensureSize ensureHeight ensureWidth
  simp only [flipAttrs, ensure_flip]

theorem textSize_flip (w h : Rat) (fit : Bool) (a : Attrs) : textSize h w fit (flipAttrs a) = flipAttrs (textSize w h fit a) := by
  unfold textSize
  cases fit
  · simp [ensureSize_flip]
  · simp only [Bool.not_true, Bool.false_eq_true, if_false]
    obtain ⟨x, y, wd, ht, pl, pr, pt, pb, hor, wu, hu⟩ := a
    cases wu <;> cases hu <;> simp [flipAttrs, ensureWidth, ensureHeight, ensure_flip]

theorem imageSize_flip (w h : Rat) (a : Attrs) (f : Forest) : imageSize h w (flipAttrs a) (flipForest f) = flipAttrs (imageSize w h a f) := by
  unfold imageSize
  have e1 : (flipAttrs a).widthUndef = a.heightUndef := rfl
  have e2 : (flipAttrs a).heightUndef = a.widthUndef := rfl
  have e3 : (flipAttrs a).horizontal = !a.horizontal := rfl
  have e4 : (flipAttrs a).width.minSize = a.height.minSize := rfl
  have e5 : (flipAttrs a).height.minSize = a.width.minSize := rfl
  simp only [e1, e2, e3, e4, e5, requests_flip, minChildren_flip, Bool.and_comm a.heightUndef]
  split
  · exact ensureSize_flip w h a
  · exact ensureSize_flip _ _ a

theorem addItem_flip (s : State) (p : Nat) : addItem (flipState s) p = (flipState (addItem s p).1, (addItem s p).2) := by
  unfold addItem
  simp only [flipState]
  split <;> rfl

theorem ensureSteps_flip (s : State) (p : Nat) (n : Int) : ensureSteps (flipState s) p n = (flipState (ensureSteps s p n).1, (ensureSteps s p n).2) := by
  unfold ensureSteps
  simp only [flipState]
  split <;> rfl

theorem boxCall_flip {s s' : State} {p : Nat} (hp : p ≠ 0) (h0 : RootIs0 s.layouts) {c : BoxCall} (h : boxCall s p c = (s', none)) :
    boxCall (flipState s) p { c with layout := flipArgs c.layout } = (flipState s', none) := by
  unfold boxCall at h ⊢
  have hn := newAttrs_flip c.layout
  revert hn h
  cases newAttrs c.layout with
  | error e => intro h; cases h
  | ok a =>
    cases newAttrs (flipArgs c.layout) with
    | error e => intro _ hn; exact hn.elim
    | ok a' =>
      intro h hn
      change a' = flipAttrs a at hn
      subst hn
      have ep : (flipArgs c.layout).prepend = c.layout.prepend := rfl
      simp only [flipState, addLayout_flip hp _ _ _ h0, ep] at h ⊢
      revert h
      cases Verif.Show.parse c.show_ (some s.maxStep) with
      | error e => intro h; cases h
      | ok info =>
        simp only
        split
        · intro h; cases h
        · intro h; injection h with h _; subst h; rfl

theorem exec_root0 {s s' : State} {c : Call} (h : exec s c = (s', none)) (h0 : RootIs0 s.layouts) : RootIs0 s'.layouts := by
  have hadd : ∀ (s s' : State) (p : Nat), addItem s p = (s', none) → RootIs0 s.layouts → RootIs0 s'.layouts := by
    intro s s' p h h0
    unfold addItem at h
    simp only at h
    split at h
    · cases h
    · injection h with h _; subst h; exact h0
  cases c with
  | box p b =>
    simp only [exec] at h
    split at h
    · unfold boxCall at h
      split at h
      · cases h
      · simp only at h
        split at h
        · cases h
        · split at h
          · cases h
          · injection h with h _; subst h
            exact modify_root0 _ _ h0
    · cases h
  | text p w ht fit =>
    simp only [exec] at h
    split at h
    · exact hadd _ _ _ h (modify_root0 _ _ h0)
    · cases h
  | shape p =>
    simp only [exec] at h
    split at h
    · exact hadd _ _ _ h h0
    · cases h
  | image p w ht steps =>
    simp only [exec] at h
    split at h
    · cases steps with
      | none => exact hadd _ _ _ h (modify_root0 _ _ h0)
      | some n =>
        simp only at h
        unfold ensureSteps at h
        split at h
        · cases h
        · rename_i s2 he
          split at he
          · cases he
          · injection he with he _; subst he
            exact hadd _ _ _ h (modify_root0 _ _ h0)
    · cases h

theorem exec_flip {s s' : State} {c : Call} (h0 : RootIs0 s.layouts) (hc : target c ≠ 0) (h : exec s c = (s', none)) :
    exec (flipState s) (flipCall c) = (flipState s', none) := by
  have et : (flipState s).tree = s.tree := rfl
  cases c with
  | box p b =>
    simp only [exec, flipCall, et] at h ⊢
    split at h
    · rename_i hp
      rw [if_pos hp]
      exact boxCall_flip hc h0 h
    · cases h
  | text p w ht fit =>
    simp only [exec, flipCall, et] at h ⊢
    split at h
    · rename_i hp
      rw [if_pos hp]
      have e : ({ flipState s with layouts := modifyLayout p (fun a kids => (textSize ht w fit a, kids)) (flipState s).layouts } : State) =
          flipState { s with layouts := modifyLayout p (fun a kids => (textSize w ht fit a, kids)) s.layouts } := by
        simp only [flipState]
        congr 1
        exact modify_flipLayouts hc _ _ (fun a f => by simp only [textSize_flip]) h0
      refine Eq.trans (congrArg (fun x => addItem x p) e) ?_
      simp only [addItem_flip, h]
    · cases h
  | shape p =>
    simp only [exec, flipCall, et] at h ⊢
    split at h
    · rename_i hp
      rw [if_pos hp]
      simp only [addItem_flip, h]
    · cases h
  | image p w ht steps =>
    simp only [exec, flipCall, et] at h ⊢
    split at h
    · rename_i hp
      rw [if_pos hp]
      have e : ({ flipState s with layouts := modifyLayout p (fun a kids => (imageSize ht w a kids, kids)) (flipState s).layouts } : State) =
          flipState { s with layouts := modifyLayout p (fun a kids => (imageSize w ht a kids, kids)) s.layouts } := by
        simp only [flipState]
        congr 1
        exact modify_flipLayouts hc _ _ (fun a f => by simp only [imageSize_flip]) h0
      cases steps with
      | none =>
        simp only at h ⊢
        refine Eq.trans (congrArg (fun x => addItem x p) e) ?_
        simp only [addItem_flip, h]
      | some n =>
        simp only at h ⊢
        have e3 := (congrArg (fun x => ensureSteps x p n) e).trans (ensureSteps_flip _ p n)
        simp only [flipState] at e3 ⊢
        rw [e3]
        revert h
        generalize ensureSteps { s with layouts := modifyLayout p (fun a kids => (imageSize w ht a kids, kids)) s.layouts } p n = X
        obtain ⟨s2, o⟩ := X
        cases o with
        | some e => intro h; cases h
        | none =>
          intro h
          have := addItem_flip s2 p
          simp only [h] at this
          exact this
    · cases h

/-- The slide has one box, which covers it. -/
structure CoverAttrs (a : Attrs) : Prop where
  x : a.x = none
  y : a.y = none
  width : a.width.ratio = some 1 ∧ a.width.fill = 0 ∧ a.width.lazy = none
  height : a.height.ratio = some 1 ∧ a.height.fill = 0 ∧ a.height.lazy = none

def rootAttrs (w h : Rat) : Attrs where
  x := some (.fix 0)
  y := some (.fix 0)
  width := { minSize := w }
  height := { minSize := h }
  widthUndef := false
  heightUndef := false

def Covered (w h : Rat) (f : Forest) : Prop := ∃ a kids, f = .node 0 (rootAttrs w h) (.node 1 a kids .nil) .nil ∧ CoverAttrs a

theorem ensure_same (s : Size) (q : Rat) : (s.ensure q).ratio = s.ratio ∧ (s.ensure q).fill = s.fill ∧ (s.ensure q).lazy = s.lazy := by
  unfold Size.ensure
  split <;> exact ⟨rfl, rfl, rfl⟩

theorem ensureWidth_cover {w : Rat} {a : Attrs} (h : CoverAttrs a) : CoverAttrs (ensureWidth w a) := by
  obtain ⟨e1, e2, e3⟩ := ensure_same a.width (w + a.pLeft + a.pRight)
  refine ⟨h.x, h.y, ?_, h.height⟩
  simp only [ensureWidth, e1, e2, e3]
  exact h.width

theorem ensureHeight_cover {w : Rat} {a : Attrs} (h : CoverAttrs a) : CoverAttrs (ensureHeight w a) := by
  obtain ⟨e1, e2, e3⟩ := ensure_same a.height (w + a.pTop + a.pBottom)
  refine ⟨h.x, h.y, h.width, ?_⟩
  simp only [ensureHeight, e1, e2, e3]
  exact h.height

theorem modify_covered {w h : Rat} {u : Nat} (hu : u ≠ 0) {g : Attrs → Forest → Attrs × Forest} (hg : ∀ a f, CoverAttrs a → CoverAttrs (g a f).1)
    {f : Forest} (hf : Covered w h f) : Covered w h (modifyLayout u g f) := by
  obtain ⟨a, kids, rfl, ha⟩ := hf
  simp only [modifyLayout, if_neg (Ne.symm hu)]
  split
  · exact ⟨_, _, rfl, hg a kids ha⟩
  · exact ⟨_, _, rfl, ha⟩

theorem exec_covered {w h : Rat} {s s' : State} {c : Call} (he : exec s c = (s', none)) (hc : target c ≠ 0) (hf : Covered w h s.layouts) :
    Covered w h s'.layouts := by
  have hadd : ∀ (s s' : State) (p : Nat), addItem s p = (s', none) → Covered w h s.layouts → Covered w h s'.layouts := by
    intro s s' p h h0
    unfold addItem at h
    simp only at h
    split at h
    · cases h
    · injection h with h _; subst h; exact h0
  have himg : ∀ iw ih a f, CoverAttrs a → CoverAttrs (imageSize iw ih a f) := by
    intro iw ih a f ha
    unfold imageSize
    split
    · exact ensureHeight_cover (ensureWidth_cover ha)
    · exact ensureHeight_cover (ensureWidth_cover ha)
  have htxt : ∀ tw th fit a, CoverAttrs a → CoverAttrs (textSize tw th fit a) := by
    intro tw th fit a ha
    unfold textSize
    split
    · exact ensureHeight_cover (ensureWidth_cover ha)
    · simp only
      have h1 : CoverAttrs (if a.widthUndef then ensureWidth tw a else a) := by
        split
        · exact ensureWidth_cover ha
        · exact ha
      generalize (if a.widthUndef then ensureWidth tw a else a) = b at h1
      split
      · exact ensureHeight_cover h1
      · exact h1
  cases c with
  | box p b =>
    simp only [exec] at he
    split at he
    · unfold boxCall at he
      split at he
      · cases he
      · simp only at he
        split at he
        · cases he
        · split at he
          · cases he
          · injection he with he _; subst he
            exact modify_covered hc (fun a f ha => ha) hf
    · cases he
  | text p tw th fit =>
    simp only [exec] at he
    split at he
    · exact hadd _ _ _ he (modify_covered hc (fun a f ha => htxt _ _ _ a ha) hf)
    · cases he
  | shape p =>
    simp only [exec] at he
    split at he
    · exact hadd _ _ _ he hf
    · cases he
  | image p tw th steps =>
    simp only [exec] at he
    split at he
    · cases steps with
      | none => exact hadd _ _ _ he (modify_covered hc (fun a f ha => himg _ _ a f ha) hf)
      | some n =>
        simp only at he
        unfold ensureSteps at he
        split at he
        · cases he
        · rename_i s2 he2
          split at he2
          · cases he2
          · injection he2 with he2 _; subst he2
            exact hadd _ _ _ he (modify_covered hc (fun a f ha => himg _ _ a f ha) hf)
    · cases he

theorem run_covered {w h : Rat} (cs : List Call) : ∀ s s' : State, (∀ c ∈ cs, target c ≠ 0) → run s cs = .ok s' → Covered w h s.layouts →
    Covered w h s'.layouts := by
  induction cs with
  | nil => intro s s' _ h hf; injection h with h; subst h; exact hf
  | cons c cs ih =>
    intro s s' hc h hf
    simp only [run] at h
    split at h
    · cases h
    · rename_i s1 he
      exact ih s1 s' (fun d hd => hc d (.tail _ hd)) h (exec_covered he (hc c (.head _)) hf)

/-- Where the covering box is. -/
def coverRect (w h : Rat) (rq : Size × Size) : Rect :=
  ⟨(w - max w rq.1.minSize) / 2, (h - max h rq.2.minSize) / 2, max w rq.1.minSize, max h rq.2.minSize⟩

theorem sizeRequest_cover {a : Attrs} (ha : CoverAttrs a) (l : List (Attrs × Size × Size)) :
    ((sizeRequest a l).1.ratio = some 1 ∧ (sizeRequest a l).1.fill = 0 ∧ (sizeRequest a l).1.lazy = none) ∧
    ((sizeRequest a l).2.ratio = some 1 ∧ (sizeRequest a l).2.fill = 0 ∧ (sizeRequest a l).2.lazy = none) := by
  unfold sizeRequest
  simp only [ensure_same]
  exact ⟨ha.width, ha.height⟩

theorem rects_cover {w h : Rat} {s : State} {a : Attrs} {kids : Forest} (hf : s.layouts = .node 0 (rootAttrs w h) (.node 1 a kids .nil) .nil)
    (ha : CoverAttrs a) :
    s.rects w h =
      let ri := a.inner (coverRect w h (sizeRequest a (requests kids)))
      let fu := fillUnitAndStart a.horizontal ri (requests kids)
      setKids ((Env.set (fun _ => none) 0 ⟨0, 0, w, h⟩).set 1 ri) a.horizontal ri fu.1 fu.2 kids := by
  obtain ⟨⟨r1, f1, l1⟩, r2, f2, l2⟩ := sizeRequest_cover ha (requests kids)
  unfold State.rects
  rw [hf]
  simp only [setRect, setKids, requests]
  generalize sizeRequest a (requests kids) = rq at *
  obtain ⟨wd, ht⟩ := rq
  simp only at r1 f1 l1 r2 f2 l2
  have hi : (rootAttrs w h).inner ⟨0, 0, w, h⟩ = ⟨0, 0, w, h⟩ := by simp [Attrs.inner, rootAttrs, Rect.shrink]
  have hm : a.managed false = true := by simp [Attrs.managed, ha.y]
  have hfu : (fillUnitAndStart false ⟨0, 0, w, h⟩ [(a, (wd, ht))]) = (0, (h - max h ht.minSize) / 2) := by
    simp [fillUnitAndStart, fillsAndFree, hm, f2, r2, max_comm]
  have hh : (rootAttrs w h).horizontal = false := rfl
  rw [hi, hh, hfu]
  have hc : childRect (Env.set (fun _ => none) 0 ⟨0, 0, w, h⟩) false ⟨0, 0, w, h⟩ 0 ((h - max h ht.minSize) / 2) a (wd, ht) =
      .ok (coverRect w h (wd, ht), (h - max h ht.minSize) / 2 + max h ht.minSize) := by
    simp [childRect, Size.compute, l1, l2, f1, f2, r1, r2, ha.x, ha.y, coverRect]
  rw [hc]
  simp only
  generalize setKids _ _ _ _ _ kids = Z
  cases Z <;> rfl

theorem run_flip (cs : List Call) : ∀ s s' : State, RootIs0 s.layouts → (∀ c ∈ cs, target c ≠ 0) → run s cs = .ok s' →
    run (flipState s) (cs.map flipCall) = .ok (flipState s') := by
  induction cs with
  | nil => intro s s' _ _ h; injection h with h; subst h; rfl
  | cons c cs ih =>
    intro s s' h0 hc h
    simp only [run] at h
    split at h
    · cases h
    · rename_i s1 he
      simp only [List.map_cons, run, exec_flip h0 (hc c (.head _)) he]
      exact ih s1 s' (exec_root0 he h0) (fun d hd => hc d (.tail _ hd)) h

theorem rects_flip {w h : Rat} {s : State} (hf : Covered w h s.layouts) (hx : CrossAbsolute false s.layouts) :
    SameUpToError ((flipState s).rects h w) ((s.rects w h).map flipEnv) := by
  obtain ⟨a, kids, hl, ha⟩ := hf
  have hl' : (flipState s).layouts = .node 0 (rootAttrs h w) (.node 1 (flipAttrs a) (flipForest kids) .nil) .nil := by
    simp only [flipState, hl, flipLayouts, flipForest]
    rfl
  have ha' : CoverAttrs (flipAttrs a) := by
    refine ⟨by simp [flipAttrs, ha.y], by simp [flipAttrs, ha.x], ?_, ?_⟩
    · obtain ⟨h1, h2, h3⟩ := ha.height
      exact ⟨h1, h2, by simp [flipAttrs, flipSize, h3]⟩
    · obtain ⟨h1, h2, h3⟩ := ha.width
      exact ⟨h1, h2, by simp [flipAttrs, flipSize, h3]⟩
  rw [rects_cover hl' ha', rects_cover hl ha]
  rw [hl] at hx
  simp only [CrossAbsolute] at hx
  have e1 : (flipAttrs a).inner (coverRect h w (sizeRequest (flipAttrs a) (requests (flipForest kids)))) =
      flipRect (a.inner (coverRect w h (sizeRequest a (requests kids)))) := by
    rw [requests_flip, sizeRequest_flip, ← inner_flip]
    rfl
  rw [requests_flip] at e1
  have e2 : (flipAttrs a).horizontal = !a.horizontal := rfl
  simp only [requests_flip, e1, e2, fillUnit_flip]
  have e3 : (Env.set (fun _ => none) 0 ⟨0, 0, h, w⟩) = flipEnv (Env.set (fun _ => none) 0 ⟨0, 0, w, h⟩) := by
    funext v
    simp only [Env.set, flipEnv]
    split <;> rfl
  rw [e3, set_flip]
  exact setKids_flip kids _ _ _ _ _ hx.2.1.2.1

end Verif.Slide
