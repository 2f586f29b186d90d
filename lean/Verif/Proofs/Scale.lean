import Verif.Spec.Scale
import Mathlib.Tactic.FieldSimp
import Mathlib.Tactic.Ring
import Mathlib.Algebra.Order.Ring.Unbundled.Rat
import Mathlib.Algebra.Order.Field.Basic

/-! # Lemmas for C110: scaling -/

namespace Verif.Layout
open Spec

def scaleSize (k : Rat) (s : Size) : Size := { minSize := k * s.minSize, ratio := s.ratio, fill := s.fill, lazy := s.lazy.map (scalePos k) }

def scaleAttrs (k : Rat) (a : Attrs) : Attrs where
  x := a.x.map (scalePos k)
  y := a.y.map (scalePos k)
  width := scaleSize k a.width
  height := scaleSize k a.height
  pLeft := k * a.pLeft
  pRight := k * a.pRight
  pTop := k * a.pTop
  pBottom := k * a.pBottom
  horizontal := a.horizontal
  widthUndef := a.widthUndef
  heightUndef := a.heightUndef

def scaleForest (k : Rat) : Forest → Forest
  | .nil => .nil
  | .node u a kids rest => .node u (scaleAttrs k a) (scaleForest k kids) (scaleForest k rest)

def scaleEnv (k : Rat) (env : Env) : Env := fun u => (env u).map (scaleRect k)

def scaleRq (k : Rat) (r : Attrs × Size × Size) : Attrs × Size × Size := (scaleAttrs k r.1, scaleSize k r.2.1, scaleSize k r.2.2)

theorem mul_max_pos {k : Rat} (hk : 0 < k) (a b : Rat) : max (k * a) (k * b) = k * max a b := (mul_max_of_nonneg a b hk.le).symm

theorem compute_scale {k : Rat} (hk : 0 < k) (env : Env) (v : Pos) : ∀ o f s : Rat,
    (scalePos k v).compute (scaleEnv k env) (k * o) (k * f) (k * s) = (v.compute env o f s).map (k * ·) := by
  induction v with
  | empty => intros; rfl
  | fix q => intro o f s; simp [scalePos, Pos.compute, Except.map]; ring
  | ratio q => intro o f s; simp [scalePos, Pos.compute, Except.map]; ring
  | align q => intro o f s; simp [scalePos, Pos.compute, Except.map]; ring
  | ref u hor v ih =>
    intro o f s
    simp only [scalePos, Pos.compute, scaleEnv]
    cases env u with
    | none => rfl
    | some r =>
      simp only [Option.map_some, scaleRect]
      have h0 := ih r.x r.width 0
      have h1 := ih r.y r.height 0
      rw [mul_zero] at h0 h1
      cases hor
      · simpa [scaleEnv] using h1
      · simpa [scaleEnv] using h0
  | map g v ih =>
    intro o f s
    simp only [scalePos, Pos.compute, ih o f s]
    cases v.compute env o f s with
    | error e => rfl
    | ok q =>
      simp only [Except.map]
      rw [mul_div_cancel_left₀ _ hk.ne']
  | fn u g =>
    intro o f s
    simp only [scalePos, Pos.compute, scaleEnv]
    cases env u with
    | none => rfl
    | some r => simp only [Option.map_some, scaleRect, Except.map, mul_div_cancel_left₀ _ hk.ne']

theorem size_compute_scale {k : Rat} (hk : 0 < k) (env : Env) (s : Size) (full : Rat) (fu : Option Rat) :
    (scaleSize k s).compute (scaleEnv k env) (k * full) (fu.map (k * ·)) = (s.compute env full fu).map (k * ·) := by
  obtain ⟨m, r, fl, lz⟩ := s
  simp only [scaleSize, Size.compute]
  cases lz with
  | some v =>
    have := compute_scale hk env v 0 0 0
    simpa using this
  | none =>
    simp only [Option.map_none]
    by_cases h0 : fl = 0
    · simp only [h0, ne_eq, not_true_eq_false, if_false]
      cases r with
      | none => rfl
      | some q =>
        by_cases hq : q = 0
        · simp only [hq, not_true_eq_false, if_false, Except.map]
        · simp only [hq, not_false_eq_true, if_true, Except.map]
          rw [mul_assoc, mul_max_pos hk]
    · simp only [ne_eq, h0, not_false_eq_true, if_true]
      cases fu with
      | none => rfl
      | some u => simp [Except.map, mul_assoc]

theorem ensure_scale {k : Rat} (hk : 0 < k) (s : Size) (q : Rat) : (scaleSize k s).ensure (k * q) = scaleSize k (s.ensure q) := by
  unfold Size.ensure
  by_cases h : q ≤ s.minSize
  · have h' : k * q ≤ (scaleSize k s).minSize := mul_le_mul_of_nonneg_left h hk.le
    rw [if_pos h, if_pos h']
  · have h' : ¬ k * q ≤ (scaleSize k s).minSize := fun hc => h (le_of_mul_le_mul_left hc hk)
    rw [if_neg h, if_neg h']
    rfl

theorem sum_scale (k : Rat) (l : List Rat) : (l.map (k * ·)).sum = k * l.sum := by
  induction l with
  | nil => simp
  | cons a l ih => simp [ih, mul_add]

theorem listMax_scale {k : Rat} (hk : 0 < k) (l : List Rat) : listMax (l.map (k * ·)) = k * listMax l := by
  have key : ∀ (l : List Rat) (a : Rat), (l.map (k * ·)).foldl max (k * a) = k * l.foldl max a := by
    intro l
    induction l with
    | nil => intro a; rfl
    | cons b l ih => intro a; simp only [List.map_cons, List.foldl_cons, mul_max_pos hk, ih]
  cases l with
  | nil => simp [listMax]
  | cons a l => simp only [listMax, List.map_cons, List.max?_cons', Option.getD_some]; exact key l a

theorem managed_scale (k : Rat) (a : Attrs) (hor : Bool) : (scaleAttrs k a).managed hor = a.managed hor := by
  unfold Attrs.managed scaleAttrs
  cases a.x <;> cases a.y <;> rfl

theorem filter_scale (k : Rat) (hor : Bool) (l : List (Attrs × Size × Size)) :
    (l.map (scaleRq k)).filter (fun r => r.1.managed hor) = (l.filter (fun r => r.1.managed hor)).map (scaleRq k) := by
  rw [List.filter_map]
  congr 1
  refine List.filter_congr fun r _ => ?_
  exact managed_scale k r.1 hor

theorem minChildren_scale {k : Rat} (hk : 0 < k) (hor : Bool) (l : List (Attrs × Size × Size)) :
    minChildrenSize hor (l.map (scaleRq k)) = (k * (minChildrenSize hor l).1, k * (minChildrenSize hor l).2) := by
  unfold minChildrenSize
  simp only [filter_scale]
  generalize l.filter (fun r => r.1.managed hor) = m
  have e1 : (m.map (scaleRq k)).map (·.2.1.minSize) = (m.map (·.2.1.minSize)).map (k * ·) := by
    simp [List.map_map]; intros; rfl
  have e2 : (m.map (scaleRq k)).map (·.2.2.minSize) = (m.map (·.2.2.minSize)).map (k * ·) := by
    simp [List.map_map]; intros; rfl
  simp only [e1, e2, sum_scale, listMax_scale hk, List.isEmpty_map]
  by_cases hm : m.isEmpty = true
  · simp [hm]
  · cases hor <;> simp [hm]

theorem sizeRequest_scale {k : Rat} (hk : 0 < k) (a : Attrs) (l : List (Attrs × Size × Size)) :
    sizeRequest (scaleAttrs k a) (l.map (scaleRq k)) = (scaleSize k (sizeRequest a l).1, scaleSize k (sizeRequest a l).2) := by
  unfold sizeRequest
  have e : (scaleAttrs k a).horizontal = a.horizontal := rfl
  simp only [e, minChildren_scale hk]
  simp only [scaleAttrs, ← mul_add, ensure_scale hk]

theorem requests_scale {k : Rat} (hk : 0 < k) (f : Forest) : requests (scaleForest k f) = (requests f).map (scaleRq k) := by
  induction f with
  | nil => rfl
  | node u a kids rest ihk ihr => simp only [scaleForest, requests, ihk, ihr, List.map_cons, sizeRequest_scale hk]; rfl

theorem fills_scale {k : Rat} (hk : 0 < k) (hor : Bool) (size : Rat) (l : List (Attrs × Size × Size)) :
    fillsAndFree hor (k * size) (l.map (scaleRq k)) = ((fillsAndFree hor size l).1, k * (fillsAndFree hor size l).2) := by
  unfold fillsAndFree
  simp only [filter_scale]
  generalize l.filter (fun r => r.1.managed hor) = m
  have key : ∀ (m : List (Attrs × Size × Size)) (n : Nat) (f : Rat) (g : Nat × Rat → (Attrs × Size × Size) → Nat × Rat)
      (g' : Nat × Rat → (Attrs × Size × Size) → Nat × Rat),
      (∀ n f r, g' (n, k * f) (scaleRq k r) = ((g (n, f) r).1, k * (g (n, f) r).2)) →
      (m.map (scaleRq k)).foldl g' (n, k * f) = ((m.foldl g (n, f)).1, k * (m.foldl g (n, f)).2) := by
    intro m
    induction m with
    | nil => intros; rfl
    | cons r m ih => intro n f g g' hg; simp only [List.map_cons, List.foldl_cons, hg]; exact ih _ _ g g' hg
  refine key m 0 size _ _ ?_
  intro n f r
  have e : (if hor = true then (scaleRq k r).2.1 else (scaleRq k r).2.2) = scaleSize k (if hor = true then r.2.1 else r.2.2) := by
    cases hor <;> rfl
  simp only [e]
  generalize (if hor = true then r.2.1 else r.2.2) = s
  obtain ⟨mn, ra, fl, lz⟩ := s
  simp only [scaleSize]
  by_cases h0 : fl = 0
  · simp only [h0, ne_eq, not_true_eq_false, if_false]
    cases ra with
    | none => simp only [mul_sub]
    | some q =>
      by_cases hq : q = 0
      · simp only [hq, not_true_eq_false, if_false, mul_sub]
      · simp only [hq, not_false_eq_true, if_true, mul_sub, ← mul_max_pos hk]
        congr 3
        ring
  · simp only [ne_eq, h0, not_false_eq_true, if_true]

theorem fillUnit_scale {k : Rat} (hk : 0 < k) (hor : Bool) (r : Rect) (l : List (Attrs × Size × Size)) :
    fillUnitAndStart hor (scaleRect k r) (l.map (scaleRq k)) = (k * (fillUnitAndStart hor r l).1, k * (fillUnitAndStart hor r l).2) := by
  unfold fillUnitAndStart
  have e1 : (if hor = true then (scaleRect k r).width else (scaleRect k r).height) = k * (if hor = true then r.width else r.height) := by
    cases hor <;> rfl
  have e2 : (if hor = true then (scaleRect k r).x else (scaleRect k r).y) = k * (if hor = true then r.x else r.y) := by
    cases hor <;> rfl
  simp only [e1, e2, fills_scale hk]
  generalize (fillsAndFree hor (if hor = true then r.width else r.height) l) = F
  generalize (if hor = true then r.x else r.y) = S
  by_cases h : F.1 ≠ 0
  · rw [if_pos h, if_pos h]
    exact Prod.ext (by ring) (by ring)
  · rw [if_neg h, if_neg h]
    exact Prod.ext (by ring) (by ring)

theorem childRect_scale {k : Rat} (hk : 0 < k) (env : Env) (hor : Bool) (r : Rect) (fu dd : Rat) (a : Attrs) (rq : Size × Size) :
    childRect (scaleEnv k env) hor (scaleRect k r) (k * fu) (k * dd) (scaleAttrs k a) (scaleSize k rq.1, scaleSize k rq.2) =
      (childRect env hor r fu dd a rq).map (fun x => (scaleRect k x.1, k * x.2)) := by
  have hw0 := size_compute_scale hk env rq.1 r.width none
  have hw1 := size_compute_scale hk env rq.1 r.width (some fu)
  have hh0 := size_compute_scale hk env rq.2 r.height none
  have hh1 := size_compute_scale hk env rq.2 r.height (some fu)
  simp only [Option.map_none, Option.map_some] at hw0 hw1 hh0 hh1
  have hx : (scaleAttrs k a).x = a.x.map (scalePos k) := rfl
  have hy : (scaleAttrs k a).y = a.y.map (scalePos k) := rfl
  unfold childRect
  simp only [scaleRect, hw0, hw1, hh0, hh1, hx, hy]
  cases hor with
  | false =>
    simp only [Bool.not_false, if_true]
    cases rq.1.compute env r.width none with
    | error e => rfl
    | ok w =>
      simp only [Except.map]
      cases rq.2.compute env r.height (some fu) with
      | error e => rfl
      | ok h =>
        simp only
        cases a.x with
        | none =>
          have e : k * r.x + (k * r.width - k * w) / 2 = k * (r.x + (r.width - w) / 2) := by ring
          simp only [Option.map_none, e]
          cases a.y with
          | none => simp only [Option.map_none, mul_add]
          | some p =>
            simp only [Option.map_some, compute_scale hk env p]
            cases p.compute env r.y r.height h <;> rfl
        | some q =>
          simp only [Option.map_some, compute_scale hk env q]
          cases q.compute env r.x r.width w with
          | error e => rfl
          | ok x =>
            simp only [Except.map]
            cases a.y with
            | none => simp only [Option.map_none, mul_add]
            | some p =>
              simp only [Option.map_some, compute_scale hk env p]
              cases p.compute env r.y r.height h <;> rfl
  | true =>
    simp only [Bool.not_true, Bool.false_eq_true, if_false]
    cases rq.1.compute env r.width (some fu) with
    | error e => rfl
    | ok w =>
      simp only [Except.map]
      cases rq.2.compute env r.height none with
      | error e => rfl
      | ok h =>
        simp only
        cases a.y with
        | none =>
          have e : k * r.y + (k * r.height - k * h) / 2 = k * (r.y + (r.height - h) / 2) := by ring
          simp only [Option.map_none, e]
          cases a.x with
          | none => simp only [Option.map_none, mul_add]
          | some p =>
            simp only [Option.map_some, compute_scale hk env p]
            cases p.compute env r.x r.width w <;> rfl
        | some q =>
          simp only [Option.map_some, compute_scale hk env q]
          cases q.compute env r.y r.width h with
          | error e => rfl
          | ok x =>
            simp only [Except.map]
            cases a.x with
            | none => simp only [Option.map_none, mul_add]
            | some p =>
              simp only [Option.map_some, compute_scale hk env p]
              cases p.compute env r.x r.width w <;> rfl

theorem inner_scale (k : Rat) (a : Attrs) (r : Rect) : (scaleAttrs k a).inner (scaleRect k r) = scaleRect k (a.inner r) := by
  simp only [Attrs.inner, Rect.shrink, scaleRect, scaleAttrs, Rect.mk.injEq]
  refine ⟨by ring, by ring, by ring, by ring⟩

theorem set_scale (k : Rat) (env : Env) (u : Nat) (r : Rect) : (scaleEnv k env).set u (scaleRect k r) = scaleEnv k (env.set u r) := by
  funext v
  simp only [Env.set, scaleEnv]
  split <;> rfl

theorem setKids_scale {k : Rat} (hk : 0 < k) (f : Forest) : ∀ (env : Env) (hor : Bool) (r : Rect) (fu dd : Rat),
    setKids (scaleEnv k env) hor (scaleRect k r) (k * fu) (k * dd) (scaleForest k f) = (setKids env hor r fu dd f).map (scaleEnv k) := by
  induction f with
  | nil => intros; rfl
  | node u a kids rest ihk ihr =>
    intro env hor r fu dd
    simp only [scaleForest, setKids, requests_scale hk, sizeRequest_scale hk]
    have hc := childRect_scale hk env hor r fu dd a (sizeRequest a (requests kids))
    simp only [hc]
    cases childRect env hor r fu dd a (sizeRequest a (requests kids)) with
    | error e => rfl
    | ok x =>
      obtain ⟨x, dd'⟩ := x
      have eh : (scaleAttrs k a).horizontal = a.horizontal := rfl
      simp only [Except.map, inner_scale, set_scale, fillUnit_scale hk, eh, ihk]
      cases setKids (env.set u (a.inner x)) a.horizontal (a.inner x) (fillUnitAndStart a.horizontal (a.inner x) (requests kids)).1
          (fillUnitAndStart a.horizontal (a.inner x) (requests kids)).2 kids with
      | error e => rfl
      | ok env' => simp only [Except.map]; exact ihr env' hor r fu dd'

theorem setRect_scale {k : Rat} (hk : 0 < k) (env : Env) (u : Nat) (a : Attrs) (kids : Forest) (r : Rect) :
    setRect (scaleEnv k env) u (scaleAttrs k a) (scaleForest k kids) (scaleRect k r) = (setRect env u a kids r).map (scaleEnv k) := by
  unfold setRect
  have eh : (scaleAttrs k a).horizontal = a.horizontal := rfl
  simp only [inner_scale, set_scale, requests_scale hk, fillUnit_scale hk, eh]
  exact setKids_scale hk kids _ _ _ _ _

/-! ### arguments -/

theorem parseSize_scale (k : Rat) (a : Arg) : parseSize (orZero (scaleArg k (scalePos k) a)) = (parseSize (orZero a)).map (scaleSize k) := by
  cases a with
  | none => simp [scaleArg, orZero, parseSize, Except.map, scaleSize]
  | num q => simp [scaleArg, orZero, parseSize, Except.map, scaleSize]
  | lazy v => simp [scaleArg, orZero, parseSize, Except.map, scaleSize]
  | other => rfl
  | str s =>
    cases s with
    | nil => simp [scaleArg, orZero, parseSize, Except.map, scaleSize, chomp, allDigits]
    | cons c s =>
      simp only [scaleArg]
      by_cases h : allDigits (chomp (c :: s)) = true
      · simp only [if_pos h, orZero, parseSize, Except.map, scaleSize, Option.map_none]
      · simp only [if_neg h, orZero, parseSize]
        split
        · simp [Except.map, scaleSize]
        · split
          · simp [Except.map, scaleSize]
          · split
            · cases fillNumber ((chomp (c :: s)).drop 5) <;> simp [Except.map, scaleSize]
            · rfl

theorem parsePos_scale (k : Rat) (a : Arg) : parsePos (scaleArg k (scalePos k) a) = (parsePos a).map (scalePos k) := by
  cases a with
  | none => rfl
  | num q => rfl
  | lazy v => rfl
  | other => rfl
  | str s =>
    simp only [scaleArg]
    by_cases h : allDigits (chomp s) = true
    · simp only [if_pos h, parsePos, Except.map, scalePos]
    · simp only [if_neg h, parsePos]
      split
      · rfl
      · split
        · split <;> rfl
        · rfl

theorem isNone_scale (k : Rat) (a : Arg) : isNoneArg (scaleArg k (scalePos k) a) = isNoneArg a := by
  cases a with
  | str s => simp only [scaleArg]; split <;> rfl
  | _ => rfl

theorem parseOptPos_scale (k : Rat) (a : Arg) :
    parseOptPos (scaleArg k (scalePos k) a) = (parseOptPos a).map (fun p => p.map (scalePos k)) := by
  have h1 := parsePos_scale k a
  have key : ∀ b : Arg, isNoneArg b = false → parseOptPos b = (match parsePos b with | .ok p => .ok (some p) | .error e => .error e) := by
    intro b hb; cases b with
    | none => cases hb
    | _ => rfl
  by_cases h : isNoneArg a = true
  · cases a with
    | none => rfl
    | _ => cases h
  · have hb : isNoneArg a = false := by simpa using h
    rw [key a hb, key _ (by rw [isNone_scale]; exact hb), h1]
    cases parsePos a <;> rfl

theorem setPadding_scale (k : Rat) (a b c : Option Rat) :
    setPadding (a.map (k * ·)) (b.map (k * ·)) (c.map (k * ·)) = k * setPadding a b c := by
  cases a <;> cases b <;> cases c <;> simp [setPadding]

theorem newAttrs_scale (k : Rat) (b : BoxArgs) : newAttrs (scaleArgs k b) = (newAttrs b).map (scaleAttrs k) := by
  unfold newAttrs
  simp only [scaleArgs, parseOptPos_scale, parseSize_scale, setPadding_scale, isNone_scale]
  cases parseOptPos b.x with
  | error e => rfl
  | ok x =>
    simp only [Except.map]
    cases parseOptPos b.y with
    | error e => rfl
    | ok y =>
      simp only
      cases parseSize (orZero b.width) with
      | error e => rfl
      | ok w =>
        simp only
        cases parseSize (orZero b.height) with
        | error e => rfl
        | ok h => rfl

end Verif.Layout

namespace Verif.Slide
open Spec Verif.Layout Verif.Layout.Spec

def scaleState (k : Rat) (s : State) : State := { s with layouts := scaleForest k s.layouts }

theorem append_scale (k : Rat) (u : Nat) (a : Attrs) (f : Forest) :
    appendLayout u (scaleAttrs k a) (scaleForest k f) = scaleForest k (appendLayout u a f) := by
  induction f with
  | nil => rfl
  | node v b kids rest _ ih => simp only [scaleForest, appendLayout, ih]

theorem modify_scale (k : Rat) (u : Nat) (g g' : Attrs → Forest → Attrs × Forest)
    (hg : ∀ a f, g' (scaleAttrs k a) (scaleForest k f) = (scaleAttrs k (g a f).1, scaleForest k (g a f).2)) (f : Forest) :
    modifyLayout u g' (scaleForest k f) = scaleForest k (modifyLayout u g f) := by
  induction f with
  | nil => rfl
  | node v b kids rest ihk ihr =>
    simp only [scaleForest, modifyLayout]
    split
    · simp only [hg, scaleForest]
    · simp only [ihk, ihr, scaleForest]

theorem addLayout_scale (k : Rat) (p u : Nat) (a : Attrs) (pre : Bool) (f : Forest) :
    addLayout p u (scaleAttrs k a) pre (scaleForest k f) = scaleForest k (addLayout p u a pre f) := by
  refine modify_scale k p _ _ ?_ f
  intro b kids
  cases pre
  · simp [append_scale]
  · rfl

theorem ensureWidth_scale {k : Rat} (hk : 0 < k) (w : Rat) (a : Attrs) : ensureWidth (k * w) (scaleAttrs k a) = scaleAttrs k (ensureWidth w a) := by
  unfold ensureWidth
  simp only [scaleAttrs, ← mul_add, ensure_scale hk]

theorem ensureHeight_scale {k : Rat} (hk : 0 < k) (w : Rat) (a : Attrs) : ensureHeight (k * w) (scaleAttrs k a) = scaleAttrs k (ensureHeight w a) := by
  unfold ensureHeight
  simp only [scaleAttrs, ← mul_add, ensure_scale hk]

theorem ensureSize_scale {k : Rat} (hk : 0 < k) (w h : Rat) (a : Attrs) :
    ensureSize (k * w) (k * h) (scaleAttrs k a) = scaleAttrs k (ensureSize w h a) := by
  unfold ensureSize
  rw [ensureWidth_scale hk, ensureHeight_scale hk]

theorem textSize_scale {k : Rat} (hk : 0 < k) (w h : Rat) (fit : Bool) (a : Attrs) :
    textSize (k * w) (k * h) fit (scaleAttrs k a) = scaleAttrs k (textSize w h fit a) := by
  unfold textSize
  cases fit
  · simp [ensureSize_scale hk]
  · have e1 : (scaleAttrs k a).widthUndef = a.widthUndef := rfl
    simp only [Bool.not_true, Bool.false_eq_true, if_false, e1, ensureWidth_scale hk]
    have e2 : (if a.widthUndef = true then scaleAttrs k (ensureWidth w a) else scaleAttrs k a) =
        scaleAttrs k (if a.widthUndef = true then ensureWidth w a else a) := by split <;> rfl
    rw [e2]
    generalize (if a.widthUndef = true then ensureWidth w a else a) = b
    have e3 : (scaleAttrs k b).heightUndef = b.heightUndef := rfl
    rw [e3]
    split
    · exact ensureHeight_scale hk h b
    · rfl

theorem imageSize_scale {k : Rat} (hk : 0 < k) (w h : Rat) (a : Attrs) (f : Forest) :
    imageSize (k * w) (k * h) (scaleAttrs k a) (scaleForest k f) = scaleAttrs k (imageSize w h a f) := by
  unfold imageSize
  have e1 : (scaleAttrs k a).widthUndef = a.widthUndef := rfl
  have e2 : (scaleAttrs k a).heightUndef = a.heightUndef := rfl
  have e3 : (scaleAttrs k a).horizontal = a.horizontal := rfl
  have e4 : (scaleAttrs k a).width.minSize = k * a.width.minSize := rfl
  have e5 : (scaleAttrs k a).height.minSize = k * a.height.minSize := rfl
  simp only [e1, e2, e3, e4, e5, requests_scale hk, minChildren_scale hk, mul_max_pos hk]
  split
  · exact ensureSize_scale hk w h a
  · rw [← ensureSize_scale hk]
    have d : ∀ x y z : Rat, k * x * (k * y) / (k * z) = k * (x * y / z) := by
      intro x y z
      by_cases hz : z = 0
      · simp [hz]
      · field_simp
    rw [d, d]

theorem addItem_scale (k : Rat) (s : State) (p : Nat) :
    addItem (scaleState k s) p = (scaleState k (addItem s p).1, (addItem s p).2) := by
  unfold addItem
  simp only [scaleState]
  split <;> rfl

theorem ensureSteps_scale (k : Rat) (s : State) (p : Nat) (n : Int) :
    ensureSteps (scaleState k s) p n = (scaleState k (ensureSteps s p n).1, (ensureSteps s p n).2) := by
  unfold ensureSteps
  simp only [scaleState]
  split <;> rfl

theorem boxCall_scale (k : Rat) (s : State) (p : Nat) (c : BoxCall) :
    boxCall (scaleState k s) p { c with layout := scaleArgs k c.layout } = (scaleState k (boxCall s p c).1, (boxCall s p c).2) := by
  unfold boxCall
  simp only [newAttrs_scale]
  cases newAttrs c.layout with
  | error e => rfl
  | ok a =>
    have ep : (scaleArgs k c.layout).prepend = c.layout.prepend := rfl
    simp only [Except.map, scaleState, addLayout_scale, ep]
    cases Verif.Show.parse c.show_ (some s.maxStep) with
    | error e => rfl
    | ok info =>
      simp only
      split <;> rfl

theorem exec_scale {k : Rat} (hk : 0 < k) (s : State) (c : Call) :
    exec (scaleState k s) (scaleCall k c) = (scaleState k (exec s c).1, (exec s c).2) := by
  have et : (scaleState k s).tree = s.tree := rfl
  cases c with
  | box p b =>
    simp only [exec, scaleCall, et]
    split
    · exact boxCall_scale k s p b
    · rfl
  | text p w h fit =>
    simp only [exec, scaleCall, et]
    split
    · rw [← addItem_scale]
      congr 1
      simp only [scaleState]
      congr 1
      exact modify_scale k p _ _ (fun a f => by simp only [textSize_scale hk]) _
    · rfl
  | shape p =>
    simp only [exec, scaleCall, et]
    split
    · exact addItem_scale k s p
    · rfl
  | image p w h steps =>
    simp only [exec, scaleCall, et]
    split
    · have e : ({ scaleState k s with layouts := modifyLayout p (fun a kids => (imageSize (k * w) (k * h) a kids, kids)) (scaleState k s).layouts } : State) =
          scaleState k { s with layouts := modifyLayout p (fun a kids => (imageSize w h a kids, kids)) s.layouts } := by
        simp only [scaleState]
        congr 1
        exact modify_scale k p _ _ (fun a f => by simp only [imageSize_scale hk]) _
      cases steps with
      | none =>
        simp only
        rw [← addItem_scale, ← e]
        rfl
      | some n =>
        simp only
        have e2 := ensureSteps_scale k { s with layouts := modifyLayout p (fun a kids => (imageSize w h a kids, kids)) s.layouts } p n
        rw [← e] at e2
        have e3 : ensureSteps { tree := s.tree, layouts := modifyLayout p (fun a kids => (imageSize (k * w) (k * h) a kids, kids)) (scaleState k s).layouts, next := s.next, maxStep := s.maxStep } p n = _ := e2
        simp only [scaleState] at e3 ⊢
        rw [e3]
        generalize ensureSteps { s with layouts := modifyLayout p (fun a kids => (imageSize w h a kids, kids)) s.layouts } p n = X
        obtain ⟨s2, o⟩ := X
        cases o with
        | some e => rfl
        | none => exact addItem_scale k s2 p
    · rfl

theorem run_scale {k : Rat} (hk : 0 < k) (cs : List Call) : ∀ s : State,
    run (scaleState k s) (cs.map (scaleCall k)) = (run s cs).map (scaleState k) := by
  induction cs with
  | nil => intro s; rfl
  | cons c cs ih =>
    intro s
    simp only [List.map_cons, run, exec_scale hk]
    generalize exec s c = X
    obtain ⟨s1, o⟩ := X
    cases o with
    | some e => rfl
    | none => exact ih s1

theorem newSlide_scale (k w h : Rat) : newSlide (k * w) (k * h) = scaleState k (newSlide w h) := by
  simp only [newSlide, scaleState, scaleForest, scaleAttrs, scaleSize, Option.map_some, Option.map_none, scalePos, mul_zero]

theorem rects_scale {k : Rat} (hk : 0 < k) (s : State) (w h : Rat) :
    (scaleState k s).rects (k * w) (k * h) = (s.rects w h).map (scaleEnv k) := by
  unfold State.rects scaleState
  cases s.layouts with
  | nil => rfl
  | node u a kids rest =>
    simp only [scaleForest]
    have h1 := setRect_scale hk (fun _ => none) u a kids ⟨0, 0, w, h⟩
    have h2 : scaleEnv k (fun _ => none) = fun _ => none := rfl
    rw [h2] at h1
    simpa [scaleRect] using h1

end Verif.Slide
