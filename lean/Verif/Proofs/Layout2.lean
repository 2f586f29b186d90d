import Verif.Proofs.Layout
import Mathlib.Algebra.Order.BigOperators.Group.List

/-! Helper lemmas for layout: sizes, containment, translation, repeated layout. -/

namespace Verif.Layout
open Spec

/-! ### sizes -/

theorem listMax_largest (l : List Rat) : listMax l = largest l := by
  cases l with
  | nil => rfl
  | cons q qs => unfold listMax largest; rw [List.max?_cons']; rfl

/-- The request along an axis. -/
def onAxis (axis : Bool) (s : Size × Size) : Size := if axis then s.1 else s.2

theorem onAxis_request (axis : Bool) (a : Attrs) (rqs : List (Attrs × Size × Size)) :
    onAxis axis (sizeRequest a rqs) = (sizeOn axis a).ensure
      ((if axis then (minChildrenSize a.horizontal rqs).1 else (minChildrenSize a.horizontal rqs).2) + pads axis a) := by
  cases axis <;> rfl

theorem requests_needs (f : Forest) : ∀ axis hor,
    ((requests f).filter (fun r => r.1.managed hor)).map (fun r => (onAxis axis r.2).minSize) = needs axis hor f ∧
    (if axis then (minChildrenSize hor (requests f)).1 else (minChildrenSize hor (requests f)).2) = content axis hor f := by
  have second : ∀ (f : Forest), (∀ axis hor,
      ((requests f).filter (fun r => r.1.managed hor)).map (fun r => (onAxis axis r.2).minSize) = needs axis hor f) →
      ∀ axis hor, (if axis then (minChildrenSize hor (requests f)).1 else (minChildrenSize hor (requests f)).2) = content axis hor f := by
    intro f h axis hor
    have ht := h true hor
    have hf := h false hor
    unfold content minChildrenSize
    simp only [onAxis, if_true, Bool.false_eq_true, if_false] at ht hf
    generalize List.filter (fun r : Attrs × Size × Size => r.1.managed hor) (requests f) = l at ht hf ⊢
    cases l with
    | nil =>
      simp only [List.map_nil] at ht hf
      cases axis <;> cases hor <;> simp [← ht, ← hf, largest]
    | cons x xs =>
      cases axis <;> cases hor <;> simp [listMax_largest, ← ht, ← hf]
  induction f with
  | nil =>
    have h1 : ∀ axis hor, ((requests .nil).filter (fun r => r.1.managed hor)).map (fun r => (onAxis axis r.2).minSize) = needs axis hor .nil :=
      fun _ _ => rfl
    intro axis hor
    exact ⟨h1 axis hor, second .nil h1 axis hor⟩
  | node u a kids rest ihk ihr =>
    have h1 : ∀ axis hor, ((requests (.node u a kids rest)).filter (fun r => r.1.managed hor)).map
        (fun r => (onAxis axis r.2).minSize) = needs axis hor (.node u a kids rest) := by
      intro axis hor
      have hown : (onAxis axis (sizeRequest a (requests kids))).minSize =
          max (sizeOn axis a).minSize (content axis a.horizontal kids + pads axis a) := by
        rw [onAxis_request, (ensure_fields _ _).2.2.2, (ihk axis a.horizontal).2]
      simp only [requests, needs, List.filter_cons]
      by_cases hm : Managed hor a
      · rw [if_pos ((managed_iff hor a).mpr hm), if_pos hm, List.map_cons, (ihr axis hor).1, hown]
        rfl
      · have : a.managed hor = false := by
          rw [← Bool.not_eq_true, managed_iff]; exact hm
        rw [if_neg (by simp [this]), if_neg hm, (ihr axis hor).1]
    intro axis hor
    exact ⟨h1 axis hor, second _ h1 axis hor⟩

theorem request_minSize (axis : Bool) (a : Attrs) (kids : Forest) :
    (onAxis axis (sizeRequest a (requests kids))).minSize =
      max (sizeOn axis a).minSize (content axis a.horizontal kids + pads axis a) := by
  rw [onAxis_request, (ensure_fields _ _).2.2.2, (requests_needs kids axis a.horizontal).2]

theorem request_fields (axis : Bool) (a : Attrs) (rqs : List (Attrs × Size × Size)) :
    (onAxis axis (sizeRequest a rqs)).fill = (sizeOn axis a).fill ∧
    (onAxis axis (sizeRequest a rqs)).ratio = (sizeOn axis a).ratio ∧
    (onAxis axis (sizeRequest a rqs)).lazy = (sizeOn axis a).lazy := by
  rw [onAxis_request]
  exact ⟨(ensure_fields _ _).1, (ensure_fields _ _).2.1, (ensure_fields _ _).2.2.1⟩

/-- Size of a child without fill and dynamic size. -/
theorem compute_nofill {env : Env} {s : Size} {full w : Rat} {u : Option Rat} (hl : s.lazy = none)
    (hf : s.fill = 0) (h : s.compute env full u = .ok w) :
    w = match s.ratio with
      | some q => if q ≠ 0 then max (full * q) s.minSize else s.minSize
      | none => s.minSize := by
  unfold Size.compute at h
  rw [hl] at h
  simp only [hf, ne_eq, not_true_eq_false, if_false] at h
  cases hr : s.ratio with
  | none => rw [hr] at h; injection h with h; exact h.symm
  | some q =>
    rw [hr] at h
    simp only at h ⊢
    by_cases hq : q = 0
    · simp only [hq, not_true_eq_false, if_false] at h; injection h with h; simp [hq, h]
    · simp only [hq, not_false_eq_true, if_true] at h; injection h with h; simp [hq, h]

theorem childRect_extent {env : Env} {hor : Bool} {rect : Rect} {fu dd : Rat} {a : Attrs} {rq : Size × Size}
    {r : Rect} {dd' : Rat} (h : childRect env hor rect fu dd a rq = .ok (r, dd')) (axis : Bool) :
    (onAxis axis rq).compute env (extent axis rect) (if axis = hor then some fu else none) = .ok (extent axis r) := by
  obtain ⟨hw, hh, _⟩ := childRect_ok h
  cases axis <;> cases hor <;> simpa [onAxis, extent] using (by assumption)

/-! ### containment -/

theorem largest_le {l : List Rat} {q : Rat} (hl : l ≠ []) (h : largest l ≤ q) : ∀ n ∈ l, n ≤ q := by
  cases l with
  | nil => exact absurd rfl hl
  | cons x xs =>
    unfold largest at h
    have aux : ∀ (xs : List Rat) (x : Rat), xs.foldl max x ≤ q → x ≤ q ∧ ∀ n ∈ xs, n ≤ q := by
      intro xs
      induction xs with
      | nil => intro x h; exact ⟨h, by simp⟩
      | cons y ys ih =>
        intro x h
        have := ih _ h
        refine ⟨le_trans (le_max_left _ _) this.1, ?_⟩
        intro n hn
        rcases List.mem_cons.mp hn with rfl | hn
        · exact le_trans (le_max_right _ _) this.1
        · exact this.2 n hn
    intro n hn
    have := aux xs x h
    rcases List.mem_cons.mp hn with rfl | hn
    · exact this.1
    · exact this.2 n hn

theorem foldl_max_nonneg (xs : List Rat) : ∀ x : Rat, 0 ≤ x → 0 ≤ xs.foldl max x := by
  induction xs with
  | nil => intro x h; exact h
  | cons y ys ih => intro x h; exact ih _ (le_trans h (le_max_left _ _))

theorem needs_nonneg (f : Forest) (hp : ∀ b ∈ boxes f, Plain b.2.1) : ∀ axis hor, ∀ n ∈ needs axis hor f, 0 ≤ n := by
  induction f with
  | nil => intro axis hor n hn; cases hn
  | node u a kids rest ihk ihr =>
    intro axis hor n hn
    have hk := ihk (fun b hb => hp b (by simp [boxes, hb]))
    have hr := ihr (fun b hb => hp b (by simp [boxes, hb]))
    obtain ⟨-, h1, h2, h3, h4⟩ := hp (u, a, kids) (by simp [boxes])
    simp only at h1 h2 h3 h4
    have hpad : 0 ≤ pads axis a := by unfold pads; split <;> linarith
    simp only [needs] at hn
    have hown : 0 ≤ max (sizeOn axis a).minSize
        ((if axis = a.horizontal then (needs axis a.horizontal kids).sum else largest (needs axis a.horizontal kids)) + pads axis a) := by
      apply le_trans _ (le_max_right _ _)
      have : 0 ≤ (if axis = a.horizontal then (needs axis a.horizontal kids).sum else largest (needs axis a.horizontal kids)) := by
        split
        · exact List.sum_nonneg (hk axis a.horizontal)
        · unfold largest
          split
          · exact le_refl _
          · rename_i q qs hq
            exact foldl_max_nonneg qs q (hk axis a.horizontal q (by rw [hq]; simp))
      linarith
    split at hn
    · rcases List.mem_cons.mp hn with rfl | hn
      · exact hown
      · exact hr axis hor n hn
    · exact hr axis hor n hn

theorem content_nonneg (f : Forest) (hp : ∀ b ∈ boxes f, Plain b.2.1) (axis hor : Bool) : 0 ≤ content axis hor f := by
  have hk := needs_nonneg f hp axis hor
  unfold content
  split
  · exact List.sum_nonneg hk
  · unfold largest
    split
    · exact le_refl _
    · rename_i q qs hq
      exact foldl_max_nonneg qs q (hk q (by rw [hq]; simp))

theorem plain_extent {env : Env} {hor : Bool} {rect : Rect} {fu dd : Rat} {a : Attrs} {kids : Forest}
    {r : Rect} {dd' : Rat} (hp : Plain a)
    (h : childRect env hor rect fu dd a (sizeRequest a (requests kids)) = .ok (r, dd')) (axis : Bool) :
    extent axis r = max (sizeOn axis a).minSize (content axis a.horizontal kids + pads axis a) := by
  have hx := childRect_extent h axis
  obtain ⟨h1, h2, h3⟩ := hp.1 axis
  obtain ⟨g1, g2, g3⟩ := request_fields axis a (requests kids)
  have := compute_nofill (g3.trans h3) (g1.trans h2) hx
  rw [this, g2, h1, request_minSize]

/-- Managed children lie inside. -/
theorem setKids_within (f : Forest) : ∀ (env env' : Env) (hor : Bool) (rect : Rect) (fu dd : Rat),
    (uids f).Nodup → (∀ b ∈ boxes f, Plain b.2.1) → setKids env hor rect fu dd f = .ok env' →
    start hor rect ≤ dd → dd + (needs hor hor f).sum ≤ start hor rect + extent hor rect →
    (∀ n ∈ needs (!hor) hor f, n ≤ extent (!hor) rect) →
    ∀ c ∈ tops f, ∃ r, env' c.1 = some r ∧
      (Managed hor c.2.1 → ∀ axis, posOn axis c.2.1 = none → Within axis (grow c.2.1 r) rect) := by
  induction f with
  | nil => intro env env' hor rect fu dd _ _ _ _ _ _ c hc; cases hc
  | node u a kids rest ihk ihr =>
    intro env env' hor rect fu dd hn hp h h1 h2 h3 c hc
    obtain ⟨r, dd', env1, hcr, hs1, hs2, hu, hk, nk, nr, nu⟩ := setKids_cons hn h
    have hpa : Plain a := hp (u, a, kids) (by simp [boxes])
    have hext := plain_extent hpa hcr
    obtain ⟨-, -, -, -, hx, hy, hdd⟩ := childRect_ok hcr
    have hnr : ∀ n ∈ needs hor hor rest, 0 ≤ n :=
      needs_nonneg rest (fun b hb => hp b (by simp [boxes, hb])) hor hor
    have hnsum := List.sum_nonneg hnr
    by_cases hm : Managed hor a
    · rw [if_pos hm] at hdd
      have hneeds : ∀ axis, needs axis hor (.node u a kids rest) = extent axis r :: needs axis hor rest := by
        intro axis
        rw [hext axis]
        simp only [needs, if_pos hm, content]
      rw [hneeds, List.sum_cons] at h2
      rw [hneeds] at h3
      have hnn : ∀ axis, 0 ≤ extent axis r := fun axis =>
        needs_nonneg (.node u a kids rest) hp axis hor _ (by rw [hneeds]; simp)
      simp only [tops, List.mem_cons] at hc
      rcases hc with rfl | hc
      · refine ⟨_, hu, ?_⟩
        simp only [grow_inner]
        intro _ axis hax
        by_cases haxis : axis = hor
        · subst haxis
          have hst : start axis r = dd := by
            cases axis
            · simpa [start] using hy (by simpa [posOn] using hax)
            · simpa [start] using hx (by simpa [posOn] using hax)
          refine ⟨by rw [hst]; exact h1, by rw [hst]; linarith⟩
        · have haxis' : axis = !hor := by clear * - haxis; revert axis hor; decide
          subst haxis'
          have hle := h3 _ (List.mem_cons_self)
          have hst : start (!hor) r = start (!hor) rect + (extent (!hor) rect - extent (!hor) r) / 2 := by
            cases hor
            · simpa [start, extent] using hx (by simpa [posOn] using hax)
            · simpa [start, extent] using hy (by simpa [posOn] using hax)
          refine ⟨by rw [hst]; linarith, by rw [hst]; linarith⟩
      · refine ihr _ _ _ _ _ _ nr (fun b hb => hp b (by simp [boxes, hb])) hs2 ?_ ?_ ?_ c hc
        · rw [hdd]; have := hnn hor; linarith
        · rw [hdd]; linarith
        · intro n hn; exact h3 n (List.mem_cons_of_mem _ hn)
    · rw [if_neg hm] at hdd
      have hneeds : ∀ axis, needs axis hor (.node u a kids rest) = needs axis hor rest := by
        intro axis; simp only [needs, if_neg hm]
      rw [hneeds] at h2 h3
      simp only [tops, List.mem_cons] at hc
      rcases hc with rfl | hc
      · exact ⟨_, hu, fun hm' => absurd hm' hm⟩
      · exact ihr _ _ _ _ _ _ nr (fun b hb => hp b (by simp [boxes, hb])) hs2
          (hdd ▸ h1) (hdd ▸ h2) h3 c hc

theorem inner_extent (axis : Bool) (a : Attrs) (r : Rect) : extent axis (a.inner r) = extent axis r - pads axis a := by
  cases axis <;> simp [extent, Attrs.inner, Rect.shrink, pads] <;> ring

/-- A plain box large enough for its content. -/
theorem setRect_within {env env' : Env} {u : Nat} {a : Attrs} {kids : Forest} {rect : Rect}
    (hn : (uids kids).Nodup) (hp : ∀ b ∈ boxes kids, Plain b.2.1) (h : setRect env u a kids rect = .ok env')
    (hs : ∀ axis, content axis a.horizontal kids ≤ extent axis (a.inner rect)) :
    ∀ c ∈ tops kids, ∃ r, env' c.1 = some r ∧ (Managed a.horizontal c.2.1 → ∀ axis, posOn axis c.2.1 = none →
      Within axis (grow c.2.1 r) (a.inner rect)) := by
  have hstat : ∀ c ∈ tops kids, Plain c.2.1 := by
    intro c hc
    apply hp c
    clear hn hp h hs
    induction kids with
    | nil => cases hc
    | node u a kids rest ihk ihr =>
      simp only [tops, List.mem_cons] at hc
      rcases hc with rfl | hc
      · simp [boxes]
      · simp [boxes, ihr hc]
  unfold setRect at h
  -- no fill
  have hfill : ((((requests kids).filter (fun r => r.1.managed a.horizontal)).map (fun r => if a.horizontal then r.2.1 else r.2.2)).map
      (·.fill)).sum = 0 := by
    rw [requests_fills]
    apply List.sum_eq_zero
    intro n hn
    obtain ⟨c, hc, rfl⟩ := List.mem_map.mp hn
    exact ((hstat c (List.mem_of_mem_filter hc)).1 a.horizontal).2.1
  have htaken : ∀ L, ((((requests kids).filter (fun r => r.1.managed a.horizontal)).map
      (fun r => if a.horizontal then r.2.1 else r.2.2)).map (taken L)) = needs a.horizontal a.horizontal kids := by
    intro L
    rw [← (requests_needs kids a.horizontal a.horizontal).1, List.map_map]
    apply List.map_congr_left
    intro rq hrq
    have : ∃ c ∈ tops kids, rq = (c.2.1, sizeRequest c.2.1 (requests c.2.2)) := by
      have hrq' := List.mem_of_mem_filter hrq
      clear hrq hn hp h hs hstat hfill
      induction kids with
      | nil => cases hrq'
      | node u a kids rest ihk ihr =>
        simp only [requests, List.mem_cons] at hrq'
        rcases hrq' with rfl | hrq'
        · exact ⟨(u, a, kids), by simp [tops], rfl⟩
        · obtain ⟨c, hc, he⟩ := ihr hrq'
          exact ⟨c, by simp [tops, hc], he⟩
    obtain ⟨c, hc, rfl⟩ := this
    obtain ⟨g1, g2, g3⟩ := (hstat c hc).1 a.horizontal
    obtain ⟨e1, e2, e3⟩ := request_fields a.horizontal c.2.1 (requests c.2.2)
    change taken L (onAxis a.horizontal _) = (onAxis a.horizontal _).minSize
    unfold taken
    rw [e1, e2, g1, g2]
    simp
  dsimp only at h
  generalize hfu : fillUnitAndStart a.horizontal (a.inner rect) (requests kids) = fu at h
  unfold fillUnitAndStart at hfu
  dsimp only at hfu
  generalize hff : fillsAndFree a.horizontal (if a.horizontal then (a.inner rect).width else (a.inner rect).height)
    (requests kids) = ff at hfu
  rw [fillsAndFree_eq] at hff
  have hf1 : ff.1 = 0 := by rw [← hff]; exact hfill
  have hf2 : ff.2 = extent a.horizontal (a.inner rect) - (needs a.horizontal a.horizontal kids).sum := by
    rw [← hff]; simp only; rw [htaken]; rfl
  rw [if_neg (by rw [hf1]; simp), hf2] at hfu
  subst hfu
  have hmain := hs a.horizontal
  unfold content at hmain
  rw [if_pos rfl] at hmain
  have hst : (if a.horizontal then (a.inner rect).x else (a.inner rect).y) = start a.horizontal (a.inner rect) := rfl
  refine setKids_within kids _ _ _ _ _ _ hn hp h ?_ ?_ ?_
  · rw [hst]; linarith
  · rw [hst]; linarith
  · intro n hn
    have hc := hs (!a.horizontal)
    unfold content at hc
    rw [if_neg (by simp)] at hc
    exact largest_le (List.ne_nil_of_mem hn) hc n hn

theorem boxes_parent {f : Forest} {b : Nat × Attrs × Forest} (h : b ∈ boxes f) :
    b ∈ tops f ∨ ∃ p ∈ boxes f, b ∈ tops p.2.2 := by
  induction f with
  | nil => cases h
  | node u a kids rest ihk ihr =>
    simp only [boxes, List.mem_cons, List.mem_append] at h
    rcases h with rfl | h | h
    · left; simp [tops]
    · right
      rcases ihk h with h | ⟨p, hp, h⟩
      · exact ⟨(u, a, kids), by simp [boxes], h⟩
      · exact ⟨p, by simp [boxes, hp], h⟩
    · rcases ihr h with h | ⟨p, hp, h⟩
      · left; simp [tops, h]
      · right; exact ⟨p, by simp [boxes, hp], h⟩

theorem tops_boxes {f : Forest} {b : Nat × Attrs × Forest} (h : b ∈ tops f) : b ∈ boxes f := by
  induction f with
  | nil => cases h
  | node u a kids rest ihk ihr =>
    simp only [tops, List.mem_cons] at h
    simp only [boxes, List.mem_cons, List.mem_append]
    rcases h with rfl | h
    · left; rfl
    · right; right; exact ihr h

theorem boxes_sub {f : Forest} {b c : Nat × Attrs × Forest} (h : b ∈ boxes f) (hc : c ∈ boxes b.2.2) : c ∈ boxes f := by
  induction f with
  | nil => cases h
  | node u a kids rest ihk ihr =>
    simp only [boxes, List.mem_cons, List.mem_append] at h ⊢
    rcases h with rfl | h | h
    · right; left; exact hc
    · right; left; exact ihk h
    · right; right; exact ihr h

/-! ### the denotation of positions -/

theorem compute_denotes {env : Env} {p : Pos} : ∀ {o full self v : Rat}, p.compute env o full self = .ok v →
    Denotes env p o full self v := by
  induction p with
  | empty => intro o full self v h; cases h
  | fix q => intro o full self v h; injection h with h; subst h; exact .fix
  | ratio q => intro o full self v h; injection h with h; subst h; exact .ratio
  | align q => intro o full self v h; injection h with h; subst h; exact .align
  | ref u hor w ih =>
    intro o full self v h
    simp only [Pos.compute] at h
    split at h
    · cases h
    · rename_i r hr
      refine .ref hr ?_
      cases hor
      · exact ih (by simpa [start, extent] using h)
      · exact ih (by simpa [start, extent] using h)
  | map f w ih =>
    intro o full self v h
    simp only [Pos.compute] at h
    split at h
    · rename_i q hq
      injection h with h; subst h
      exact .map (ih hq)
    · cases h
  | fn u f =>
    intro o full self v h
    simp only [Pos.compute] at h
    split at h
    · cases h
    · rename_i r hr
      injection h with h; subst h
      exact .fn hr

theorem denotes_congr {env env' : Env} {p : Pos} {o full self v : Rat} (h : Denotes env p o full self v)
    (he : ∀ u ∈ refs p, env u = env' u) : Denotes env' p o full self v := by
  induction h with
  | fix => exact .fix
  | ratio => exact .ratio
  | align => exact .align
  | ref h hv ih =>
    refine .ref ((he _ (by simp [refs])).symm.trans h) (ih ?_)
    intro u hu; exact he u (by simp [refs, hu])
  | map hv ih => exact .map (ih he)
  | fn h => exact .fn ((he _ (by simp [refs])).symm.trans h)

/-! ### repeated layout -/

/-- All rectangles known in `e1` are the same in `e2`. -/
def Ext (e1 e2 : Env) : Prop := ∀ v r, e1 v = some r → e2 v = some r

theorem Pos.compute_mono {e1 e2 : Env} (he : Ext e1 e2) {p : Pos} : ∀ {o full self v : Rat},
    p.compute e1 o full self = .ok v → p.compute e2 o full self = .ok v := by
  induction p with
  | empty => intro o full self v h; exact h
  | fix q => intro o full self v h; exact h
  | ratio q => intro o full self v h; exact h
  | align q => intro o full self v h; exact h
  | ref u hor w ih =>
    intro o full self v h
    simp only [Pos.compute] at h ⊢
    split at h
    · cases h
    · rename_i r hr
      rw [he _ _ hr]
      cases hor
      · simp only [Bool.false_eq_true, if_false] at h ⊢; exact ih h
      · simp only [if_true] at h ⊢; exact ih h
  | map f w ih =>
    intro o full self v h
    simp only [Pos.compute] at h ⊢
    split at h
    · rename_i q hq
      rw [ih hq]; exact h
    · cases h
  | fn u f =>
    intro o full self v h
    simp only [Pos.compute] at h ⊢
    split at h
    · cases h
    · rename_i r hr
      rw [he _ _ hr]; exact h

theorem Size.compute_mono {e1 e2 : Env} (he : Ext e1 e2) {s : Size} {full v : Rat} {u : Option Rat}
    (h : s.compute e1 full u = .ok v) : s.compute e2 full u = .ok v := by
  unfold Size.compute at h ⊢
  cases hl : s.lazy with
  | none => rw [hl] at h; exact h
  | some p => rw [hl] at h; exact Pos.compute_mono he h

theorem childRect_mono {e1 e2 : Env} (he : Ext e1 e2) {hor : Bool} {rect : Rect} {fu dd : Rat} {a : Attrs}
    {rq : Size × Size} {v : Rect × Rat} (h : childRect e1 hor rect fu dd a rq = .ok v) :
    childRect e2 hor rect fu dd a rq = .ok v := by
  unfold childRect at h ⊢
  cases hor with
  | false =>
    simp only [Bool.not_false, if_true] at h ⊢
    split at h
    · cases h
    · rename_i w hw
      rw [Size.compute_mono he hw]
      split at h
      · cases h
      · rename_i w2 hw2
        rw [Size.compute_mono he hw2]
        cases hx : a.x with
        | none =>
          rw [hx] at h
          cases hy : a.y with
          | none => rw [hy] at h; exact h
          | some p =>
            rw [hy] at h
            simp only at h ⊢
            split at h
            · cases h
            · rename_i y hy'
              rw [Pos.compute_mono he hy']; exact h
        | some px =>
          rw [hx] at h
          simp only at h ⊢
          split at h
          · cases h
          · rename_i x hx'
            rw [Pos.compute_mono he hx']
            cases hy : a.y with
            | none => rw [hy] at h; exact h
            | some p =>
              rw [hy] at h
              simp only at h ⊢
              split at h
              · cases h
              · rename_i y hy'
                rw [Pos.compute_mono he hy']; exact h
  | true =>
    simp only [Bool.not_true, Bool.false_eq_true, if_false] at h ⊢
    split at h
    · cases h
    · rename_i w hw
      rw [Size.compute_mono he hw]
      split at h
      · cases h
      · rename_i w2 hw2
        rw [Size.compute_mono he hw2]
        cases hx : a.y with
        | none =>
          rw [hx] at h
          cases hy : a.x with
          | none => rw [hy] at h; exact h
          | some p =>
            rw [hy] at h
            simp only at h ⊢
            split at h
            · cases h
            · rename_i y hy'
              rw [Pos.compute_mono he hy']; exact h
        | some px =>
          rw [hx] at h
          simp only at h ⊢
          split at h
          · cases h
          · rename_i x hx'
            rw [Pos.compute_mono he hx']
            cases hy : a.x with
            | none => rw [hy] at h; exact h
            | some p =>
              rw [hy] at h
              simp only at h ⊢
              split at h
              · cases h
              · rename_i y hy'
                rw [Pos.compute_mono he hy']; exact h

theorem Ext.set {e1 e2 : Env} (he : Ext e1 e2) (u : Nat) (r : Rect) : Ext (e1.set u r) (e2.set u r) := by
  intro v q h
  unfold Env.set at h ⊢
  split
  · rename_i hv; rw [if_pos hv] at h; exact h
  · rename_i hv; rw [if_neg hv] at h; exact he v q h

theorem setKids_mono (f : Forest) : ∀ (e1 e2 e1' : Env) (hor : Bool) (rect : Rect) (fu dd : Rat),
    Ext e1 e2 → setKids e1 hor rect fu dd f = .ok e1' →
    ∃ e2', setKids e2 hor rect fu dd f = .ok e2' ∧ Ext e1' e2' := by
  induction f with
  | nil =>
    intro e1 e2 e1' hor rect fu dd he h
    simp only [setKids] at h
    injection h with h; subst h
    exact ⟨e2, rfl, he⟩
  | node u a kids rest ihk ihr =>
    intro e1 e2 e1' hor rect fu dd he h
    obtain ⟨r, dd', env1, hcr, h1, h2⟩ := setKids_node h
    unfold setRect at h1
    obtain ⟨e2a, hk, hea⟩ := ihk _ _ _ _ _ _ _ (he.set u (a.inner r)) h1
    obtain ⟨e2b, hr, heb⟩ := ihr _ _ _ _ _ _ _ hea h2
    refine ⟨e2b, ?_, heb⟩
    simp only [setKids]
    rw [childRect_mono he hcr]
    simp only
    rw [hk]
    exact hr

theorem setKids_some (f : Forest) : ∀ (env env' : Env) (hor : Bool) (rect : Rect) (fu dd : Rat),
    setKids env hor rect fu dd f = .ok env' → ∀ v, (v ∈ uids f ∨ (env v).isSome) → (env' v).isSome := by
  induction f with
  | nil =>
    intro env env' hor rect fu dd h v hv
    simp only [setKids] at h
    injection h with h; subst h
    simpa [uids] using hv
  | node u a kids rest ihk ihr =>
    intro env env' hor rect fu dd h v hv
    obtain ⟨r, dd', env1, hcr, h1, h2⟩ := setKids_node h
    unfold setRect at h1
    apply ihr _ _ _ _ _ _ h2
    simp only [uids, List.mem_cons, List.mem_append] at hv
    by_cases hvr : v ∈ uids rest
    · left; exact hvr
    · right
      apply ihk _ _ _ _ _ _ h1
      by_cases hvk : v ∈ uids kids
      · left; exact hvk
      · right
        unfold Env.set
        split
        · rfl
        · rename_i hvu
          rcases hv with (hv | hv | hv) | hv
          · exact absurd hv hvu
          · exact absurd hv hvk
          · exact absurd hv hvr
          · exact hv

theorem setRect_some {env env' : Env} {u : Nat} {a : Attrs} {kids : Forest} {r : Rect}
    (h : setRect env u a kids r = .ok env') : ∀ v ∈ u :: uids kids, (env' v).isSome := by
  intro v hv
  unfold setRect at h
  apply setKids_some _ _ _ _ _ _ _ h
  rcases List.mem_cons.mp hv with rfl | hv
  · right; simp [Env.set]
  · left; exact hv

/-! ### translation -/

theorem compute_move {e1 e2 : Env} {p : Pos} (hp : Fixed p) {o full self v d : Rat}
    (h : p.compute e1 o full self = .ok v) : p.compute e2 (o + d) full self = .ok (v + d) := by
  cases p with
  | empty => cases h
  | fix q => injection h with h; subst h; simp only [Pos.compute]; congr 1; ring
  | ratio q => injection h with h; subst h; simp only [Pos.compute]; congr 1; ring
  | align q => injection h with h; subst h; simp only [Pos.compute]; congr 1; ring
  | ref u hor w => exact hp.elim
  | map f w => exact hp.elim
  | fn u f => exact hp.elim

theorem size_static {e1 e2 : Env} {s : Size} (hs : s.lazy = none) {full : Rat} {u : Option Rat} :
    s.compute e2 full u = s.compute e1 full u := by
  unfold Size.compute; rw [hs]

theorem ok_eq {x y w h d x' y' d' : Rat} (hx : x = x') (hy : y = y') (hd : d = d') :
    (Except.ok (⟨x, y, w, h⟩, d) : Except Err (Rect × Rat)) = .ok (⟨x', y', w, h⟩, d') := by
  subst hx; subst hy; subst hd; rfl

theorem childRect_move {e1 e2 : Env} {hor : Bool} {rect : Rect} {fu dd dx dy : Rat} {a : Attrs}
    {kids : Forest} {r : Rect} {dd' : Rat} (hs : NoDynamic a)
    (h : childRect e1 hor rect fu dd a (sizeRequest a (requests kids)) = .ok (r, dd')) :
    childRect e2 hor (move dx dy rect) fu (dd + if hor then dx else dy) a (sizeRequest a (requests kids)) =
      .ok (move dx dy r, dd' + if hor then dx else dy) := by
  have l1 : (sizeRequest a (requests kids)).1.lazy = none := (request_fields true a (requests kids)).2.2.trans (hs true).2
  have l2 : (sizeRequest a (requests kids)).2.lazy = none := (request_fields false a (requests kids)).2.2.trans (hs false).2
  have hfx : ∀ p, a.x = some p → Fixed p := fun p hp => (hs true).1 p (by simpa [posOn] using hp)
  have hfy : ∀ p, a.y = some p → Fixed p := fun p hp => (hs false).1 p (by simpa [posOn] using hp)
  generalize sizeRequest a (requests kids) = rq at h l1 l2
  unfold childRect at h ⊢
  cases hor with
  | false =>
    simp only [Bool.not_false, if_true, Bool.false_eq_true, if_false] at h ⊢
    simp only [size_static (e1 := e1) (e2 := e2) l1, size_static (e1 := e1) (e2 := e2) l2, move]
    split at h
    · cases h
    · rename_i w hw
      split at h
      · cases h
      · rename_i w2 hw2
        cases hx : a.x with
        | none =>
          rw [hx] at h
          cases hy : a.y with
          | none =>
            rw [hy] at h
            injection h with h; injection h with g1 g2; subst g1; subst g2
            exact ok_eq (by ring) (by ring) (by ring)
          | some p =>
            rw [hy] at h
            simp only at h ⊢
            split at h
            · cases h
            · rename_i y hy'
              rw [compute_move (e2 := e2) (d := dy) (hfy p hy) hy']
              injection h with h; injection h with g1 g2; subst g1; subst g2
              exact ok_eq (by ring) (by ring) (by ring)
        | some px =>
          rw [hx] at h
          simp only at h ⊢
          split at h
          · cases h
          · rename_i x hx'
            rw [compute_move (e2 := e2) (d := dx) (hfx px hx) hx']
            cases hy : a.y with
            | none =>
              rw [hy] at h
              injection h with h; injection h with g1 g2; subst g1; subst g2
              exact ok_eq (by ring) (by ring) (by ring)
            | some p =>
              rw [hy] at h
              simp only at h ⊢
              split at h
              · cases h
              · rename_i y hy'
                rw [compute_move (e2 := e2) (d := dy) (hfy p hy) hy']
                injection h with h; injection h with g1 g2; subst g1; subst g2
                rfl
  | true =>
    simp only [Bool.not_true, Bool.false_eq_true, if_false, if_true] at h ⊢
    simp only [size_static (e1 := e1) (e2 := e2) l1, size_static (e1 := e1) (e2 := e2) l2, move]
    split at h
    · cases h
    · rename_i w hw
      split at h
      · cases h
      · rename_i w2 hw2
        cases hx : a.y with
        | none =>
          rw [hx] at h
          cases hy : a.x with
          | none =>
            rw [hy] at h
            injection h with h; injection h with g1 g2; subst g1; subst g2
            exact ok_eq (by ring) (by ring) (by ring)
          | some p =>
            rw [hy] at h
            simp only at h ⊢
            split at h
            · cases h
            · rename_i y hy'
              rw [compute_move (e2 := e2) (d := dx) (hfx p hy) hy']
              injection h with h; injection h with g1 g2; subst g1; subst g2
              exact ok_eq (by ring) (by ring) (by ring)
        | some px =>
          rw [hx] at h
          simp only at h ⊢
          split at h
          · cases h
          · rename_i x hx'
            rw [compute_move (e2 := e2) (d := dy) (hfy px hx) hx']
            cases hy : a.x with
            | none =>
              rw [hy] at h
              injection h with h; injection h with g1 g2; subst g1; subst g2
              exact ok_eq (by ring) (by ring) (by ring)
            | some p =>
              rw [hy] at h
              simp only at h ⊢
              split at h
              · cases h
              · rename_i y hy'
                rw [compute_move (e2 := e2) (d := dx) (hfx p hy) hy']
                injection h with h; injection h with g1 g2; subst g1; subst g2
                rfl

theorem inner_move (a : Attrs) (dx dy : Rat) (r : Rect) : a.inner (move dx dy r) = move dx dy (a.inner r) := by
  cases r; simp only [Attrs.inner, Rect.shrink, move, Rect.mk.injEq]
  exact ⟨by ring, by ring, trivial, trivial⟩

theorem fillUnitAndStart_move (hor : Bool) (dx dy : Rat) (r : Rect) (rqs : List (Attrs × Size × Size)) :
    fillUnitAndStart hor (move dx dy r) rqs =
      ((fillUnitAndStart hor r rqs).1, (fillUnitAndStart hor r rqs).2 + if hor then dx else dy) := by
  unfold fillUnitAndStart
  cases hor
  · simp only [move, Bool.false_eq_true, if_false]
    split
    · simp only [Prod.mk.injEq, true_and]; ring
    · simp only [Prod.mk.injEq, true_and]; ring
  · simp only [move, if_true]
    split
    · simp only [Prod.mk.injEq, true_and]; ring
    · simp only [Prod.mk.injEq, true_and]; ring

theorem setKids_move (dx dy : Rat) (f : Forest) : ∀ (e1 e2 e1' : Env) (hor : Bool) (rect : Rect) (fu dd : Rat),
    (∀ b ∈ boxes f, NoDynamic b.2.1) → setKids e1 hor rect fu dd f = .ok e1' →
    ∃ e2', setKids e2 hor (move dx dy rect) fu (dd + if hor then dx else dy) f = .ok e2' ∧
      ∀ v, (v ∈ uids f ∨ e2 v = (e1 v).map (move dx dy)) → e2' v = (e1' v).map (move dx dy) := by
  induction f with
  | nil =>
    intro e1 e2 e1' hor rect fu dd _ h
    simp only [setKids] at h
    injection h with h; subst h
    exact ⟨e2, rfl, fun v hv => by simpa [uids] using hv⟩
  | node u a kids rest ihk ihr =>
    intro e1 e2 e1' hor rect fu dd hs h
    obtain ⟨r, dd', env1, hcr, h1, h2⟩ := setKids_node h
    unfold setRect at h1
    obtain ⟨e2a, hk, hea⟩ := ihk _ (e2.set u (a.inner (move dx dy r))) _ _ _ _ _
      (fun b hb => hs b (by simp [boxes, hb])) h1
    obtain ⟨e2b, hr, heb⟩ := ihr _ e2a _ _ _ _ _ (fun b hb => hs b (by simp [boxes, hb])) h2
    refine ⟨e2b, ?_, ?_⟩
    · simp only [setKids]
      rw [childRect_move (e2 := e2) (hs (u, a, kids) (by simp [boxes])) hcr]
      simp only
      rw [inner_move, fillUnitAndStart_move]
      simp only
      rw [inner_move] at hk
      rw [hk]
      exact hr
    · intro v hv
      apply heb
      by_cases hvr : v ∈ uids rest
      · left; exact hvr
      · right
        apply hea
        by_cases hvk : v ∈ uids kids
        · left; exact hvk
        · right
          unfold Env.set
          split
          · simp [inner_move]
          · rename_i hvu
            simp only [uids, List.mem_cons, List.mem_append, hvu, hvk, hvr, or_self, false_or] at hv
            exact hv

end Verif.Layout
