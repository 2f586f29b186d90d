import Verif.Spec.Layout
import Mathlib.Tactic.Linarith
import Mathlib.Tactic.Ring
import Mathlib.Tactic.FieldSimp
import Mathlib.Algebra.BigOperators.Group.List.Basic
import Mathlib.Data.List.Chain

/-! Helper lemmas for layout. -/

namespace Verif.Layout
open Spec

theorem managed_iff (hor : Bool) (a : Attrs) : a.managed hor = true ↔ Managed hor a := by
  unfold Attrs.managed Managed; cases hor <;> simp

/-- What `childRect` computed. -/
theorem childRect_ok {env : Env} {hor : Bool} {rect : Rect} {fu dd : Rat} {a : Attrs} {rq : Size × Size}
    {r : Rect} {dd' : Rat} (h : childRect env hor rect fu dd a rq = .ok (r, dd')) :
    rq.1.compute env rect.width (if hor then some fu else none) = .ok r.width ∧
    rq.2.compute env rect.height (if hor then none else some fu) = .ok r.height ∧
    (∀ p, a.x = some p → p.compute env rect.x rect.width r.width = .ok r.x) ∧
    (∀ p, a.y = some p → p.compute env rect.y (if hor then rect.width else rect.height) r.height = .ok r.y) ∧
    (a.x = none → r.x = if hor then dd else rect.x + (rect.width - r.width) / 2) ∧
    (a.y = none → r.y = if hor then rect.y + (rect.height - r.height) / 2 else dd) ∧
    dd' = if Managed hor a then dd + extent hor r else dd := by
  unfold childRect at h
  cases hor with
  | false =>
    simp only [Bool.not_false, if_true, Bool.false_eq_true, if_false, Managed, extent] at h ⊢
    split at h
    · cases h
    · rename_i w hw
      split at h
      · cases h
      · rename_i h0 hh
        split at h
        · cases h
        · rename_i x hx
          cases hy : a.y with
          | none =>
            rw [hy] at h
            injection h with h; injection h with h1 h2
            subst h1; subst h2
            refine ⟨hw, hh, ?_, ?_, ?_, ?_, ?_⟩
            · intro p hp; rw [hp] at hx; exact hx
            · intro p hp; cases hp
            · intro hn; rw [hn] at hx; injection hx with hx; exact hx.symm
            · intro _; rfl
            · simp
          | some p =>
            rw [hy] at h
            simp only at h
            split at h
            · cases h
            · rename_i y hy'
              injection h with h; injection h with h1 h2
              subst h1; subst h2
              refine ⟨hw, hh, ?_, ?_, ?_, ?_, ?_⟩
              · intro p hp; rw [hp] at hx; exact hx
              · intro p' hp; injection hp with hp; subst hp; exact hy'
              · intro hn; rw [hn] at hx; injection hx with hx; exact hx.symm
              · intro hn; cases hn
              · simp
  | true =>
    simp only [Bool.not_true, Bool.false_eq_true, if_false, if_true, Managed, extent] at h ⊢
    split at h
    · cases h
    · rename_i w hw
      split at h
      · cases h
      · rename_i h0 hh
        split at h
        · cases h
        · rename_i y hy
          cases hx : a.x with
          | none =>
            rw [hx] at h
            injection h with h; injection h with h1 h2
            subst h1; subst h2
            refine ⟨hw, hh, ?_, ?_, ?_, ?_, ?_⟩
            · intro p hp; cases hp
            · intro p hp; rw [hp] at hy; exact hy
            · intro _; rfl
            · intro hn; rw [hn] at hy; injection hy with hy; exact hy.symm
            · simp
          | some p =>
            rw [hx] at h
            simp only at h
            split at h
            · cases h
            · rename_i x hx'
              injection h with h; injection h with h1 h2
              subst h1; subst h2
              refine ⟨hw, hh, ?_, ?_, ?_, ?_, ?_⟩
              · intro p' hp; injection hp with hp; subst hp; exact hx'
              · intro p hp; rw [hp] at hy; exact hy
              · intro hn; cases hn
              · intro hn; rw [hn] at hy; injection hy with hy; exact hy.symm
              · simp

theorem grow_inner (a : Attrs) (r : Rect) : grow a (a.inner r) = r := by
  cases r; simp only [grow, Attrs.inner, Rect.shrink, Rect.mk.injEq]
  refine ⟨by ring, by ring, by ring, by ring⟩

/-- `setKids` on a nonempty forest. -/
theorem setKids_node {env : Env} {hor : Bool} {rect : Rect} {fu dd : Rat} {u : Nat} {a : Attrs}
    {kids rest : Forest} {env' : Env} (h : setKids env hor rect fu dd (.node u a kids rest) = .ok env') :
    ∃ r dd' env1, childRect env hor rect fu dd a (sizeRequest a (requests kids)) = .ok (r, dd') ∧
      setRect env u a kids r = .ok env1 ∧ setKids env1 hor rect fu dd' rest = .ok env' := by
  simp only [setKids] at h
  split at h
  · cases h
  · rename_i r dd' hc
    split at h
    · cases h
    · rename_i env1 h1
      exact ⟨r, dd', env1, hc, h1, h⟩

/-- Layouts outside the forest are not touched. -/
theorem setKids_frame (f : Forest) : ∀ (env env' : Env) (hor : Bool) (rect : Rect) (fu dd : Rat),
    setKids env hor rect fu dd f = .ok env' → ∀ v, v ∉ uids f → env' v = env v := by
  induction f with
  | nil => intro env env' hor rect fu dd h v _; simp [setKids] at h; rw [h]
  | node u a kids rest ihk ihr =>
    intro env env' hor rect fu dd h v hv
    obtain ⟨r, dd', env1, hc, h1, h2⟩ := setKids_node h
    simp only [uids, List.mem_cons, List.mem_append, not_or] at hv
    rw [ihr _ _ _ _ _ _ h2 v hv.2.2]
    unfold setRect at h1
    rw [ihk _ _ _ _ _ _ h1 v hv.2.1]
    simp [Env.set, hv.1]

theorem setRect_self {env env' : Env} {u : Nat} {a : Attrs} {kids : Forest} {r : Rect}
    (h : setRect env u a kids r = .ok env') (hu : u ∉ uids kids) : env' u = some (a.inner r) := by
  unfold setRect at h
  rw [setKids_frame _ _ _ _ _ _ _ h u hu]
  simp [Env.set]

/-- A recursive description of what `setKids` does. -/
theorem setKids_cons {env : Env} {hor : Bool} {rect : Rect} {fu dd : Rat} {u : Nat} {a : Attrs}
    {kids rest : Forest} {env' : Env} (hn : (uids (.node u a kids rest)).Nodup)
    (h : setKids env hor rect fu dd (.node u a kids rest) = .ok env') :
    ∃ r dd' env1, childRect env hor rect fu dd a (sizeRequest a (requests kids)) = .ok (r, dd') ∧
      setRect env u a kids r = .ok env1 ∧ setKids env1 hor rect fu dd' rest = .ok env' ∧
      env' u = some (a.inner r) ∧ (∀ v ∈ uids kids, env' v = env1 v) ∧
      (uids kids).Nodup ∧ (uids rest).Nodup ∧ u ∉ uids kids := by
  obtain ⟨r, dd', env1, hc, h1, h2⟩ := setKids_node h
  simp only [uids, List.nodup_cons, List.mem_append, not_or, List.nodup_append] at hn
  obtain ⟨⟨hu1, hu2⟩, hk, hr, hd⟩ := hn
  refine ⟨r, dd', env1, hc, h1, h2, ?_, ?_, hk, hr, hu1⟩
  · rw [setKids_frame _ _ _ _ _ _ _ h2 u hu2, setRect_self h1 hu1]
  · intro v hv
    exact setKids_frame _ _ _ _ _ _ _ h2 v (fun hv2 => hd v hv v hv2 rfl)

/-- Rectangles following each other from `dd` on. -/
def stacked (hor : Bool) (dd : Rat) : List Rect → Prop
  | [] => True
  | r :: rs => start hor r = dd ∧ stacked hor (dd + extent hor r) rs

theorem setKids_stacked (f : Forest) : ∀ (env env' : Env) (hor : Bool) (rect : Rect) (fu dd : Rat),
    (uids f).Nodup → setKids env hor rect fu dd f = .ok env' → stacked hor dd (managedRects env' hor f) := by
  induction f with
  | nil => intro env env' hor rect fu dd _ _; trivial
  | node u a kids rest ihk ihr =>
    intro env env' hor rect fu dd hn h
    obtain ⟨r, dd', env1, hc, h1, h2, hu, hk, nk, nr, nu⟩ := setKids_cons hn h
    have hrest := ihr _ _ _ _ _ _ nr h2
    obtain ⟨_, _, _, _, hx, hy, hdd⟩ := childRect_ok hc
    by_cases hm : Managed hor a
    · have hl : managedRects env' hor (.node u a kids rest) = r :: managedRects env' hor rest := by
        simp [managedRects, tops, hm, hu, grow_inner]
      rw [hl]
      rw [if_pos hm] at hdd
      refine ⟨?_, hdd ▸ hrest⟩
      unfold Managed at hm
      cases hor with
      | false => simp at hm; simpa [start] using hy hm
      | true => simp at hm; simpa [start] using hx hm
    · have hl : managedRects env' hor (.node u a kids rest) = managedRects env' hor rest := by
        simp [managedRects, tops, hm]
      rw [hl]
      rw [if_neg hm] at hdd
      exact hdd ▸ hrest

/-! ### free space -/

/-- The space a managed child of request `rq` takes out of `rectSize`, if it does not fill. -/
def taken (rectSize : Rat) (rq : Size) : Rat :=
  if rq.fill ≠ 0 then 0
  else match rq.ratio with
    | some q => if q ≠ 0 then max rq.minSize (q * rectSize) else rq.minSize
    | none => rq.minSize

theorem fillsAndFree_eq (hor : Bool) (rectSize : Rat) (rqs : List (Attrs × Size × Size)) :
    fillsAndFree hor rectSize rqs =
      let m := (rqs.filter (fun r => r.1.managed hor)).map (fun r => if hor then r.2.1 else r.2.2)
      ((m.map (·.fill)).sum, rectSize - (m.map (taken rectSize)).sum) := by
  unfold fillsAndFree
  generalize rqs.filter (fun r => r.1.managed hor) = l
  have aux : ∀ (l : List (Attrs × Size × Size)) (n : Nat) (q : Rat),
      l.foldl (fun (acc : Nat × Rat) r =>
        let rq := if hor then r.2.1 else r.2.2
        if rq.fill ≠ 0 then (acc.1 + rq.fill, acc.2)
        else
          match rq.ratio with
          | some q => if q ≠ 0 then (acc.1, acc.2 - max rq.minSize (q * rectSize)) else (acc.1, acc.2 - rq.minSize)
          | none => (acc.1, acc.2 - rq.minSize)) (n, q) =
      (n + ((l.map (fun r => if hor then r.2.1 else r.2.2)).map (·.fill)).sum,
        q - ((l.map (fun r => if hor then r.2.1 else r.2.2)).map (taken rectSize)).sum) := by
    intro l
    induction l with
    | nil => intro n q; simp
    | cons r l ih =>
      intro n q
      rw [List.foldl_cons]
      simp only [List.map_cons, List.sum_cons]
      generalize (if hor then r.2.1 else r.2.2) = rq
      by_cases hf : rq.fill ≠ 0
      · simp only [if_pos hf, ih, taken, Prod.mk.injEq]
        exact ⟨by omega, by ring⟩
      · rw [if_neg hf]
        have hf0 : rq.fill = 0 := not_not.mp hf
        cases hr : rq.ratio with
        | none =>
          simp only [ih, taken, if_neg hf, hr, Prod.mk.injEq]
          exact ⟨by omega, by ring⟩
        | some x =>
          by_cases hx : x ≠ 0
          · simp only [if_pos hx, ih, taken, if_neg hf, hr, Prod.mk.injEq]
            exact ⟨by omega, by ring⟩
          · simp only [if_neg hx, ih, taken, if_neg hf, hr, Prod.mk.injEq]
            exact ⟨by omega, by ring⟩
  have := aux l 0 rectSize
  rw [Nat.zero_add] at this
  exact this

theorem ensure_fields (s : Size) (q : Rat) : (s.ensure q).fill = s.fill ∧ (s.ensure q).ratio = s.ratio ∧
    (s.ensure q).lazy = s.lazy ∧ (s.ensure q).minSize = max s.minSize q := by
  unfold Size.ensure
  split
  · rename_i h; exact ⟨rfl, rfl, rfl, (max_eq_left h).symm⟩
  · rename_i h; exact ⟨rfl, rfl, rfl, (max_eq_right (le_of_not_ge h)).symm⟩

theorem sizeRequest_fill (a : Attrs) (rqs : List (Attrs × Size × Size)) (hor : Bool) :
    (if hor then (sizeRequest a rqs).1 else (sizeRequest a rqs).2).fill = fillOf hor a ∧
    (if hor then (sizeRequest a rqs).1 else (sizeRequest a rqs).2).lazy = (sizeOn hor a).lazy := by
  cases hor <;> simp [sizeRequest, fillOf, sizeOn, ensure_fields]

/-- Size of a static child on the main axis. -/
theorem compute_main {env : Env} {s : Size} {full u w : Rat} (hl : s.lazy = none)
    (h : s.compute env full (some u) = .ok w) : w = u * s.fill + taken full s := by
  unfold Size.compute at h
  rw [hl] at h
  simp only at h
  unfold taken
  by_cases hf : s.fill ≠ 0
  · rw [if_pos hf] at h ⊢
    injection h with h; rw [← h]; ring
  · rw [if_neg hf] at h ⊢
    have hf0 : s.fill = 0 := not_not.mp hf
    rw [hf0]
    cases hr : s.ratio with
    | none => rw [hr] at h; injection h with h; simp [← h]
    | some q =>
      rw [hr] at h
      simp only at h ⊢
      by_cases hq : q ≠ 0
      · rw [if_pos hq] at h ⊢; injection h with h
        rw [← h, max_comm, mul_comm q full]; simp
      · rw [if_neg hq] at h ⊢; injection h with h; simp [← h]

/-- The managed sizes on the main axis, one by one. -/
theorem setKids_extents (f : Forest) : ∀ (env env' : Env) (hor : Bool) (rect : Rect) (fu dd : Rat),
    (uids f).Nodup → (∀ c ∈ tops f, Managed hor c.2.1 → Static hor c.2.1) →
    setKids env hor rect fu dd f = .ok env' →
    (managedRects env' hor f).map (extent hor) =
      (((requests f).filter (fun r => r.1.managed hor)).map (fun r => if hor then r.2.1 else r.2.2)).map
        (fun s => fu * s.fill + taken (if hor then rect.width else rect.height) s) := by
  induction f with
  | nil => intro env env' hor rect fu dd _ _ _; rfl
  | node u a kids rest ihk ihr =>
    intro env env' hor rect fu dd hn hs h
    obtain ⟨r, dd', env1, hc, h1, h2, hu, hk, nk, nr, nu⟩ := setKids_cons hn h
    have hrest := ihr _ _ _ _ _ _ nr (fun c hc => hs c (by simp [tops, hc])) h2
    obtain ⟨hw, hh, _⟩ := childRect_ok hc
    by_cases hm : Managed hor a
    · have hl : managedRects env' hor (.node u a kids rest) = r :: managedRects env' hor rest := by
        simp [managedRects, tops, hm, hu, grow_inner]
      rw [hl]
      simp only [requests, List.filter_cons, (managed_iff hor a).mpr hm, if_true, List.map_cons]
      rw [hrest]
      congr 1
      have hst := hs (u, a, kids) (by simp [tops]) hm
      have hlz := (sizeRequest_fill a (requests kids) hor).2
      unfold Static at hst
      simp only at hst
      rw [hst] at hlz
      cases hor with
      | false => simp at hh hlz ⊢; exact compute_main hlz hh
      | true => simp at hw hlz ⊢; exact compute_main hlz hw
    · have hl : managedRects env' hor (.node u a kids rest) = managedRects env' hor rest := by
        simp [managedRects, tops, hm]
      rw [hl, hrest]
      have : a.managed hor = false := by
        rw [← Bool.not_eq_true, managed_iff]; exact hm
      simp [requests, List.filter_cons, this]

theorem requests_fills (f : Forest) (hor : Bool) :
    ((((requests f).filter (fun r => r.1.managed hor)).map (fun r => if hor then r.2.1 else r.2.2)).map
      (·.fill)) = ((tops f).filter (fun c => Managed hor c.2.1)).map (fun c => fillOf hor c.2.1) := by
  induction f with
  | nil => rfl
  | node u a kids rest ihk ihr =>
    simp only [requests, tops, List.filter_cons]
    by_cases hm : Managed hor a
    · simp only [(managed_iff hor a).mpr hm, if_true, List.map_cons, hm, decide_true, ihr,
        (sizeRequest_fill a (requests kids) hor).1]
    · have : a.managed hor = false := by
        rw [← Bool.not_eq_true, managed_iff]; exact hm
      simp [this, hm, ihr]

theorem sum_map_add_mul (l : List Size) (u : Rat) (g : Size → Rat) :
    (l.map (fun s => u * s.fill + g s)).sum = u * ((l.map (·.fill)).sum : Nat) + (l.map g).sum := by
  induction l with
  | nil => simp
  | cons s l ih => simp only [List.map_cons, List.sum_cons, ih, Nat.cast_add]; ring

/-! ### every box of the tree -/

theorem tops_mem_uids {f : Forest} {c : Nat × Attrs × Forest} (h : c ∈ tops f) : c.1 ∈ uids f := by
  induction f with
  | nil => cases h
  | node u a kids rest ihk ihr =>
    simp only [tops, List.mem_cons] at h
    simp only [uids, List.mem_cons, List.mem_append]
    rcases h with rfl | h
    · left; rfl
    · right; right; exact ihr h

theorem setRect_frame {env env' : Env} {u : Nat} {a : Attrs} {kids : Forest} {r : Rect}
    (h : setRect env u a kids r = .ok env') : ∀ v, v ∉ u :: uids kids → env' v = env v := by
  intro v hv
  unfold setRect at h
  simp only [List.mem_cons, not_or] at hv
  rw [setKids_frame _ _ _ _ _ _ _ h v hv.2]
  simp [Env.set, hv.1]

/-- A direct child: the state in which its rectangle was computed. -/
theorem setKids_top (f : Forest) : ∀ (env env' : Env) (hor : Bool) (rect : Rect) (fu dd : Rat),
    (uids f).Nodup → setKids env hor rect fu dd f = .ok env' → ∀ c ∈ tops f,
    ∃ e r dd0 dd1 pre post, uids f = pre ++ c.1 :: post ∧
      childRect e hor rect fu dd0 c.2.1 (sizeRequest c.2.1 (requests c.2.2)) = .ok (r, dd1) ∧
      env' c.1 = some (c.2.1.inner r) ∧ ∀ v, v ∉ c.1 :: post → env' v = e v := by
  induction f with
  | nil => intro env env' hor rect fu dd _ _ c hc; cases hc
  | node u a kids rest ihk ihr =>
    intro env env' hor rect fu dd hn h c hc
    obtain ⟨r, dd', env1, hcr, h1, h2, hu, hk, nk, nr, nu⟩ := setKids_cons hn h
    simp only [tops, List.mem_cons] at hc
    rcases hc with rfl | hc
    · refine ⟨env, r, dd, dd', [], uids kids ++ uids rest, rfl, hcr, hu, ?_⟩
      intro v hv
      exact setKids_frame _ _ _ _ _ _ _ h v (by simpa [uids] using hv)
    · obtain ⟨e, r', dd0, dd1, pre, post, he, hcr', hu', hf⟩ := ihr _ _ _ _ _ _ nr h2 c hc
      refine ⟨e, r', dd0, dd1, u :: (uids kids ++ pre), post, ?_, hcr', hu', hf⟩
      simp [uids, he]

/-- Any layout of the forest: the call of `set_rect` for it. -/
theorem setKids_box (f : Forest) : ∀ (env env' : Env) (hor : Bool) (rect : Rect) (fu dd : Rat),
    (uids f).Nodup → setKids env hor rect fu dd f = .ok env' → ∀ b ∈ boxes f,
    ∃ e1 e2 r pre post, uids f = pre ++ (b.1 :: uids b.2.2) ++ post ∧
      setRect e1 b.1 b.2.1 b.2.2 r = .ok e2 ∧ ∀ v, v ∉ post → env' v = e2 v := by
  induction f with
  | nil => intro env env' hor rect fu dd _ _ c hc; cases hc
  | node u a kids rest ihk ihr =>
    intro env env' hor rect fu dd hn h b hb
    obtain ⟨r, dd', env1, hcr, h1, h2, hu, hk, nk, nr, nu⟩ := setKids_cons hn h
    simp only [boxes, List.mem_cons, List.mem_append] at hb
    rcases hb with rfl | hb | hb
    · refine ⟨env, env1, r, [], uids rest, by simp [uids], h1, ?_⟩
      intro v hv
      exact setKids_frame _ _ _ _ _ _ _ h2 v hv
    · have h1' := h1
      unfold setRect at h1'
      obtain ⟨e1, e2, r', pre, post, he, hs, hf⟩ := ihk _ _ _ _ _ _ nk h1' b hb
      refine ⟨e1, e2, r', u :: pre, post ++ uids rest, by simp [uids, he], hs, ?_⟩
      intro v hv
      simp only [List.mem_append, not_or] at hv
      rw [setKids_frame _ _ _ _ _ _ _ h2 v hv.2]
      exact hf v hv.1
    · obtain ⟨e1, e2, r', pre, post, he, hs, hf⟩ := ihr _ _ _ _ _ _ nr h2 b hb
      refine ⟨e1, e2, r', u :: (uids kids ++ pre), post, by simp [uids, he], hs, hf⟩

/-- Any layout of a laid out tree, including the root. -/
theorem setRect_box {env env' : Env} {u : Nat} {a : Attrs} {kids : Forest} {rect : Rect}
    (hn : (uids (.node u a kids .nil)).Nodup) (h : setRect env u a kids rect = .ok env') :
    ∀ b ∈ boxes (.node u a kids .nil),
    ∃ e1 e2 r pre post, uids (.node u a kids .nil) = pre ++ (b.1 :: uids b.2.2) ++ post ∧
      setRect e1 b.1 b.2.1 b.2.2 r = .ok e2 ∧ (∀ v, v ∉ post → env' v = e2 v) ∧
      (b.1 :: uids b.2.2).Nodup ∧ (∀ v ∈ b.1 :: uids b.2.2, v ∉ post) ∧
      env' b.1 = some (b.2.1.inner r) := by
  intro b hb
  have key : ∃ e1 e2 r pre post, uids (.node u a kids .nil) = pre ++ (b.1 :: uids b.2.2) ++ post ∧
      setRect e1 b.1 b.2.1 b.2.2 r = .ok e2 ∧ (∀ v, v ∉ post → env' v = e2 v) := by
    simp only [boxes, List.append_nil, List.mem_cons] at hb
    rcases hb with rfl | hb
    · exact ⟨env, env', rect, [], [], by simp [uids], h, fun _ _ => rfl⟩
    · have h' := h
      unfold setRect at h'
      obtain ⟨e1, e2, r, pre, post, he, hs, hf⟩ := setKids_box kids _ _ _ _ _ _ (by
        simp only [uids, List.append_nil, List.nodup_cons] at hn; exact hn.2) h' b hb
      exact ⟨e1, e2, r, u :: pre, post, by simp [uids, he], hs, hf⟩
  obtain ⟨e1, e2, r, pre, post, he, hs, hf⟩ := key
  have hn' := hn
  rw [he] at hn'
  have hn1 : (b.1 :: uids b.2.2).Nodup := (List.nodup_append.mp (List.nodup_append.mp hn').1).2.1
  have hd : ∀ v ∈ b.1 :: uids b.2.2, v ∉ post := by
    intro v hv hp
    exact (List.nodup_append.mp hn').2.2 v (List.mem_append.mpr (Or.inr hv)) v hp rfl
  refine ⟨e1, e2, r, pre, post, he, hs, hf, hn1, hd, ?_⟩
  rw [hf b.1 (hd b.1 (by simp))]
  exact setRect_self hs (List.nodup_cons.mp hn1).1

theorem managedRects_congr {env env' : Env} {hor : Bool} {f : Forest} (h : ∀ v ∈ uids f, env v = env' v) :
    managedRects env hor f = managedRects env' hor f := by
  unfold managedRects
  apply List.filterMap_congr
  intro c hc
  rw [h c.1 (tops_mem_uids hc)]

/-- Any direct child of any layout of a laid out tree. -/
theorem setRect_child {env env' : Env} {u : Nat} {a : Attrs} {kids : Forest} {rect : Rect}
    (hn : (uids (.node u a kids .nil)).Nodup) (h : setRect env u a kids rect = .ok env') :
    ∀ b ∈ boxes (.node u a kids .nil), ∀ c ∈ tops b.2.2,
    ∃ e p r fu dd0 dd1 pre post, uids (.node u a kids .nil) = pre ++ c.1 :: post ∧
      env' b.1 = some p ∧ env' c.1 = some (c.2.1.inner r) ∧
      childRect e b.2.1.horizontal p fu dd0 c.2.1 (sizeRequest c.2.1 (requests c.2.2)) = .ok (r, dd1) ∧
      ∀ v, v ∉ c.1 :: post → env' v = e v := by
  intro b hb c hc
  obtain ⟨e1, e2, r, pre, post, he, hs, hf, hn1, hd, hself⟩ := setRect_box hn h b hb
  have hs' := hs
  unfold setRect at hs'
  obtain ⟨e, rc, dd0, dd1, pre', post', he', hcr, hu, hf'⟩ :=
    setKids_top _ _ _ _ _ _ _ (List.nodup_cons.mp hn1).2 hs' c hc
  refine ⟨e, b.2.1.inner r, rc, _, dd0, dd1, pre ++ b.1 :: pre', post' ++ post, ?_, hself, ?_, hcr, ?_⟩
  · rw [he, he']; simp
  · rw [hf c.1 (hd c.1 (List.mem_cons_of_mem _ (tops_mem_uids hc))), hu]
  · intro v hv
    simp only [List.mem_cons, List.mem_append, not_or] at hv
    rw [hf v hv.2.2]
    exact hf' v (by simp [hv.1, hv.2.1])

/-! ### stacking -/

theorem stacked_chain {hor : Bool} : ∀ (rs : List Rect) (dd : Rat), stacked hor dd rs →
    rs.IsChain (fun p q => start hor q = start hor p + extent hor p)
  | [], _, _ => List.isChain_nil
  | [_], _, _ => List.isChain_singleton _
  | r :: r' :: rs, dd, h => by
    rw [List.isChain_cons_cons]
    refine ⟨?_, stacked_chain (r' :: rs) _ h.2⟩
    rw [h.2.1, h.1]

theorem stacked_head {hor : Bool} {rs : List Rect} {dd : Rat} {r : Rect} (h : stacked hor dd rs)
    (hr : rs.head? = some r) : start hor r = dd := by
  cases rs with
  | nil => cases hr
  | cons r' rs => injection hr with hr; subst hr; exact h.1

theorem stacked_last {hor : Bool} : ∀ (rs : List Rect) (dd : Rat), stacked hor dd rs → ∀ r,
    rs.getLast? = some r → start hor r + extent hor r = dd + (rs.map (extent hor)).sum
  | [], _, _, _, hr => by cases hr
  | [r'], dd, h, r, hr => by
    injection hr with hr; subst hr
    simp [h.1]
  | r' :: r'' :: rs, dd, h, r, hr => by
    rw [List.getLast?_cons_cons] at hr
    rw [stacked_last (r'' :: rs) _ h.2 r hr, List.map_cons, List.sum_cons, List.map_cons, List.sum_cons,
      List.map_cons, List.sum_cons]
    ring

theorem managedRects_length {env : Env} {hor : Bool} {f : Forest} (h : ∀ c ∈ tops f, (env c.1).isSome) :
    (managedRects env hor f).length = ((tops f).filter (fun c => Managed hor c.2.1)).length := by
  unfold managedRects
  generalize tops f = l at h ⊢
  induction l with
  | nil => rfl
  | cons c l ih =>
    have ih' := ih (fun c hc => h c (by simp [hc]))
    obtain ⟨r, hr⟩ := Option.isSome_iff_exists.mp (h c (by simp))
    by_cases hm : Managed hor c.2.1
    · simp [hm, hr, ih', List.filterMap_cons]
    · simp [hm, ih', List.filterMap_cons]

theorem setRect_mainAxis {env env' : Env} {u : Nat} {a : Attrs} {kids : Forest} {rect : Rect}
    (hn : (uids kids).Nodup) (hs : ∀ c ∈ tops kids, Managed a.horizontal c.2.1 → Static a.horizontal c.2.1)
    (h : setRect env u a kids rect = .ok env') :
    let fills := (((tops kids).filter (fun c => Managed a.horizontal c.2.1)).map (fun c => fillOf a.horizontal c.2.1)).sum
    let total := ((managedRects env' a.horizontal kids).map (extent a.horizontal)).sum
    ∃ free, (fills = 0 → stacked a.horizontal (start a.horizontal (a.inner rect) + free / 2) (managedRects env' a.horizontal kids) ∧
        total = extent a.horizontal (a.inner rect) - free) ∧
      (fills ≠ 0 → stacked a.horizontal (start a.horizontal (a.inner rect)) (managedRects env' a.horizontal kids) ∧
        total = extent a.horizontal (a.inner rect)) := by
  intro fills total
  unfold setRect at h
  have hst := setKids_stacked _ _ _ _ _ _ _ hn h
  have hex := setKids_extents _ _ _ _ _ _ _ hn hs h
  have htot : total = _ := congrArg List.sum hex
  rw [sum_map_add_mul] at htot
  clear hex
  generalize hfu : fillUnitAndStart a.horizontal (a.inner rect) (requests kids) = fu at hst htot
  unfold fillUnitAndStart at hfu
  dsimp only at hfu
  generalize hff : fillsAndFree a.horizontal (if a.horizontal then (a.inner rect).width else (a.inner rect).height)
    (requests kids) = ff at hfu
  rw [fillsAndFree_eq] at hff
  have hf1 : ff.1 = fills := by rw [← hff]; exact congrArg List.sum (requests_fills kids a.horizontal)
  rw [requests_fills] at htot
  generalize hT : ((((requests kids).filter (fun r => r.1.managed a.horizontal)).map
    (fun r => if a.horizontal then r.2.1 else r.2.2)).map
      (taken (if a.horizontal then (a.inner rect).width else (a.inner rect).height))).sum = T at htot
  have hf2 : ff.2 = (if a.horizontal then (a.inner rect).width else (a.inner rect).height) - T := by
    rw [← hff, ← hT]
  have hstart : start a.horizontal (a.inner rect) = if a.horizontal then (a.inner rect).x else (a.inner rect).y := rfl
  have hext : extent a.horizontal (a.inner rect) = if a.horizontal then (a.inner rect).width else (a.inner rect).height := rfl
  rw [← hstart] at hfu
  rw [← hext] at hf2
  refine ⟨extent a.horizontal (a.inner rect) - T, ?_, ?_⟩
  · intro h0
    rw [if_neg (by rw [hf1, h0]; simp), hf2] at hfu
    rw [← hfu] at hst htot
    refine ⟨hst, ?_⟩
    rw [htot]; ring
  · intro h0
    rw [if_pos (by rw [hf1]; exact h0), hf2, hf1] at hfu
    rw [← hfu] at hst htot
    refine ⟨by simpa using hst, ?_⟩
    rw [htot]
    have hne : (fills : Rat) ≠ 0 := by exact_mod_cast h0
    change (_ / (fills : Rat)) * (fills : Rat) + T = _
    rw [div_mul_cancel₀ _ hne]; ring

end Verif.Layout
