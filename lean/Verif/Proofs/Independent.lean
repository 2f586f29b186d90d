import Verif.Proofs.Layout2

/-! Helper lemmas: a layout with an explicit position has no influence on the others. -/

namespace Verif.Layout
open Spec

/-- Equal rectangles outside `us`. -/
def Agree (us : List Nat) (e1 e2 : Env) : Prop := ∀ v, v ∉ us → e1 v = e2 v

theorem Agree.set {us : List Nat} {e1 e2 : Env} (h : Agree us e1 e2) (u : Nat) (r : Rect) : Agree us (e1.set u r) (e2.set u r) := by
  intro v hv
  unfold Env.set
  split
  · rfl
  · exact h v hv

theorem Pos.compute_agree {us : List Nat} {e1 e2 : Env} (he : Agree us e1 e2) : ∀ (p : Pos), (∀ v ∈ refs p, v ∉ us) → ∀ o full self,
    p.compute e1 o full self = p.compute e2 o full self := by
  intro p
  induction p with
  | ref u hor v ih =>
    intro h o full self
    simp only [refs, List.mem_cons, forall_eq_or_imp] at h
    simp only [Pos.compute]
    rw [he u h.1]
    cases e2 u with
    | none => rfl
    | some r => simp only [ih h.2]
  | map f v ih =>
    intro h o full self
    simp only [Pos.compute, ih h]
  | fn u f =>
    intro h o full self
    simp only [Pos.compute]
    rw [he u (h u (by simp [refs]))]
  | _ => intro _ _ _ _; rfl

theorem Size.compute_agree {us : List Nat} {e1 e2 : Env} (he : Agree us e1 e2) (s : Size) (h : ∀ p, s.lazy = some p → ∀ v ∈ refs p, v ∉ us)
    (full : Rat) (fu : Option Rat) : s.compute e1 full fu = s.compute e2 full fu := by
  unfold Size.compute
  cases hl : s.lazy with
  | none => rfl
  | some p => exact Pos.compute_agree he p (h p hl) _ _ _

theorem ensure_lazy (s : Size) (q : Rat) : (s.ensure q).lazy = s.lazy := by
  unfold Size.ensure; split <;> rfl

theorem childRect_agree {us : List Nat} {e1 e2 : Env} (he : Agree us e1 e2) {a : Attrs} (ha : Ignores us a) (hor : Bool) (rect : Rect)
    (fu dd : Rat) (rqs : List (Attrs × Size × Size)) :
    childRect e1 hor rect fu dd a (sizeRequest a rqs) = childRect e2 hor rect fu dd a (sizeRequest a rqs) := by
  have hw : ∀ full f, (sizeRequest a rqs).1.compute e1 full f = (sizeRequest a rqs).1.compute e2 full f := fun full f =>
    Size.compute_agree he _ (fun p hp => (ha true).2 p (by rw [← hp]; exact (ensure_lazy _ _).symm)) full f
  have hh : ∀ full f, (sizeRequest a rqs).2.compute e1 full f = (sizeRequest a rqs).2.compute e2 full f := fun full f =>
    Size.compute_agree he _ (fun p hp => (ha false).2 p (by rw [← hp]; exact (ensure_lazy _ _).symm)) full f
  have hx : ∀ p, a.x = some p → ∀ o f s, p.compute e1 o f s = p.compute e2 o f s := fun p hp =>
    Pos.compute_agree he p ((ha true).1 p hp)
  have hy : ∀ p, a.y = some p → ∀ o f s, p.compute e1 o f s = p.compute e2 o f s := fun p hp =>
    Pos.compute_agree he p ((ha false).1 p hp)
  unfold childRect
  simp only [hw, hh]
  cases ax : a.x with
  | none =>
    cases ay : a.y with
    | none => rfl
    | some q => simp only [hy q ay]
  | some p =>
    cases ay : a.y with
    | none => simp only [hx p ax]
    | some q => simp only [hx p ax, hy q ay]

theorem not_managed {hor : Bool} {a : Attrs} (h : (posOn hor a).isSome) : a.managed hor = false := by
  unfold posOn at h; unfold Attrs.managed
  cases hor
  · cases hy : a.y <;> simp_all
  · cases hx : a.x <;> simp_all

theorem requests_without (u : Nat) (f : Forest) : ∀ hor, Explicit u hor f →
    (requests (without u f)).filter (fun r => r.1.managed hor) = (requests f).filter (fun r => r.1.managed hor) := by
  induction f with
  | nil => intro _ _; rfl
  | node v a kids rest ihk ihr =>
    intro hor h
    obtain ⟨h1, h2, h3⟩ := h
    simp only [without]
    split
    · rename_i hv
      rw [ihr hor h3]
      simp only [requests]
      rw [List.filter_cons_of_neg]
      simp [not_managed (h1 hv)]
    · simp only [requests, List.filter_cons, ihr hor h3]
      have : sizeRequest a (requests (without u kids)) = sizeRequest a (requests kids) := by
        simp only [sizeRequest, minChildrenSize, ihk _ h2]
      rw [this]

theorem sizeRequest_without {u : Nat} {a : Attrs} {kids : Forest} (h : Explicit u a.horizontal kids) :
    sizeRequest a (requests (without u kids)) = sizeRequest a (requests kids) := by
  simp only [sizeRequest, minChildrenSize, requests_without u kids _ h]

theorem fillUnit_without {u : Nat} {a : Attrs} {kids : Forest} (h : Explicit u a.horizontal kids) (r : Rect) :
    fillUnitAndStart a.horizontal r (requests (without u kids)) = fillUnitAndStart a.horizontal r (requests kids) := by
  have : ∀ q, fillsAndFree a.horizontal q (requests (without u kids)) = fillsAndFree a.horizontal q (requests kids) := by
    intro q
    unfold fillsAndFree
    rw [requests_without u kids _ h]
  unfold fillUnitAndStart
  simp only [this]

theorem setKids_without (u : Nat) (us : List Nat) (f : Forest) : ∀ (e1 e2 e1' : Env) (hor : Bool) (rect : Rect) (fu dd : Rat),
    Agree us e1 e2 → (∀ v ∈ inside u f, v ∈ us) → (∀ b ∈ boxes (without u f), Ignores us b.2.1) → Explicit u hor f →
    setKids e1 hor rect fu dd f = .ok e1' →
    ∃ e2', setKids e2 hor rect fu dd (without u f) = .ok e2' ∧ Agree us e1' e2' := by
  induction f with
  | nil =>
    intro e1 e2 e1' hor rect fu dd he _ _ _ h
    simp only [setKids] at h
    injection h with h; subst h
    exact ⟨e2, rfl, he⟩
  | node v a kids rest ihk ihr =>
    intro e1 e2 e1' hor rect fu dd he hin hig hex h
    obtain ⟨x1, x2, x3⟩ := hex
    obtain ⟨r, dd', env1, hcr, h1, h2⟩ := setKids_node h
    simp only [inside] at hin
    simp only [without] at hig ⊢
    by_cases hv : v = u
    · rw [if_pos hv] at hin hig ⊢
      have hdd : dd' = dd := by
        have := (childRect_ok hcr).2.2.2.2.2.2
        rw [if_neg] at this
        · exact this
        · rw [← managed_iff, not_managed (x1 hv)]; simp
      rw [hdd] at h2
      refine ihr _ e2 _ _ _ _ _ ?_ (fun w hw => hin w (by simp [hw])) hig x3 h2
      intro w hw
      rw [← he w hw]
      refine setRect_frame h1 w ?_
      intro hm
      refine hw (hin w ?_)
      rcases List.mem_cons.mp hm with rfl | hm
      · simp
      · simp [hm]
    · rw [if_neg hv] at hin hig ⊢
      simp only [boxes, List.mem_cons, List.mem_append] at hig
      unfold setRect at h1
      obtain ⟨e2a, hk, hea⟩ := ihk _ (e2.set v (a.inner r)) _ _ _ _ _ (he.set v _) (fun w hw => hin w (by simp [hw]))
        (fun b hb => hig b (.inr (.inl hb))) x2 h1
      obtain ⟨e2b, hr, heb⟩ := ihr _ e2a _ _ _ _ _ hea (fun w hw => hin w (by simp [hw]))
        (fun b hb => hig b (.inr (.inr hb))) x3 h2
      refine ⟨e2b, ?_, heb⟩
      simp only [setKids]
      rw [sizeRequest_without x2, ← childRect_agree he (hig (v, a, without u kids) (.inl rfl)), hcr]
      simp only
      rw [fillUnit_without x2, hk]
      exact hr

theorem setRect_without {u v : Nat} {us : List Nat} {a : Attrs} {kids : Forest} {rect : Rect} {e1 e2 e1' : Env}
    (he : Agree us e1 e2) (hin : ∀ w ∈ inside u kids, w ∈ us) (hig : ∀ b ∈ boxes (without u kids), Ignores us b.2.1)
    (hex : Explicit u a.horizontal kids) (h : setRect e1 v a kids rect = .ok e1') :
    ∃ e2', setRect e2 v a (without u kids) rect = .ok e2' ∧ Agree us e1' e2' := by
  unfold setRect at h ⊢
  simp only at h ⊢
  rw [fillUnit_without hex]
  exact setKids_without u us kids _ _ _ _ _ _ _ (he.set v _) hin hig hex h

/-! ### what a successful layout refers to -/

theorem Pos.compute_refs {env : Env} : ∀ (p : Pos) (o full self q : Rat), p.compute env o full self = .ok q → ∀ v ∈ refs p, (env v).isSome := by
  intro p
  induction p with
  | ref u hor v ih =>
    intro o full self q h
    simp only [Pos.compute] at h
    simp only [refs, List.mem_cons, forall_eq_or_imp]
    cases hu : env u with
    | none => rw [hu] at h; cases h
    | some r =>
      rw [hu] at h
      refine ⟨rfl, ?_⟩
      cases hor
      · exact ih _ _ _ _ h
      · exact ih _ _ _ _ h
  | map f v ih =>
    intro o full self q h
    simp only [Pos.compute] at h
    split at h
    · rename_i q' hq; exact ih _ _ _ _ hq
    · cases h
  | fn u f =>
    intro o full self q h
    simp only [Pos.compute] at h
    simp only [refs, List.mem_singleton, forall_eq]
    cases hu : env u with
    | none => rw [hu] at h; cases h
    | some r => rfl
  | _ => intro _ _ _ _ _ v hv; cases hv

theorem childRect_refs {env : Env} {hor : Bool} {rect : Rect} {fu dd : Rat} {a : Attrs} {rqs : List (Attrs × Size × Size)} {x : Rect × Rat}
    (h : childRect env hor rect fu dd a (sizeRequest a rqs) = .ok x) : ∀ us : List Nat, (∀ v ∈ us, env v = none) → Ignores us a := by
  intro us hus
  obtain ⟨r, dd'⟩ := x
  obtain ⟨hw, hh, hx, hy, -⟩ := childRect_ok h
  have no : ∀ v, (env v).isSome → v ∉ us := by
    intro v hv hm; rw [hus v hm] at hv; cases hv
  have size : ∀ (s : Size) (full : Rat) (f : Option Rat) (q : Rat), s.compute env full f = .ok q → ∀ p, s.lazy = some p → ∀ v ∈ refs p, v ∉ us := by
    intro s full f q hs p hp v hv
    unfold Size.compute at hs
    rw [hp] at hs
    exact no v (Pos.compute_refs p _ _ _ _ hs v hv)
  intro axis
  cases axis
  · refine ⟨fun p hp v hv => no v (Pos.compute_refs p _ _ _ _ (hy p hp) v hv), fun p hp => ?_⟩
    exact size _ _ _ _ hh p (by rw [← hp]; exact ensure_lazy _ _)
  · refine ⟨fun p hp v hv => no v (Pos.compute_refs p _ _ _ _ (hx p hp) v hv), fun p hp => ?_⟩
    exact size _ _ _ _ hw p (by rw [← hp]; exact ensure_lazy _ _)

/-- A layout that succeeds does not refer to layouts that do not exist. -/
theorem setKids_ignores (us : List Nat) (f : Forest) : ∀ (env env' : Env) (hor : Bool) (rect : Rect) (fu dd : Rat),
    (∀ v ∈ us, env v = none ∧ v ∉ uids f) → setKids env hor rect fu dd f = .ok env' → ∀ b ∈ boxes f, Ignores us b.2.1 := by
  induction f with
  | nil => intro _ _ _ _ _ _ _ _ b hb; cases hb
  | node u a kids rest ihk ihr =>
    intro env env' hor rect fu dd hus h b hb
    obtain ⟨r, dd', env1, hcr, h1, h2⟩ := setKids_node h
    simp only [boxes, List.mem_cons, List.mem_append] at hb
    simp only [uids, List.mem_cons, List.mem_append, not_or] at hus
    rcases hb with rfl | hb | hb
    · exact childRect_refs hcr us (fun v hv => (hus v hv).1)
    · unfold setRect at h1
      refine ihk _ _ _ _ _ _ ?_ h1 b hb
      intro v hv
      refine ⟨?_, (hus v hv).2.2.1⟩
      unfold Env.set
      rw [if_neg (hus v hv).2.1]
      exact (hus v hv).1
    · refine ihr _ _ _ _ _ _ ?_ h2 b hb
      intro v hv
      refine ⟨?_, (hus v hv).2.2.2⟩
      rw [setRect_frame h1 v (by simp [(hus v hv).2.1, (hus v hv).2.2.1])]
      exact (hus v hv).1

theorem Explicit_absent {u : Nat} {f : Forest} (h : u ∉ uids f) : ∀ hor, Explicit u hor f := by
  induction f with
  | nil => intro _; trivial
  | node v a kids rest ihk ihr =>
    intro hor
    simp only [uids, List.mem_cons, List.mem_append, not_or] at h
    exact ⟨fun hv => absurd hv.symm h.1, ihk h.2.1 _, ihr h.2.2 _⟩

theorem without_absent {u : Nat} {f : Forest} (h : u ∉ uids f) : without u f = f := by
  induction f with
  | nil => rfl
  | node v a kids rest ihk ihr =>
    simp only [uids, List.mem_cons, List.mem_append, not_or] at h
    simp only [without, if_neg (Ne.symm h.1), ihk h.2.1, ihr h.2.2]

theorem without_sub (u : Nat) (f : Forest) : ∀ v ∈ uids (without u f), v ∈ uids f := by
  induction f with
  | nil => intro v hv; exact hv
  | node w a kids rest ihk ihr =>
    intro v hv
    simp only [without] at hv
    simp only [uids, List.mem_cons, List.mem_append]
    split at hv
    · exact .inr (.inr (ihr v hv))
    · simp only [uids, List.mem_cons, List.mem_append] at hv
      rcases hv with h | h | h
      · exact .inl h
      · exact .inr (.inl (ihk v h))
      · exact .inr (.inr (ihr v h))

theorem boxes_uids {f : Forest} {b : Nat × Attrs × Forest} (h : b ∈ boxes f) : b.1 ∈ uids f := by
  induction f with
  | nil => cases h
  | node w a kids rest ihk ihr =>
    simp only [boxes, List.mem_cons, List.mem_append] at h
    simp only [uids, List.mem_cons, List.mem_append]
    rcases h with rfl | h | h
    · exact .inl rfl
    · exact .inr (.inl (ihk h))
    · exact .inr (.inr (ihr h))

theorem inside_disjoint {u : Nat} {f : Forest} (hn : (uids f).Nodup) : ∀ v ∈ inside u f, v ∉ uids (without u f) := by
  have sub := without_sub u
  have sub2 : ∀ f : Forest, ∀ v ∈ inside u f, v ∈ uids f := by
    intro f
    induction f with
    | nil => intro v hv; exact hv
    | node w a kids rest ihk ihr =>
      intro v hv
      simp only [inside] at hv
      simp only [uids, List.mem_cons, List.mem_append]
      split at hv
      · simp only [List.mem_cons, List.mem_append] at hv
        rcases hv with h | h | h
        · exact .inl h
        · exact .inr (.inl h)
        · exact .inr (.inr (ihr v h))
      · simp only [List.mem_append] at hv
        rcases hv with h | h
        · exact .inr (.inl (ihk v h))
        · exact .inr (.inr (ihr v h))
  induction f with
  | nil => intro v hv; cases hv
  | node w a kids rest ihk ihr =>
    simp only [uids, List.nodup_cons, List.nodup_append, List.mem_append, not_or] at hn
    obtain ⟨⟨hwk, hwr⟩, hk, hr, hd⟩ := hn
    intro v hv hm
    simp only [inside] at hv
    simp only [without] at hm
    split at hv
    · rename_i hw
      rw [if_pos hw] at hm
      simp only [List.mem_cons, List.mem_append] at hv
      rcases hv with rfl | h | h
      · exact hwr (sub _ _ hm)
      · exact hd v h v (sub _ _ hm) rfl
      · exact ihr hr v h hm
    · rename_i hw
      rw [if_neg hw] at hm
      simp only [uids, List.mem_cons, List.mem_append] at hm
      simp only [List.mem_append] at hv
      rcases hv with h | h
      · rcases hm with rfl | hm | hm
        · exact hwk (sub2 _ _ h)
        · exact ihk hk v h hm
        · exact hd v (sub2 _ _ h) v (sub _ _ hm) rfl
      · rcases hm with rfl | hm | hm
        · exact hwr (sub2 _ _ h)
        · exact hd v (sub _ _ hm) v (sub2 _ _ h) rfl
        · exact ihr hr v h hm

end Verif.Layout
