import Verif.Proofs.Accept
import Verif.Proofs.Layout2
import Verif.Proofs.Independent

/-! # Lemmas: which slides can be laid out -/

namespace Verif.Layout
open Spec
open Verif.Slide.Spec (Says)

/-- The value can be computed when the layouts in `D` have rectangles. -/
def Ev (D : Nat → Prop) (p : Pos) : Prop := Says p ∧ ∀ u ∈ refs p, D u

theorem compute_ok {env : Env} {D : Nat → Prop} (hD : ∀ u, (env u).isSome ↔ D u) : ∀ (p : Pos) (o full self : Rat), (∃ q, p.compute env o full self = .ok q) ↔ Ev D p := by
  intro p
  induction p with
  | empty => intro o full self; simp [Pos.compute, Ev, Says]
  | fix q => intro o full self; simp [Pos.compute, Ev, Says, refs]
  | ratio q => intro o full self; simp [Pos.compute, Ev, Says, refs]
  | align q => intro o full self; simp [Pos.compute, Ev, Says, refs]
  | ref u hor v ih =>
    intro o full self
    simp only [Pos.compute, Ev, Says, refs, List.mem_cons, forall_eq_or_imp]
    cases hu : env u with
    | none =>
      have : ¬ D u := by rw [← hD, hu]; simp
      simp [this]
    | some r =>
      have : D u := by rw [← hD, hu]; rfl
      simp only [this, true_and]
      cases hor with
      | true => simp only [if_true]; exact ih _ _ _
      | false => simp only [Bool.false_eq_true, if_false]; exact ih _ _ _
  | map f v ih =>
    intro o full self
    have := ih o full self
    simp only [Pos.compute, Ev, Says, refs] at this ⊢
    rw [← this]
    cases v.compute env o full self <;> simp
  | fn u f =>
    intro o full self
    simp only [Pos.compute, Ev, Says, refs, List.mem_singleton, forall_eq, true_and]
    rw [← hD]
    cases env u <;> simp

/-- A given value can be computed. -/
def EvOpt (D : Nat → Prop) (p : Option Pos) : Prop := ∀ v, p = some v → Ev D v

theorem size_ok {env : Env} {D : Nat → Prop} (hD : ∀ u, (env u).isSome ↔ D u) (s : Size) (full : Rat) (fu : Option Rat) : (∃ q, s.compute env full fu = .ok q) ↔ EvOpt D s.lazy := by
  unfold Size.compute EvOpt
  cases hl : s.lazy with
  | some v => simp only [Option.some.injEq, forall_eq']; exact compute_ok hD v 0 0 0
  | none =>
    simp only [reduceCtorEq, false_implies, implies_true, iff_true]
    split
    · split <;> exact ⟨_, rfl⟩
    · split
      · split <;> exact ⟨_, rfl⟩
      · exact ⟨_, rfl⟩

/-- The dynamic values of a layout can be computed. -/
def NodeOk (D : Nat → Prop) (a : Attrs) : Prop := EvOpt D a.x ∧ EvOpt D a.y ∧ EvOpt D a.width.lazy ∧ EvOpt D a.height.lazy

theorem childRect_total {env : Env} {D : Nat → Prop} (hD : ∀ u, (env u).isSome ↔ D u) (hor : Bool) (rect : Rect) (fu dd : Rat) (a : Attrs) (rq : Size × Size)
    (h1 : rq.1.lazy = a.width.lazy) (h2 : rq.2.lazy = a.height.lazy) : (∃ r, childRect env hor rect fu dd a rq = .ok r) ↔ NodeOk D a := by
  unfold NodeOk
  rw [← h1, ← h2]
  cases hor with
  | false =>
    have w := size_ok hD rq.1 rect.width none
    have h := size_ok hD rq.2 rect.height (some fu)
    simp only [childRect, Bool.not_false, if_true]
    rw [← w, ← h]
    cases rq.1.compute env rect.width none with
    | error e => simp
    | ok wv =>
      cases rq.2.compute env rect.height (some fu) with
      | error e => simp
      | ok hv =>
        have x := compute_ok hD
        simp only [EvOpt]
        cases a.x with
        | none =>
          cases a.y with
          | none => simp
          | some p2 =>
            simp only [Option.some.injEq, forall_eq']
            rw [← x p2 rect.y rect.height hv]
            cases p2.compute env rect.y rect.height hv <;> simp
        | some p1 =>
          simp only [Option.some.injEq, forall_eq']
          rw [← x p1 rect.x rect.width wv]
          cases p1.compute env rect.x rect.width wv with
          | error e => simp
          | ok v1 =>
            cases a.y with
            | none => simp
            | some p2 =>
              simp only [Option.some.injEq, forall_eq']
              rw [← x p2 rect.y rect.height hv]
              cases p2.compute env rect.y rect.height hv <;> simp
  | true =>
    have w := size_ok hD rq.1 rect.width (some fu)
    have h := size_ok hD rq.2 rect.height none
    simp only [childRect, Bool.not_true, Bool.false_eq_true, if_false]
    rw [← w, ← h]
    cases rq.1.compute env rect.width (some fu) with
    | error e => simp
    | ok wv =>
      cases rq.2.compute env rect.height none with
      | error e => simp
      | ok hv =>
        have x := compute_ok hD
        simp only [EvOpt]
        cases a.y with
        | none =>
          cases a.x with
          | none => simp
          | some p2 =>
            simp only [Option.some.injEq, forall_eq']
            rw [← x p2 rect.x rect.width wv]
            cases p2.compute env rect.x rect.width wv <;> simp
        | some p1 =>
          simp only [Option.some.injEq, forall_eq']
          rw [← x p1 rect.y rect.width hv]
          cases p1.compute env rect.y rect.width hv with
          | error e => simp
          | ok v1 =>
            cases a.x with
            | none => simp
            | some p2 =>
              simp only [Option.some.injEq, forall_eq']
              rw [← x p2 rect.x rect.width wv]
              cases p2.compute env rect.x rect.width wv <;> simp

/-- The layouts can be computed one after the other. -/
def ListOk (D : Nat → Prop) : List (Nat × Attrs × Forest) → Prop
  | [] => True
  | b :: l => NodeOk D b.2.1 ∧ ListOk (fun u => D u ∨ u = b.1) l

theorem listOk_congr {D E : Nat → Prop} (h : ∀ u, D u ↔ E u) {l : List (Nat × Attrs × Forest)} : ListOk D l ↔ ListOk E l := by
  have : D = E := funext fun u => propext (h u)
  rw [this]

theorem listOk_append (l1 l2 : List (Nat × Attrs × Forest)) : ∀ D : Nat → Prop, ListOk D (l1 ++ l2) ↔ ListOk D l1 ∧ ListOk (fun u => D u ∨ u ∈ l1.map (·.1)) l2 := by
  induction l1 with
  | nil => intro D; simp [ListOk]
  | cons b l1 ih =>
    intro D
    simp only [List.cons_append, ListOk, ih, and_assoc, List.map_cons, List.mem_cons, or_assoc]

theorem listOk_iff (l : List (Nat × Attrs × Forest)) : ∀ D : Nat → Prop, ListOk D l ↔ ∀ l1 b l2, l = l1 ++ b :: l2 → NodeOk (fun u => D u ∨ u ∈ l1.map (·.1)) b.2.1 := by
  intro D
  constructor
  · rintro h l1 b l2 rfl
    exact ((listOk_append l1 (b :: l2) D).mp h).2.1
  · induction l generalizing D with
    | nil => intro _; trivial
    | cons b l ih =>
      intro h
      refine ⟨by simpa using h [] b l rfl, ih _ ?_⟩
      rintro l1 c l2 rfl
      have := h (b :: l1) c l2 rfl
      simp only [List.map_cons, List.mem_cons] at this
      simpa only [or_assoc] using this

theorem boxes_fst (f : Forest) : (boxes f).map (·.1) = uids f := by
  induction f with
  | nil => rfl
  | node u a kids rest ihk ihr => simp [boxes, uids, ihk, ihr]

theorem setKids_ok (f : Forest) : ∀ (env : Env) (D : Nat → Prop), (∀ u, (env u).isSome ↔ D u) → ∀ (hor : Bool) (rect : Rect) (fu dd : Rat),
    ((∃ env', setKids env hor rect fu dd f = .ok env') ↔ ListOk D (boxes f)) ∧
    ∀ env', setKids env hor rect fu dd f = .ok env' → ∀ u, (env' u).isSome ↔ D u ∨ u ∈ uids f := by
  induction f with
  | nil =>
    intro env D hD hor rect fu dd
    refine ⟨by simp [setKids, boxes, ListOk], ?_⟩
    intro env' h u
    injection h with h; subst h
    simp [uids, hD u]
  | node v a kids rest ihk ihr =>
    intro env D hD hor rect fu dd
    have hc := childRect_total hD hor rect fu dd a (sizeRequest a (requests kids)) (by simp [sizeRequest, ensure_lazy]) (by simp [sizeRequest, ensure_lazy])
    have hset : ∀ r u, ((env.set v r) u).isSome ↔ D u ∨ u = v := by
      intro r u
      unfold Env.set
      by_cases hu : u = v
      · simp [hu]
      · simp [hu, hD u]
    simp only [setKids, boxes, ListOk, uids]
    rw [listOk_append, boxes_fst, ← hc]
    cases hcr : childRect env hor rect fu dd a (sizeRequest a (requests kids)) with
    | error e => simp
    | ok rd =>
      obtain ⟨r, dd'⟩ := rd
      obtain ⟨hk1, hk2⟩ := ihk (env.set v (a.inner r)) _ (hset _) a.horizontal (a.inner r) (fillUnitAndStart a.horizontal (a.inner r) (requests kids)).1 (fillUnitAndStart a.horizontal (a.inner r) (requests kids)).2
      rw [← hk1]
      simp only
      cases hsk : setKids (env.set v (a.inner r)) a.horizontal (a.inner r) (fillUnitAndStart a.horizontal (a.inner r) (requests kids)).1 (fillUnitAndStart a.horizontal (a.inner r) (requests kids)).2 kids with
      | error e => simp
      | ok env1 =>
        obtain ⟨hr1, hr2⟩ := ihr env1 _ (hk2 env1 hsk) hor rect fu dd'
        simp only
        refine ⟨?_, ?_⟩
        · rw [hr1]; simp
        · intro env' h u
          rw [hr2 env' h u]
          simp only [List.mem_cons, List.mem_append, or_assoc]

theorem setRect_ok (v : Nat) (a : Attrs) (kids : Forest) (rect : Rect) :
    (∃ env', setRect (fun _ => none) v a kids rect = .ok env') ↔ ListOk (fun u => u = v) (boxes kids) := by
  unfold setRect
  refine (setKids_ok kids _ _ ?_ _ _ _ _).1
  intro u
  unfold Env.set
  by_cases hu : u = v <;> simp [hu]

end Verif.Layout
