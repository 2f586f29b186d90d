import Verif.Props.History
import Verif.Props.Independent

/-! # Lemmas for C109: what a page shows after further calls -/

namespace Verif.Slide
open Verif.Show Verif.Show.Spec Spec

theorem level_back {cs ds : List Call} {u : Nat} {z : Int} (ht : ∀ k c, cs[k]? = some c → target c ≤ k)
    (h : Level (cs ++ ds) u z) : u ≤ cs.length → Level cs u z := by
  induction h with
  | slide => intro _; exact .slide
  | @given k p c z h1 h2 =>
    intro hu
    have hk : k < cs.length := hu
    rw [List.getElem?_append_left hk] at h1
    exact .given h1 h2
  | @inherited k p c z h1 h2 _ ih =>
    intro hu
    have hk : k < cs.length := hu
    rw [List.getElem?_append_left hk] at h1
    exact .inherited h1 h2 (ih (le_trans (ht _ _ h1) hk.le))

theorem level_more {cs : List Call} (ds : List Call) {u : Nat} {z : Int} (h : Level cs u z) : Level (cs ++ ds) u z := by
  induction ds using List.reverseRecOn with
  | nil => simpa using h
  | append_singleton ds c ih => rw [← List.append_assoc]; exact level_mono ih

theorem onPage_more {cs : List Call} (ds : List Call) {n : Int} {u : Nat} (h : OnPage cs n u) : OnPage (cs ++ ds) n u := by
  induction ds using List.reverseRecOn with
  | nil => simpa using h
  | append_singleton ds c ih => rw [← List.append_assoc]; exact onPage_mono ih

theorem onPage_less {cs ds : List Call} {n : Int} {u : Nat} (ht : ∀ k c, cs[k]? = some c → target c ≤ k)
    (h : OnPage (cs ++ ds) n u) : u ≤ cs.length → OnPage cs n u := by
  induction h with
  | slide h => intro _; exact .slide h
  | @box k p b cur h1 h2 h3 _ ih =>
    intro hu
    have hk : k < cs.length := hu
    rw [List.getElem?_append_left hk] at h1
    rw [List.take_append_of_le_length hk.le] at h2
    exact .box h1 h2 h3 (ih (le_trans (ht _ _ h1) hk.le))

theorem itemOf_more {cs : List Call} (ds : List Call) {p u : Nat} (h : ItemOf cs p u) : ItemOf (cs ++ ds) p u := by
  cases h with
  | mk h1 h2 h3 => exact .mk (by rw [List.getElem?_append_left (List.getElem?_eq_some_iff.mp h1).1]; exact h1) h2 h3

theorem itemOf_less {cs ds : List Call} {p u : Nat} (h : ItemOf (cs ++ ds) p u) (hu : u ≤ cs.length) : ItemOf cs p u := by
  cases h with
  | @mk k c h1 h2 h3 =>
    rw [List.getElem?_append_left (by omega : k < cs.length)] at h1
    exact .mk h1 h2 h3

theorem itemOf_le {cs : List Call} {p u : Nat} (h : ItemOf cs p u) : u ≤ cs.length := by
  cases h with
  | mk h1 _ _ => exact (List.getElem?_eq_some_iff.mp h1).1

theorem putAt_sublist {l l' : List Nat} {x : Nat} {b : Bool} {a c : Option Nat} (h : PutAt l l' x b a c) : l.Sublist l' := by
  cases h with
  | first _ h => subst h; exact List.sublist_cons_self _ _
  | last _ h => subst h; exact List.sublist_append_left _ _
  | above _ h1 h2 => subst h1; subst h2; exact (List.Sublist.refl _).append (.cons_cons _ (List.sublist_cons_self _ _))
  | below _ h1 h2 => subst h1; subst h2; exact (List.Sublist.refl _).append (List.sublist_cons_self _ _)

/-- Further calls keep the order of the children. -/
theorem kids_sublist {p : Nat} {cs es : List Call} {l l' : List Nat} (h : Kids p cs l) (h' : Kids p es l') :
    ∀ ds, es = cs ++ ds → l.Sublist l' := by
  induction h' with
  | new =>
    intro ds he
    have : cs = [] := (List.append_eq_nil_iff.mp he.symm).1
    subst this
    rw [kids_unique h .new]
  | @elsewhere es c l' h1 h2 ih =>
    intro ds he
    rcases List.eq_nil_or_concat ds with rfl | ⟨ds', d, rfl⟩
    · rw [List.append_nil] at he
      subst he
      rw [kids_unique h (.elsewhere h1 h2)]
    · rw [List.concat_eq_append, ← List.append_assoc] at he
      exact ih ds' (snoc_inj he).1
  | @item es c l' h1 h2 h3 ih =>
    intro ds he
    rcases List.eq_nil_or_concat ds with rfl | ⟨ds', d, rfl⟩
    · rw [List.append_nil] at he
      subst he
      rw [kids_unique h (.item h1 h2 h3)]
    · rw [List.concat_eq_append, ← List.append_assoc] at he
      exact (ih ds' (snoc_inj he).1).trans (List.sublist_append_left _ _)
  | @box es c l' l'' h1 h2 ih =>
    intro ds he
    rcases List.eq_nil_or_concat ds with rfl | ⟨ds', d, rfl⟩
    · rw [List.append_nil] at he
      subst he
      rw [kids_unique h (.box h1 h2)]
    · rw [List.concat_eq_append, ← List.append_assoc] at he
      exact (ih ds' (snoc_inj he).1).trans (putAt_sublist h2)

/-- Further calls keep the order of the walk. -/
theorem walk_sublist {cs ds : List Call} {us us' a a' : List Nat} (h : Walk cs us a) (h' : Walk (cs ++ ds) us' a') (hs : us.Sublist us') :
    a.Sublist a' := by
  induction h' generalizing us a with
  | nil =>
    rw [List.sublist_nil] at hs
    subst hs
    cases h
    exact List.Sublist.refl _
  | @cons u us' ks a' b' h1 _ _ iha ihb =>
    cases hs with
    | cons _ hs => exact (ihb h hs).trans ((List.sublist_append_right _ _).trans (List.sublist_cons_self _ _))
    | cons_cons _ hs =>
      cases h with
      | cons h2 h3 h4 => exact .cons_cons _ ((iha h3 (kids_sublist h2 h1 ds rfl)).append (ihb h4 hs))

/-- The order of painting is strict. -/
theorem under_asymm {order : List Nat} (hn : order.Nodup) {a b : Nat × Int} (h1 : Under order a b) (h2 : Under order b a) : a = b := by
  rcases h1 with h1 | ⟨h1, h3⟩
  · rcases h2 with h2 | ⟨h2, _⟩ <;> omega
  · rcases h2 with h2 | ⟨_, h4⟩
    · omega
    · exfalso
      have key : ∀ (o : List Nat) (x y : Nat), o.Nodup → List.Sublist [x, y] o → List.Sublist [y, x] o → False := by
        intro o
        induction o with
        | nil => intro x y _ h _; cases h
        | cons c o ih =>
          intro x y hn h h'
          rw [List.nodup_cons] at hn
          cases h with
          | cons _ h =>
            cases h' with
            | cons _ h' => exact ih x y hn.2 h h'
            | cons_cons _ _ => exact hn.1 (h.subset (by simp))
          | cons_cons _ h =>
            cases h' with
            | cons _ h' => exact hn.1 (h'.subset (by simp))
            | cons_cons _ h' => exact hn.1 (h.subset (by simp))
      exact key order a.1 b.1 hn h3 h4

theorem under_more {o o' : List Nat} (h : o.Sublist o') {a b : Nat × Int} (h1 : Under o a b) : Under o' a b := by
  rcases h1 with h1 | ⟨h1, h2⟩
  · exact .inl h1
  · exact .inr ⟨h1, h2.trans h⟩

end Verif.Slide
