import Verif.Props.Slide
import Verif.Props.Layout

/-! # Helper lemmas: the layouts of a slide -/

namespace Verif.Slide
open Spec
open Verif.Show (ShowInfo)
open Verif.Layout (Attrs Forest)
open Verif.Layout.Spec (tops uids boxes)

def look (u : Nat) : Forest → Option (Attrs × Forest)
  | .nil => none
  | .node v a kids rest => if v = u then some (a, kids) else (look u kids).or (look u rest)

theorem layoutOf_look (u : Nat) (f : Forest) : layoutOf u f = (look u f).map (fun x => (x.1, (tops x.2).map (·.1))) := by
  induction f with
  | nil => rfl
  | node v a kids rest ihk ihr =>
    simp only [layoutOf, look]
    by_cases h : v = u
    · simp [h]
    · simp only [h, if_false, ihk, ihr]
      cases look u kids <;> simp

theorem look_boxes {u : Nat} {f : Forest} {a : Attrs} {k : Forest} (h : look u f = some (a, k)) : (u, a, k) ∈ boxes f := by
  induction f with
  | nil => cases h
  | node v b kids rest ihk ihr =>
    simp only [look] at h
    simp only [boxes, List.mem_cons, List.mem_append]
    by_cases hv : v = u
    · rw [if_pos hv] at h
      injection h with h
      injection h with h1 h2
      subst hv h1 h2
      exact .inl rfl
    · rw [if_neg hv] at h
      cases hk : look u kids with
      | some x => rw [hk] at h; injection h with h; subst h; exact .inr (.inl (ihk hk))
      | none => rw [hk] at h; exact .inr (.inr (ihr h))

theorem look_isSome {u : Nat} {f : Forest} : (look u f).isSome = true ↔ u ∈ uids f := by
  induction f with
  | nil => simp [look, uids]
  | node v b kids rest ihk ihr =>
    simp only [look, uids, List.mem_cons, List.mem_append]
    by_cases hv : v = u
    · simp [hv]
    · simp only [hv, if_false, Ne.symm hv, false_or, ← ihk, ← ihr]
      cases look u kids <;> simp

theorem tops_modify (u : Nat) (g : Attrs → Forest → Attrs × Forest) (f : Forest) :
    (tops (modifyLayout u g f)).map (·.1) = (tops f).map (·.1) := by
  induction f with
  | nil => rfl
  | node v a kids rest _ ihr =>
    simp only [modifyLayout]
    split <;> simp [tops, ihr]

theorem look_modify (u : Nat) (g : Attrs → Forest → Attrs × Forest) (f : Forest) :
    look u (modifyLayout u g f) = (look u f).map (fun x => g x.1 x.2) := by
  induction f with
  | nil => rfl
  | node v a kids rest ihk ihr =>
    simp only [modifyLayout]
    by_cases h : v = u
    · simp [look, h]
    · simp only [h, if_false, look, ihk, ihr]
      cases look u kids <;> simp

theorem layoutOf_other {u w : Nat} (hw : w ≠ u) {g : Attrs → Forest → Attrs × Forest} (hg : ∀ a k, layoutOf w (g a k).2 = layoutOf w k) (f : Forest) :
    layoutOf w (modifyLayout u g f) = layoutOf w f := by
  induction f with
  | nil => rfl
  | node v a kids rest ihk ihr =>
    simp only [modifyLayout]
    by_cases h : v = u
    · simp only [h, if_true, layoutOf, Ne.symm hw, if_false, hg]
    · simp only [h, if_false, layoutOf, ihk, ihr, tops_modify]

theorem uids_keep {u : Nat} {g : Attrs → Forest → Attrs × Forest} (hg : ∀ a k, uids (g a k).2 = uids k) (f : Forest) :
    uids (modifyLayout u g f) = uids f := by
  induction f with
  | nil => rfl
  | node v a kids rest ihk ihr =>
    simp only [modifyLayout]
    by_cases h : v = u
    · simp [h, uids, hg]
    · simp [h, uids, ihk, ihr]

theorem modify_absent {u : Nat} {g : Attrs → Forest → Attrs × Forest} {f : Forest} (h : u ∉ uids f) : modifyLayout u g f = f := by
  induction f with
  | nil => rfl
  | node v a kids rest ihk ihr =>
    simp only [uids, List.mem_cons, List.mem_append, not_or] at h
    simp only [modifyLayout, if_neg (Ne.symm h.1), ihk h.2.1, ihr h.2.2]

theorem uids_add {u n : Nat} {g : Attrs → Forest → Attrs × Forest} (hg : ∀ a k, (uids (g a k).2).Perm (n :: uids k)) {f : Forest}
    (hn : (uids f).Nodup) (hu : u ∈ uids f) : (uids (modifyLayout u g f)).Perm (n :: uids f) := by
  induction f with
  | nil => cases hu
  | node v a kids rest ihk ihr =>
    simp only [modifyLayout]
    simp only [uids, List.nodup_cons, List.nodup_append] at hn
    by_cases h : v = u
    · simp only [h, if_true, uids]
      refine ((hg a kids).append_right _ |>.cons u).trans ?_
      simp only [List.cons_append]
      exact List.Perm.swap _ _ _
    · simp only [h, if_false, uids]
      simp only [uids, List.mem_cons, List.mem_append, Ne.symm h, false_or] at hu
      rcases hu with hu | hu
      · have hr : u ∉ uids rest := fun h' => hn.2.2.2 u hu u h' rfl
        rw [modify_absent hr]
        refine ((ihk hn.2.1 hu).append_right _ |>.cons v).trans ?_
        simp only [List.cons_append]
        exact List.Perm.swap _ _ _
      · have hk : u ∉ uids kids := fun h' => hn.2.2.2 u h' u hu rfl
        rw [modify_absent hk]
        refine ((ihr hn.2.2.1 hu).append_left _ |>.cons v).trans ?_
        refine (List.perm_middle.cons v).trans ?_
        exact List.Perm.swap _ _ _

theorem uids_append (n : Nat) (a : Attrs) (f : Forest) : uids (appendLayout n a f) = uids f ++ [n] := by
  induction f with
  | nil => rfl
  | node v b kids rest _ ihr => simp [appendLayout, uids, ihr]

theorem tops_append (n : Nat) (a : Attrs) (f : Forest) : (tops (appendLayout n a f)).map (·.1) = (tops f).map (·.1) ++ [n] := by
  induction f with
  | nil => rfl
  | node v b kids rest _ ihr => simp [appendLayout, tops, ihr]

theorem layoutOf_append {w n : Nat} (h : w ≠ n) (a : Attrs) (f : Forest) : layoutOf w (appendLayout n a f) = layoutOf w f := by
  induction f with
  | nil => simp [appendLayout, layoutOf, Ne.symm h]
  | node v b kids rest _ ihr => simp [appendLayout, layoutOf, ihr]

theorem layoutOf_append_new {n : Nat} (a : Attrs) (f : Forest) (h : n ∉ uids f) : layoutOf n (appendLayout n a f) = some (a, []) := by
  induction f with
  | nil => simp [appendLayout, layoutOf, tops]
  | node v b kids rest _ ihr =>
    simp only [uids, List.mem_cons, List.mem_append, not_or] at h
    have hk : layoutOf n kids = none := by
      rw [layoutOf_look]
      cases hl : look n kids with
      | none => rfl
      | some x => exact absurd (look_isSome.mp (by rw [hl]; rfl)) h.2.1
    simp [appendLayout, layoutOf, Ne.symm h.1, hk, ihr h.2.2]

theorem layoutOf_absent {n : Nat} {f : Forest} (h : n ∉ uids f) : layoutOf n f = none := by
  rw [layoutOf_look]
  cases hl : look n f with
  | none => rfl
  | some x => exact absurd (look_isSome.mp (by rw [hl]; rfl)) h

/-- The new layout of a box call. -/
theorem layoutOf_new {u n : Nat} {a : Attrs} {prepend : Bool} {f : Forest} (hu : u ∈ uids f) (hn : n ∉ uids f) :
    layoutOf n (addLayout u n a prepend f) = some (a, []) := by
  have hun : u ≠ n := by rintro rfl; exact hn hu
  unfold addLayout
  induction f with
  | nil => cases hu
  | node v b kids rest ihk ihr =>
    simp only [uids, List.mem_cons, List.mem_append, not_or] at hn hu
    simp only [modifyLayout]
    by_cases h : v = u
    · simp only [h, if_true, layoutOf, hun, if_false]
      cases prepend
      · simp [layoutOf_append_new a kids hn.2.1]
      · simp [layoutOf, tops]
    · simp only [h, if_false, layoutOf, Ne.symm hn.1, if_false]
      by_cases hk : u ∈ uids kids
      · rw [ihk hk hn.2.1]; rfl
      · have hr : u ∈ uids rest := by
          rcases hu with hu | hu | hu
          · exact absurd hu.symm h
          · exact absurd hu hk
          · exact hu
        rw [modify_absent hk, layoutOf_absent hn.2.1, ihr hr hn.2.2]; rfl

theorem layoutOf_parent {u n : Nat} {a : Attrs} {prepend : Bool} {f : Forest} :
    layoutOf u (addLayout u n a prepend f) = (layoutOf u f).map (fun x => (x.1, if prepend then n :: x.2 else x.2 ++ [n])) := by
  unfold addLayout
  rw [layoutOf_look, look_modify, layoutOf_look]
  cases look u f with
  | none => rfl
  | some x => cases prepend <;> simp [tops_append, tops]

theorem layoutOf_others {u w n : Nat} {a : Attrs} {prepend : Bool} {f : Forest} (hw : w ≠ u) (hn : w ≠ n) :
    layoutOf w (addLayout u n a prepend f) = layoutOf w f := by
  unfold addLayout
  refine layoutOf_other hw ?_ f
  intro b k
  cases prepend
  · exact layoutOf_append hn a k
  · simp [layoutOf, Ne.symm hn]

/-! ### invariants -/

theorem modify_has_rev {u v n : Nat} {g : ShowInfo → Tree → Except Err (ShowInfo × Tree)} : ∀ (t t' : Tree),
    (∀ i kids i' kids', g i kids = .ok (i', kids') → kids'.has v = true → kids.has v = true ∨ v = n) →
    t.modify u g = .ok t' → t'.has v = true → t.has v = true ∨ v = n := by
  intro t
  induction t with
  | nil => intro t' _ h; cases h
  | item w z rest ih =>
    intro t' hg h hv
    simp only [Tree.modify] at h
    split at h
    · cases h
    · rename_i r hr
      injection h with h; subst h
      exact ih r hg hr hv
  | box w i z kids rest ihk ihr =>
    intro t' hg h hv
    simp only [Tree.modify] at h
    simp only [Tree.has, Bool.or_eq_true, beq_iff_eq]
    split at h
    · split at h
      · cases h
      · rename_i i' kids' hgi
        injection h with h; subst h
        simp only [Tree.has, Bool.or_eq_true, beq_iff_eq] at hv
        rcases hv with (hv | hv) | hv
        · exact .inl (.inl (.inl hv))
        · rcases hg _ _ _ _ hgi hv with h | h
          · exact .inl (.inl (.inr h))
          · exact .inr h
        · exact .inl (.inr hv)
    · split at h
      · split at h
        · cases h
        · rename_i k hk
          injection h with h; subst h
          simp only [Tree.has, Bool.or_eq_true, beq_iff_eq] at hv
          rcases hv with (hv | hv) | hv
          · exact .inl (.inl (.inl hv))
          · rcases ihk k hg hk hv with h | h
            · exact .inl (.inl (.inr h))
            · exact .inr h
          · exact .inl (.inr hv)
      · split at h
        · cases h
        · rename_i r hr
          injection h with h; subst h
          simp only [Tree.has, Bool.or_eq_true, beq_iff_eq] at hv
          rcases hv with (hv | hv) | hv
          · exact .inl (.inl (.inl hv))
          · exact .inl (.inl (.inr hv))
          · rcases ihr r hg hr hv with h | h
            · exact .inl (.inr h)
            · exact .inr h

theorem has_append {v : Nat} {obj : Tree → Tree} {b : Bool} (ho : ∀ t, (obj t).has v = (b || t.has v)) (t : Tree) :
    (t.append obj).has v = (b || t.has v) := by
  induction t with
  | nil => exact ho .nil
  | item w z rest ih => simp only [Tree.append, Tree.has, ih]
  | box w i z kids rest _ ih => simp only [Tree.append, Tree.has, ih]; cases b <;> simp

theorem has_before {v c : Nat} {obj : Tree → Tree} {b : Bool} (ho : ∀ t, (obj t).has v = (b || t.has v)) : ∀ (t t' : Tree),
    t.insertBefore c obj = .ok t' → t'.has v = (b || t.has v) := by
  intro t
  induction t with
  | nil => intro t' h; cases h
  | item w z rest ih =>
    intro t' h
    simp only [Tree.insertBefore] at h
    split at h
    · injection h with h; subst h; exact ho _
    · split at h
      · cases h
      · rename_i r hr
        injection h with h; subst h
        simp only [Tree.has, ih r hr]
  | box w i z kids rest _ ih =>
    intro t' h
    simp only [Tree.insertBefore] at h
    split at h
    · injection h with h; subst h; exact ho _
    · split at h
      · cases h
      · rename_i r hr
        injection h with h; subst h
        simp only [Tree.has, ih r hr]
        cases b <;> simp

theorem has_after {v c : Nat} {obj : Tree → Tree} {b : Bool} (ho : ∀ t, (obj t).has v = (b || t.has v)) : ∀ (t t' : Tree),
    t.insertAfter c obj = .ok t' → t'.has v = (b || t.has v) := by
  intro t
  induction t with
  | nil => intro t' h; cases h
  | item w z rest ih =>
    intro t' h
    simp only [Tree.insertAfter] at h
    split at h
    · injection h with h; subst h; simp only [Tree.has, ho]
    · split at h
      · cases h
      · rename_i r hr
        injection h with h; subst h
        simp only [Tree.has, ih r hr]
  | box w i z kids rest _ ih =>
    intro t' h
    simp only [Tree.insertAfter] at h
    split at h
    · injection h with h; subst h; simp only [Tree.has, ho]; cases b <;> simp
    · split at h
      · cases h
      · rename_i r hr
        injection h with h; subst h
        simp only [Tree.has, ih r hr]
        cases b <;> simp

theorem has_addChild {v : Nat} {obj : Tree → Tree} {b : Bool} (ho : ∀ t, (obj t).has v = (b || t.has v)) {t t' : Tree} {prepend : Bool}
    {above below : Option Nat} (h : addChild t obj prepend above below = .ok t') : t'.has v = (b || t.has v) := by
  unfold addChild at h
  split at h
  · cases h
  · exact has_before ho _ _ h
  · exact has_after ho _ _ h
  · injection h with h; subst h
    cases prepend
    · exact has_append ho t
    · exact ho t

theorem exec_has {s s' : State} {c : Call} (h : exec s c = (s', none)) {v : Nat} (hv : s'.tree.has v = true) :
    s.tree.has v = true ∨ (v = s.next ∧ ∃ p b, c = .box p b) := by
  have item : ∀ {s s' : State} {p : Nat}, addItem s p = (s', none) → s'.tree.has v = true → s.tree.has v = true := by
    intro s s' p h hv
    unfold addItem at h
    simp only at h
    split at h
    · cases h
    · rename_i t ht
      injection h with h _; subst h
      refine Or.elim (modify_has_rev (n := v + 1) _ _ ?_ ht hv) id (fun h => by omega)
      intro i k i' k' e hk
      injection e with e; injection e with ea eb; subst eb
      left
      rw [has_append (b := false) (fun t => by simp [Tree.has]) k] at hk
      simpa using hk
  cases c with
  | box p b =>
    simp only [exec] at h
    split at h
    · unfold boxCall at h
      split at h
      · cases h
      · simp only at h
        split at h
        · cases h
        · split at h
          · cases h
          · rename_i t ht
            injection h with h _; subst h
            refine Or.elim (modify_has_rev (n := s.next) _ _ ?_ ht hv) .inl (fun h => .inr ⟨h, p, b, rfl⟩)
            intro i k i' k' e hk
            split at e
            · cases e
            · rename_i kk hkk
              injection e with e; injection e with ea eb; subst eb
              rw [has_addChild (b := s.next == v) (fun t => by simp [Tree.has]) hkk] at hk
              simp only [Bool.or_eq_true, beq_iff_eq] at hk
              rcases hk with h | h
              · exact .inr h.symm
              · exact .inl h
    · cases h
  | text p w ht fit =>
    simp only [exec] at h
    split at h
    · have := item h hv; exact .inl this
    · cases h
  | shape p =>
    simp only [exec] at h
    split at h
    · exact .inl (item h hv)
    · cases h
  | image p w ht steps =>
    simp only [exec] at h
    split at h
    · cases steps with
      | none => have := item h hv; exact .inl this
      | some k =>
        simp only at h
        split at h
        · cases h
        · rename_i s2 he
          have h2 := item h hv
          unfold ensureSteps at he
          split at he
          · cases he
          · rename_i t ht
            injection he with he _; subst he
            refine .inl (Or.elim (modify_has_rev (n := v + 1) _ _ ?_ ht h2) id (fun h => by omega))
            intro i k i' k' e hk
            injection e with e; injection e with ea eb; subst eb
            exact .inl hk
    · cases h

/-- Every box has one layout; the root is the only one without parent. -/
structure Laid (s : State) : Prop where
  nodup : (uids s.layouts).Nodup
  lt : ∀ u ∈ uids s.layouts, u < s.next
  has : ∀ u, s.tree.has u = true → u ∈ uids s.layouts
  root : ∃ a kids, s.layouts = .node 0 a kids .nil

theorem newSlide_laid (w h : Rat) : Laid (newSlide w h) := by
  refine ⟨by simp [newSlide, uids], ?_, ?_, ⟨_, _, rfl⟩⟩
  · intro u hu; simp [newSlide, uids] at hu; subst hu; exact Nat.zero_lt_one
  · intro u hu; simp [newSlide, Tree.has] at hu; subst hu; simp [newSlide, uids]

theorem exec_parent {s s' : State} {c : Call} (h : exec s c = (s', none)) :
    match c with
    | .box p _ => s.tree.has p = true
    | .text p _ _ _ => s.tree.has p = true
    | .shape p => s.tree.has p = true
    | .image p _ _ _ => s.tree.has p = true := by
  cases c <;> simp only [exec] at h <;> (split at h; (· assumption); (· cases h))

theorem exec_laid {s s' : State} {c : Call} (h : exec s c = (s', none)) (hl : Laid s) : Laid s' := by
  obtain ⟨hn, hs⟩ := exec_layouts h
  have hp := exec_parent h
  have same : uids s'.layouts = uids s.layouts → (∃ a kids, s'.layouts = .node 0 a kids .nil) → (∀ p b, c ≠ .box p b) → Laid s' := by
    intro he hr hc
    refine ⟨by rw [he]; exact hl.nodup, ?_, ?_, hr⟩
    · intro u hu; rw [he] at hu; have := hl.lt u hu; omega
    · intro u hu
      rw [he]
      rcases exec_has h hu with h | ⟨-, p, b, h⟩
      · exact hl.has u h
      · exact absurd h (hc p b)
  have rootOf : ∀ (p : Nat) (g : Attrs → Forest → Attrs × Forest), ∃ a kids, modifyLayout p g s.layouts = .node 0 a kids .nil := by
    intro p g
    obtain ⟨a, kids, e⟩ := hl.root
    rw [e]
    simp only [modifyLayout]
    split
    · rename_i h0; subst h0; exact ⟨_, _, rfl⟩
    · exact ⟨_, _, rfl⟩
  cases c with
  | box p b =>
    simp only [layoutsAfter] at hs
    have hb := h
    simp only [exec] at hb
    rw [if_pos hp] at hb
    cases ha : Verif.Layout.newAttrs b.layout with
    | error e => unfold boxCall at hb; rw [ha] at hb; cases hb
    | ok a =>
      rw [ha] at hs
      dsimp only at hs
      have hperm : (uids s'.layouts).Perm (s.next :: uids s.layouts) := by
        rw [hs]
        refine uids_add ?_ hl.nodup (hl.has p hp)
        intro a' k
        cases b.layout.prepend
        · simp only [Bool.false_eq_true, if_false, uids_append]; exact List.perm_append_singleton _ _
        · simp [uids]
      refine ⟨?_, ?_, ?_, by rw [hs]; exact rootOf _ _⟩
      · rw [hperm.nodup_iff, List.nodup_cons]
        exact ⟨fun h' => absurd (hl.lt _ h') (by omega), hl.nodup⟩
      · intro u hu
        rcases List.mem_cons.mp (hperm.mem_iff.mp hu) with rfl | hu
        · omega
        · have := hl.lt u hu; omega
      · intro u hu
        refine hperm.mem_iff.mpr (List.mem_cons.mpr ?_)
        rcases exec_has h hu with h | ⟨h, -⟩
        · exact .inr (hl.has u h)
        · exact .inl h
  | text p w ht fit =>
    simp only [layoutsAfter] at hs
    exact same (by rw [hs]; exact uids_keep (fun _ _ => rfl) _) (by rw [hs]; exact rootOf _ _) (by intro p b h; cases h)
  | shape p =>
    simp only [layoutsAfter] at hs
    exact same (by rw [hs]) (by rw [hs]; exact hl.root) (by intro p b h; cases h)
  | image p w ht steps =>
    simp only [layoutsAfter] at hs
    exact same (by rw [hs]; exact uids_keep (fun _ _ => rfl) _) (by rw [hs]; exact rootOf _ _) (by intro p b h; cases h)

theorem run_laid {s s' : State} {cs : List Call} (h : run s cs = .ok s') (hl : Laid s) : Laid s' := by
  induction cs generalizing s with
  | nil => injection h with h; subst h; exact hl
  | cons c cs ih =>
    simp only [run] at h
    split at h
    · cases h
    · rename_i s1 he
      exact ih h (exec_laid he hl)

end Verif.Slide
