import Verif.Proofs.History

/-! # Property C106: what a page shows, from the calls alone -/

namespace Verif.Slide
open Verif.Show Verif.Show.Spec Spec

theorem nodup_pair {α : Type} {l : List α} (h : l.Nodup) {a : α} : ¬ List.Sublist [a, a] l := by
  intro hs
  have := h.sublist hs
  simp at this

/-- **C106.** After any history of calls, page `step` shows exactly the items whose boxes are on the page according to the calls, each once,
on the level of its box; items on a smaller level are painted first, and items on the same level in the order of a walk through the boxes
in which the children of a box come in the order in which they were put into it. -/
theorem C106_page (w h : Rat) (cs : List Call) (s : State) (hr : run (newSlide w h) cs = .ok s) (step : Int) :
    ∃ (l : List (Nat × Int)) (order : List Nat),
      page s step false = l.map (fun x => .item x.1 x.2) ∧ (l.map (·.1)).Nodup ∧
      (∀ u z, (u, z) ∈ l ↔ ∃ p, ItemOf cs p u ∧ Level cs p z ∧ OnPage cs step p) ∧
      Walk cs [0] order ∧ (∀ o, Walk cs [0] o → o = order) ∧ order.Nodup ∧ l.Pairwise (Under order) := by
  have hf : Fresh s := Reachable.fresh ⟨w, h, cs, hr⟩
  have hi0 : Inv (newSlide w h) := Reachable.inv ⟨w, h, [], rfl⟩
  have hf0 : Fresh (newSlide w h) := Reachable.fresh ⟨w, h, [], rfl⟩
  have ht : Tells cs s := by simpa using tells_run (tells_new w h) hf0 hi0 .new hr
  have ho : Ordered cs s := by simpa using ordered_run (ordered_new w h) (tells_new w h) hf0 hi0 .new hr
  have hn := hf.nodup
  have hw : Walk cs [0] ((nodes s.tree).map Node.uid) := by
    have := tree_walk s.tree hn ho.boxes (fun u z hm => kids_empty (ho.items u z hm))
    rwa [run_tops hr] at this
  obtain ⟨hp1, hp2⟩ := C24_visible_items ⟨w, h, cs, hr⟩ step
  obtain ⟨hq1, hq2, hq3⟩ := C25_paint_order s step false
  -- the painters are items
  have hall : ∀ x ∈ page s step false, ∃ u z, x = .item u z := by
    intro x hx
    have := hq1.subset hx
    rw [hp1] at this
    obtain ⟨y, _, rfl⟩ := List.mem_map.mp this
    exact ⟨_, _, rfl⟩
  obtain ⟨l, hl⟩ : ∃ l : List (Nat × Int), page s step false = l.map (fun x => .item x.1 x.2) := by
    generalize page s step false = q at hall
    induction q with
    | nil => exact ⟨[], rfl⟩
    | cons x q ih =>
      obtain ⟨u, z, rfl⟩ := hall x (.head _)
      obtain ⟨l, rfl⟩ := ih (fun y hy => hall y (.tail _ hy))
      exact ⟨(u, z) :: l, rfl⟩
  have hmem : ∀ u z, (u, z) ∈ l ↔ ∃ m, (u, z, m) ∈ items [] s.tree ∧ m.all (·.isVisible step) = true := by
    intro u z
    have e1 : (u, z) ∈ l ↔ Painter.item u z ∈ page s step false := by
      rw [hl]
      constructor
      · exact fun hm => List.mem_map.mpr ⟨_, hm, rfl⟩
      · intro hm
        obtain ⟨⟨a, b⟩, hab, he⟩ := List.mem_map.mp hm
        injection he with h1 h2
        subst h1; subst h2
        exact hab
    rw [e1, hq1.mem_iff, hp1]
    constructor
    · intro hm
      obtain ⟨⟨a, b, m⟩, hab, he⟩ := List.mem_map.mp hm
      injection he with h1 h2
      subst h1; subst h2
      exact ⟨m, (List.mem_filter.mp hab).1, (List.mem_filter.mp hab).2⟩
    · rintro ⟨m, h1, h2⟩
      exact List.mem_map.mpr ⟨_, List.mem_filter.mpr ⟨h1, h2⟩, rfl⟩
  have hpair : l.Pairwise (Under ((nodes s.tree).map Node.uid)) := by
    rw [List.pairwise_iff_forall_sublist]
    intro a b hab
    have hab' : List.Sublist [Painter.item a.1 a.2, Painter.item b.1 b.2] (page s step false) := by
      rw [hl]
      exact hab.map (fun x : Nat × Int => Painter.item x.1 x.2)
    have hle : a.2 ≤ b.2 := List.pairwise_iff_forall_sublist.mp hq2 hab'
    rcases lt_or_eq_of_le hle with hlt | heq
    · exact .inl hlt
    · refine .inr ⟨heq, ?_⟩
      have h1 := hab'.filter (fun p : Painter => decide (levelOf p = b.2))
      rw [hq3 b.2] at h1
      have e : [Painter.item a.1 a.2, Painter.item b.1 b.2].filter (fun p : Painter => decide (levelOf p = b.2)) =
          [Painter.item a.1 a.2, Painter.item b.1 b.2] := by
        simp [levelOf, heq]
      rw [e] at h1
      have h2 := h1.trans List.filter_sublist
      rw [hp1] at h2
      have h3 := (h2.map (fun p => match p with | .item u _ => u | .debug u _ => u))
      rw [List.map_map] at h3
      refine List.Sublist.trans h3 ?_
      exact (List.filter_sublist.map _).trans (items_uids s.tree [])
  refine ⟨l, (nodes s.tree).map Node.uid, hl, ?_, ?_, hw, fun o ho' => walk_unique ho' hw, hn, hpair⟩
  · have hnd : ((items [] s.tree).map (·.1)).Nodup := hn.sublist (items_uids s.tree [])
    have hperm : (l.map (fun x => Painter.item x.1 x.2)).Perm (s.tree.painters step false) := by rw [← hl]; exact hq1
    have h3 := hperm.map (fun p => match p with | .item u _ => u | .debug u _ => u)
    rw [hp1, List.map_map, List.map_map] at h3
    exact h3.nodup_iff.mpr (hnd.sublist (List.filter_sublist.map _))
  · intro u z
    rw [hmem u z]
    constructor
    · rintro ⟨m, h1, h2⟩
      obtain ⟨p, h3, h4, h5⟩ := ht.items u z m ((items_located _ _ _ _ _).mp h1)
      exact ⟨p, h3, h4, (h5 step).mp h2⟩
    · rintro ⟨p, h1, h2, h3⟩
      obtain ⟨z', m, hm⟩ := ht.all u p h1
      obtain ⟨q, h4, h5, h6⟩ := ht.items u z' m hm
      have hpq : q = p := by
        cases h1 with
        | mk a1 a2 a3 =>
          cases h4 with
          | mk b1 b2 b3 =>
            rw [a1] at b1
            injection b1 with b1
            rw [← a3, ← b3, b1]
      subst hpq
      rw [level_unique h5 h2] at hm
      exact ⟨m, (items_located _ _ _ _ _).mpr hm, (h6 step).mpr h3⟩

/-- A box shown from fragment 2 on with a shape, a box put below it with a shape, a box on level -1 with a shape, and a shape on top. -/
def exPage : List Call :=
  [.box 0 { show_ := .str "2+".toList }, .shape 1, .box 0 { below := some 1 }, .shape 3, .box 0 { z := some (-1) }, .shape 5, .shape 0]

/-- The calls succeed; page 1 shows three of the shapes, page 2 all four. -/
example : (run (newSlide 100 100) exPage).toOption.isSome = true ∧
    page (stateOf exPage) 1 false = [.item 6 (-1), .item 4 0, .item 7 0] ∧
    page (stateOf exPage) 2 false = [.item 6 (-1), .item 4 0, .item 2 0, .item 7 0] := by decide +kernel

/-- The item 6 is in the box 5, on level -1. -/
example : ItemOf exPage 5 6 ∧ Level exPage 5 (-1) := ⟨.mk (k := 5) (c := .shape 5) rfl rfl rfl, .given (k := 4) rfl rfl⟩

end Verif.Slide
