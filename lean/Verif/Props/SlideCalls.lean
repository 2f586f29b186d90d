import Verif.Props.Slide

/-!
# Properties C19 and C25 for the boxes of a slide

What a box created with a selector looks like in the tree of the slide, and that later calls do not
change it.
-/

namespace Verif.Slide
open Verif.Show
open Spec Verif.Show.Spec

/-- **C19, for `box()`.** A box created with a selector is visible in exactly the fragments the selector
says, where `last` is the current fragment of the slide; without `show` in all fragments from 1 on, with a
number in that fragment. -/
theorem C19_box {s s' : State} (hr : Reachable s) {p : Nat} {c : BoxCall} (h : exec s (.box p c) = (s', none)) :
    ∃ info z, (nodes s'.tree).Perm (.box s.next info z :: nodes s.tree) ∧
      (∀ src is, c.show_ = .str src → Writes isSpace src is → (∀ i ∈ is, i.Valid) →
        Legal (some s.steps) is ∧ ∀ n, info.isVisible n = true ↔ ∃ i ∈ is, i.Selects (some s.steps) n) ∧
      (c.show_ = .none → ∀ n, info.isVisible n = true ↔ 1 ≤ n) ∧
      (∀ k, c.show_ = .int k → ∀ n, info.isVisible n = true ↔ n = k) := by
  have hs : s.maxStep = s.steps := by rw [steps_eq_top, hr.inv.eq]
  simp only [exec] at h
  split at h
  · obtain ⟨info, hp, hn, -⟩ := boxCall_nodes h
    rw [hs] at hp
    refine ⟨info, _, hn, ?_, ?_, ?_⟩
    · intro src is hc hw hv
      rw [hc] at hp
      obtain ⟨js, h1, h2⟩ := (C20_only_legal_selectors (some s.steps) src).mp ⟨info, hp⟩
      have he : js = is := C20_unambiguous src js is h1 hw h2.valid hv
      subst he
      obtain ⟨info', hp', hv⟩ := C19_selector_meaning (some s.steps) src js hw h2
      rw [hp] at hp'
      injection hp' with hp'; subst hp'
      exact ⟨h2, hv⟩
    · intro hc
      obtain ⟨⟨info', hp', hv⟩, -⟩ := C19_default_and_number (some s.steps) 0
      rw [← hc, hp] at hp'
      injection hp' with hp'; subst hp'
      exact hv
    · intro k hc
      obtain ⟨-, info', hp', hv⟩ := C19_default_and_number (some s.steps) k
      rw [← hc, hp] at hp'
      injection hp' with hp'; subst hp'
      exact hv
  · cases h

/-- A box with the selector `1,last+` in a slide with three fragments. -/
example : ∃ s, Reachable s ∧ s.steps = 3 ∧ (exec s (.box 0 { show_ := .str "1,last+".toList })).2 = none ∧
    Writes isSpace "1,last+".toList [.single (.num ['1']), .opn .last] ∧
    (∀ i ∈ [Item.single (.num ['1']), .opn .last], i.Valid) := by
  refine ⟨stateOf [.box 0 { show_ := .int 3 }], ⟨100, 100, [.box 0 { show_ := .int 3 }], by rfl⟩, by decide +kernel,
    by decide +kernel, .cons [] [] (.single (.num ['1'])) _ _ (by simp) (.one [] [] (.opn .last) (by simp)), ?_⟩
  intro i hi
  simp only [List.mem_cons, List.not_mem_nil, or_false] at hi
  rcases hi with rfl | rfl
  · exact ⟨by decide, by decide⟩
  · trivial

/-- The node is the same for the viewer: an item, or a box visible in the same fragments; same z-level. -/
inductive SameNode : Node → Node → Prop
  | item (u : Nat) (z : Int) : SameNode (.item u z) (.item u z)
  | box (u : Nat) (i i' : ShowInfo) (z : Int) : (∀ n, i'.isVisible n = i.isVisible n) → SameNode (.box u i z) (.box u i' z)

theorem SameNode.refl (x : Node) : SameNode x x := by
  cases x
  · exact .item _ _
  · exact .box _ _ _ _ (fun _ => rfl)

theorem modify_kept {u : Nat} {g : ShowInfo → ShowInfo} (hg : ∀ i n, (g i).isVisible n = i.isVisible n) :
    ∀ (t t' : Tree), t.modify u (fun i kids => .ok (g i, kids)) = .ok t' → ∀ x ∈ nodes t, ∃ y ∈ nodes t', SameNode x y := by
  intro t
  induction t with
  | nil => intro t' h; cases h
  | item v z rest ih =>
    intro t' h x hx
    simp only [Tree.modify] at h
    split at h
    · cases h
    · rename_i r hr
      injection h with h; subst h
      simp only [nodes, List.mem_cons] at hx ⊢
      rcases hx with rfl | hx
      · exact ⟨_, .inl rfl, .refl _⟩
      · obtain ⟨y, hy, hs⟩ := ih r hr x hx
        exact ⟨y, .inr hy, hs⟩
  | box v i z kids rest ihk ihr =>
    intro t' h x hx
    simp only [nodes, List.mem_cons, List.mem_append] at hx
    simp only [Tree.modify] at h
    split at h
    · injection h with h; subst h
      simp only [nodes, List.mem_cons, List.mem_append]
      rcases hx with rfl | hx | hx
      · exact ⟨_, .inl rfl, .box _ _ _ _ (hg i)⟩
      · exact ⟨x, .inr (.inl hx), .refl _⟩
      · exact ⟨x, .inr (.inr hx), .refl _⟩
    · split at h
      · split at h
        · cases h
        · rename_i kids' hkm
          injection h with h; subst h
          simp only [nodes, List.mem_cons, List.mem_append]
          rcases hx with rfl | hx | hx
          · exact ⟨_, .inl rfl, .refl _⟩
          · obtain ⟨y, hy, hs⟩ := ihk _ hkm x hx
            exact ⟨y, .inr (.inl hy), hs⟩
          · exact ⟨x, .inr (.inr hx), .refl _⟩
      · split at h
        · cases h
        · rename_i rest' hrm
          injection h with h; subst h
          simp only [nodes, List.mem_cons, List.mem_append]
          rcases hx with rfl | hx | hx
          · exact ⟨_, .inl rfl, .refl _⟩
          · exact ⟨x, .inr (.inl hx), .refl _⟩
          · obtain ⟨y, hy, hs⟩ := ihr _ hrm x hx
            exact ⟨y, .inr (.inr hy), hs⟩

theorem exec_kept {s s' : State} {c : Call} (h : exec s c = (s', none)) :
    ∀ x ∈ nodes s.tree, ∃ y ∈ nodes s'.tree, SameNode x y := by
  have item : ∀ {s s' : State} {p : Nat}, addItem s p = (s', none) → ∀ x ∈ nodes s.tree, ∃ y ∈ nodes s'.tree, SameNode x y :=
    fun h x hx => ⟨x, (addItem_nodes h).1.symm.subset (.tail _ hx), .refl _⟩
  intro x hx
  cases c with
  | box p b =>
    simp only [exec] at h
    split at h
    · obtain ⟨info, -, h1, -⟩ := boxCall_nodes h
      exact ⟨x, h1.symm.subset (.tail _ hx), .refl _⟩
    · cases h
  | text p w ht fit =>
    simp only [exec] at h
    split at h
    · exact item h x hx
    · cases h
  | shape p =>
    simp only [exec] at h
    split at h
    · exact item h x hx
    · cases h
  | image p w ht steps =>
    simp only [exec] at h
    split at h
    · cases steps with
      | none => exact item h x hx
      | some k =>
        simp only at h
        split at h
        · cases h
        · rename_i s2 he
          unfold ensureSteps at he
          split at he
          · cases he
          · rename_i t ht
            injection he with he _; subst he
            obtain ⟨y, hy, hs⟩ := modify_kept (g := fun i => i.ensureSteps k) (fun i n => rfl) _ _ ht x hx
            obtain ⟨y', hy', hs'⟩ := item h y hy
            refine ⟨y', hy', ?_⟩
            cases hs with
            | item => exact hs'
            | box u i i' z hv =>
              cases hs' with
              | box _ _ i'' _ hv' => exact .box _ _ _ _ (fun n => (hv' n).trans (hv n))
    · cases h

/-- **C19 and C25, later calls.** No later call, in particular no image added to the box, changes in which
fragments an existing box is visible, or the z-level of a box or item. -/
theorem C19_kept {s s' : State} {cs : List Call} (h : run s cs = .ok s') :
    ∀ x ∈ nodes s.tree, ∃ y ∈ nodes s'.tree, SameNode x y := by
  induction cs generalizing s with
  | nil => intro x hx; injection h with h; subst h; exact ⟨x, hx, .refl _⟩
  | cons c cs ih =>
    intro x hx
    simp only [run] at h
    split at h
    · cases h
    · rename_i s2 he
      obtain ⟨y, hy, hs⟩ := exec_kept he x hx
      obtain ⟨y', hy', hs'⟩ := ih h y hy
      refine ⟨y', hy', ?_⟩
      cases hs with
      | item => exact hs'
      | box u i i' z hv =>
        cases hs' with
        | box _ _ i'' _ hv' => exact .box _ _ _ _ (fun n => (hv' n).trans (hv n))

/-- An image with six steps in a box of fragments 2 and 3: the slide gets six pages, the box stays hidden. -/
example : (stateOf [.box 0 { show_ := .str "2-3".toList }, .image 1 5 5 (some 6)]).steps = 6 ∧
    ∃ i z, Node.box 1 i z ∈ nodes (stateOf [.box 0 { show_ := .str "2-3".toList }, .image 1 5 5 (some 6)]).tree ∧
      i.isVisible 4 = false ∧ i.isVisible 3 = true := by
  refine ⟨by decide +kernel, ⟨[2, 3], none, 6⟩, 0, ?_, by decide +kernel, by decide +kernel⟩
  have : nodes (stateOf [.box 0 { show_ := .str "2-3".toList }, .image 1 5 5 (some 6)]).tree =
    [.box 0 ⟨[], some 1, 1⟩ 0, .box 1 ⟨[2, 3], none, 6⟩ 0, .item 2 0] := by rfl
  rw [this]; simp

end Verif.Slide
