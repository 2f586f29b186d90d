import Verif.Spec.Slide
import Verif.Props.Show
import Mathlib.Data.List.Perm.Basic

/-! Helper lemmas for slides. -/

namespace Verif.Slide
open Spec Verif.Show Verif.Show.Spec

/-! ### the number of pages -/

/-- The largest `min_steps` in a tree, at least 1. -/
def Tree.top : Tree → Int
  | .nil => 1
  | .item _ _ rest => rest.top
  | .box _ i _ kids rest => max i.minSteps (max kids.top rest.top)

theorem Tree.one_le_top (t : Tree) : 1 ≤ t.top := by
  induction t with
  | nil => exact le_refl _
  | item u z rest ih => exact ih
  | box u i z kids rest ihk ihr => exact le_trans ihr (le_trans (le_max_right _ _) (le_max_right _ _))

theorem Tree.top_greatest (t : Tree) : Greatest (fun n => n = 1 ∨ n ∈ t.minSteps) t.top := by
  induction t with
  | nil => exact ⟨Or.inl rfl, by rintro n (rfl | h); exact le_refl _; cases h⟩
  | item u z rest ih => exact ih
  | box u i z kids rest ihk ihr =>
    constructor
    · simp only [Tree.top, Tree.minSteps, List.mem_cons, List.mem_append]
      rcases max_choice i.minSteps (max kids.top rest.top) with h | h <;> rw [h]
      · right; left; rfl
      · rcases max_choice kids.top rest.top with h | h <;> rw [h]
        · rcases ihk.1 with h | h
          · left; exact h
          · right; right; left; exact h
        · rcases ihr.1 with h | h
          · left; exact h
          · right; right; right; exact h
    · intro n hn
      simp only [Tree.minSteps, List.mem_cons, List.mem_append] at hn
      simp only [Tree.top]
      rcases hn with rfl | rfl | h | h
      · exact Tree.one_le_top (.box u i z kids rest)
      · exact le_max_left _ _
      · exact le_trans (ihk.2 n (Or.inr h)) (le_trans (le_max_left _ _) (le_max_right _ _))
      · exact le_trans (ihr.2 n (Or.inr h)) (le_trans (le_max_right _ _) (le_max_right _ _))

theorem greatest_unique {P : Int → Prop} {m n : Int} (h1 : Greatest P m) (h2 : Greatest P n) : m = n :=
  le_antisymm (h2.2 m h1.1) (h1.2 n h2.1)

theorem steps_eq_top (s : State) : s.steps = s.tree.top := by
  have ht : Greatest (fun n => n = 1 ∨ n ∈ s.tree.minSteps) s.tree.top := s.tree.top_greatest
  unfold State.steps
  cases hm : ((1 :: s.tree.minSteps).filter (· ≠ 0)).max? with
  | none =>
    rw [List.max?_eq_none_iff] at hm
    simp at hm
  | some m =>
    rw [List.max?_eq_some_iff] at hm
    obtain ⟨h1, h2⟩ := hm
    have h1' := (List.mem_filter.mp h1).1
    simp only [Option.getD_some]
    apply le_antisymm
    · exact ht.2 m (by simpa using h1')
    · apply h2
      rw [List.mem_filter]
      refine ⟨by simpa using ht.1, ?_⟩
      have := s.tree.one_le_top
      simp; omega

/-- All `min_steps` are positive. -/
def Good (t : Tree) : Prop := ∀ m ∈ t.minSteps, (1 : Int) ≤ m

theorem modify_top {u : Nat} {g : ShowInfo → Tree → Except Err (ShowInfo × Tree)} {m : Int}
    (hg : ∀ i kids i' kids', g i kids = .ok (i', kids') → 1 ≤ i.minSteps → Good kids →
      max i'.minSteps kids'.top = max (max i.minSteps kids.top) m ∧ 1 ≤ i'.minSteps ∧ Good kids') :
    ∀ (t t' : Tree), t.has u = true → t.modify u g = .ok t' → Good t → t'.top = max t.top m ∧ Good t' := by
  intro t
  induction t with
  | nil => intro t' h; cases h
  | item v z rest ih =>
    intro t' hh h hgood
    simp only [Tree.modify] at h
    split at h
    · cases h
    · rename_i r hr
      injection h with h; subst h
      exact ih r (by simpa [Tree.has] using hh) hr hgood
  | box v i z kids rest ihk ihr =>
    intro t' hh h hgood
    have g1 : 1 ≤ i.minSteps := hgood _ (by simp [Tree.minSteps, ShowInfo.getMinSteps])
    have g2 : Good kids := fun m hm => hgood m (by simp [Tree.minSteps, hm])
    have g3 : Good rest := fun m hm => hgood m (by simp [Tree.minSteps, hm])
    have mk : ∀ i' kids' rest', 1 ≤ ShowInfo.minSteps i' → Good kids' → Good rest' → Good (.box v i' z kids' rest') := by
      intro i' kids' rest' h1 h2 h3 m hm
      simp only [Tree.minSteps, List.mem_cons, List.mem_append, ShowInfo.getMinSteps] at hm
      rcases hm with rfl | hm | hm
      · exact h1
      · exact h2 m hm
      · exact h3 m hm
    simp only [Tree.modify] at h
    split at h
    · split at h
      · cases h
      · rename_i i' kids' hgi
        injection h with h; subst h
        obtain ⟨e, e1, e2⟩ := hg _ _ _ _ hgi g1 g2
        refine ⟨?_, mk _ _ _ e1 e2 g3⟩
        simp only [Tree.top]
        omega
    · rename_i hvu
      split at h
      · rename_i hk
        split at h
        · cases h
        · rename_i kids' hkm
          injection h with h; subst h
          obtain ⟨e, e2⟩ := ihk _ hk hkm g2
          refine ⟨?_, mk _ _ _ g1 e2 g3⟩
          simp only [Tree.top, e]
          omega
      · rename_i hk
        split at h
        · cases h
        · rename_i rest' hrm
          injection h with h; subst h
          have hr : rest.has u = true := by
            simp only [Tree.has, Bool.or_eq_true, beq_iff_eq] at hh
            rcases hh with (hh | hh) | hh
            · exact absurd hh hvu
            · exact absurd hh hk
            · exact hh
          obtain ⟨e, e2⟩ := ihr _ hr hrm g3
          refine ⟨?_, mk _ _ _ g1 g2 e2⟩
          simp only [Tree.top, e]
          omega

/-- An object put in front of siblings adds `m` to the steps. -/
def AddsTop (obj : Tree → Tree) (m : Int) : Prop :=
  ∀ t, Good t → (obj t).top = max t.top m ∧ Good (obj t)

theorem append_top {obj : Tree → Tree} {m : Int} (ho : AddsTop obj m) : ∀ t, Good t →
    (t.append obj).top = max t.top m ∧ Good (t.append obj) := by
  intro t
  induction t with
  | nil => intro h; exact ho .nil h
  | item v z rest ih => intro h; exact ih h
  | box v i z kids rest ihk ihr =>
    intro h
    obtain ⟨e1, e2⟩ := ihr (fun m hm => h m (by simp [Tree.minSteps, hm]))
    refine ⟨by simp only [Tree.append, Tree.top, e1]; omega, ?_⟩
    intro m hm
    simp only [Tree.append, Tree.minSteps, List.mem_cons, List.mem_append] at hm
    rcases hm with rfl | hm | hm
    · exact h _ (by simp [Tree.minSteps])
    · exact h m (by simp [Tree.minSteps, hm])
    · exact e2 m hm

theorem insertBefore_top {obj : Tree → Tree} {m : Int} (ho : AddsTop obj m) (c : Nat) : ∀ t t', Good t →
    t.insertBefore c obj = .ok t' → t'.top = max t.top m ∧ Good t' := by
  intro t
  induction t with
  | nil => intro t' _ h; cases h
  | item v z rest ih =>
    intro t' hg h
    simp only [Tree.insertBefore] at h
    split at h
    · injection h with h; subst h; exact ho _ hg
    · split at h
      · cases h
      · rename_i r hr
        injection h with h; subst h
        exact ih r hg hr
  | box v i z kids rest ihk ihr =>
    intro t' hg h
    simp only [Tree.insertBefore] at h
    split at h
    · injection h with h; subst h; exact ho _ hg
    · split at h
      · cases h
      · rename_i r hr
        injection h with h; subst h
        obtain ⟨e1, e2⟩ := ihr r (fun m hm => hg m (by simp [Tree.minSteps, hm])) hr
        refine ⟨by simp only [Tree.top, e1]; omega, ?_⟩
        intro m hm
        simp only [Tree.minSteps, List.mem_cons, List.mem_append] at hm
        rcases hm with rfl | hm | hm
        · exact hg _ (by simp [Tree.minSteps])
        · exact hg m (by simp [Tree.minSteps, hm])
        · exact e2 m hm

theorem insertAfter_top {obj : Tree → Tree} {m : Int} (ho : AddsTop obj m) (c : Nat) : ∀ t t', Good t →
    t.insertAfter c obj = .ok t' → t'.top = max t.top m ∧ Good t' := by
  intro t
  induction t with
  | nil => intro t' _ h; cases h
  | item v z rest ih =>
    intro t' hg h
    simp only [Tree.insertAfter] at h
    split at h
    · injection h with h; subst h; exact ho rest hg
    · split at h
      · cases h
      · rename_i r hr
        injection h with h; subst h
        exact ih r hg hr
  | box v i z kids rest ihk ihr =>
    intro t' hg h
    have key : ∀ r, (r.top = max rest.top m ∧ Good r) → (Tree.box v i z kids r).top = max (Tree.box v i z kids rest).top m ∧ Good (.box v i z kids r) := by
      rintro r ⟨e1, e2⟩
      refine ⟨by simp only [Tree.top, e1]; omega, ?_⟩
      intro m hm
      simp only [Tree.minSteps, List.mem_cons, List.mem_append] at hm
      rcases hm with rfl | hm | hm
      · exact hg _ (by simp [Tree.minSteps])
      · exact hg m (by simp [Tree.minSteps, hm])
      · exact e2 m hm
    have hgr : Good rest := fun m hm => hg m (by simp [Tree.minSteps, hm])
    simp only [Tree.insertAfter] at h
    split at h
    · injection h with h; subst h; exact key _ (ho rest hgr)
    · split at h
      · cases h
      · rename_i r hr
        injection h with h; subst h
        exact key r (ihr r hgr hr)

theorem addChild_top {obj : Tree → Tree} {m : Int} (ho : AddsTop obj m) {t t' : Tree} {prepend : Bool}
    {above below : Option Nat} (hg : Good t) (h : addChild t obj prepend above below = .ok t') :
    t'.top = max t.top m ∧ Good t' := by
  unfold addChild at h
  split at h
  · cases h
  · exact insertBefore_top ho _ _ _ hg h
  · exact insertAfter_top ho _ _ _ hg h
  · injection h with h; subst h
    split
    · exact ho _ hg
    · exact append_top ho _ hg

theorem maxStepOf_ge (steps : List Int) (o : Option Int) (ho : ∀ v, o = some v → 0 ≤ v) : 1 ≤ maxStepOf steps o := by
  unfold maxStepOf
  apply le_trans _ (le_max_right _ _)
  cases o with
  | none => exact le_refl _
  | some v =>
    have := ho v rfl
    simp only
    split <;> omega

theorem greatest_maxStepOf (steps : List Int) (o : Option Int) (ho : ∀ v, o = some v → 0 ≤ v) :
    Greatest (fun n => n = 1 ∨ n ∈ steps ∨ o = some n) (maxStepOf steps o) := by
  have h1 := maxStepOf_ge steps o ho
  refine ⟨?_, ?_⟩
  · clear ho h1
    unfold maxStepOf
    refine max_rec' (fun n => n = 1 ∨ n ∈ steps ∨ o = some n) ?_ ?_
    · cases hm : steps.max? with
      | none => left; rfl
      | some m => right; left; exact (List.max?_eq_some_iff.mp hm).1
    · cases o with
      | none => left; rfl
      | some v =>
        by_cases hv : v = 0
        · left; simp [hv]
        · right; right; simp [hv]
  · rintro n (rfl | hn | hn)
    · exact h1
    · unfold maxStepOf
      apply le_trans _ (le_max_left _ _)
      cases hm : steps.max? with
      | none => rw [List.max?_eq_none_iff] at hm; rw [hm] at hn; cases hn
      | some m => exact (List.max?_eq_some_iff.mp hm).2 n hn
    · by_cases h0 : n = 0
      · omega
      · unfold maxStepOf
        apply le_trans _ (le_max_right _ _)
        rw [hn]
        simp [h0]

/-- What `ShowInfo.parse` says about pages. -/
theorem parse_mentions {arg : ShowArg} {cur : Int} (hc : 1 ≤ cur) {info : ShowInfo}
    (h : parse arg (some cur) = .ok info) :
    info.minSteps = info.maxStep ∧ Greatest (fun n => n = 1 ∨ Mentions cur arg n) info.maxStep := by
  cases arg with
  | none =>
    injection h with h; subst h
    refine ⟨rfl, ?_⟩
    refine ⟨by left; rfl, ?_⟩
    rintro n (h | h)
    · subst h; decide
    · have h : n = 1 := h
      subst h; decide
  | int k =>
    injection h with h; subst h
    refine ⟨rfl, ?_⟩
    have := greatest_maxStepOf [k] none (by rintro v ⟨⟩)
    simpa [Mentions, ShowInfo.maxStep, newInfo] using this
  | other => cases h
  | str s =>
    obtain ⟨is, hw, hl⟩ := (C20_only_legal_selectors (some cur) s).mp ⟨info, h⟩
    obtain ⟨steps, o, h1, h2, h3⟩ := parse_legal (some cur) s is hw hl
    rw [h] at h1
    injection h1 with h1
    subst h1
    have ho : ∀ v, o = some v → 0 ≤ v := by
      intro v hv
      obtain ⟨b, hb, hbv⟩ := (h3 v).mp hv
      cases b with
      | num ds => simp only [Bound.value, Option.some.injEq] at hbv; omega
      | next => simp only [Bound.value, Option.map_some, Option.some.injEq] at hbv; omega
      | last => simp only [Bound.value, Option.some.injEq] at hbv; omega
    refine ⟨rfl, ?_⟩
    have hg := greatest_maxStepOf ((steps.dedup).insertionSort (· ≤ ·)) o ho
    have heq : ∀ n, (n = 1 ∨ n ∈ (steps.dedup).insertionSort (· ≤ ·) ∨ o = some n) ↔ (n = 1 ∨ Mentions cur (.str s) n) := by
      intro n
      rw [List.mem_insertionSort, List.mem_dedup, h2, h3]
      constructor
      · rintro (hn | ⟨i, hi, hcl, hs⟩ | ⟨b, hb, hv⟩)
        · left; exact hn
        · right; exact ⟨is, hw, hl, i, hi, Or.inl ⟨hcl, hs⟩⟩
        · right; exact ⟨is, hw, hl, _, hb, Or.inr ⟨b, rfl, hv⟩⟩
      · rintro (hn | ⟨js, hw', hl', i, hi, hx⟩)
        · left; exact hn
        · have : js = is := C20_unambiguous s js is hw' hw hl'.valid hl.valid
          subst this
          right
          rcases hx with ⟨hcl, hs⟩ | ⟨b, rfl, hv⟩
          · left; exact ⟨i, hi, hcl, hs⟩
          · right; exact ⟨b, hi, hv⟩
    exact ⟨(heq _).mp hg.1, fun n hn => hg.2 n ((heq n).mpr hn)⟩

/-- The invariant of reachable slides about pages. -/
structure Inv (s : State) : Prop where
  good : Good s.tree
  eq : s.maxStep = s.tree.top

theorem Inv.one_le {s : State} (h : Inv s) : 1 ≤ s.maxStep := h.eq ▸ s.tree.one_le_top

theorem addItem_ok {s s' : State} {p : Nat} (hp : s.tree.has p = true) (h : addItem s p = (s', none)) (hi : Inv s) :
    Inv s' ∧ s'.maxStep = s.maxStep := by
  unfold addItem at h
  simp only at h
  split at h
  · cases h
  · rename_i t ht
    injection h with h _; subst h
    have := modify_top (m := 1) (by
      intro i kids i' kids' hg h1 h2
      injection hg with hg; injection hg with ha hb; subst ha; subst hb
      have ho : AddsTop (Tree.item s.next ((s.tree.zOf p).getD 0)) 1 := by
        intro t ht
        refine ⟨?_, ht⟩
        have := t.one_le_top
        simp only [Tree.top]; omega
      obtain ⟨e1, e2⟩ := append_top ho kids h2
      exact ⟨by rw [e1]; omega, h1, e2⟩) s.tree t hp ht hi.good
    obtain ⟨e1, e2⟩ := this
    refine ⟨⟨e2, ?_⟩, rfl⟩
    have := s.tree.one_le_top
    simp only [e1, hi.eq]; omega

theorem boxCall_ok {s s' : State} {p : Nat} {c : BoxCall} (hp : s.tree.has p = true) (h : boxCall s p c = (s', none))
    (hi : Inv s) : Inv s' ∧ ∃ info, parse c.show_ (some s.maxStep) = .ok info ∧ s'.maxStep = max s.maxStep info.maxStep := by
  unfold boxCall at h
  split at h
  · cases h
  · simp only at h
    split at h
    · cases h
    · rename_i info hinfo
      split at h
      · cases h
      · rename_i t ht
        injection h with h _; subst h
        obtain ⟨hmin, hgr⟩ := parse_mentions hi.one_le hinfo
        have hge : 1 ≤ info.maxStep := hgr.2 1 (Or.inl rfl)
        have := modify_top (m := info.maxStep) (by
          intro i kids i' kids' hg h1 h2
          split at hg
          · cases hg
          · rename_i k hk
            injection hg with hg; injection hg with ha hb; subst ha; subst hb
            have ho : AddsTop (Tree.box s.next info (c.z.getD ((s.tree.zOf p).getD 0)) .nil) info.maxStep := by
              intro t ht
              have := t.one_le_top
              refine ⟨by simp only [Tree.top, hmin]; omega, ?_⟩
              intro m hm
              simp only [Tree.minSteps, List.nil_append, List.mem_cons, ShowInfo.getMinSteps] at hm
              rcases hm with rfl | hm
              · omega
              · exact ht m hm
            obtain ⟨e1, e2⟩ := addChild_top ho h2 hk
            exact ⟨by rw [e1]; omega, h1, e2⟩) s.tree t hp ht hi.good
        obtain ⟨e1, e2⟩ := this
        exact ⟨⟨e2, by simp only [e1, hi.eq]⟩, info, hinfo, rfl⟩

theorem ensureSteps_ok {s s' : State} {p : Nat} {n : Int} (hp : s.tree.has p = true) (h : ensureSteps s p n = (s', none))
    (hi : Inv s) : Inv s' ∧ s'.maxStep = max s.maxStep n := by
  unfold ensureSteps at h
  split at h
  · cases h
  · rename_i t ht
    injection h with h _; subst h
    have := modify_top (m := n) (by
      intro i kids i' kids' hg h1 h2
      injection hg with hg; injection hg with ha hb; subst ha; subst hb
      have : (i.ensureSteps n).minSteps = max i.minSteps n := by
        unfold ShowInfo.ensureSteps newInfo
        simp only
        rw [if_pos (by omega)]
      refine ⟨by rw [this]; omega, by rw [this]; omega, h2⟩) s.tree t hp ht hi.good
    obtain ⟨e1, e2⟩ := this
    exact ⟨⟨e2, by simp only [e1, hi.eq]⟩, rfl⟩

theorem modify_has {u v : Nat} {g : ShowInfo → Tree → Except Err (ShowInfo × Tree)} : ∀ (t t' : Tree),
    (∀ i kids i' kids', g i kids = .ok (i', kids') → kids.has v = true → kids'.has v = true) →
    t.modify u g = .ok t' → t.has v = true → t'.has v = true := by
  intro t
  induction t with
  | nil => intro t' _ h; cases h
  | item w z rest ih =>
    intro t' hg h hv
    simp only [Tree.modify] at h
    split at h
    · cases h
    · rename_i r hr
      injection h with h; subst h
      exact ih r hg hr hv
  | box w i z kids rest ihk ihr =>
    intro t' hg h hv
    simp only [Tree.modify] at h
    simp only [Tree.has, Bool.or_eq_true, beq_iff_eq] at hv
    split at h
    · split at h
      · cases h
      · rename_i i' kids' hgi
        injection h with h; subst h
        simp only [Tree.has, Bool.or_eq_true, beq_iff_eq]
        rcases hv with (hv | hv) | hv
        · left; left; exact hv
        · left; right; exact hg _ _ _ _ hgi hv
        · right; exact hv
    · split at h
      · split at h
        · cases h
        · rename_i k hk
          injection h with h; subst h
          simp only [Tree.has, Bool.or_eq_true, beq_iff_eq]
          rcases hv with (hv | hv) | hv
          · left; left; exact hv
          · left; right; exact ihk k hg hk hv
          · right; exact hv
      · split at h
        · cases h
        · rename_i r hr
          injection h with h; subst h
          simp only [Tree.has, Bool.or_eq_true, beq_iff_eq]
          rcases hv with (hv | hv) | hv
          · left; left; exact hv
          · left; right; exact hv
          · right; exact ihr r hg hr hv

/-- One successful call. -/
theorem exec_ok {s s' : State} {c : Call} (h : exec s c = (s', none)) (hi : Inv s) :
    Inv s' ∧ Greatest (fun n => n = s.maxStep ∨ CallMentions s.maxStep c n) s'.maxStep := by
  cases c with
  | box p b =>
    simp only [exec] at h
    split at h
    · rename_i hp
      obtain ⟨h1, info, h2, h3⟩ := boxCall_ok hp h hi
      obtain ⟨-, hg⟩ := parse_mentions hi.one_le h2
      refine ⟨h1, ?_, ?_⟩
      · rw [h3]
        rcases max_choice s.maxStep info.maxStep with hm | hm
        · left; exact hm
        · rcases hg.1 with h | h
          · left
            have := hi.one_le
            rw [h]; omega
          · right; rw [hm]; exact h
      · intro n hn
        rw [h3]
        rcases hn with rfl | hn
        · exact le_max_left _ _
        · exact le_trans (hg.2 n (Or.inr hn)) (le_max_right _ _)
    · cases h
  | text p w ht fit =>
    simp only [exec] at h
    split at h
    · rename_i hp
      obtain ⟨h1, h2⟩ := addItem_ok (by exact hp) h ⟨hi.good, hi.eq⟩
      refine ⟨h1, Or.inl h2, ?_⟩
      rintro n (rfl | hn)
      · rw [h2]
      · cases hn
    · cases h
  | shape p =>
    simp only [exec] at h
    split at h
    · rename_i hp
      obtain ⟨h1, h2⟩ := addItem_ok hp h hi
      refine ⟨h1, Or.inl h2, ?_⟩
      rintro n (rfl | hn)
      · rw [h2]
      · cases hn
    · cases h
  | image p w ht steps =>
    simp only [exec] at h
    split at h
    · rename_i hp
      cases steps with
      | none =>
        simp only at h
        obtain ⟨h1, h2⟩ := addItem_ok (by exact hp) h ⟨hi.good, hi.eq⟩
        refine ⟨h1, Or.inl h2, ?_⟩
        rintro n (rfl | hn)
        · rw [h2]
        · cases hn
      | some k =>
        simp only at h
        split at h
        · cases h
        · rename_i s2 he
          obtain ⟨g1, g2⟩ := ensureSteps_ok (by exact hp) he ⟨hi.good, hi.eq⟩
          have hp2 : s2.tree.has p = true := by
            unfold ensureSteps at he
            split at he
            · cases he
            · rename_i t ht
              injection he with he _; subst he
              refine modify_has _ _ ?_ ht hp
              intro i kids i' kids' hg hk
              injection hg with hg; injection hg with _ hb; subst hb; exact hk
          obtain ⟨h1, h2⟩ := addItem_ok hp2 h g1
          simp only at g2
          refine ⟨h1, ?_, ?_⟩
          · rw [h2, g2]
            rcases max_choice s.maxStep k with hm | hm
            · left; exact hm
            · right; exact hm
          · rintro n (rfl | hn)
            · rw [h2, g2]; exact le_max_left _ _
            · simp only [CallMentions] at hn; subst hn; rw [h2, g2]; exact le_max_right _ _
    · cases h

theorem newSlide_inv (w h : Rat) : Inv (newSlide w h) := by
  refine ⟨?_, rfl⟩
  intro m hm
  simp only [newSlide, Tree.minSteps, List.append_nil, List.mem_cons, List.not_mem_nil, or_false] at hm
  subst hm; decide

theorem run_append {s s' : State} {cs ds : List Call} (h : run s (cs ++ ds) = .ok s') :
    ∃ m, run s cs = .ok m ∧ run m ds = .ok s' := by
  induction cs generalizing s with
  | nil => exact ⟨s, rfl, h⟩
  | cons c cs ih =>
    simp only [List.cons_append, run] at h ⊢
    split at h
    · cases h
    · exact ih h

theorem run_pages {s s' : State} {cs ds : List Call} (h : run s ds = .ok s') (hi : Inv s) (hp : Pages cs s.maxStep) :
    Inv s' ∧ Pages (cs ++ ds) s'.maxStep ∧ s.maxStep ≤ s'.maxStep := by
  induction ds generalizing s cs with
  | nil =>
    injection h with h; subst h
    exact ⟨hi, by simpa using hp, le_refl _⟩
  | cons c ds ih =>
    simp only [run] at h
    split at h
    · cases h
    · rename_i s1 he
      obtain ⟨h1, h2⟩ := exec_ok he hi
      obtain ⟨g1, g2, g3⟩ := ih h h1 (Pages.call hp h2)
      refine ⟨g1, by simpa using g2, ?_⟩
      have := h2.2 _ (Or.inl rfl)
      exact le_trans this g3

theorem run_inv {s s' : State} {ds : List Call} (h : run s ds = .ok s') (hi : Inv s) : Inv s' := by
  induction ds generalizing s with
  | nil => injection h with h; subst h; exact hi
  | cons c ds ih =>
    simp only [run] at h
    split at h
    · cases h
    · rename_i s1 he
      exact ih h (exec_ok he hi).1

/-! ### nodes -/

theorem modify_nodes {u : Nat} {g : ShowInfo → Tree → Except Err (ShowInfo × Tree)} {x : Node}
    (hg : ∀ i kids i' kids', g i kids = .ok (i', kids') → i' = i ∧ (nodes kids').Perm (x :: nodes kids)) :
    ∀ (t t' : Tree), t.modify u g = .ok t' → (nodes t').Perm (x :: nodes t) := by
  intro t
  induction t with
  | nil => intro t' h; cases h
  | item v z rest ih =>
    intro t' h
    simp only [Tree.modify] at h
    split at h
    · cases h
    · rename_i r hr
      injection h with h; subst h
      exact ((ih r hr).cons _).trans (List.Perm.swap _ _ _)
  | box v i z kids rest ihk ihr =>
    intro t' h
    have hk : ∀ kids', (nodes kids').Perm (x :: nodes kids) →
        (nodes (.box v i z kids' rest)).Perm (x :: nodes (.box v i z kids rest)) := by
      intro kids' hp
      simp only [nodes]
      exact ((hp.append_right _).cons _).trans (List.Perm.swap _ _ _)
    simp only [Tree.modify] at h
    split at h
    · split at h
      · cases h
      · rename_i i' kids' hgi
        injection h with h; subst h
        obtain ⟨rfl, hp⟩ := hg _ _ _ _ hgi
        exact hk _ hp
    · split at h
      · split at h
        · cases h
        · rename_i kids' hkm
          injection h with h; subst h
          exact hk _ (ihk _ hkm)
      · split at h
        · cases h
        · rename_i rest' hrm
          injection h with h; subst h
          simp only [nodes]
          refine List.Perm.trans (List.Perm.cons _ ((ihr _ hrm).append_left (nodes kids))) ?_
          refine List.Perm.trans (List.Perm.cons _ List.perm_middle) ?_
          exact List.Perm.swap _ _ _

/-- An object whose node is `x`. -/
def AddsNode (obj : Tree → Tree) (x : Node) : Prop := ∀ t, nodes (obj t) = x :: nodes t

theorem append_nodes {obj : Tree → Tree} {x : Node} (ho : AddsNode obj x) : ∀ t, (nodes (t.append obj)).Perm (x :: nodes t) := by
  intro t
  induction t with
  | nil => rw [Tree.append, ho]
  | item v z rest ih => exact (ih.cons _).trans (List.Perm.swap _ _ _)
  | box v i z kids rest ihk ihr =>
    simp only [nodes, Tree.append]
    refine List.Perm.trans (List.Perm.cons _ (ihr.append_left (nodes kids))) ?_
    refine List.Perm.trans (List.Perm.cons _ List.perm_middle) ?_
    exact List.Perm.swap _ _ _

theorem insertBefore_nodes {obj : Tree → Tree} {x : Node} (ho : AddsNode obj x) (c : Nat) : ∀ t t',
    t.insertBefore c obj = .ok t' → (nodes t').Perm (x :: nodes t) := by
  intro t
  induction t with
  | nil => intro t' h; cases h
  | item v z rest ih =>
    intro t' h
    simp only [Tree.insertBefore] at h
    split at h
    · injection h with h; subst h; rw [ho]
    · split at h
      · cases h
      · rename_i r hr
        injection h with h; subst h
        exact ((ih r hr).cons _).trans (List.Perm.swap _ _ _)
  | box v i z kids rest ihk ihr =>
    intro t' h
    simp only [Tree.insertBefore] at h
    split at h
    · injection h with h; subst h; rw [ho]
    · split at h
      · cases h
      · rename_i r hr
        injection h with h; subst h
        simp only [nodes]
        refine List.Perm.trans (List.Perm.cons _ ((ihr r hr).append_left (nodes kids))) ?_
        refine List.Perm.trans (List.Perm.cons _ List.perm_middle) ?_
        exact List.Perm.swap _ _ _

theorem insertAfter_nodes {obj : Tree → Tree} {x : Node} (ho : AddsNode obj x) (c : Nat) : ∀ t t',
    t.insertAfter c obj = .ok t' → (nodes t').Perm (x :: nodes t) := by
  intro t
  induction t with
  | nil => intro t' h; cases h
  | item v z rest ih =>
    intro t' h
    simp only [Tree.insertAfter] at h
    split at h
    · injection h with h; subst h; rw [nodes, nodes, ho]; exact List.Perm.swap _ _ _
    · split at h
      · cases h
      · rename_i r hr
        injection h with h; subst h
        exact ((ih r hr).cons _).trans (List.Perm.swap _ _ _)
  | box v i z kids rest ihk ihr =>
    intro t' h
    have key : ∀ r, (nodes r).Perm (x :: nodes rest) → (nodes (.box v i z kids r)).Perm (x :: nodes (.box v i z kids rest)) := by
      intro r hp
      simp only [nodes]
      refine List.Perm.trans (List.Perm.cons _ (hp.append_left (nodes kids))) ?_
      refine List.Perm.trans (List.Perm.cons _ List.perm_middle) ?_
      exact List.Perm.swap _ _ _
    simp only [Tree.insertAfter] at h
    split at h
    · injection h with h; subst h; exact key _ (by rw [ho])
    · split at h
      · cases h
      · rename_i r hr
        injection h with h; subst h
        exact key r (ihr r hr)

theorem addChild_nodes {obj : Tree → Tree} {x : Node} (ho : AddsNode obj x) {t t' : Tree} {prepend : Bool}
    {above below : Option Nat} (h : addChild t obj prepend above below = .ok t') : (nodes t').Perm (x :: nodes t) := by
  unfold addChild at h
  split at h
  · cases h
  · exact insertBefore_nodes ho _ _ _ h
  · exact insertAfter_nodes ho _ _ _ h
  · injection h with h; subst h
    split
    · rw [ho]
    · exact append_nodes ho _

theorem modify_uids {u : Nat} {g : ShowInfo → ShowInfo} : ∀ (t t' : Tree),
    t.modify u (fun i kids => .ok (g i, kids)) = .ok t' → (nodes t').map Node.uid = (nodes t).map Node.uid := by
  intro t
  induction t with
  | nil => intro t' h; cases h
  | item v z rest ih =>
    intro t' h
    simp only [Tree.modify] at h
    split at h
    · cases h
    · rename_i r hr
      injection h with h; subst h
      simp [nodes, ih r hr, Node.uid]
  | box v i z kids rest ihk ihr =>
    intro t' h
    simp only [Tree.modify] at h
    split at h
    · injection h with h; subst h
      simp [nodes, Node.uid]
    · split at h
      · split at h
        · cases h
        · rename_i k hk
          injection h with h; subst h
          simp [nodes, Node.uid, ihk k hk]
      · split at h
        · cases h
        · rename_i r hr
          injection h with h; subst h
          simp [nodes, Node.uid, ihr r hr]

/-- Numbers are used once and are smaller than `next`. -/
structure Fresh (s : State) : Prop where
  nodup : ((nodes s.tree).map Node.uid).Nodup
  lt : ∀ x ∈ nodes s.tree, x.uid < s.next

theorem fresh_insert {s : State} {t : Tree} {x : Node} (hf : Fresh s) (hx : x.uid = s.next)
    (hp : (nodes t).Perm (x :: nodes s.tree)) : ((nodes t).map Node.uid).Nodup ∧ ∀ y ∈ nodes t, y.uid < s.next + 1 := by
  constructor
  · refine ((hp.map Node.uid).nodup_iff).mpr ?_
    rw [List.map_cons, List.nodup_cons]
    refine ⟨?_, hf.nodup⟩
    intro hm
    obtain ⟨y, hy, he⟩ := List.mem_map.mp hm
    have := hf.lt y hy
    omega
  · intro y hy
    rcases List.mem_cons.mp (hp.mem_iff.mp hy) with rfl | hy
    · omega
    · have := hf.lt y hy; omega

theorem addItem_nodes {s s' : State} {p : Nat} (h : addItem s p = (s', none)) :
    (nodes s'.tree).Perm (.item s.next ((s.tree.zOf p).getD 0) :: nodes s.tree) ∧ s'.next = s.next + 1 := by
  unfold addItem at h
  simp only at h
  split at h
  · cases h
  · rename_i t ht
    injection h with h _; subst h
    refine ⟨modify_nodes ?_ _ _ ht, rfl⟩
    intro i kids i' kids' hg
    injection hg with hg; injection hg with ha hb; subst ha; subst hb
    exact ⟨rfl, append_nodes (fun _ => rfl) _⟩

theorem boxCall_nodes {s s' : State} {p : Nat} {c : BoxCall} (h : boxCall s p c = (s', none)) :
    ∃ info, parse c.show_ (some s.maxStep) = .ok info ∧
      (nodes s'.tree).Perm (.box s.next info (c.z.getD ((s.tree.zOf p).getD 0)) :: nodes s.tree) ∧ s'.next = s.next + 1 := by
  unfold boxCall at h
  split at h
  · cases h
  · simp only at h
    split at h
    · cases h
    · rename_i info hinfo
      split at h
      · cases h
      · rename_i t ht
        injection h with h _; subst h
        refine ⟨info, hinfo, modify_nodes ?_ _ _ ht, rfl⟩
        intro i kids i' kids' hg
        split at hg
        · cases hg
        · rename_i k hk
          injection hg with hg; injection hg with ha hb; subst ha; subst hb
          exact ⟨rfl, addChild_nodes (fun _ => rfl) hk⟩

theorem ensureSteps_fresh {s s' : State} {p : Nat} {n : Int} (h : ensureSteps s p n = (s', none)) (hf : Fresh s) :
    Fresh s' ∧ s'.next = s.next := by
  unfold ensureSteps at h
  split at h
  · cases h
  · rename_i t ht
    injection h with h _; subst h
    have hu := modify_uids _ _ ht
    refine ⟨⟨by simp only [hu]; exact hf.nodup, ?_⟩, rfl⟩
    intro x hx
    have : x.uid ∈ (nodes s.tree).map Node.uid := by rw [← hu]; exact List.mem_map.mpr ⟨x, hx, rfl⟩
    obtain ⟨y, hy, he⟩ := List.mem_map.mp this
    rw [← he]; exact hf.lt y hy

theorem exec_fresh {s s' : State} {c : Call} (h : exec s c = (s', none)) (hf : Fresh s) : Fresh s' := by
  have item : ∀ {s s' : State} {p : Nat}, addItem s p = (s', none) → Fresh s → Fresh s' := by
    intro s s' p h hf
    obtain ⟨h1, h2⟩ := addItem_nodes h
    obtain ⟨g1, g2⟩ := fresh_insert hf rfl h1
    exact ⟨g1, by rw [h2]; exact g2⟩
  cases c with
  | box p b =>
    simp only [exec] at h
    split at h
    · obtain ⟨info, -, h1, h2⟩ := boxCall_nodes h
      obtain ⟨g1, g2⟩ := fresh_insert hf rfl h1
      exact ⟨g1, by rw [h2]; exact g2⟩
    · cases h
  | text p w ht fit =>
    simp only [exec] at h
    split at h
    · exact item h ⟨hf.nodup, hf.lt⟩
    · cases h
  | shape p =>
    simp only [exec] at h
    split at h
    · exact item h hf
    · cases h
  | image p w ht steps =>
    simp only [exec] at h
    split at h
    · cases steps with
      | none => exact item h ⟨hf.nodup, hf.lt⟩
      | some k =>
        simp only at h
        split at h
        · cases h
        · rename_i s2 he
          have := ensureSteps_fresh he ⟨hf.nodup, hf.lt⟩
          exact item h this.1
    · cases h

theorem run_fresh {s s' : State} {ds : List Call} (h : run s ds = .ok s') (hf : Fresh s) : Fresh s' := by
  induction ds generalizing s with
  | nil => injection h with h; subst h; exact hf
  | cons c ds ih =>
    simp only [run] at h
    split at h
    · cases h
    · rename_i s1 he
      exact ih h (exec_fresh he hf)

theorem newSlide_fresh (w h : Rat) : Fresh (newSlide w h) := by
  refine ⟨by simp [newSlide, nodes], ?_⟩
  intro x hx
  simp only [newSlide, nodes, List.append_nil, List.mem_cons, List.not_mem_nil, or_false] at hx
  subst hx; exact Nat.zero_lt_one

/-- `zOf` finds the z-level of a box. -/
theorem zOf_mem {t : Tree} {u : Nat} {i : ShowInfo} {z : Int} (hn : ((nodes t).map Node.uid).Nodup)
    (h : Node.box u i z ∈ nodes t) : t.zOf u = some z := by
  induction t with
  | nil => cases h
  | item v zz rest ih =>
    simp only [nodes, List.map_cons, List.nodup_cons, List.mem_cons, reduceCtorEq, false_or] at hn h
    exact ih hn.2 h
  | box v j zz kids rest ihk ihr =>
    simp only [nodes, List.map_cons, List.map_append, List.nodup_cons, List.nodup_append, List.mem_append, not_or] at hn
    simp only [nodes, List.mem_cons, List.mem_append] at h
    have mem : ∀ l : Tree, Node.box u i z ∈ nodes l → u ∈ (nodes l).map Node.uid :=
      fun l hl => List.mem_map.mpr ⟨_, hl, rfl⟩
    have none_of : ∀ l : Tree, u ∉ (nodes l).map Node.uid → l.zOf u = none := by
      intro l
      induction l with
      | nil => intro _; rfl
      | item a b c ih => intro hl; exact ih (by simp only [nodes, List.map_cons, List.mem_cons, not_or] at hl; exact hl.2)
      | box a b c d e ih1 ih2 =>
        intro hl
        simp only [nodes, List.map_cons, List.map_append, List.mem_cons, List.mem_append, not_or] at hl
        simp only [Tree.zOf]
        rw [if_neg (fun hh => hl.1 (by rw [← hh]; rfl)), ih1 hl.2.1, ih2 hl.2.2]; rfl
    simp only [Tree.zOf]
    rcases h with h | h | h
    · injection h with h1 h2 h3; rw [if_pos h1.symm, h3]
    · have hv : v ≠ u := by rintro rfl; exact hn.1.1 (mem kids h)
      rw [if_neg hv, ihk hn.2.1 h]; rfl
    · have hv : v ≠ u := by rintro rfl; exact hn.1.2 (mem rest h)
      have hk : u ∉ (nodes kids).map Node.uid := fun hk => hn.2.2.2 _ hk _ (mem rest h) rfl
      rw [if_neg hv, ihr hn.2.2.1 h, none_of kids hk]; rfl

/-! ### visible boxes have a page -/

/-- The selector mentions no fragment beyond `min_steps`. -/
structure InfoOk (i : ShowInfo) : Prop where
  steps : ∀ n ∈ i.steps, n ≤ i.minSteps
  opn : ∀ v, i.openStep = some v → v ≤ i.minSteps

theorem parse_infoOk {arg : ShowArg} {cur : Int} (hc : 1 ≤ cur) {info : ShowInfo}
    (h : parse arg (some cur) = .ok info) : InfoOk info := by
  have key : ∀ steps o, (∀ v, o = some v → 0 ≤ v) → InfoOk (newInfo (some steps) o none) := by
    intro steps o ho
    have := greatest_maxStepOf steps o ho
    exact ⟨fun n hn => this.2 n (Or.inr (Or.inl hn)), fun v hv => this.2 v (Or.inr (Or.inr hv))⟩
  cases arg with
  | none =>
    injection h with h; subst h
    exact ⟨(by intro n hn; cases hn), (by rintro v ⟨⟩; decide)⟩
  | int k =>
    injection h with h; subst h
    exact key [k] none (by rintro v ⟨⟩)
  | other => cases h
  | str s =>
    obtain ⟨is, hw, hl⟩ := (C20_only_legal_selectors (some cur) s).mp ⟨info, h⟩
    obtain ⟨steps, o, h1, h2, h3⟩ := parse_legal (some cur) s is hw hl
    rw [h] at h1
    injection h1 with h1
    subst h1
    apply key
    intro v hv
    obtain ⟨b, hb, hbv⟩ := (h3 v).mp hv
    cases b with
    | num ds => simp only [Bound.value, Option.some.injEq] at hbv; omega
    | next => simp only [Bound.value, Option.map_some, Option.some.injEq] at hbv; omega
    | last => simp only [Bound.value, Option.some.injEq] at hbv; omega

/-- All selectors in the tree are `InfoOk`. -/
def InfosOk (t : Tree) : Prop := ∀ u i z, Node.box u i z ∈ nodes t → InfoOk i

theorem modify_infosOk {u : Nat} {g : ShowInfo → ShowInfo} (hg : ∀ i, InfoOk i → InfoOk (g i)) : ∀ (t t' : Tree),
    t.modify u (fun i kids => .ok (g i, kids)) = .ok t' → InfosOk t → InfosOk t' := by
  intro t
  induction t with
  | nil => intro t' h; cases h
  | item v z rest ih =>
    intro t' h hi
    simp only [Tree.modify] at h
    split at h
    · cases h
    · rename_i r hr
      injection h with h; subst h
      have := ih r hr (fun a b c hm => hi a b c (List.mem_cons_of_mem _ hm))
      intro a b c hm
      simp only [nodes, List.mem_cons, reduceCtorEq, false_or] at hm
      exact this a b c hm
  | box v i z kids rest ihk ihr =>
    intro t' h hi
    have h0 : InfoOk i := hi v i z (by simp [nodes])
    have h1 : InfosOk kids := fun a b c hm => hi a b c (by simp [nodes, hm])
    have h2 : InfosOk rest := fun a b c hm => hi a b c (by simp [nodes, hm])
    have mk : ∀ i' k r, InfoOk i' → InfosOk k → InfosOk r → InfosOk (.box v i' z k r) := by
      intro i' k r a1 a2 a3 a b c hm
      simp only [nodes, List.mem_cons, List.mem_append] at hm
      rcases hm with hm | hm | hm
      · injection hm with _ hm _; subst hm; exact a1
      · exact a2 a b c hm
      · exact a3 a b c hm
    simp only [Tree.modify] at h
    split at h
    · injection h with h; subst h
      exact mk _ _ _ (hg i h0) h1 h2
    · split at h
      · split at h
        · cases h
        · rename_i k hk
          injection h with h; subst h
          exact mk _ _ _ h0 (ihk k hk h1) h2
      · split at h
        · cases h
        · rename_i r hr
          injection h with h; subst h
          exact mk _ _ _ h0 h1 (ihr r hr h2)

theorem exec_infosOk {s s' : State} {c : Call} (h : exec s c = (s', none)) (hinv : Inv s) (hi : InfosOk s.tree) :
    InfosOk s'.tree := by
  have item : ∀ {s s' : State} {p : Nat}, addItem s p = (s', none) → InfosOk s.tree → InfosOk s'.tree := by
    intro s s' p h hi a b c hm
    obtain ⟨h1, -⟩ := addItem_nodes h
    have := h1.mem_iff.mp hm
    simp only [List.mem_cons, reduceCtorEq, false_or] at this
    exact hi a b c this
  cases c with
  | box p b =>
    simp only [exec] at h
    split at h
    · obtain ⟨info, hp, h1, h2⟩ := boxCall_nodes h
      intro a b c hm
      have := h1.mem_iff.mp hm
      simp only [List.mem_cons] at this
      rcases this with this | this
      · injection this with _ this _; subst this; exact parse_infoOk hinv.one_le hp
      · exact hi a b c this
    · cases h
  | text p w ht fit =>
    simp only [exec] at h
    split at h
    · exact item h hi
    · cases h
  | shape p =>
    simp only [exec] at h
    split at h
    · exact item h hi
    · cases h
  | image p w ht steps =>
    simp only [exec] at h
    split at h
    · cases steps with
      | none => exact item h hi
      | some k =>
        simp only at h
        split at h
        · cases h
        · rename_i s2 he
          refine item h ?_
          unfold ensureSteps at he
          split at he
          · cases he
          · rename_i t ht
            injection he with he _; subst he
            refine modify_infosOk ?_ _ _ ht hi
            intro i hi
            have e1 : (i.ensureSteps k).steps = i.steps := rfl
            have e2 : (i.ensureSteps k).openStep = i.openStep := rfl
            by_cases hz : max i.minSteps k = 0
            · have e : (i.ensureSteps k).minSteps = maxStepOf i.steps i.openStep := by
                unfold ShowInfo.ensureSteps newInfo
                simp only
                rw [if_neg (by omega)]
                rfl
              constructor
              · intro n hn
                rw [e1] at hn
                rw [e]
                have := hi.steps n hn
                unfold maxStepOf
                apply le_trans _ (le_max_left _ _)
                cases hm : i.steps.max? with
                | none => rw [List.max?_eq_none_iff] at hm; rw [hm] at hn; cases hn
                | some m => exact (List.max?_eq_some_iff.mp hm).2 n hn
              · intro v hv
                rw [e2] at hv
                rw [e]
                unfold maxStepOf
                apply le_trans _ (le_max_right _ _)
                rw [hv]
                simp only
                split <;> omega
            · have e : (i.ensureSteps k).minSteps = max i.minSteps k := by
                unfold ShowInfo.ensureSteps newInfo
                simp only
                rw [if_pos (by omega)]
              refine ⟨fun n hn => ?_, fun v hv => ?_⟩
              · rw [e]; exact le_trans (hi.steps n hn) (le_max_left _ _)
              · rw [e]; exact le_trans (hi.opn v hv) (le_max_left _ _)
    · cases h

theorem run_infosOk {s s' : State} {ds : List Call} (h : run s ds = .ok s') (hinv : Inv s) (hi : InfosOk s.tree) :
    InfosOk s'.tree := by
  induction ds generalizing s with
  | nil => injection h with h; subst h; exact hi
  | cons c ds ih =>
    simp only [run] at h
    split at h
    · cases h
    · rename_i s1 he
      exact ih h (exec_ok he hinv).1 (exec_infosOk he hinv hi)

theorem newSlide_infosOk (w h : Rat) : InfosOk (newSlide w h).tree := by
  intro u i z hm
  simp only [newSlide, nodes, List.append_nil, List.mem_cons, List.not_mem_nil, or_false] at hm
  injection hm with _ hm _
  subst hm
  exact ⟨(by intro n hn; cases hn), (by rintro v ⟨⟩; decide)⟩

theorem node_le_top {t : Tree} {u : Nat} {i : ShowInfo} {z : Int} (h : Node.box u i z ∈ nodes t) : i.minSteps ≤ t.top := by
  induction t with
  | nil => cases h
  | item v zz rest ih =>
    simp only [nodes, List.mem_cons, reduceCtorEq, false_or] at h
    exact ih h
  | box v j zz kids rest ihk ihr =>
    simp only [nodes, List.mem_cons, List.mem_append] at h
    simp only [Tree.top]
    rcases h with h | h | h
    · injection h with _ h _; subst h; exact le_max_left _ _
    · exact le_trans (ihk h) (le_trans (le_max_left _ _) (le_max_right _ _))
    · exact le_trans (ihr h) (le_trans (le_max_right _ _) (le_max_right _ _))

/-! ### placement -/

theorem append_children {obj : Tree → Tree} {x : Child} (ho : ∀ t, children (obj t) = x :: children t) (t : Tree) :
    children (t.append obj) = children t ++ [x] := by
  induction t with
  | nil => simp [Tree.append, ho, children]
  | item v z rest ih => simp [Tree.append, children, ih]
  | box v i z kids rest ihk ihr => simp [Tree.append, children, ihr]

theorem insertBefore_children {obj : Tree → Tree} {x : Child} (ho : ∀ t, children (obj t) = x :: children t) (c : Nat) :
    ∀ t t', t.insertBefore c obj = .ok t' → ∃ l y r, (∀ q ∈ l, q.uid ≠ c) ∧ y.uid = c ∧ children t = l ++ y :: r ∧
      children t' = l ++ x :: y :: r := by
  intro t
  induction t with
  | nil => intro t' h; cases h
  | item v z rest ih =>
    intro t' h
    simp only [Tree.insertBefore] at h
    split at h
    · rename_i hv
      injection h with h; subst h
      exact ⟨[], .item v z, children rest, by simp, hv, rfl, by rw [ho]; rfl⟩
    · rename_i hv
      split at h
      · cases h
      · rename_i r hr
        injection h with h; subst h
        obtain ⟨l, y, r', h1, h2, h3, h4⟩ := ih r hr
        exact ⟨.item v z :: l, y, r', by simpa [Child.uid, hv] using h1, h2, by simp [children, h3], by simp [children, h4]⟩
  | box v i z kids rest ihk ihr =>
    intro t' h
    simp only [Tree.insertBefore] at h
    split at h
    · rename_i hv
      injection h with h; subst h
      exact ⟨[], .box v i z kids, children rest, by simp, hv, rfl, by rw [ho]; rfl⟩
    · rename_i hv
      split at h
      · cases h
      · rename_i r hr
        injection h with h; subst h
        obtain ⟨l, y, r', h1, h2, h3, h4⟩ := ihr r hr
        exact ⟨.box v i z kids :: l, y, r', by simpa [Child.uid, hv] using h1, h2, by simp [children, h3], by simp [children, h4]⟩

theorem insertAfter_children {obj : Tree → Tree} {x : Child} (ho : ∀ t, children (obj t) = x :: children t) (c : Nat) :
    ∀ t t', t.insertAfter c obj = .ok t' → ∃ l y r, (∀ q ∈ l, q.uid ≠ c) ∧ y.uid = c ∧ children t = l ++ y :: r ∧
      children t' = l ++ y :: x :: r := by
  intro t
  induction t with
  | nil => intro t' h; cases h
  | item v z rest ih =>
    intro t' h
    simp only [Tree.insertAfter] at h
    split at h
    · rename_i hv
      injection h with h; subst h
      exact ⟨[], .item v z, children rest, by simp, hv, rfl, by rw [children, ho]; rfl⟩
    · rename_i hv
      split at h
      · cases h
      · rename_i r hr
        injection h with h; subst h
        obtain ⟨l, y, r', h1, h2, h3, h4⟩ := ih r hr
        exact ⟨.item v z :: l, y, r', by simpa [Child.uid, hv] using h1, h2, by simp [children, h3], by simp [children, h4]⟩
  | box v i z kids rest ihk ihr =>
    intro t' h
    simp only [Tree.insertAfter] at h
    split at h
    · rename_i hv
      injection h with h; subst h
      exact ⟨[], .box v i z kids, children rest, by simp, hv, rfl, by rw [children, ho]; rfl⟩
    · rename_i hv
      split at h
      · cases h
      · rename_i r hr
        injection h with h; subst h
        obtain ⟨l, y, r', h1, h2, h3, h4⟩ := ihr r hr
        exact ⟨.box v i z kids :: l, y, r', by simpa [Child.uid, hv] using h1, h2, by simp [children, h3], by simp [children, h4]⟩

theorem addChild_placed {obj : Tree → Tree} {x : Child} (ho : ∀ t, children (obj t) = x :: children t) {t t' : Tree}
    {prepend : Bool} {above below : Option Nat} (h : addChild t obj prepend above below = .ok t') :
    Placed (children t) (children t') x prepend above below := by
  unfold addChild at h
  cases above with
  | some a =>
    cases below with
    | some b => cases h
    | none =>
      obtain ⟨l, y, r, h1, rfl, h3, h4⟩ := insertAfter_children ho _ _ _ h
      exact Placed.above h1 h3 h4
  | none =>
    cases below with
    | some b =>
      obtain ⟨l, y, r, h1, rfl, h3, h4⟩ := insertBefore_children ho _ _ _ h
      exact Placed.below h1 h3 h4
    | none =>
      injection h with h; subst h
      cases prepend with
      | true => exact Placed.first rfl (ho t)
      | false => exact Placed.last rfl (append_children ho t)

theorem kidsOf_none {u : Nat} : ∀ t : Tree, t.has u = false → kidsOf u t = none := by
  intro t
  induction t with
  | nil => intro _; rfl
  | item v z rest ih => exact ih
  | box v i z kids rest ihk ihr =>
    intro h
    simp only [Tree.has, Bool.or_eq_false_iff, beq_eq_false_iff_ne] at h
    simp only [kidsOf]
    rw [if_neg h.1.1, ihk h.1.2, ihr h.2]; rfl

theorem kidsOf_some {u : Nat} : ∀ t : Tree, t.has u = true → ∃ l, kidsOf u t = some l := by
  intro t
  induction t with
  | nil => intro h; cases h
  | item v z rest ih => exact ih
  | box v i z kids rest ihk ihr =>
    intro h
    simp only [kidsOf]
    by_cases hv : v = u
    · rw [if_pos hv]; exact ⟨_, rfl⟩
    · rw [if_neg hv]
      by_cases hk : kids.has u = true
      · obtain ⟨l, hl⟩ := ihk hk
        rw [hl]; exact ⟨l, rfl⟩
      · rw [kidsOf_none kids (by simpa using hk)]
        simp only [Tree.has, Bool.or_eq_true, beq_iff_eq] at h
        rcases h with (h | h) | h
        · exact absurd h hv
        · exact absurd h hk
        · obtain ⟨l, hl⟩ := ihr h
          exact ⟨l, by rw [hl]; rfl⟩

theorem modify_kidsOf {u : Nat} {g : ShowInfo → Tree → Except Err (ShowInfo × Tree)} : ∀ (t t' : Tree), t.has u = true →
    t.modify u g = .ok t' → ∃ i k i' k', g i k = .ok (i', k') ∧ kidsOf u t = some (children k) ∧
      kidsOf u t' = some (children k') := by
  intro t
  induction t with
  | nil => intro t' h; cases h
  | item v z rest ih =>
    intro t' hh h
    simp only [Tree.modify] at h
    split at h
    · cases h
    · rename_i r hr
      injection h with h; subst h
      exact ih r hh hr
  | box v i z kids rest ihk ihr =>
    intro t' hh h
    simp only [Tree.modify] at h
    split at h
    · rename_i hv
      split at h
      · cases h
      · rename_i i' k' hgi
        injection h with h; subst h
        exact ⟨i, kids, i', k', hgi, by simp [kidsOf, hv], by simp [kidsOf, hv]⟩
    · rename_i hv
      split at h
      · rename_i hk
        split at h
        · cases h
        · rename_i k hkm
          injection h with h; subst h
          obtain ⟨i1, k1, i2, k2, e1, e2, e3⟩ := ihk k hk hkm
          exact ⟨i1, k1, i2, k2, e1, by simp [kidsOf, hv, e2], by simp [kidsOf, hv, e3]⟩
      · rename_i hk
        split at h
        · cases h
        · rename_i r hrm
          injection h with h; subst h
          have hr : rest.has u = true := by
            simp only [Tree.has, Bool.or_eq_true, beq_iff_eq] at hh
            rcases hh with (hh | hh) | hh
            · exact absurd hh hv
            · exact absurd hh hk
            · exact hh
          obtain ⟨i1, k1, i2, k2, e1, e2, e3⟩ := ihr r hr hrm
          have hn := kidsOf_none kids (by simpa using hk)
          exact ⟨i1, k1, i2, k2, e1, by simp [kidsOf, hv, hn, e2], by simp [kidsOf, hv, hn, e3]⟩

/-- The numbers of the children of a box. -/
def kidUids (v : Nat) (t : Tree) : Option (List Nat) := (kidsOf v t).map (·.map Child.uid)

theorem modify_others {u v : Nat} (huv : v ≠ u) {g : ShowInfo → Tree → Except Err (ShowInfo × Tree)}
    (hg : ∀ i k i' k', g i k = .ok (i', k') → kidUids v k' = kidUids v k) : ∀ (t t' : Tree), t.modify u g = .ok t' →
    kidUids v t' = kidUids v t ∧ (children t').map Child.uid = (children t).map Child.uid := by
  intro t
  induction t with
  | nil => intro t' h; cases h
  | item w z rest ih =>
    intro t' h
    simp only [Tree.modify] at h
    split at h
    · cases h
    · rename_i r hr
      injection h with h; subst h
      obtain ⟨h1, h2⟩ := ih r hr
      exact ⟨h1, by simp [children, h2, Child.uid]⟩
  | box w i z kids rest ihk ihr =>
    intro t' h
    have key : ∀ i' k r, kidUids v k = kidUids v kids → ((children k).map Child.uid = (children kids).map Child.uid ∨ w ≠ v) →
        kidUids v r = kidUids v rest → kidUids v (.box w i' z k r) = kidUids v (.box w i z kids rest) := by
      intro i' k r h1 h2 h3
      unfold kidUids at h1 h3 ⊢
      simp only [kidsOf]
      by_cases hw : w = v
      · rw [if_pos hw, if_pos hw]
        rcases h2 with h2 | h2
        · simp [h2]
        · exact absurd hw h2
      · rw [if_neg hw, if_neg hw]
        cases hk : kidsOf v k <;> cases hk' : kidsOf v kids <;> rw [hk, hk'] at h1 <;> simp at h1 ⊢
        · exact h3
        · exact h1
    simp only [Tree.modify] at h
    split at h
    · rename_i hw
      split at h
      · cases h
      · rename_i i' k' hgi
        injection h with h; subst h
        refine ⟨key _ _ _ (hg _ _ _ _ hgi) (Or.inr (fun e => huv (by rw [← e, hw]))) rfl, rfl⟩
    · split at h
      · split at h
        · cases h
        · rename_i k hk
          injection h with h; subst h
          obtain ⟨h1, h2⟩ := ihk k hk
          exact ⟨key _ _ _ h1 (Or.inl h2) rfl, by simp [children, Child.uid]⟩
      · split at h
        · cases h
        · rename_i r hr
          injection h with h; subst h
          obtain ⟨h1, h2⟩ := ihr r hr
          exact ⟨key _ _ _ rfl (Or.inl rfl) h1, by simp [children, Child.uid, h2]⟩

theorem kidsOf_addChild {obj : Tree → Tree} {v : Nat} (ho : ∀ t, kidsOf v (obj t) = kidsOf v t) {t t' : Tree}
    {prepend : Bool} {above below : Option Nat} (h : addChild t obj prepend above below = .ok t') :
    kidsOf v t' = kidsOf v t := by
  have h1 : ∀ t : Tree, kidsOf v (t.append obj) = kidsOf v t := by
    intro t
    induction t with
    | nil => exact ho _
    | item w z rest ih => exact ih
    | box w i z kids rest ihk ihr => simp [Tree.append, kidsOf, ihr]
  have h2 : ∀ c (t t' : Tree), t.insertBefore c obj = .ok t' → kidsOf v t' = kidsOf v t := by
    intro c t
    induction t with
    | nil => intro t' h; cases h
    | item w z rest ih =>
      intro t' h
      simp only [Tree.insertBefore] at h
      split at h
      · injection h with h; subst h; exact ho _
      · split at h
        · cases h
        · rename_i r hr
          injection h with h; subst h
          exact ih r hr
    | box w i z kids rest ihk ihr =>
      intro t' h
      simp only [Tree.insertBefore] at h
      split at h
      · injection h with h; subst h; exact ho _
      · split at h
        · cases h
        · rename_i r hr
          injection h with h; subst h
          simp [kidsOf, ihr r hr]
  have h3 : ∀ c (t t' : Tree), t.insertAfter c obj = .ok t' → kidsOf v t' = kidsOf v t := by
    intro c t
    induction t with
    | nil => intro t' h; cases h
    | item w z rest ih =>
      intro t' h
      simp only [Tree.insertAfter] at h
      split at h
      · injection h with h; subst h; simp [kidsOf, ho]
      · split at h
        · cases h
        · rename_i r hr
          injection h with h; subst h
          exact ih r hr
    | box w i z kids rest ihk ihr =>
      intro t' h
      simp only [Tree.insertAfter] at h
      split at h
      · injection h with h; subst h; simp [kidsOf, ho]
      · split at h
        · cases h
        · rename_i r hr
          injection h with h; subst h
          simp [kidsOf, ihr r hr]
  unfold addChild at h
  split at h
  · cases h
  · exact h2 _ _ _ h
  · exact h3 _ _ _ h
  · injection h with h; subst h
    split
    · exact ho _
    · exact h1 _

/-! ### sorting -/

theorem orderedInsert_filter (k : Int) (p : Painter) (l : List Painter)
    (hs : l.Pairwise (fun a b => a.z ≤ b.z)) :
    (l.orderedInsert (fun a b => a.z ≤ b.z) p).filter (fun q => q.z = k) = (p :: l).filter (fun q => q.z = k) := by
  induction l with
  | nil => rfl
  | cons q l ih =>
    rw [List.pairwise_cons] at hs
    rw [List.orderedInsert]
    split
    · rfl
    · rename_i hpq
      rw [List.filter_cons, ih hs.2]
      simp only [List.filter_cons]
      by_cases hp : p.z = k
      · by_cases hq : q.z = k
        · exact absurd (by omega) hpq
        · simp [hp, hq]
      · simp [hp]

end Verif.Slide
