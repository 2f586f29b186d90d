import Verif.Proofs.Growth

/-! # Property C109: further calls leave what was there -/

namespace Verif.Slide
open Verif.Show Verif.Show.Spec Spec

/-- What was created by the first `n` calls. -/
def createdBy (n : Nat) : Painter → Bool
  | .item u _ => decide (u ≤ n)
  | .debug u _ => decide (u ≤ n)

/-- **C109.** Whatever is called on a slide later, a page shows of the things created before exactly those it showed before, on the same
levels and in the same order; and no page is lost. -/
theorem C109_growth (w h : Rat) (cs ds : List Call) (s s' : State) (hr : run (newSlide w h) cs = .ok s) (hr' : run s ds = .ok s') :
    s.steps ≤ s'.steps ∧ ∀ step, (page s' step false).filter (createdBy cs.length) = page s step false := by
  have hall := run_concat hr hr'
  constructor
  · have e1 := (C21_page_count w h cs s hr).2
    have e2 := (C21_page_count w h (cs ++ ds) s' hall).2
    rw [← e1, ← e2]
    clear e1 e2 hall hr
    induction ds generalizing s with
    | nil => injection hr' with hr'; subst hr'; exact le_rfl
    | cons c ds ih =>
      simp only [run] at hr'
      have := C22_never_decreases s c
      split at hr'
      · cases hr'
      · rename_i s1 he
        rw [he] at this
        exact this.trans (ih s1 hr')
  intro step
  have hi0 : Inv (newSlide w h) := Reachable.inv ⟨w, h, [], rfl⟩
  have hf0 : Fresh (newSlide w h) := Reachable.fresh ⟨w, h, [], rfl⟩
  have ht : Tells cs s := by simpa using tells_run (tells_new w h) hf0 hi0 .new hr
  obtain ⟨l, o, e1, n1, m1, w1, _, _, p1⟩ := C106_page w h cs s hr step
  obtain ⟨l', o', e2, n2, m2, w2, _, no2, p2⟩ := C106_page w h (cs ++ ds) s' hall step
  have hoo : o.Sublist o' := walk_sublist w1 w2 (List.Sublist.refl _)
  have hm : ∀ x : Nat × Int, x ∈ l'.filter (fun x => decide (x.1 ≤ cs.length)) ↔ x ∈ l := by
    rintro ⟨u, z⟩
    rw [List.mem_filter, m1, m2]
    constructor
    · rintro ⟨⟨p, a, b, c⟩, hu⟩
      have a' := itemOf_less a (by simpa using hu)
      have hp := itemOf_box_le ht.targets a'
      exact ⟨p, a', level_back ht.targets b hp, onPage_less ht.targets c hp⟩
    · rintro ⟨p, a, b, c⟩
      exact ⟨⟨p, itemOf_more ds a, level_more ds b, onPage_more ds c⟩, by simpa using itemOf_le a⟩
  have hperm : (l'.filter (fun x => decide (x.1 ≤ cs.length))).Perm l :=
    (List.perm_ext_iff_of_nodup ((List.Nodup.of_map _ n2).filter _) (List.Nodup.of_map _ n1)).mpr hm
  have heq := hperm.eq_of_pairwise (fun a b _ _ h1 h2 => under_asymm no2 h1 h2) (p2.filter _) (p1.imp (under_more hoo))
  rw [e1, e2, List.filter_map, ← heq]
  rfl

/-- Three calls, then a box put below the first one with a shape in it and a box on level -2 that appears on the next page. -/
def exEarlier : List Call := [.box 0 {}, .shape 1, .shape 0]
def exLater : List Call := [.box 0 { below := some 1 }, .shape 4, .box 0 { z := some (-2), show_ := .str "next+".toList }, .shape 6, .shape 1]

example : (run (newSlide 100 100) exEarlier).toOption.isSome = true ∧ (run (stateOf exEarlier) exLater).toOption.isSome = true ∧
    page (stateOf exEarlier) 2 false = [.item 2 0, .item 3 0] ∧
    page (stateOf (exEarlier ++ exLater)) 2 false = [.item 7 (-2), .item 5 0, .item 2 0, .item 8 0, .item 3 0] := by decide +kernel

end Verif.Slide
