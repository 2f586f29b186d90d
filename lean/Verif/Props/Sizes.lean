import Verif.Props.Layout

/-! # Property C105: the exact sizes of boxes, `fbox` and `sbox` -/

namespace Verif.Layout
open Spec

/-- **C105, sizes.** The size of a box with its paddings, along either axis, if it is not a dynamic value: for a number (or no size) the
number or, if this is more, what its managed children need together with the paddings; for a percentage this fraction of the inner area of
the parent, but not less than what a number 0 would give; for `fill` across the main axis of the parent the whole inner area of the
parent. (`fill` along the main axis is C31.) -/
theorem C105_sizes (env env' : Env) (u : Nat) (a : Attrs) (kids : Forest) (rect : Rect)
    (hn : (uids (.node u a kids .nil)).Nodup) (h : setRect env u a kids rect = .ok env') :
    ∀ b ∈ boxes (.node u a kids .nil), ∀ c ∈ tops b.2.2, ∃ P r, env' b.1 = some P ∧ env' c.1 = some r ∧
      ∀ axis, Static axis c.2.1 →
        let least := max (sizeOn axis c.2.1).minSize (content axis c.2.1.horizontal c.2.2 + pads axis c.2.1)
        (fillOf axis c.2.1 = 0 → (sizeOn axis c.2.1).ratio = none → extent axis (grow c.2.1 r) = least) ∧
        (fillOf axis c.2.1 = 0 → ∀ q, (sizeOn axis c.2.1).ratio = some q → q ≠ 0 → extent axis (grow c.2.1 r) = max (extent axis P * q) least) ∧
        (fillOf axis c.2.1 ≠ 0 → axis ≠ b.2.1.horizontal → extent axis (grow c.2.1 r) = extent axis P) := by
  intro b hb c hc
  obtain ⟨e, p, r, fu, dd0, dd1, pre, post, -, hp, hr, hcr, -⟩ := setRect_child hn h b hb c hc
  refine ⟨p, _, hp, hr, ?_⟩
  intro axis hst
  rw [grow_inner]
  have hx := childRect_extent hcr axis
  obtain ⟨g1, g2, g3⟩ := request_fields axis c.2.1 (requests c.2.2)
  refine ⟨fun hf hq => ?_, fun hf q hq h0 => ?_, fun hf hax => ?_⟩
  · rw [compute_nofill (g3.trans hst) (g1.trans hf) hx, g2, hq, request_minSize]
  · rw [compute_nofill (g3.trans hst) (g1.trans hf) hx, g2, hq, request_minSize]
    simp only [ne_eq, h0, not_false_eq_true, if_true]
  · unfold Size.compute at hx
    have hf' : (onAxis axis (sizeRequest c.2.1 (requests c.2.2))).fill ≠ 0 := by rw [g1]; exact hf
    rw [g3.trans hst, if_neg hax] at hx
    simp only [hf', ne_eq, not_false_eq_true, if_true] at hx
    injection hx with hx
    exact hx.symm

theorem newAttrs_sizes {b : BoxArgs} {a : Attrs} (h : newAttrs b = .ok a) :
    parseOptPos b.x = .ok a.x ∧ parseOptPos b.y = .ok a.y ∧
    parseSize (orZero b.width) = .ok a.width ∧ parseSize (orZero b.height) = .ok a.height := by
  unfold newAttrs at h
  split at h
  · cases h
  rename_i x hx
  split at h
  · cases h
  rename_i y hy
  split at h
  · cases h
  rename_i w hw
  split at h
  · cases h
  rename_i ht hht
  injection h with h
  subst h
  exact ⟨hx, hy, hw, hht⟩

theorem fill_parses {s : Size} (h : parseSize (orZero (.str "fill".toList)) = .ok s) : s = { fill := 1 } := by
  have : parseSize (orZero (.str "fill".toList)) = .ok { fill := 1 } := by rfl
  rw [this] at h
  injection h with h
  exact h.symm

theorem noPos_parses {p : Option Pos} (h : parseOptPos .none = .ok p) : p = none := by
  injection h with h; exact h.symm

/-- Across the main axis a box with `fill` and no position of its own covers its parent. -/
theorem covers_across {env env' : Env} {u : Nat} {a : Attrs} {kids : Forest} {rect : Rect}
    (hn : (uids (.node u a kids .nil)).Nodup) (h : setRect env u a kids rect = .ok env')
    {b c : Nat × Attrs × Forest} (hb : b ∈ boxes (.node u a kids .nil)) (hc : c ∈ tops b.2.2) {axis : Bool} (hax : axis ≠ b.2.1.horizontal)
    (hst : Static axis c.2.1) (hf : fillOf axis c.2.1 ≠ 0) (hp : posOn axis c.2.1 = none) {P r : Rect} (hP : env' b.1 = some P) (hr : env' c.1 = some r) :
    start axis (grow c.2.1 r) = start axis P ∧ extent axis (grow c.2.1 r) = extent axis P := by
  obtain ⟨P', r', hP', hr', hs⟩ := C105_sizes env env' u a kids rect hn h b hb c hc
  rw [hP] at hP'; injection hP' with hP'; subst hP'
  rw [hr] at hr'; injection hr' with hr'; subst hr'
  have hext := (hs axis hst).2.2 hf hax
  obtain ⟨P', r', R, hP', hr', hR, hpos⟩ := C35_explicit_positions_partial env env' u a kids rect hn h b hb c hc
  rw [hP] at hP'; injection hP' with hP'; subst hP'
  rw [hr] at hr'; injection hr' with hr'; subst hr'
  have := (hpos axis).2.2.2 hp hax
  rw [hR, hext] at this
  exact ⟨by linarith, hext⟩

/-- **C105, sbox.** A box made by `sbox` (whatever is put into it later; `w`, `h` are the minimal sizes that result from it), without
size and position across the main axis of its parent, spreads over the whole inner area of the parent on this axis. -/
theorem C105_sbox (env env' : Env) (u : Nat) (a : Attrs) (kids : Forest) (rect : Rect)
    (hn : (uids (.node u a kids .nil)).Nodup) (h : setRect env u a kids rect = .ok env')
    (b : Nat × Attrs × Forest) (hb : b ∈ boxes (.node u a kids .nil)) (c : Nat × Attrs × Forest) (hc : c ∈ tops b.2.2)
    (args : BoxArgs) (ao : Attrs) (hao : newAttrs (sboxArgs b.2.1.horizontal args) = .ok ao) (w ht : Rat)
    (hca : c.2.1 = { ao with width := { ao.width with minSize := w }, height := { ao.height with minSize := ht } })
    (hsize : (if b.2.1.horizontal then args.height else args.width) = .none) (hpos : (if b.2.1.horizontal then args.y else args.x) = .none)
    (P r : Rect) (hP : env' b.1 = some P) (hr : env' c.1 = some r) :
    start (!b.2.1.horizontal) (grow c.2.1 r) = start (!b.2.1.horizontal) P ∧
    extent (!b.2.1.horizontal) (grow c.2.1 r) = extent (!b.2.1.horizontal) P := by
  obtain ⟨hx, hy, hw, hh⟩ := newAttrs_sizes hao
  cases hor : b.2.1.horizontal with
  | true =>
    rw [hor] at hsize hpos
    simp only [if_true] at hsize hpos
    simp only [sboxArgs, setDefault, hor, if_true, hsize, isNoneArg, hpos] at hy hh
    have hh := fill_parses hh
    have hy := noPos_parses hy
    exact covers_across hn h hb hc (axis := false) (by rw [hor]; decide) (by rw [hca]; simp [Static, sizeOn, hh])
      (by rw [hca]; simp [fillOf, sizeOn, hh]) (by rw [hca]; simp [posOn, hy]) hP hr
  | false =>
    rw [hor] at hsize hpos
    simp only [Bool.false_eq_true, if_false] at hsize hpos
    simp only [sboxArgs, setDefault, hor, Bool.false_eq_true, if_false, if_true, hsize, isNoneArg, hpos] at hx hw
    have hw := fill_parses hw
    have hx := noPos_parses hx
    exact covers_across hn h hb hc (axis := true) (by rw [hor]; decide) (by rw [hca]; simp [Static, sizeOn, hw])
      (by rw [hca]; simp [fillOf, sizeOn, hw]) (by rw [hca]; simp [posOn, hx]) hP hr

/-- **C105, fbox.** A box made by `fbox` without own sizes and positions covers the whole inner area of its parent across the main axis of
the parent; if all other children of the parent have explicit positions on the main axis, it covers the inner area of the parent exactly. -/
theorem C105_fbox (env env' : Env) (u : Nat) (a : Attrs) (kids : Forest) (rect : Rect)
    (hn : (uids (.node u a kids .nil)).Nodup) (h : setRect env u a kids rect = .ok env')
    (b : Nat × Attrs × Forest) (hb : b ∈ boxes (.node u a kids .nil)) (c : Nat × Attrs × Forest) (hc : c ∈ tops b.2.2)
    (args : BoxArgs) (ao : Attrs) (hao : newAttrs (fboxArgs args) = .ok ao) (w ht : Rat)
    (hca : c.2.1 = { ao with width := { ao.width with minSize := w }, height := { ao.height with minSize := ht } })
    (hsize : args.width = .none ∧ args.height = .none) (hpos : args.x = .none ∧ args.y = .none)
    (P r : Rect) (hP : env' b.1 = some P) (hr : env' c.1 = some r) :
    (start (!b.2.1.horizontal) (grow c.2.1 r) = start (!b.2.1.horizontal) P ∧
      extent (!b.2.1.horizontal) (grow c.2.1 r) = extent (!b.2.1.horizontal) P) ∧
    ((∀ d ∈ tops b.2.2, d.1 ≠ c.1 → ¬ Managed b.2.1.horizontal d.2.1) → grow c.2.1 r = P) := by
  obtain ⟨hx, hy, hw, hh⟩ := newAttrs_sizes hao
  simp only [fboxArgs, setDefault, hsize.1, hsize.2, hpos.1, hpos.2, isNoneArg, if_true] at hx hy hw hh
  have hw := fill_parses hw
  have hh := fill_parses hh
  have hx := noPos_parses hx
  have hy := noPos_parses hy
  have hposn : ∀ axis, posOn axis c.2.1 = none := by intro axis; rw [hca]; cases axis <;> simp [posOn, hx, hy]
  have hst : ∀ axis, Static axis c.2.1 := by intro axis; rw [hca]; cases axis <;> simp [Static, sizeOn, hw, hh]
  have hf : ∀ axis, fillOf axis c.2.1 ≠ 0 := by intro axis; rw [hca]; cases axis <;> simp [fillOf, sizeOn, hw, hh]
  have hcross := covers_across hn h hb hc (axis := !b.2.1.horizontal) (by cases b.2.1.horizontal <;> decide) (hst _) (hf _) (hposn _) hP hr
  refine ⟨hcross, fun hall => ?_⟩
  have hcm : Managed b.2.1.horizontal c.2.1 := by
    have := hposn b.2.1.horizontal
    unfold posOn at this
    unfold Managed
    rw [this]; rfl
  obtain ⟨-, -, -, -, -, -, -, -, hn1, -, -⟩ := setRect_box hn h b hb
  -- children with the number of `c` are `c`
  have uniq : ∀ (f : Forest), (uids f).Nodup → ∀ c ∈ tops f, ∀ d ∈ tops f, d.1 = c.1 → d = c := by
    intro f
    induction f with
    | nil => intro _ c hc; cases hc
    | node v x k rest _ ihr =>
      intro hnd c hc d hd heq
      simp only [uids, List.nodup_cons, List.nodup_append, List.mem_append, not_or] at hnd
      simp only [tops, List.mem_cons] at hc hd
      rcases hc with rfl | hc <;> rcases hd with rfl | hd
      · rfl
      · exact absurd (by have := tops_mem_uids hd; rw [heq] at this; exact this) hnd.1.2
      · exact absurd (by have := tops_mem_uids hc; rw [← heq] at this; exact this) hnd.1.2
      · exact ihr hnd.2.2.1 c hc d hd heq
  have hmr : managedRects env' b.2.1.horizontal b.2.2 = [grow c.2.1 r] := by
    have hnd := (List.nodup_cons.mp hn1).2
    unfold managedRects
    have key : ∀ (f : Forest), (uids f).Nodup → c ∈ tops f → (∀ d ∈ tops f, d.1 ≠ c.1 → ¬ Managed b.2.1.horizontal d.2.1) →
        (tops f).filterMap (fun c => if Managed b.2.1.horizontal c.2.1 then (env' c.1).map (grow c.2.1) else none) = [grow c.2.1 r] := by
      intro f
      induction f with
      | nil => intro _ hc; cases hc
      | node v x k rest _ ihr =>
        intro hnd hc hall
        have hnd' := hnd
        simp only [uids, List.nodup_cons, List.nodup_append, List.mem_append, not_or] at hnd'
        simp only [tops] at hc hall ⊢
        rcases List.mem_cons.mp hc with rfl | hc'
        · rw [List.filterMap_cons_some (b := grow x r) (by simp only [hcm, if_true, hr, Option.map_some])]
          congr 1
          rw [List.filterMap_eq_nil_iff]
          intro d hd
          rw [if_neg]
          refine hall d (List.mem_cons_of_mem _ hd) ?_
          intro heq
          exact hnd'.1.2 (by have := tops_mem_uids hd; rw [heq] at this; exact this)
        · rw [List.filterMap_cons_none]
          · exact ihr hnd'.2.2.1 hc' (fun d hd => hall d (List.mem_cons_of_mem _ hd))
          · rw [if_neg]
            refine hall (v, x, k) List.mem_cons_self ?_
            intro heq
            simp only at heq
            exact hnd'.1.2 (heq ▸ tops_mem_uids hc')
    exact key b.2.2 hnd hc hall
  have hstat : ∀ d ∈ tops b.2.2, Managed b.2.1.horizontal d.2.1 → Static b.2.1.horizontal d.2.1 := by
    intro d hd hm
    by_cases heq : d.1 = c.1
    · rw [uniq b.2.2 (List.nodup_cons.mp hn1).2 c hc d hd heq]; exact hst _
    · exact absurd hm (hall d hd heq)
  obtain ⟨P', hP', hsum, hfirst, -⟩ := C31_fill env env' u a kids rect hn h b hb hstat ⟨c, hc, hcm, hf _⟩
  rw [hP] at hP'; injection hP' with hP'; subst hP'
  rw [hmr] at hsum hfirst
  simp only [List.map_cons, List.map_nil, List.sum_cons, List.sum_nil, add_zero] at hsum
  have hs0 := hfirst _ rfl
  cases hor : b.2.1.horizontal <;> rw [hor] at hcross hsum hs0 <;> simp only [start, extent, Bool.not_false, Bool.not_true, if_true, Bool.false_eq_true, if_false] at hcross hsum hs0 <;>
    (cases hg : grow c.2.1 r; cases P; rw [hg] at hcross hsum hs0; simp_all)

/-- An `sbox` with padding and a high text next to an `fbox`, in a horizontal box. -/
example : ∃ sb fb, newAttrs (sboxArgs true { padding := some 5 }) = .ok sb ∧ newAttrs (fboxArgs {}) = .ok fb ∧
    look (setRect noEnv 0 { exRoot with horizontal := true }
      (.node 1 { sb with width := { sb.width with minSize := 30 }, height := { sb.height with minSize := 300 } } .nil
      (.node 2 fb .nil .nil)) ⟨0, 0, 200, 100⟩) [1, 2] = some [some ⟨5, 5, 20, 90⟩, some ⟨30, 0, 170, 100⟩] :=
  ⟨_, _, rfl, rfl, by decide +kernel⟩

/-- An `fbox` alone, with an overlay before it. -/
example : ∃ fb ov, newAttrs (fboxArgs { padding := some 5 }) = .ok fb ∧ newAttrs (overlayArgs {}) = .ok ov ∧
    look (setRect noEnv 0 exRoot (.node 1 ov .nil (.node 2 fb .nil .nil)) ⟨0, 0, 200, 100⟩) [1, 2] =
      some [some ⟨0, 0, 200, 100⟩, some ⟨5, 5, 190, 90⟩] :=
  ⟨_, _, rfl, rfl, by decide +kernel⟩

end Verif.Layout
