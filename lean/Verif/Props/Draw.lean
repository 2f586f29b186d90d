import Verif.Model.Draw
import Verif.Props.Layout

/-! # Properties C37, C42: repeated rendering, image placement -/

namespace Verif.Layout
open Spec

/-- Laying out again gives the same rectangles. -/
theorem setRect_again {u : Nat} {a : Attrs} {kids : Forest} {rect : Rect} {e1 : Env}
    (h : setRect noEnv u a kids rect = .ok e1) : setRect e1 u a kids rect = .ok e1 := by
  have hext : Ext noEnv e1 := by intro v r hv; cases hv
  have h' := h
  unfold setRect at h
  obtain ⟨e2, h2, he⟩ := setKids_mono kids _ _ _ _ _ _ _ (hext.set u (a.inner rect)) h
  have h2' : setRect e1 u a kids rect = .ok e2 := h2
  rw [h2']
  congr 1
  funext v
  by_cases hv : v ∈ u :: uids kids
  · obtain ⟨r, hr⟩ := Option.isSome_iff_exists.mp (setRect_some h' v hv)
    rw [hr]; exact he v r hr
  · exact setRect_frame h2' v hv

theorem min_div_div_right_of {a b c : Rat} (hc : 0 < c) : min (a / c) (b / c) = min a b / c := by
  rcases le_total a b with h | h
  · rw [min_eq_left h, min_eq_left (div_le_div_of_nonneg_right h hc.le)]
  · rw [min_eq_right h, min_eq_right (div_le_div_of_nonneg_right h hc.le)]

theorem onRect_twice (t : TextState) (r : Rect) :
    ((t.onRect r).onRect r).width = (t.onRect r).width ∧ ((t.onRect r).onRect r).height = (t.onRect r).height ∧
    (((t.onRect r).onRect r).scale = (t.onRect r).scale ∨ t.scaleToFit = true ∧ ((t.onRect r).onRect r).scale = 1) := by
  cases hs : t.scaleToFit with
  | false => simp [TextState.onRect, hs]
  | true =>
    by_cases h : t.width > 1 / 100000 ∧ t.height > 1 / 100000
    · have h1 : t.onRect r = { t with
          width := t.width * min (r.width / t.width) (r.height / t.height)
          height := t.height * min (r.width / t.width) (r.height / t.height)
          scale := min (r.width / t.width) (r.height / t.height) } := by
        simp only [TextState.onRect, hs, if_true, if_pos h]
      generalize hsc : min (r.width / t.width) (r.height / t.height) = s at h1
      by_cases h2 : t.width * s > 1 / 100000 ∧ t.height * s > 1 / 100000
      · have hspos : 0 < s := by
          have htw : 0 < t.width := by linarith [h.1]
          have : 0 < t.width * s := by linarith [h2.1]
          exact (mul_pos_iff_of_pos_left htw).mp this
        have hone : min (r.width / (t.width * s)) (r.height / (t.height * s)) = 1 := by
          rw [← div_div, ← div_div, min_div_div_right_of hspos, hsc]
          exact div_self (ne_of_gt hspos)
        have h3 : (t.onRect r).onRect r = { t with width := t.width * s * 1, height := t.height * s * 1, scale := 1 } := by
          rw [h1]
          simp only [TextState.onRect, hs, if_true, if_pos h2, hone]
        rw [h3, h1]
        simp
      · have h3 : (t.onRect r).onRect r = t.onRect r := by
          rw [h1]
          simp only [TextState.onRect, hs, if_true, if_neg h2]
        rw [h3]; simp
    · have h1 : t.onRect r = t := by simp only [TextState.onRect, hs, if_true, if_neg h]
      rw [h1, h1]; simp

/-- The state before the first render: no rectangles, texts measured. -/
def fresh (texts : Nat → Option TextState) : RenderState := ⟨noEnv, texts⟩

/-- **C37** is false: a text scaled to fit its box is scaled ten times at the first render and not at
all at the second. -/
theorem C37_render_twice_false :
    ∃ s1 s2, prepare 0 exRoot .nil 100 100 (fresh (fun _ => some { width := 10, height := 5, scaleToFit := true })) = .ok s1 ∧
      prepare 0 exRoot .nil 100 100 s1 = .ok s2 ∧
      (s1.texts 0).map (·.scale) = some 10 ∧ (s2.texts 0).map (·.scale) = some 1 := by
  exact ⟨_, _, rfl, rfl, by decide +kernel, by decide +kernel⟩

/-- **C37** apart from the scale of texts scaled to fit: rendering a second time succeeds, gives the
same rectangles and text sizes, and the same scale for every text not scaled to fit. -/
theorem C37_render_twice_partial (u : Nat) (a : Attrs) (kids : Forest) (w h : Rat)
    (texts : Nat → Option TextState) (s1 : RenderState) (h1 : prepare u a kids w h (fresh texts) = .ok s1) :
    ∃ s2, prepare u a kids w h s1 = .ok s2 ∧ s2.env = s1.env ∧
      ∀ v t1, s1.texts v = some t1 → ∃ t2, s2.texts v = some t2 ∧
        t2.width = t1.width ∧ t2.height = t1.height ∧ (t1.scaleToFit = false → t2.scale = t1.scale) := by
  unfold prepare at h1
  split at h1
  · cases h1
  · rename_i env henv
    injection h1 with h1
    subst h1
    have hagain := setRect_again henv
    refine ⟨⟨env, runCallbacks (runCallbacks texts env) env⟩, ?_, rfl, ?_⟩
    · unfold prepare
      simp only [fresh]
      rw [hagain]
    · intro v t1 ht1
      simp only [fresh, runCallbacks] at ht1 ⊢
      cases hv : texts v with
      | none => rw [hv] at ht1; cases ht1
      | some t =>
        cases he : env v with
        | none =>
          rw [hv, he] at ht1; injection ht1 with ht1
          exact ⟨t, rfl, by rw [ht1], by rw [ht1], fun _ => by rw [ht1]⟩
        | some r =>
          rw [hv, he] at ht1; injection ht1 with ht1
          obtain ⟨g1, g2, g3⟩ := onRect_twice t r
          refine ⟨(t.onRect r).onRect r, rfl, ?_, ?_, ?_⟩
          · rw [← ht1]; exact g1
          · rw [← ht1]; exact g2
          · intro hs
            have hst : t.scaleToFit = false := by
              rw [← ht1] at hs
              unfold TextState.onRect at hs
              split at hs
              · split at hs
                · rename_i h1 _; simp only at hs; rw [h1] at hs; cases hs
                · exact hs
              · exact hs
            rcases g3 with g3 | ⟨g3, -⟩
            · rw [← ht1]; exact g3
            · rw [hst] at g3; cases g3

example : ∃ s1, prepare 0 exRoot exTree 100 100 (fresh (fun v => if v = 3 then some { width := 3, height := 2, scaleToFit := false } else none)) = .ok s1 ∧
    s1.env 3 = some ⟨99/2, 65/2, 5, 5⟩ := by
  have : (match prepare 0 exRoot exTree 100 100 (fresh (fun v => if v = 3 then some { width := 3, height := 2, scaleToFit := false } else none)) with
    | .ok s => s.env 3
    | .error _ => none) = some ⟨99/2, 65/2, 5, 5⟩ := by decide +kernel
  split at this
  · rename_i s hs; exact ⟨s, hs, this⟩
  · cases this

/-- **C42**: an image without explicit scale in a non-degenerate box is drawn with its aspect ratio,
centred, inside the box, and touching it in at least one dimension. -/
theorem C42_image (rect : Rect) (iw ih : Rat) (hw : 0 < rect.width) (hh : 0 < rect.height) (hi : 0 < iw) (hj : 0 < ih) :
    ∃ r, imageRect rect iw ih none = .ok r ∧ 0 < r.width ∧ 0 < r.height ∧
      r.width * ih = r.height * iw ∧
      r.x - rect.x = (rect.x + rect.width) - (r.x + r.width) ∧
      r.y - rect.y = (rect.y + rect.height) - (r.y + r.height) ∧
      r.width ≤ rect.width ∧ r.height ≤ rect.height ∧
      (r.width = rect.width ∨ r.height = rect.height) := by
  have hs : scaler rect iw ih = .ok (some (min (rect.width / iw) (rect.height / ih))) := by
    unfold scaler
    rw [if_neg (by rintro (h | h) <;> linarith)]
    simp only
    rw [if_pos ⟨ne_of_gt hw, ne_of_gt hh⟩]
  refine ⟨_, by unfold imageRect imageScale; simp only [hs]; rfl, ?_⟩
  have hpos : 0 < min (rect.width / iw) (rect.height / ih) := lt_min (div_pos hw hi) (div_pos hh hj)
  have h1 : iw * min (rect.width / iw) (rect.height / ih) ≤ rect.width := by
    have := min_le_left (rect.width / iw) (rect.height / ih)
    calc iw * min (rect.width / iw) (rect.height / ih) ≤ iw * (rect.width / iw) := mul_le_mul_of_nonneg_left this hi.le
      _ = rect.width := mul_div_cancel₀ _ (ne_of_gt hi)
  have h2 : ih * min (rect.width / iw) (rect.height / ih) ≤ rect.height := by
    have := min_le_right (rect.width / iw) (rect.height / ih)
    calc ih * min (rect.width / iw) (rect.height / ih) ≤ ih * (rect.height / ih) := mul_le_mul_of_nonneg_left this hj.le
      _ = rect.height := mul_div_cancel₀ _ (ne_of_gt hj)
  refine ⟨mul_pos hi hpos, mul_pos hj hpos, by ring, by ring, by ring, h1, h2, ?_⟩
  rcases min_choice (rect.width / iw) (rect.height / ih) with h | h
  · left; simp only; rw [h]; exact mul_div_cancel₀ _ (ne_of_gt hi)
  · right; simp only; rw [h]; exact mul_div_cancel₀ _ (ne_of_gt hj)

example : ∃ r, imageRect ⟨10, 20, 100, 50⟩ 400 100 none = .ok r ∧ r = ⟨10, 65/2, 100, 25⟩ := by
  refine ⟨_, rfl, by decide +kernel⟩

end Verif.Layout
