import Verif.Props.Scene
import Verif.Props.Slide
import Verif.Props.SlideLayout

/-! # C108, continued: drawing asks for the room and the pages of what is drawn -/

namespace Verif.Scene
open Spec
open Verif.Layout (Env)
open Verif.Layout.Spec (extent)
open Verif.Slide (BoxCall)
open Verif.Slide.Spec (Pages Takes Bounded sizeArg target)

/-- **C108, continued.** The boxes of a slide on which something was drawn are laid out as if only the room for it had been asked for (`outline`: the size of a
picture with its scale, the lines of a text); so C29, C99, C106, C110, C111 and C113 hold for them. In particular the slide has the pages that its boxes and
pictures need, and a text or picture in a box fits into it (as in C99). -/
theorem C108_room (w h : Rat) (cs : List Call) (s : State) (hr : run (newScene w h) cs = .ok s) :
    Verif.Slide.run (Verif.Slide.newSlide w h) ((things cs).map outline) = .ok s.slide ∧
    (∀ n, Pages ((things cs).map outline) n ↔ n = s.slide.steps) ∧
    ∀ (width height : Rat) (env : Env), s.slide.rects width height = .ok env → ∀ (j k q : Nat) (c : BoxCall) (d : Draw) (axis : Bool) (room : Rat), j < k →
      (things cs)[j]? = some (.box q c) → (things cs)[k]? = some (.draw (j + 1) d) → Takes c (outline (.draw (j + 1) d)) axis room → Bounded (sizeArg axis c) →
      ∃ r, env (j + 1) = some r ∧ room ≤ extent axis r := by
  obtain ⟨h1, -⟩ := kept_run (kept_new w h) hr
  refine ⟨h1, (Verif.Slide.C21_page_count w h _ _ h1).1, ?_⟩
  intro width height env he j k q c d axis room hjk hj hk ht hb
  obtain ⟨hjl, hj⟩ := List.getElem?_eq_some_iff.mp hj
  obtain ⟨hkl, hk⟩ := List.getElem?_eq_some_iff.mp hk
  have e : things cs = (things cs).take j ++ .box q c :: ((((things cs).drop (j + 1)).take (k - (j + 1))) ++ .draw (j + 1) d :: (things cs).drop (k + 1)) := by
    conv_lhs => rw [← List.take_append_drop j (things cs), List.drop_eq_getElem_cons hjl, hj]
    congr 2
    conv_lhs => rw [← List.take_append_drop (k - (j + 1)) ((things cs).drop (j + 1)), List.drop_drop, show j + 1 + (k - (j + 1)) = k by omega, List.drop_eq_getElem_cons hkl, hk]
  have hlen : (((things cs).take j).map outline).length = j := by rw [List.length_map, List.length_take]; omega
  have h2 := Verif.Slide.C99_fits_partial w h width height (((things cs).take j).map outline) ((((things cs).drop (j + 1)).take (k - (j + 1))).map outline)
    (((things cs).drop (k + 1)).map outline) q c (outline (.draw (j + 1) d)) s.slide axis room env
    (by
      rw [← h1]
      congr 1
      conv_rhs => rw [e]
      simp [Verif.Slide.history, outline])
    (by rw [hlen]; cases d <;> rfl) ht hb he
  rwa [hlen] at h2

/-- A picture of 8 × 6, three times as large, in a box without size: the box takes 24 × 18, and the slide has the two pages of the picture. -/
example : (match run (newScene 100 100) [.box 0 {}, .draw 1 (.svg exPicture (some 3) none)] with
    | .ok s => (match s.slide.rects 100 100 with | .ok env => (env 1, s.slide.steps) | .error _ => (none, 0))
    | .error _ => (none, 0)) = (some ⟨38, 41, 24, 18⟩, 2) := by decide +kernel

/-- The hypotheses hold for it. -/
example : Takes {} (outline (.draw 1 (.svg exPicture (some 3) none))) true 24 ∧ Bounded (sizeArg true {}) := by
  constructor
  · have h1 : outline (.draw 1 (.svg exPicture (some 3) none)) = .image 1 24 18 (some 2) := by
      show Verif.Slide.Call.image 1 ((8 : Rat) * (if (3 : Rat) = 0 then 1 else 3)) ((6 : Rat) * (if (3 : Rat) = 0 then 1 else 3)) (some 2) = _
      rw [show (8 : Rat) * (if (3 : Rat) = 0 then 1 else 3) = 24 by decide +kernel, show (6 : Rat) * (if (3 : Rat) = 0 then 1 else 3) = 18 by decide +kernel]
    rw [h1]
    exact Takes.image (w := 24) (h := 18) (axis := true) rfl rfl
  · trivial

end Verif.Scene
