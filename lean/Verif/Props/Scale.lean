import Verif.Proofs.Scale
import Verif.Props.Slide

/-! # Property C110: slides can be scaled -/

namespace Verif.Slide
open Spec Verif.Layout.Spec

/-- **C110.** When the size of the slide and all lengths in the calls (positions, sizes, paddings, sizes of texts and pictures) are multiplied
by a positive number, the same boxes and items come about and every rectangle is multiplied by this number; if the calls or the layout
raise an exception, so do the scaled ones. -/
theorem C110_scaling (k : Rat) (hk : 0 < k) (w h : Rat) (cs : List Call) :
    (∀ e, run (newSlide w h) cs = .error e → run (newSlide (k * w) (k * h)) (cs.map (scaleCall k)) = .error e) ∧
    ∀ s, run (newSlide w h) cs = .ok s → ∃ s', run (newSlide (k * w) (k * h)) (cs.map (scaleCall k)) = .ok s' ∧ s'.tree = s.tree ∧
      (∀ e, s.rects w h = .error e → s'.rects (k * w) (k * h) = .error e) ∧
      ∀ env, s.rects w h = .ok env → ∃ env', s'.rects (k * w) (k * h) = .ok env' ∧ ∀ v, env' v = (env v).map (scaleRect k) := by
  have hr := run_scale hk cs (newSlide w h)
  rw [← newSlide_scale] at hr
  constructor
  · intro e he
    rw [hr, he]
    rfl
  · intro s hs
    rw [hs] at hr
    refine ⟨scaleState k s, hr, rfl, ?_, ?_⟩
    · intro e he
      rw [rects_scale hk, he]
      rfl
    · intro env he
      exact ⟨Verif.Layout.scaleEnv k env, by rw [rects_scale hk, he]; rfl, fun v => rfl⟩

/-- Two boxes, one with a width in percent, a filling height and a padding, the other ten to the right of its middle with a height written
as text. -/
def exScale : List Call :=
  [.box 0 { layout := { width := .str "50%".toList, height := .str "fill".toList, padding := some 5 } },
   .box 0 { layout := { x := .lazy (.map (· + 10) (.ref 1 true (.ratio (1/2)))), width := .num 20, height := .str "30".toList } },
   .text 1 40 15 false]

def rectsOf (w h : Rat) (cs : List Call) (us : List Nat) : Option (List (Option Rect)) :=
  match run (newSlide w h) cs with
  | .error _ => none
  | .ok s =>
    match s.rects w h with
    | .error _ => none
    | .ok env => some (us.map env)

example : rectsOf 200 100 exScale [0, 1, 2] = some [some ⟨0, 0, 200, 100⟩, some ⟨55, 5, 90, 60⟩, some ⟨110, 70, 20, 30⟩] ∧
    rectsOf 600 300 (exScale.map (scaleCall 3)) [0, 1, 2] = some [some ⟨0, 0, 600, 300⟩, some ⟨165, 15, 270, 180⟩, some ⟨330, 210, 60, 90⟩] := by
  decide +kernel

end Verif.Slide
