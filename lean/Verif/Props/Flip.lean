import Verif.Proofs.Flip
import Verif.Props.Scale

/-! # Property C111: rows are columns with the axes exchanged -/

namespace Verif.Slide
open Spec Verif.Layout.Spec

/-- A row with a box at the bottom, on a wide slide. -/
def exRow : List Call := [cover true, .box 1 { layout := { y := .str "[100%]".toList, width := .num 10, height := .num 10 } }]

/-- **C111 is false**: in a row, the position across the row is computed from the width of the row (layout.py:165). The box is at the
bottom of the column's counterpart, but far below the slide in the row. -/
theorem C111_axes_false : ∃ cs w h,
    rectsOf w h (cover true :: cs) [2] = some [some ⟨95, 190, 10, 10⟩] ∧ rectsOf h w (cover false :: cs.map flipCall) [2] = some [some ⟨90, 95, 10, 10⟩] :=
  ⟨exRow.drop 1, 200, 100, by decide +kernel⟩

/-- **C111, partial.** Calls inside a box that covers the slide: when the axes are exchanged in everything (the size of the slide, positions,
sizes, paddings, the sizes of texts and pictures, rows and columns), the same boxes and items come about and every rectangle has its axes
exchanged; the layout fails in one case exactly if it does in the other. Missing: boxes with a position in percent across the direction of
the box around them. -/
theorem C111_axes_partial (w h : Rat) (horizontal : Bool) (cs : List Call) (hcs : ∀ c ∈ cs, target c ≠ 0) (s : State)
    (hr : run (newSlide w h) (cover horizontal :: cs) = .ok s) (hx : CrossAbsolute false s.layouts) :
    ∃ s', run (newSlide h w) (cover (!horizontal) :: cs.map flipCall) = .ok s' ∧ s'.tree = s.tree ∧
      ((∃ env, s.rects w h = .ok env) ↔ ∃ env', s'.rects h w = .ok env') ∧
      ∀ env, s.rects w h = .ok env → ∃ env', s'.rects h w = .ok env' ∧ ∀ v, env' v = (env v).map flipRect := by
  obtain ⟨s1, h1, c1, e1, f1⟩ : ∃ s1, exec (newSlide w h) (cover horizontal) = (s1, none) ∧ Covered w h s1.layouts ∧
      exec (newSlide h w) (cover (!horizontal)) = (flipState s1, none) ∧ RootIs0 s1.layouts := by
    refine ⟨_, rfl, ⟨_, _, rfl, ?_⟩, ?_, rfl⟩
    · have e : some (((intOfDigits "100".toList : Int) : Rat) / 100) = some (1 : Rat) := by decide +kernel
      exact ⟨rfl, rfl, ⟨e, rfl, rfl⟩, ⟨e, rfl, rfl⟩⟩
    · cases horizontal <;> rfl
  simp only [run, h1] at hr
  have hrun := run_flip cs s1 s f1 hcs hr
  have hcov := run_covered cs s1 s hcs hr c1
  have hre := rects_flip hcov hx
  refine ⟨flipState s, by simp only [run, e1]; exact hrun, rfl, ?_, ?_⟩
  · revert hre
    cases s.rects w h <;> cases (flipState s).rects h w <;> intro hre
    · simp
    · exact hre.elim
    · exact hre.elim
    · simp
  · intro env he
    rw [he] at hre
    revert hre
    cases (flipState s).rects h w with
    | error e => intro hre; exact hre.elim
    | ok env' =>
      intro hre
      change env' = _ at hre
      subst hre
      exact ⟨_, rfl, fun v => rfl⟩

/-- In a column, a row with a text and a filling box, and a box at the height of the middle of the row. -/
def exColumn : List Call :=
  [.box 1 { layout := { width := .str "80%".toList, horizontal := true, pLeft := some 4 } },
   .box 2 {}, .text 3 30 12 false, .box 2 { layout := { width := .str "fill".toList, height := .num 20 } },
   .box 1 { layout := { x := .num 7, y := .lazy (.ref 2 false (.ratio (1/2))), width := .num 5, height := .num 5 } }]

example : (∀ c ∈ exColumn, target c ≠ 0) ∧
    rectsOf 200 100 (cover false :: exColumn) [1, 2, 3, 5, 6] =
      some [some ⟨0, 0, 200, 100⟩, some ⟨24, 40, 156, 20⟩, some ⟨24, 44, 30, 12⟩, some ⟨54, 40, 126, 20⟩, some ⟨7, 50, 5, 5⟩] ∧
    rectsOf 100 200 (cover true :: exColumn.map flipCall) [1, 2, 3, 5, 6] =
      some [some ⟨0, 0, 100, 200⟩, some ⟨40, 24, 20, 156⟩, some ⟨44, 24, 12, 30⟩, some ⟨40, 54, 20, 126⟩, some ⟨50, 7, 5, 5⟩] := by decide +kernel

/-- The hypothesis holds for this example. -/
example : ∃ s, run (newSlide 200 100) (cover false :: exColumn) = .ok s ∧ CrossAbsolute false s.layouts := by
  refine ⟨_, rfl, ?_⟩
  simp [CrossAbsolute, Absolute, addLayout, modifyLayout, appendLayout, newSlide, textSize, ensureSize, ensureWidth, ensureHeight]

end Verif.Slide
