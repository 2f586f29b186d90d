import Verif.Proofs.Session
import Verif.Props.SceneCairo

/-! # Property C127: working on a slide after it was shown -/

namespace Verif.Session
open Spec
open Verif.Scene (Ext)

/-! ### the claim fails -/

/-- A number as a fraction; for the examples. -/
def frac (q : Rat) : Str := (if q < 0 then "-".toList else []) ++ Verif.natStr q.num.natAbs ++ "/".toList ++ Verif.natStr q.den

/-- A box; the slide is shown; then a box is put below it and, before it, a box with a frame that starts where the first box starts. -/
def staleOps : List Op :=
  [.call (.box 0 { layout := { height := .num 10 } }),
   .prepare,
   .call (.box 0 { layout := { height := .num 20 } }),
   .call (.box 0 { layout := { y := .lazy (.ref 1 false (.fix 0)), height := .num 10, width := .num 10, prepend := true } }),
   .call (.draw 3 (.rect none none none {}))]

/-- A text that is scaled to its box; the slide is shown. -/
def fitOps : List Op :=
  [.call (.box 0 { layout := { height := .num 10, width := .num 10 } }),
   .call (.draw 1 (.text [.text "ab".toList] { font := some "s".toList, color := some "red".toList, size := some 10, lineSpacing := some 1, align := some "left".toList }
      (fun _ => none) none true 20)),
   .prepare]

/-- **C127 is false.** A slide that was shown remembers the rectangles of its boxes: a box that is put before the box it refers to is placed where that
one was, although such a slide cannot be shown when it is made anew; the box it refers to is somewhere else by now. And a text with
`scale_to_fit` is drawn larger the second time. -/
theorem C127_again_false :
    (∃ str, svgShow frac 100 100 none 1 (work 100 100 staleOps) = .ok str) ∧
    svgShow frac 100 100 none 1 (work 100 100 (callsOf staleOps)) = .error .attribute ∧
    ((prepare 100 100 (work 100 100 staleOps)).1.env 3).map (·.y) = some 45 ∧
    ((prepare 100 100 (work 100 100 staleOps)).1.env 1).map (·.y) = some 35 ∧
    (∃ a b, svgShow frac 100 100 none 1 (work 100 100 fitOps) = .ok a ∧ svgShow frac 100 100 none 1 (work 100 100 (callsOf fitOps)) = .ok b ∧ a ≠ b) := by
  have key : ∀ {x : Except Err Str}, (match x with | .ok _ => true | .error _ => false) = true → ∃ s, x = .ok s := by
    intro x hx
    cases x with
    | error e => cases hx
    | ok s => exact ⟨s, rfl⟩
  refine ⟨key (by decide +kernel), (by decide +kernel), (by decide +kernel), (by decide +kernel), ?_⟩
  obtain ⟨a, ha⟩ : ∃ s, svgShow frac 100 100 none 1 (work 100 100 fitOps) = .ok s := key (by decide +kernel)
  obtain ⟨b, hb⟩ : ∃ s, svgShow frac 100 100 none 1 (work 100 100 (callsOf fitOps)) = .ok s := key (by decide +kernel)
  refine ⟨a, b, ha, hb, fun hab => ?_⟩
  have : svgShow frac 100 100 none 1 (work 100 100 fitOps) = svgShow frac 100 100 none 1 (work 100 100 (callsOf fitOps)) := by rw [ha, hb, hab]
  revert this
  decide +kernel

/-! ### what holds -/

/-- The slide made anew can be shown only if it can be prepared. -/
theorem svgShow_ok {fmt : Rat → Str} {w h : Rat} {vb : Option Rect} {k : Int} {s : St} {str : Str} (hs : svgShow fmt w h vb k s = .ok str) :
    ∃ t, prepare w h s = (t, none) ∧ Verif.Scene.svgPage fmt s.scene t.env w h vb k = .ok str := by
  unfold svgShow at hs
  rcases hp : prepare w h s with ⟨t, o⟩
  rw [hp] at hs
  cases o with
  | some e => cases hs
  | none => exact ⟨t, rfl, hs⟩

theorem cairoShow_ok {x : Ext} {png : Bool} {w h : Rat} {vb : Option Rect} {k : Int} {s : St} {ps} (hs : cairoShow x png w h vb k s = .ok ps) :
    ∃ t, prepare w h s = (t, none) ∧ Verif.Scene.cairoPage x png s.scene t.env w h vb k = .ok ps := by
  unfold cairoShow at hs
  rcases hp : prepare w h s with ⟨t, o⟩
  rw [hp] at hs
  cases o with
  | some e => cases hs
  | none => exact ⟨t, rfl, hs⟩

/-- **C127**, what holds (missing: texts with `scale_to_fit` made before the slide was shown for the last time, and slides that cannot be shown when they are
made anew). However often a slide was shown between the calls, successfully or not, every page of it is the page of a slide made anew with the same
calls, if that one can be made: the SVG page and the page made with Cairo. -/
theorem C127_again_partial (w h : Rat) (ops : List Op) (hf : LateFits ops) (viewBox : Option Rect) (k : Int) :
    (∀ fmt str, svgShow fmt w h viewBox k (work w h (callsOf ops)) = .ok str → svgShow fmt w h viewBox k (work w h ops) = .ok str) ∧
    (∀ x png ps, cairoShow x png w h viewBox k (work w h (callsOf ops)) = .ok ps → cairoShow x png w h viewBox k (work w h ops) = .ok ps) := by
  have hsc := work_scene w h ops hf
  have e1 : work w h (callsOf ops) = ⟨(work w h (callsOf ops)).scene, Verif.Layout.noEnv⟩ := by rw [← calls_env w h ops]
  have e2 : work w h ops = ⟨(work w h (callsOf ops)).scene, (work w h ops).env⟩ := by rw [← hsc]
  refine ⟨fun fmt str hs => ?_, fun x png ps hs => ?_⟩
  · rw [e1] at hs
    obtain ⟨t, hp, hpage⟩ := svgShow_ok hs
    obtain ⟨t', hp', he⟩ := prepare_mono (env0 := (work w h ops).env) hp
    rw [e2]
    unfold svgShow
    rw [hp']
    exact svgPage_mono he hpage
  · rw [e1] at hs
    obtain ⟨t, hp, hpage⟩ := cairoShow_ok hs
    obtain ⟨t', hp', he⟩ := prepare_mono (env0 := (work w h ops).env) hp
    rw [e2]
    unfold cairoShow
    rw [hp']
    exact cairoPage_mono he hpage

/-! ### an example -/

/-- A box with a text; the slide is shown; a call that raises; another box with a frame below it, so that the first box moves; the slide is shown again. -/
def exOps : List Op :=
  [.call (.box 0 { layout := { height := .num 10, width := .num 10 } }),
   .call (.draw 1 (.text [.text "ab".toList] { font := some "s".toList, color := some "red".toList, size := some 10, lineSpacing := some 1, align := some "left".toList }
      (fun _ => none) none false 20)),
   .prepare,
   .call (.draw 1 (.line [.pair (.num 0) (.num 0)] none none none)),
   .call (.box 0 { layout := { height := .num 20, width := .num 20 } }),
   .call (.draw 3 (.line [.lazy (.ref 1 true (.fix 0)) (.ref 1 false (.fix 0)), .pair (.num 0) (.num 0)] (some "red".toList) none none)),
   .prepare]

theorem ex_late : LateFits exOps := by
  intro before after he o ho hf
  have hm : o ∈ exOps := by rw [he]; simp [ho]
  simp only [exOps, List.mem_cons, List.not_mem_nil, or_false] at hm
  rcases hm with rfl | rfl | rfl | rfl | rfl | rfl | rfl <;> simp [Fits] at hf

example : (match svgShow frac 100 100 none 1 (work 100 100 (callsOf exOps)) with | .ok _ => true | .error _ => false) = true ∧
    ((work 100 100 exOps).env 1).map (·.y) = some 35 ∧ ((work 100 100 (exOps.take 3)).env 1).map (·.y) = some 45 := by decide +kernel

end Verif.Session
