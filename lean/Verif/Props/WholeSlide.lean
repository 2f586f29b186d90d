import Verif.Props.Sizes
import Verif.Props.SlideLayout

/-! # Property C113: the box of a slide is the page -/

namespace Verif.Slide
open Verif.Layout (Attrs Forest Env Pos)
open Verif.Layout.Spec

/-- What stays of the layout of the slide: the paddings and the direction. -/
def Bare (a : Attrs) : Prop := a.pLeft = 0 ∧ a.pRight = 0 ∧ a.pTop = 0 ∧ a.pBottom = 0 ∧ a.horizontal = false

theorem bare_of {a b : Attrs} (h : Bare a) (e : b.pLeft = a.pLeft ∧ b.pRight = a.pRight ∧ b.pTop = a.pTop ∧ b.pBottom = a.pBottom ∧ b.horizontal = a.horizontal) : Bare b := by
  obtain ⟨h1, h2, h3, h4, h5⟩ := h
  obtain ⟨e1, e2, e3, e4, e5⟩ := e
  exact ⟨e1.trans h1, e2.trans h2, e3.trans h3, e4.trans h4, e5.trans h5⟩

theorem bare_text (w h : Rat) (fit : Bool) {a : Attrs} (ha : Bare a) : Bare (textSize w h fit a) := by
  refine bare_of ha ?_
  unfold textSize ensureSize ensureHeight ensureWidth
  cases fit
  · exact ⟨rfl, rfl, rfl, rfl, rfl⟩
  · cases h1 : a.widthUndef <;> cases h2 : a.heightUndef <;> simp [h1, h2]

theorem bare_image (w h : Rat) {a : Attrs} (kids : Forest) (ha : Bare a) : Bare (imageSize w h a kids) := by
  refine bare_of ha ?_
  unfold imageSize ensureSize ensureHeight ensureWidth
  split <;> exact ⟨rfl, rfl, rfl, rfl, rfl⟩

theorem bare_modify {f : Forest} {p : Nat} {g : Attrs → Forest → Attrs × Forest} (hg : ∀ a kids, Bare a → Bare (g a kids).1)
    (h : ∃ a kids, f = .node 0 a kids .nil ∧ Bare a) : ∃ a kids, modifyLayout p g f = .node 0 a kids .nil ∧ Bare a := by
  obtain ⟨a, kids, rfl, ha⟩ := h
  simp only [modifyLayout]
  split
  · rename_i h0; subst h0; exact ⟨_, _, rfl, hg a kids ha⟩
  · exact ⟨_, _, rfl, ha⟩

/-- In every history the layout of the slide is vertical and without paddings. -/
theorem run_bare {s s' : State} {cs : List Call} (h : run s cs = .ok s') (hs : ∃ a kids, s.layouts = .node 0 a kids .nil ∧ Bare a) :
    ∃ a kids, s'.layouts = .node 0 a kids .nil ∧ Bare a := by
  induction cs generalizing s with
  | nil => injection h with h; subst h; exact hs
  | cons c cs ih =>
    simp only [run] at h
    split at h
    · cases h
    · rename_i s1 he
      refine ih h ?_
      obtain ⟨-, hl⟩ := exec_layouts he
      rw [hl]
      cases c with
      | box p b =>
        simp only [layoutsAfter]
        split
        · exact bare_modify (fun a kids ha => by dsimp only; exact ha) hs
        · exact hs
      | text p w ht fit => exact bare_modify (fun a kids ha => bare_text w ht fit ha) hs
      | shape p => exact hs
      | image p w ht steps => exact bare_modify (fun a kids ha => bare_image w ht kids ha) hs

/-- **C113.** After any calls on a slide of the given size, if the rectangles can be computed: the box of the slide is exactly the page, however much it contains.
For every box directly in it, on both axes: a position that is a number is the distance from the edge of the page, `q` (a percentage) is this fraction
of the page, an alignment divides the free room of the page; without position it is centred horizontally; a size that is a percentage is
that fraction of the page, if the content does not need more; `fill` makes it as wide as the page. -/
theorem C113_page (w h : Rat) (cs : List Call) (s : State) (hr : run (newSlide w h) cs = .ok s) (env : Env) (he : s.rects w h = .ok env) :
    env 0 = some ⟨0, 0, w, h⟩ ∧
    ∃ a kids, s.layouts = .node 0 a kids .nil ∧ ∀ c ∈ tops kids, ∃ r, env c.1 = some r ∧
      ∀ axis, let page := if axis then w else h
        (∀ q, posOn axis c.2.1 = some (.fix q) → start axis (grow c.2.1 r) = q) ∧
        (∀ q, posOn axis c.2.1 = some (.ratio q) → start axis (grow c.2.1 r) = page * q) ∧
        (∀ q, posOn axis c.2.1 = some (.align q) → start axis (grow c.2.1 r) = (page - extent axis (grow c.2.1 r)) * q) ∧
        (posOn axis c.2.1 = none → axis = true → start axis (grow c.2.1 r) + extent axis (grow c.2.1 r) / 2 = page / 2) ∧
        (Static axis c.2.1 → fillOf axis c.2.1 = 0 → ∀ q, (sizeOn axis c.2.1).ratio = some q → q ≠ 0 →
          extent axis (grow c.2.1 r) = max (page * q) (max (sizeOn axis c.2.1).minSize (content axis c.2.1.horizontal c.2.2 + pads axis c.2.1))) ∧
        (Static axis c.2.1 → fillOf axis c.2.1 ≠ 0 → axis = true → extent axis (grow c.2.1 r) = page) := by
  have hl := run_laid hr (newSlide_laid w h)
  obtain ⟨a, kids, hlay, hpl, hpr, hpt, hpb, hor⟩ := run_bare hr ⟨_, _, rfl, rfl, rfl, rfl, rfl, rfl⟩
  have hn : (uids (.node 0 a kids .nil)).Nodup := by have := hl.nodup; rwa [hlay] at this
  unfold State.rects at he
  rw [hlay] at he
  have h0 := Verif.Layout.setRect_self he (by simp only [uids, List.append_nil, List.nodup_cons] at hn; exact hn.1)
  have hin : a.inner ⟨0, 0, w, h⟩ = ⟨0, 0, w, h⟩ := by simp [Verif.Layout.Attrs.inner, Verif.Rect.shrink, hpl, hpr, hpt, hpb]
  rw [hin] at h0
  refine ⟨h0, a, kids, hlay, ?_⟩
  intro c hc
  have hb : (0, a, kids) ∈ boxes (.node 0 a kids .nil) := by simp [boxes]
  obtain ⟨P, r, R, hP, hcr, rfl, hpos⟩ := Verif.Layout.C35_explicit_positions_partial _ _ _ _ _ _ hn he _ hb c hc
  obtain ⟨P', r', hP', hcr', hsz⟩ := Verif.Layout.C105_sizes _ _ _ _ _ _ hn he _ hb c hc
  rw [h0] at hP hP'
  injection hP with hP; subst hP
  injection hP' with hP'; subst hP'
  rw [hcr] at hcr'; injection hcr' with hcr'; subst hcr'
  refine ⟨r, hcr, ?_⟩
  intro axis page
  have hext : extent axis (⟨0, 0, w, h⟩ : Verif.Rect) = page := by cases axis <;> rfl
  have hst : start axis (⟨0, 0, w, h⟩ : Verif.Rect) = 0 := by cases axis <;> rfl
  obtain ⟨p1, p2, p3, p4⟩ := hpos axis
  rw [hext, hst] at p2 p3 p4
  rw [hst] at p1
  refine ⟨fun q hq => ?_, fun q hq => ?_, fun q hq => ?_, fun hq hax => ?_, fun hs hf q hq hq0 => ?_, fun hs hf hax => ?_⟩
  · rw [p1 q hq, zero_add]
  · rw [p2 q hq (.inr hor), zero_add]
  · rw [p3 q hq (.inr hor), zero_add]
  · have := p4 hq (by rw [hax, hor]; decide)
    linarith
  · have := (hsz axis hs).2.1 hf q hq hq0
    rw [hext] at this
    exact this
  · have := (hsz axis hs).2.2 hf (by rw [hax, hor]; decide)
    rw [hext] at this
    exact this

/-- A slide with too wide a text, a box at a fixed place, one at a relative place with a relative size, and one that fills. -/
example : (match run (newSlide 200 100) [.text 0 300 20 false, .box 0 { layout := { x := .num 20, y := .num 10, width := .num 30, height := .num 5 } },
      .box 0 { layout := { x := .str "10%".toList, y := .str "[100%]".toList, width := .str "50%".toList, height := .num 10 } },
      .box 0 { layout := { width := .str "fill".toList, height := .str "fill".toList, padding := some 5 } }] with
    | .ok s => (match s.rects 200 100 with | .ok env => [0, 2, 3, 4].map env | .error _ => [])
    | .error _ => []) = [some ⟨0, 0, 200, 100⟩, some ⟨20, 10, 30, 5⟩, some ⟨20, 90, 100, 10⟩, some ⟨5, 5, 190, 90⟩] := by decide +kernel

end Verif.Slide
