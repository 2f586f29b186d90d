import Verif.Proofs.CairoSim

/-! # Properties C84–C86: items of a page drawn with Cairo -/

namespace Verif.CairoDraw
open Spec

/-- A new page with a transformation (resolution and view box). -/
def fresh (m : Mat) : Ctx := { gs := { ctm := m } }

/-! ### C84 -/

/-- A page with the item after the others is the page without it, and on top of it what drawing this item on a new page paints (or both fail in the
same way). -/
def SameAsAlone (m : Mat) (before : List Item) (i : Item) : Prop :=
  ∀ c, drawItems (fresh m) before = .ok c →
    match drawItem (fresh m) i, drawItems (fresh m) (before ++ [i]) with
    | .ok f, .ok c' => ∃ ps, c'.painted = c.painted ++ ps ∧ ps.map Spec.Paint.seen = f.painted.map Spec.Paint.seen
    | .error e, .error e' => e = e'
    | _, _ => False

theorem drawItems_snoc (i : Item) : ∀ (is : List Item) (c0 : Ctx), drawItems c0 (is ++ [i]) =
    match drawItems c0 is with
    | .error e => .error e
    | .ok c => drawItem c i
  | [], c0 => by
    simp only [List.nil_append, drawItems]
    cases drawItem c0 i <;> rfl
  | j :: is, c0 => by
    simp only [List.cons_append, drawItems]
    cases drawItem c0 j with
    | error e => rfl
    | ok c => exact drawItems_snoc i is c

/-- What an item looks like, compared with the item alone; for evaluating examples. -/
def looks (m : Mat) (before : List Item) (i : Item) : Option (List Paint) :=
  match drawItems (fresh m) before with
  | .error _ => none
  | .ok c =>
    match drawItem c i with
    | .error _ => none
    | .ok c' => some ((c'.painted.drop c.painted.length).map Spec.Paint.seen)

theorem looks_of {m : Mat} {before : List Item} {i : Item} (h : SameAsAlone m before i) {a b : List Paint} (ha : looks m before i = some a)
    (hb : looks m [] i = some b) : a = b := by
  unfold looks at ha hb
  cases hc : drawItems (fresh m) before with
  | error e => rw [hc] at ha; cases ha
  | ok c =>
    rw [hc] at ha
    have := h c hc
    rw [drawItems_snoc, hc] at this
    dsimp only [drawItems] at this ha hb
    cases h1 : drawItem (fresh m) i with
    | error e => rw [h1] at hb; cases hb
    | ok f =>
      cases h2 : drawItem c i with
      | error e => rw [h2] at ha; cases ha
      | ok c' =>
        rw [h1, h2] at this
        rw [h1] at hb
        rw [h2] at ha
        obtain ⟨ps, h3, h4⟩ := this
        injection ha with ha
        injection hb with hb
        subst ha hb
        simp [h3, h4, fresh]

/-- A dashed ellipse followed by a plain frame. -/
def dashedEllipse : Item := .ellipse ⟨0, 0, 10, 20⟩ none { color := some "red".toList, dash := [4, 4] }
def frame : Item := .rect ⟨50, 50, 10, 10⟩ none none none { color := some "black".toList }

/-- **C84 is false of the code** (first reason): the outline of an ellipse is stroked outside of `ctx_scope`, so the dash pattern of an ellipse is
used for all later shapes of the page that do not have their own. -/
theorem C84_independent_false : ¬ ∀ (m : Mat) (before : List Item) (i : Item), m.det ≠ 0 → SameAsAlone m before i := by
  intro h
  have := looks_of (h {} [dashedEllipse] frame (by decide +kernel))
    (a := [.stroke [.move (50, 50), .line (60, 50), .line (60, 60), .line (50, 60), .close] "black".toList 1 [4, 4] {}])
    (b := [.stroke [.move (50, 50), .line (60, 50), .line (60, 60), .line (50, 60), .close] "black".toList 1 [] {}])
    (by decide +kernel) (by decide +kernel)
  exact absurd this (by decide +kernel)

/-- A layout. -/
def word : Layout := { text := "word".toList, ranges := [], align := none, scale := none, spacing := 0, width := 40 }

/-- Second reason: a text leaves its position as the current point, from which `arc` draws a line to the ellipse. -/
theorem C84_text_false : ¬ SameAsAlone {} [.text (7, 8) (9, 9) none word] (.ellipse ⟨0, 0, 10, 10⟩ none { color := some "red".toList }) := by
  intro h
  have := looks_of h
    (a := [.stroke [.move (7, 8), .line (10, 5), .circle {} (5, 5) 5] "red".toList 1 [] {}])
    (b := [.stroke [.move (10, 5), .circle {} (5, 5) 5] "red".toList 1 [] {}])
    (by decide +kernel) (by decide +kernel)
  exact absurd this (by decide +kernel)

/-- **C84, the part that holds**: if no ellipse before has a dashed outline, then every item that begins a new sub-path of its own (all except
ellipses, and paths that do not start with `M`) looks like alone on the page; also ellipses, if there is no text and no bitmap before.
(Missing: the two situations above.) -/
theorem C84_independent_partial (m : Mat) (before : List Item) (i : Item) (hd : ∀ x ∈ before, x.dashedEllipse = false)
    (hi : i.begins = true ∨ ((∃ r rot s, i = .ellipse r rot s) ∧ ∀ x ∈ before, x.isAt = false)) : SameAsAlone m before i := by
  intro c hc
  have hclean : Clean m (fresh m) := ⟨rfl, rfl, rfl, by simp [fresh]⟩
  have hno : NoPath (fresh m) := ⟨rfl, rfl, rfl⟩
  obtain ⟨h1, h2⟩ := items_clean hclean hd hc
  have key : ∃ fl, SimR c.painted fl (drawItem c i) (drawItem (fresh m) i) := by
    rcases hi with hb | ⟨⟨r, rot, s, rfl⟩, ha⟩
    · refine sim_item (fl := {}) ?_ (.inl hb)
      exact ⟨h1.ctm, h1.dash, fun h => absurd h (by decide), fun h => absurd h (by decide), by rw [h1.saved]; exact List.Forall₂.nil,
        ⟨c.path, h1.moves, by simp [fresh]⟩, fun _ => hno, fun h => absurd h (by decide), fun h => absurd h (by decide), ⟨[], by simp, rfl⟩⟩
    · have hn := h2 hno ha
      refine sim_item (fl := { np := true }) ?_ (.inr ⟨rfl, rfl, by intro cmds s h; cases h⟩)
      exact ⟨h1.ctm, h1.dash, fun h => absurd h (by decide), fun h => absurd h (by decide), by rw [h1.saved]; exact List.Forall₂.nil,
        ⟨c.path, h1.moves, by simp [fresh]⟩, fun _ => hno, fun h => absurd h (by decide), fun _ _ => hn, ⟨[], by simp, rfl⟩⟩
  obtain ⟨fl, hs⟩ := key
  rw [drawItems_snoc, hc]
  dsimp only
  cases hcr : drawItem c i with
  | error e =>
    cases hfr : drawItem (fresh m) i with
    | error e' => rw [hcr, hfr] at hs; exact hs.symm
    | ok f => rw [hcr, hfr] at hs; exact hs.elim
  | ok c' =>
    cases hfr : drawItem (fresh m) i with
    | error e' => rw [hcr, hfr] at hs; exact hs.elim
    | ok f =>
      rw [hcr, hfr] at hs
      exact hs.painted

example : looks {} [.text (7, 8) (9, 9) none word, .bitmap ⟨0, 0, 8, 8⟩ none [], .svg {} 8 6 [], .ellipse ⟨0, 0, 10, 10⟩ none { bgColor := some "red".toList },
      .polyline [(0, 0), (1, 1)] "red".toList { dash := [4, 4] }] frame = looks {} [] frame := by decide +kernel
example : (looks {} [] frame).map List.length = some 1 := by decide +kernel

/-! ### C86 -/

/-- The point of an ellipse inscribed in a rectangle, turned around its middle, that belongs to the point `(u, v)` of the unit circle. -/
def ellipsePoint (r : Rect) (rot : Option (Rat × Rat)) (u v : Rat) : Pt :=
  let dx := r.width / 2 * u
  let dy := r.height / 2 * v
  let (c, s) := rot.getD (1, 0)
  (r.x + r.width / 2 + (c * dx - s * dy), r.y + r.height / 2 + (s * dx + c * dy))

/-- A path that consists of the ellipse of a rectangle, seen through a transformation, and nothing else. -/
def IsEllipse (m : Mat) (r : Rect) (rot : Option (Rat × Rat)) (path : List Seg) : Prop :=
  ∃ m' k rad, path = [.move (m.apply (ellipsePoint r rot 1 0)), .circle m' k rad] ∧
    ∀ u v, m'.apply (k.1 + rad * u, k.2 + rad * v) = m.apply (ellipsePoint r rot u v)

/-- The transformation inside the scope of an ellipse. -/
def turned (m : Mat) (p : Pt) (rot : Option (Rat × Rat)) (sx sy : Rat) : Mat :=
  let (c, s) := rot.getD (1, 0)
  (((m.translate p.1 p.2).rotate c s).scale sx sy).translate (-p.1) (-p.2)

theorem Mat.rotate_one (m : Mat) : m.rotate 1 0 = m := by
  cases m
  simp [Mat.rotate]

theorem Mat.scale_one (m : Mat) : m.scale 1 1 = m := by
  cases m
  simp [Mat.scale]

theorem run_transform (c : Ctx) (p : Pt) (rot : Option (Rat × Rat)) (sx sy : Rat) (hs : sx ≠ 0 ∧ sy ≠ 0) :
    run c (transform p rot sx sy) = .ok { c with gs := { c.gs with ctm := turned c.gs.ctm p rot sx sy } } := by
  unfold transform turned
  by_cases h : sx ≠ 1 ∨ sy ≠ 1
  · rw [if_pos h]
    cases rot with
    | none => simp [run, exec, Mat.rotate_one, hs]
    | some cs => simp [run, exec, hs]
  · rw [if_neg h]
    obtain ⟨h1, h2⟩ : sx = 1 ∧ sy = 1 := by
      constructor <;> by_contra h' <;> simp [h'] at h
    subst h1 h2
    cases rot with
    | none => simp [run, exec, Mat.rotate_one, Mat.scale_one]
    | some cs => simp [run, exec, Mat.scale_one]

theorem turned_apply (m : Mat) (p : Pt) (rot : Option (Rat × Rat)) (sx sy u v : Rat) :
    (turned m p rot sx sy).apply (p.1 + u, p.2 + v) =
      m.apply (p.1 + ((rot.getD (1, 0)).1 * (sx * u) - (rot.getD (1, 0)).2 * (sy * v)),
        p.2 + ((rot.getD (1, 0)).2 * (sx * u) + (rot.getD (1, 0)).1 * (sy * v))) := by
  unfold turned
  obtain ⟨c, s⟩ := rot.getD (1, 0)
  simp only [Mat.apply, Mat.translate, Mat.rotate, Mat.scale]
  ext <;> simp only <;> ring

theorem ellipse_aux (c : Ctx) (hn : NoPath c) (r : Rect) (hw : 0 < r.width) (hh : 0 < r.height) (rot : Option (Rat × Rat)) (s : Style) :
    ∃ c', drawItem c (.ellipse r rot s) = .ok c' ∧ c'.gs.ctm = c.gs.ctm ∧ c'.saved = c.saved ∧ NoPath c' ∧ ∃ fills strokes,
      c'.painted = c.painted ++ fills ++ strokes ∧
      (if given s.bgColor then ∃ path, fills = [.fill path (s.bgColor.getD [])] ∧ IsEllipse c.gs.ctm r rot path else fills = []) ∧
      (if given s.color then ∃ path lw dash, strokes = [.stroke path (s.color.getD []) lw dash c.gs.ctm] ∧ IsEllipse c.gs.ctm r rot path ∧
        (∀ w, s.strokeWidth = some w → w ≠ 0 → lw = w) ∧ (s.dash ≠ [] → dash = s.dash) else strokes = []) := by
  obtain ⟨n1, n2, n3⟩ := hn
  have hshape : ∃ sx sy rad, sx * rad = r.width / 2 ∧ sy * rad = r.height / 2 ∧ drawEllipse r rot s =
      .ok (scope (ellipseBody (midPoint r) rot sx sy rad s) ++ (if given s.color then strokeShape [] (s.color.getD []) s else [])) := by
    unfold drawEllipse
    dsimp only
    by_cases h : r.width < r.height
    · simp only [if_pos h]
      rw [if_neg (by rintro ⟨h1, _⟩; linarith)]
      refine ⟨_, _, _, ?_, ?_, rfl⟩
      · rw [if_neg (by intro h'; linarith)]
        field_simp
      · rw [if_pos trivial]; ring
    · simp only [if_neg h]
      rw [if_neg (by rintro ⟨h1, _⟩; linarith)]
      refine ⟨_, _, _, ?_, ?_, rfl⟩
      · rw [if_pos trivial]; ring
      · by_cases h' : r.width = r.height
        · rw [if_pos h', h']; ring
        · rw [if_neg h']
          field_simp
  obtain ⟨sx, sy, rad, hsx, hsy, he⟩ := hshape
  have hpt : ∀ u v, (turned c.gs.ctm (midPoint r) rot sx sy).apply ((midPoint r).1 + rad * u, (midPoint r).2 + rad * v) = c.gs.ctm.apply (ellipsePoint r rot u v) := by
    intro u v
    rw [turned_apply]
    congr 1
    unfold ellipsePoint midPoint
    have e1 : sx * (rad * u) = r.width / 2 * u := by rw [← hsx]; ring
    have e2 : sy * (rad * v) = r.height / 2 * v := by rw [← hsy]; ring
    rw [e1, e2]
  have hstart : (turned c.gs.ctm (midPoint r) rot sx sy).apply ((midPoint r).1 + rad, (midPoint r).2) = c.gs.ctm.apply (ellipsePoint r rot 1 0) := by
    rw [← hpt 1 0]; simp
  have hcirc : IsEllipse c.gs.ctm r rot [.move (c.gs.ctm.apply (ellipsePoint r rot 1 0)), .circle (turned c.gs.ctm (midPoint r) rot sx sy) (midPoint r) rad] :=
    ⟨_, _, _, rfl, hpt⟩
  unfold drawItem
  dsimp only
  rw [he]
  dsimp only
  unfold scope ellipseBody
  simp only [List.cons_append, run, exec, List.append_assoc]
  rw [run_append, run_transform _ _ _ _ _ ⟨by rintro rfl; linarith, by rintro rfl; linarith⟩]
  dsimp only
  rw [run_append]
  cases hb : given s.bgColor <;> cases hc : given s.color <;> by_cases hd : s.dash = [] <;>
    simp [run, exec, fillShape, strokeShape, strokeBefore, Ctx.lineDev, Ctx.moveDev, Ctx.clear, n1, n2, n3, hstart, NoPath, hd, hcirc]
  all_goals (first | (intro w hw hw0; simp [hw, hw0]) | skip)

/-- **C86.** An ellipse is filled and outlined exactly along the ellipse inscribed in its rectangle (turned around the middle), for every
transformation, size and rotation; the pen of the outline is not distorted by the shape of the ellipse; and the outline has the requested
colour and dash pattern. For an ellipse drawn while no point is pending (see C84). -/
theorem C86_ellipse (c : Ctx) (hn : NoPath c) (r : Rect) (hw : 0 < r.width) (hh : 0 < r.height) (rot : Option (Rat × Rat)) (s : Style) :
    ∃ c', drawItem c (.ellipse r rot s) = .ok c' ∧ c'.gs.ctm = c.gs.ctm ∧ c'.saved = c.saved ∧ NoPath c' ∧ ∃ fills strokes,
      c'.painted = c.painted ++ fills ++ strokes ∧
      (∀ col, s.bgColor = some col → col ≠ [] → ∃ path, fills = [.fill path col] ∧ IsEllipse c.gs.ctm r rot path) ∧
      (s.bgColor = none ∨ s.bgColor = some [] → fills = []) ∧
      (∀ col, s.color = some col → col ≠ [] → ∃ path lw dash, strokes = [.stroke path col lw dash c.gs.ctm] ∧ IsEllipse c.gs.ctm r rot path ∧
        (∀ w, s.strokeWidth = some w → w ≠ 0 → lw = w) ∧ (s.dash ≠ [] → dash = s.dash)) ∧
      (s.color = none ∨ s.color = some [] → strokes = []) := by
  obtain ⟨c', h1, h2, h3, h4, fills, strokes, h5, h6, h7⟩ := ellipse_aux c hn r hw hh rot s
  refine ⟨c', h1, h2, h3, h4, fills, strokes, h5, ?_, ?_, ?_, ?_⟩
  · intro col hc hne
    rw [hc, if_pos (by simp [given, hne])] at h6
    exact h6
  · intro hc
    rcases hc with hc | hc <;> rw [hc, if_neg (by simp [given])] at h6 <;> exact h6
  · intro col hc hne
    rw [hc, if_pos (by simp [given, hne])] at h7
    exact h7
  · intro hc
    rcases hc with hc | hc <;> rw [hc, if_neg (by simp [given])] at h7 <;> exact h7

example : (looks {} [] dashedEllipse).map List.length = some 1 := by decide +kernel

end Verif.CairoDraw
