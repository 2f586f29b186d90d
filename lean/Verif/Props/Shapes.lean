import Verif.Proofs.CairoPath

/-! # Properties C65–C68: shapes drawn with Cairo -/

namespace Verif.CairoDraw
open Spec

/-! ### C65 -/

/-- `q` is the image of `p` under scaling by `k` and moving by `d`. -/
def scaleMove (k : Rat) (d p : Pt) : Pt := (k * p.1 + d.1, k * p.2 + d.2)

/-- A scaling and moving that shows the whole view box on the page. -/
def Fits (width height vx vy vw vh k : Rat) (d : Pt) : Prop :=
  0 < k ∧ ∀ p, InRect vx vy vw vh p → InRect 0 0 width height (scaleMove k d p)

/-- **C65.** A view box of positive size is scaled uniformly, with the scale that is returned; it is completely on the page, its middle is the middle
of the page, and no larger scale would fit. All this relative to the transformation in force before. -/
theorem C65_viewbox (c : Ctx) (width height vx vy vw vh : Rat) (hw : 0 < width) (hh : 0 < height) (hvw : 0 < vw) (hvh : 0 < vh) :
    ∃ ks k d c', applyViewbox width height vx vy vw vh = .ok (ks, k) ∧ run c ks = .ok c' ∧
      (∀ p, c'.gs.ctm.apply p = c.gs.ctm.apply (scaleMove k d p)) ∧
      Fits width height vx vy vw vh k d ∧
      scaleMove k d (vx + vw / 2, vy + vh / 2) = (width / 2, height / 2) ∧
      (∀ k' d', Fits width height vx vy vw vh k' d' → k' ≤ k) ∧
      c'.path = c.path ∧ c'.painted = c.painted := by
  have e1 : 0 < width / vw := div_pos hw hvw
  have e2 : 0 < height / vh := div_pos hh hvh
  have hk : 0 < min (width / vw) (height / vh) := lt_min e1 e2
  have l1 : min (width / vw) (height / vh) * vw ≤ width := by
    have := mul_le_mul_of_nonneg_right (min_le_left (width / vw) (height / vh)) hvw.le
    rwa [div_mul_cancel₀ _ hvw.ne'] at this
  have l2 : min (width / vw) (height / vh) * vh ≤ height := by
    have := mul_le_mul_of_nonneg_right (min_le_right (width / vw) (height / vh)) hvh.le
    rwa [div_mul_cancel₀ _ hvh.ne'] at this
  have hfit : ∀ k' d', Fits width height vx vy vw vh k' d' → k' ≤ min (width / vw) (height / vh) := by
    rintro k' d' ⟨hk', hf⟩
    have a := hf (vx, vy) ⟨le_refl _, by simp only; linarith, le_refl _, by simp only; linarith⟩
    have b := hf (vx + vw, vy + vh) ⟨by simp only; linarith, le_refl _, by simp only; linarith, le_refl _⟩
    simp only [InRect, scaleMove, zero_add] at a b
    rw [le_min_iff, le_div_iff₀ hvw, le_div_iff₀ hvh]
    constructor
    · nlinarith [a.1, b.2.1]
    · nlinarith [a.2.2.1, b.2.2.2]
  generalize hkk : min (width / vw) (height / vh) = k at hk l1 l2 hfit
  have hav : applyViewbox width height vx vy vw vh = .ok ([.translate (-vx * k) (-vy * k), .scale k k,
        .translate ((width / k - vw) / 2) ((height / k - vh) / 2)], k) := by
    unfold applyViewbox
    rw [if_neg (by rintro (h | h) <;> linarith)]
    simp only [hkk]
    rw [if_neg hk.ne']
  rw [hav]
  refine ⟨_, k, ((width - k * vw) / 2 - k * vx, (height - k * vh) / 2 - k * vy),
    { c with gs := { c.gs with ctm := ((c.gs.ctm.translate (-vx * k) (-vy * k)).scale k k).translate ((width / k - vw) / 2) ((height / k - vh) / 2) } },
    rfl, by simp only [run, exec]; rw [if_neg (mul_pos hk hk).ne'], ?_, ⟨hk, ?_⟩, ?_, hfit, rfl, rfl⟩
  · intro p
    simp only [Mat.apply, Mat.translate, Mat.scale, scaleMove]
    have hk0 : k ≠ 0 := hk.ne'
    ext <;> simp only <;> field_simp <;> ring
  · rintro p ⟨h1, h2, h3, h4⟩
    simp only [InRect, scaleMove, zero_add]
    have m1 := mul_le_mul_of_nonneg_left h1 hk.le
    have m2 := mul_le_mul_of_nonneg_left h2 hk.le
    have m3 := mul_le_mul_of_nonneg_left h3 hk.le
    have m4 := mul_le_mul_of_nonneg_left h4 hk.le
    refine ⟨?_, ?_, ?_, ?_⟩ <;> nlinarith
  · simp only [scaleMove]
    ext <;> simp only <;> ring

example : (applyViewbox 100 50 10 20 40 40).toOption.map (·.2) = some (5 / 4) := by decide +kernel

/-! ### C66 -/

/-- **C66.** The cubic curve drawn for a quadratic one is the same curve, point by point, for every transformation. -/
theorem C66_quadratic (c : Ctx) (p1 p2 cp : Pt) (hcur : c.cur = some (c.gs.ctm.apply p1)) :
    ∃ a b, exec c (quadraticCall p1 p2 cp) = .ok { c with path := c.path ++ [.curve a b (c.gs.ctm.apply p2)], cur := some (c.gs.ctm.apply p2) } ∧
      ∀ t, cubicAt (c.gs.ctm.apply p1) a b (c.gs.ctm.apply p2) t = c.gs.ctm.apply (quadAt p1 cp p2 t) := by
  refine ⟨c.gs.ctm.apply ((2 * cp.1 + p1.1) / 3, (2 * cp.2 + p1.2) / 3), c.gs.ctm.apply ((2 * cp.1 + p2.1) / 3, (2 * cp.2 + p2.2) / 3),
    by simp only [quadraticCall, exec, Ctx.curveDev, hcur], ?_⟩
  intro t
  simp only [cubicAt, quadAt, Mat.apply, bez2, bez3]
  ext <;> simp only <;> ring

example : quadraticCall (0, 0) (6, 0) (3, 3) = .curveTo (2, 2) (4, 2) (6, 0) := by decide +kernel

/-! ### C68 -/

theorem clamp_eq (r size : Rat) : clampRadius r size = min r (size / 2) := by
  unfold clampRadius
  by_cases h : r > size - r
  · rw [if_pos h, min_eq_right (by linarith)]
  · rw [if_neg h, min_eq_left (by
      have : ¬ (size - r < r) := h
      have := not_lt.mp this
      linarith)]

theorem bez3_bounds {lo hi p0 a b p t : Rat} (ht0 : 0 ≤ t) (ht1 : t ≤ 1) (h0 : lo ≤ p0 ∧ p0 ≤ hi) (ha : lo ≤ a ∧ a ≤ hi)
    (hb : lo ≤ b ∧ b ≤ hi) (hp : lo ≤ p ∧ p ≤ hi) : lo ≤ bez3 p0 a b p t ∧ bez3 p0 a b p t ≤ hi := by
  have s : 0 ≤ 1 - t := by linarith
  have w0 : 0 ≤ (1 - t) ^ 3 := pow_nonneg s 3
  have w1 : 0 ≤ 3 * (1 - t) ^ 2 * t := mul_nonneg (mul_nonneg (by norm_num) (pow_nonneg s 2)) ht0
  have w2 : 0 ≤ 3 * (1 - t) * t ^ 2 := mul_nonneg (mul_nonneg (by norm_num) s) (pow_nonneg ht0 2)
  have w3 : 0 ≤ t ^ 3 := pow_nonneg ht0 3
  unfold bez3
  constructor
  · have e : lo = (1 - t) ^ 3 * lo + 3 * (1 - t) ^ 2 * t * lo + 3 * (1 - t) * t ^ 2 * lo + t ^ 3 * lo := by ring
    have := mul_le_mul_of_nonneg_left h0.1 w0
    have := mul_le_mul_of_nonneg_left ha.1 w1
    have := mul_le_mul_of_nonneg_left hb.1 w2
    have := mul_le_mul_of_nonneg_left hp.1 w3
    linarith
  · have e : hi = (1 - t) ^ 3 * hi + 3 * (1 - t) ^ 2 * t * hi + 3 * (1 - t) * t ^ 2 * hi + t ^ 3 * hi := by ring
    have := mul_le_mul_of_nonneg_left h0.2 w0
    have := mul_le_mul_of_nonneg_left ha.2 w1
    have := mul_le_mul_of_nonneg_left hb.2 w2
    have := mul_le_mul_of_nonneg_left hp.2 w3
    linarith

theorem cubic_in {x y w h : Rat} {p0 a b p : Pt} (h0 : InRect x y w h p0) (ha : InRect x y w h a) (hb : InRect x y w h b)
    (hp : InRect x y w h p) (t : Rat) (ht0 : 0 ≤ t) (ht1 : t ≤ 1) : InRect x y w h (cubicAt p0 a b p t) := by
  obtain ⟨a1, a2, a3, a4⟩ := h0
  obtain ⟨b1, b2, b3, b4⟩ := ha
  obtain ⟨c1, c2, c3, c4⟩ := hb
  obtain ⟨d1, d2, d3, d4⟩ := hp
  have hx := bez3_bounds ht0 ht1 ⟨a1, a2⟩ ⟨b1, b2⟩ ⟨c1, c2⟩ ⟨d1, d2⟩
  have hy := bez3_bounds ht0 ht1 ⟨a3, a4⟩ ⟨b3, b4⟩ ⟨c3, c4⟩ ⟨d3, d4⟩
  exact ⟨hx.1, hx.2, hy.1, hy.2⟩

theorem line_in {x y w h : Rat} {p0 p : Pt} (h0 : InRect x y w h p0) (hp : InRect x y w h p) (t : Rat) (ht0 : 0 ≤ t) (ht1 : t ≤ 1) :
    InRect x y w h (lineAt p0 p t) := by
  obtain ⟨a1, a2, a3, a4⟩ := h0
  obtain ⟨d1, d2, d3, d4⟩ := hp
  refine ⟨?_, ?_, ?_, ?_⟩ <;> simp only [lineAt] <;> nlinarith

/-- The outline of a rounded rectangle: clockwise from the end of the upper left corner. -/
def outline (x y w h rx ry : Rat) : List Seg :=
  let c1 := arcToBezier * rx
  let c2 := arcToBezier * ry
  [.move (x + rx, y), .line (x + w - rx, y), .curve (x + w - rx + c1, y) (x + w, y + c2) (x + w, y + ry),
    .line (x + w, y + h - ry), .curve (x + w, y + h - ry + c2) (x + w - rx + c1, y + h) (x + w - rx, y + h),
    .line (x + rx, y + h), .curve (x + rx - c1, y + h) (x, y + h - c2) (x, y + h - ry),
    .line (x, y + ry), .curve (x, y + ry - c2) (x + rx - c1, y) (x + rx, y), .close]

theorem rounded_path (c : Ctx) (x y w h rx ry : Rat) :
    ∃ c', run c (roundedRectangle x y w h rx ry) = .ok c' ∧
      c'.path = (outline x y w h (min rx (w / 2)) (min ry (h / 2))).map (Seg.through c.gs.ctm) := by
  unfold roundedRectangle
  rw [clamp_eq, clamp_eq]
  generalize min rx (w / 2) = a
  generalize min ry (h / 2) = b
  refine ⟨_, rfl, ?_⟩
  simp only [outline, List.map_cons, List.map_nil, Seg.through, Ctx.clear, Ctx.moveDev, Ctx.lineDev, Ctx.curveDev, Mat.apply, Mat.dist, padd]
  simp only [List.nil_append, List.cons_append, List.cons.injEq, Seg.line.injEq, Seg.curve.injEq, Prod.mk.injEq, true_and, and_true]
  refine ⟨?_, ?_, ?_, ?_, ?_, ?_, ?_, ?_⟩ <;> (try constructor) <;> (try constructor) <;> (try constructor) <;> ring

/-- **C68.** For every rectangle and non-negative radii, what `rounded_rectangle` adds to the (new) path is, seen through
the transformation in force, an outline that ends where it started, whose points are all in the rectangle, with corners of the
given radii or half the size, whichever is smaller. -/
theorem C68_rounded (c : Ctx) (x y w h rx ry : Rat) (hw : 0 ≤ w) (hh : 0 ≤ h) (hrx : 0 ≤ rx) (hry : 0 ≤ ry) :
    ∃ c' segs, run c (roundedRectangle x y w h rx ry) = .ok c' ∧ c'.path = segs.map (Seg.through c.gs.ctm) ∧
      segs.head? = some (.move (x + min rx (w / 2), y)) ∧ segs.getLast? = some .close ∧
      endPoint (0, 0) segs = (x + min rx (w / 2), y) ∧ AllPoints (InRect x y w h) (0, 0) segs ∧
      (.line (x + w - min rx (w / 2), y)) ∈ segs ∧ (.line (x + w, y + h - min ry (h / 2))) ∈ segs ∧
      (.line (x + min rx (w / 2), y + h)) ∈ segs ∧ (.line (x, y + min ry (h / 2))) ∈ segs := by
  obtain ⟨c', hrun, hpath⟩ := rounded_path c x y w h rx ry
  have bx : 0 ≤ min rx (w / 2) ∧ min rx (w / 2) ≤ w / 2 := ⟨le_min hrx (by linarith), min_le_right _ _⟩
  have byy : 0 ≤ min ry (h / 2) ∧ min ry (h / 2) ≤ h / 2 := ⟨le_min hry (by linarith), min_le_right _ _⟩
  refine ⟨c', _, hrun, hpath, ?_⟩
  clear hrun hpath
  generalize min rx (w / 2) = a at bx
  generalize min ry (h / 2) = b at byy
  have ca : 0 ≤ arcToBezier * a ∧ arcToBezier * a ≤ a := by
    unfold arcToBezier; constructor <;> linarith [bx.1]
  have cb : 0 ≤ arcToBezier * b ∧ arcToBezier * b ≤ b := by
    unfold arcToBezier; constructor <;> linarith [byy.1]
  refine ⟨rfl, rfl, rfl, ?_, ?_⟩
  · simp only [outline, AllPoints]
    generalize arcToBezier * a = c1 at ca
    generalize arcToBezier * b = c2 at cb
    have P : ∀ q : Pt, x ≤ q.1 → q.1 ≤ x + w → y ≤ q.2 → q.2 ≤ y + h → InRect x y w h q := fun q a b c d => ⟨a, b, c, d⟩
    obtain ⟨bx1, bx2⟩ := bx
    obtain ⟨by1, by2⟩ := byy
    obtain ⟨ca1, ca2⟩ := ca
    obtain ⟨cb1, cb2⟩ := cb
    refine ⟨P _ ?_ ?_ ?_ ?_, fun t h0 h1 => line_in (P _ ?_ ?_ ?_ ?_) (P _ ?_ ?_ ?_ ?_) t h0 h1,
      fun t h0 h1 => cubic_in (P _ ?_ ?_ ?_ ?_) (P _ ?_ ?_ ?_ ?_) (P _ ?_ ?_ ?_ ?_) (P _ ?_ ?_ ?_ ?_) t h0 h1,
      fun t h0 h1 => line_in (P _ ?_ ?_ ?_ ?_) (P _ ?_ ?_ ?_ ?_) t h0 h1,
      fun t h0 h1 => cubic_in (P _ ?_ ?_ ?_ ?_) (P _ ?_ ?_ ?_ ?_) (P _ ?_ ?_ ?_ ?_) (P _ ?_ ?_ ?_ ?_) t h0 h1,
      fun t h0 h1 => line_in (P _ ?_ ?_ ?_ ?_) (P _ ?_ ?_ ?_ ?_) t h0 h1,
      fun t h0 h1 => cubic_in (P _ ?_ ?_ ?_ ?_) (P _ ?_ ?_ ?_ ?_) (P _ ?_ ?_ ?_ ?_) (P _ ?_ ?_ ?_ ?_) t h0 h1,
      fun t h0 h1 => line_in (P _ ?_ ?_ ?_ ?_) (P _ ?_ ?_ ?_ ?_) t h0 h1,
      fun t h0 h1 => cubic_in (P _ ?_ ?_ ?_ ?_) (P _ ?_ ?_ ?_ ?_) (P _ ?_ ?_ ?_ ?_) (P _ ?_ ?_ ?_ ?_) t h0 h1, trivial⟩
      <;> dsimp only <;> linarith
  · simp [outline]

example : (outline 0 0 10 10 5 2).length = 10 := by decide +kernel

/-! ### C85 -/

/-- The curves of a path: start, control points and end. -/
def curves : Pt → List Seg → List (Pt × Pt × Pt × Pt)
  | _, [] => []
  | _, .move p :: ss => curves p ss
  | _, .line p :: ss => curves p ss
  | p0, .curve a b p :: ss => (p0, a, b, p) :: curves p ss
  | p0, .circle _ _ _ :: ss => curves p0 ss
  | p0, .close :: ss => curves p0 ss

/-- All points of a curve satisfy the equation of an ellipse up to an error. -/
def NearArc (lo hi rx ry : Rat) (center : Pt) (k : Pt × Pt × Pt × Pt) : Prop :=
  ∀ t, 0 ≤ t → t ≤ 1 → lo ≤ (((cubicAt k.1 k.2.1 k.2.2.1 k.2.2.2 t).1 - center.1) / rx) ^ 2 +
      (((cubicAt k.1 k.2.1 k.2.2.1 k.2.2.2 t).2 - center.2) / ry) ^ 2 ∧
    (((cubicAt k.1 k.2.1 k.2.2.1 k.2.2.2 t).1 - center.1) / rx) ^ 2 +
      (((cubicAt k.1 k.2.1 k.2.2.1 k.2.2.2 t).2 - center.2) / ry) ^ 2 ≤ hi

/-- The corners of a rounded rectangle are elliptical up to an error: the four curves lie along ellipses with the given radii around the
inner corner points (upper right, lower right, lower left, upper left). -/
def RoundCorners (lo hi : Rat) (x y w h rx ry : Rat) : Prop :=
  ∃ c', run {} (roundedRectangle x y w h rx ry) = .ok c' ∧
    List.Forall₂ (NearArc lo hi rx ry) [(x + w - rx, y + ry), (x + w - rx, y + h - ry), (x + rx, y + h - ry), (x + rx, y + ry)] (curves (0, 0) c'.path)

theorem through_id (s : Seg) : Seg.through ({} : Mat) s = s := by
  cases s <;> simp [Seg.through, Mat.apply]

/-- **C85 is false of the code**: the upper right and the lower left corner are flattened by more than two percent of the radius (5 % in the
equation), because their second control point is measured from the wrong end. -/
theorem C85_corners_false :
    ¬ ∀ x y w h rx ry : Rat, 0 < rx → 0 < ry → rx ≤ w / 2 → ry ≤ h / 2 → RoundCorners (95 / 100) (105 / 100) x y w h rx ry := by
  intro hall
  obtain ⟨c', hrun, hf⟩ := hall 0 0 2 2 1 1 (by norm_num) (by norm_num) (by norm_num) (by norm_num)
  obtain ⟨c'', hrun', hpath⟩ := rounded_path {} 0 0 2 2 1 1
  rw [hrun] at hrun'
  injection hrun' with he
  subst he
  rw [hpath, show Seg.through ({} : Ctx).gs.ctm = id from funext through_id, List.map_id] at hf
  simp only [outline, curves] at hf
  cases hf with
  | cons h1 _ =>
    have := (h1 (1 / 2) (by norm_num) (by norm_num)).1
    exact absurd this (by decide +kernel)

theorem good_corner (t : Rat) (h0 : 0 ≤ t) (h1 : t ≤ 1) :
    999 / 1000 ≤ bez3 1 1 arcToBezier 0 t ^ 2 + bez3 0 arcToBezier 1 1 t ^ 2 ∧ bez3 1 1 arcToBezier 0 t ^ 2 + bez3 0 arcToBezier 1 1 t ^ 2 ≤ 1001 / 1000 := by
  have key : ∀ k : Rat, bez3 1 1 k 0 t ^ 2 + bez3 0 k 1 1 t ^ 2 =
      1 + (t * (1 - t)) ^ 2 * ((9 * k ^ 2 + 6 * k - 6) + t * (1 - t) * (-8 + 24 * k - 18 * k ^ 2)) := by
    intro k
    unfold bez3
    ring
  have hs0 : 0 ≤ t * (1 - t) := mul_nonneg h0 (by linarith)
  have hs1 : t * (1 - t) ≤ 1 / 4 := by nlinarith [sq_nonneg (t - 1 / 2)]
  rw [key]
  generalize t * (1 - t) = s at hs0 hs1
  have e1 : 58 / 1000 ≤ 9 * arcToBezier ^ 2 + 6 * arcToBezier - 6 ∧ 9 * arcToBezier ^ 2 + 6 * arcToBezier - 6 ≤ 59 / 1000 := by
    unfold arcToBezier; constructor <;> norm_num
  have e2 : -236 / 1000 ≤ -8 + 24 * arcToBezier - 18 * arcToBezier ^ 2 ∧ -8 + 24 * arcToBezier - 18 * arcToBezier ^ 2 ≤ -235 / 1000 := by
    unfold arcToBezier; constructor <;> norm_num
  generalize 9 * arcToBezier ^ 2 + 6 * arcToBezier - 6 = a at e1
  generalize -8 + 24 * arcToBezier - 18 * arcToBezier ^ 2 = b at e2
  have q0 : 0 ≤ s ^ 2 := sq_nonneg s
  have q1 : s ^ 2 ≤ 1 / 16 := by nlinarith
  have l : -1 / 1000 ≤ a + s * b := by nlinarith
  have u : a + s * b ≤ 59 / 1000 - s * (235 / 1000) := by nlinarith
  constructor
  · nlinarith [mul_nonneg q0 (sub_nonneg.mpr l)]
  · have : s ^ 2 * (a + s * b) ≤ s ^ 2 * (59 / 1000 - s * (235 / 1000)) := mul_le_mul_of_nonneg_left u q0
    nlinarith [mul_nonneg hs0 (sq_nonneg (s - 1 / 6)), sq_nonneg (s - 1 / 6), mul_nonneg q0 (sub_nonneg.mpr hs1)]

theorem bad_corner (t : Rat) (h0 : 0 ≤ t) (h1 : t ≤ 1) :
    9 / 10 ≤ bez3 0 arcToBezier 1 1 t ^ 2 + bez3 1 1 (1 - arcToBezier) 0 t ^ 2 ∧
      bez3 0 arcToBezier 1 1 t ^ 2 + bez3 1 1 (1 - arcToBezier) 0 t ^ 2 ≤ 1001 / 1000 := by
  obtain ⟨g1, g2⟩ := good_corner t h0 h1
  have hdelta : bez3 1 1 (1 - arcToBezier) 0 t = bez3 1 1 arcToBezier 0 t - (2 * arcToBezier - 1) * (3 * (1 - t) * t ^ 2) := by
    unfold bez3; ring
  have hv := bez3_bounds (lo := 0) (hi := 1) (p0 := 1) (a := 1) (b := arcToBezier) (p := 0) h0 h1 ⟨by norm_num, by norm_num⟩ ⟨by norm_num, by norm_num⟩
    ⟨by unfold arcToBezier; norm_num, by unfold arcToBezier; norm_num⟩ ⟨by norm_num, by norm_num⟩
  have hv' := bez3_bounds (lo := 0) (hi := 1) (p0 := 1) (a := 1) (b := 1 - arcToBezier) (p := 0) h0 h1 ⟨by norm_num, by norm_num⟩ ⟨by norm_num, by norm_num⟩
    ⟨by unfold arcToBezier; norm_num, by unfold arcToBezier; norm_num⟩ ⟨by norm_num, by norm_num⟩
  have hd0 : 0 ≤ (1 - t) * t ^ 2 := mul_nonneg (by linarith) (sq_nonneg t)
  have hd1 : (1 - t) * t ^ 2 ≤ 4 / 27 := by nlinarith [sq_nonneg (t - 2 / 3), mul_nonneg h0 (sq_nonneg (t - 2 / 3))]
  have hk : 0 ≤ 2 * arcToBezier - 1 ∧ 2 * arcToBezier - 1 ≤ 105 / 1000 := by unfold arcToBezier; constructor <;> norm_num
  have hδ0 : 0 ≤ (2 * arcToBezier - 1) * (3 * (1 - t) * t ^ 2) := mul_nonneg hk.1 (by linarith)
  have hδ1 : (2 * arcToBezier - 1) * (3 * (1 - t) * t ^ 2) ≤ 48 / 1000 := by nlinarith
  generalize (2 * arcToBezier - 1) * (3 * (1 - t) * t ^ 2) = d at hdelta hδ0 hδ1
  rw [hdelta] at hv' ⊢
  generalize bez3 1 1 arcToBezier 0 t = v at *
  generalize bez3 0 arcToBezier 1 1 t = u at *
  constructor <;> nlinarith

theorem nearArc_scaled {lo hi rx ry : Rat} {center : Pt} {k : Pt × Pt × Pt × Pt} (u v : Rat → Rat)
    (hu : ∀ t, ((cubicAt k.1 k.2.1 k.2.2.1 k.2.2.2 t).1 - center.1) / rx = u t)
    (hv : ∀ t, ((cubicAt k.1 k.2.1 k.2.2.1 k.2.2.2 t).2 - center.2) / ry = v t)
    (h : ∀ t, 0 ≤ t → t ≤ 1 → lo ≤ u t ^ 2 + v t ^ 2 ∧ u t ^ 2 + v t ^ 2 ≤ hi) : NearArc lo hi rx ry center k := by
  intro t h0 h1
  rw [hu, hv]
  exact h t h0 h1

/-- **C85, the part that holds**: the lower right and the upper left corner are elliptical up to 0.1 % in the equation; the other two are nowhere
outside by more than that and flattened by at most 10 % in the equation (5 % of the radius). (Missing: the same accuracy for all four.) -/
theorem C85_corners_partial (x y w h rx ry : Rat) (hrx : 0 < rx) (hry : 0 < ry) (hw : rx ≤ w / 2) (hh : ry ≤ h / 2) :
    RoundCorners (9 / 10) (1001 / 1000) x y w h rx ry ∧
      ∃ c' tr br bl tl, run {} (roundedRectangle x y w h rx ry) = .ok c' ∧ curves (0, 0) c'.path = [tr, br, bl, tl] ∧
        NearArc (999 / 1000) (1001 / 1000) rx ry (x + w - rx, y + h - ry) br ∧ NearArc (999 / 1000) (1001 / 1000) rx ry (x + rx, y + ry) tl := by
  obtain ⟨c', hrun, hpath⟩ := rounded_path {} x y w h rx ry
  rw [show Seg.through ({} : Ctx).gs.ctm = id from funext through_id, List.map_id, min_eq_left hw, min_eq_left hh] at hpath
  have hcur : curves (0, 0) c'.path = curves (0, 0) (outline x y w h rx ry) := by rw [hpath]
  simp only [outline, curves] at hcur
  have r0 : rx ≠ 0 := hrx.ne'
  have s0 : ry ≠ 0 := hry.ne'
  have hbr : ∀ lo hi, lo ≤ 999 / 1000 → 1001 / 1000 ≤ hi → NearArc lo hi rx ry (x + w - rx, y + h - ry)
      ((x + w, y + h - ry), (x + w, y + h - ry + arcToBezier * ry), (x + w - rx + arcToBezier * rx, y + h), (x + w - rx, y + h)) := by
    intro lo hi hlo hhi
    refine nearArc_scaled (bez3 1 1 arcToBezier 0) (bez3 0 arcToBezier 1 1) (fun t => ?_) (fun t => ?_) (fun t h0 h1 => ?_)
    · simp only [cubicAt, bez3]; field_simp; ring
    · simp only [cubicAt, bez3]; field_simp; ring
    · obtain ⟨a, b⟩ := good_corner t h0 h1
      constructor <;> linarith
  have htl : ∀ lo hi, lo ≤ 999 / 1000 → 1001 / 1000 ≤ hi → NearArc lo hi rx ry (x + rx, y + ry)
      ((x, y + ry), (x, y + ry - arcToBezier * ry), (x + rx - arcToBezier * rx, y), (x + rx, y)) := by
    intro lo hi hlo hhi
    refine nearArc_scaled (fun t => - bez3 1 1 arcToBezier 0 t) (fun t => - bez3 0 arcToBezier 1 1 t) (fun t => ?_) (fun t => ?_) (fun t h0 h1 => ?_)
    · simp only [cubicAt, bez3]; field_simp; ring
    · simp only [cubicAt, bez3]; field_simp; ring
    · obtain ⟨a, b⟩ := good_corner t h0 h1
      simp only [neg_sq]
      constructor <;> linarith
  have htr : NearArc (9 / 10) (1001 / 1000) rx ry (x + w - rx, y + ry)
      ((x + w - rx, y), (x + w - rx + arcToBezier * rx, y), (x + w, y + arcToBezier * ry), (x + w, y + ry)) := by
    refine nearArc_scaled (bez3 0 arcToBezier 1 1) (fun t => - bez3 1 1 (1 - arcToBezier) 0 t) (fun t => ?_) (fun t => ?_) (fun t h0 h1 => ?_)
    · simp only [cubicAt, bez3]; field_simp; ring
    · simp only [cubicAt, bez3]; field_simp; ring
    · obtain ⟨a, b⟩ := bad_corner t h0 h1
      simp only [neg_sq]
      exact ⟨a, b⟩
  have hbl : NearArc (9 / 10) (1001 / 1000) rx ry (x + rx, y + h - ry)
      ((x + rx, y + h), (x + rx - arcToBezier * rx, y + h), (x, y + h - arcToBezier * ry), (x, y + h - ry)) := by
    refine nearArc_scaled (fun t => - bez3 0 arcToBezier 1 1 t) (bez3 1 1 (1 - arcToBezier) 0) (fun t => ?_) (fun t => ?_) (fun t h0 h1 => ?_)
    · simp only [cubicAt, bez3]; field_simp; ring
    · simp only [cubicAt, bez3]; field_simp; ring
    · obtain ⟨a, b⟩ := bad_corner t h0 h1
      simp only [neg_sq]
      exact ⟨a, b⟩
  refine ⟨⟨c', hrun, ?_⟩, c', _, _, _, _, hrun, hcur, hbr _ _ le_rfl le_rfl, htl _ _ le_rfl le_rfl⟩
  rw [hcur]
  exact .cons htr (.cons (hbr _ _ (by norm_num) le_rfl) (.cons hbl (.cons (htl _ _ (by norm_num) le_rfl) .nil)))

/-! ### C67 -/

/-- Drawing the commands succeeds and adds to the path the curves of the specification, seen through the transformation in force. -/
def DrawnAsSvg (c : Ctx) (cmds : List (Char × List Pt)) (segs : List USeg) : Prop :=
  ∃ c' ds, drawPath c cmds = .ok c' ∧ c'.path = c.path ++ ds ∧ c'.gs = c.gs ∧ Same c.gs.ctm (0, 0) segs ds

/-- A curve continued by two smooth ones. -/
def twoSmooth : List (Char × List Pt) :=
  [('M', [(0, 0)]), ('C', [(0, 1), (1, 1), (1, 0)]), ('S', [(2, 5), (2, 0)]), ('S', [(3, 1), (3, 0)])]

/-- What it means in SVG. -/
def twoSmoothSegs : List USeg :=
  [.move (0, 0)] ++ ([.cubic (0, 1) (1, 1) (1, 0)] ++ ([.cubic (1, -1) (2, 5) (2, 0)] ++ ([.cubic (2, -5) (3, 1) (3, 0)] ++ [])))

theorem oneGroup {st st' : SvgSt} {name : Char} {n : Nat} {args : List Pt} {seg : USeg} {cmds : List (Char × List Pt)} {segs : List USeg}
    (ha : arity name = some n) (hl : args.length = n) (hg : svgGroup st true name args = some (seg, st'))
    (h : SvgCommands st' cmds segs) : SvgCommands st ((name, args) :: cmds) ([seg] ++ segs) := by
  have := Groups.cons (n := n) args [] [] hl Groups.nil
  rw [List.append_nil] at this
  exact SvgCommands.cons ha this (by simp) (SvgGroups.cons hg (SvgGroups.nil _ _)) h

theorem twoSmooth_svg : SvgPath twoSmooth twoSmoothSegs :=
  ⟨rfl, oneGroup rfl rfl rfl (oneGroup rfl rfl rfl 
    (oneGroup (st' := { cur := (2, 0), cubic := some (2, 5) }) rfl rfl (by decide +kernel)
      (oneGroup (st' := { cur := (3, 0), cubic := some (3, 1) }) rfl rfl (by decide +kernel) (SvgCommands.nil _))))⟩

/-- **C67 is false of the code**: after a smooth cubic curve, `draw_path` remembers the first control point of the curve instead of
its second one, so a second `S` in a row is drawn wrongly. -/
theorem C67_smooth_false :
    ¬ ∀ (c : Ctx) (cmds : List (Char × List Pt)) (segs : List USeg), c.gs.ctm.det ≠ 0 → SvgPath cmds segs → DrawnAsSvg c cmds segs := by
  intro h
  obtain ⟨c', ds, he, hp, _, hs⟩ := h {} twoSmooth twoSmoothSegs (by decide +kernel) twoSmooth_svg
  have hpath : (drawPath {} twoSmooth).toOption.map (·.path) = some [.move (0, 0), .curve (0, 1) (1, 1) (1, 0), .curve (1, -1) (2, 5) (2, 0),
      .curve (3, 1) (3, 1) (3, 0)] := by decide +kernel
  rw [he] at hpath
  have hds : ds = [.move (0, 0), .curve (0, 1) (1, 1) (1, 0), .curve (1, -1) (2, 5) (2, 0), .curve (3, 1) (3, 1) (3, 0)] :=
    (show ds = c'.path from hp.symm).trans (Option.some.inj hpath)
  rw [hds] at hs
  have key : ∀ {m : Mat} {p0 : Pt} {us ds}, Same m p0 us ds → ∀ us', us = .move (0, 0) :: .cubic (0, 1) (1, 1) (1, 0) ::
      .cubic (1, -1) (2, 5) (2, 0) :: .cubic (2, -5) (3, 1) (3, 0) :: us' → ∀ a b p, ds[3]? = some (.curve a b p) →
      ∀ t, cubicAt (m.apply (2, 0)) a b p t = m.apply (cubicAt (2, 0) (2, -5) (3, 1) (3, 0) t) := by
    intro m p0 us ds h us' hu a b p hd t
    subst hu
    cases h with
    | move _ h =>
      cases h with
      | cubic _ h =>
        cases h with
        | cubic _ h =>
          cases h with
          | cubic hc h =>
            have := Option.some.inj hd
            injection this with h1 h2 h3
            rw [← h1, ← h2, ← h3]
            exact hc t
  have := key hs [] rfl _ _ _ rfl (1 / 2)
  exact absurd this (by decide +kernel)

/-- A command with two groups of arguments. -/
def twoGroups : List (Char × List Pt) := [('M', [(0, 0)]), ('L', [(1, 1), (2, 0)])]

/-- A second way in which C67 fails: `Path` accepts several groups of arguments for a command, only the first is drawn. -/
theorem C67_groups_false :
    ∃ segs, SvgPath twoGroups segs ∧ (drawPath {} twoGroups).toOption.map (·.path) = some [.move (0, 0), .line (1, 1)] ∧
      ¬ DrawnAsSvg {} twoGroups segs := by
  refine ⟨[.move (0, 0)] ++ ([.line (1, 1), .line (2, 0)] ++ []), ⟨rfl, oneGroup rfl rfl rfl ?_⟩, by decide +kernel, ?_⟩
  · exact SvgCommands.cons rfl (Groups.cons (n := 1) [(1, 1)] [(2, 0)] [[(2, 0)]] rfl (Groups.cons [(2, 0)] [] [] rfl Groups.nil)) (by simp)
      (SvgGroups.cons rfl (SvgGroups.cons rfl (SvgGroups.nil _ _))) (SvgCommands.nil { cur := (2, 0) })
  · rintro ⟨c', ds, he, hp, _, hs⟩
    have hpath : (drawPath {} twoGroups).toOption.map (·.path) = some [.move (0, 0), .line (1, 1)] := by decide +kernel
    rw [he] at hpath
    have hds : ds = [.move (0, 0), .line (1, 1)] :=
      (show ds = c'.path from hp.symm).trans (Option.some.inj hpath)
    have hlen : ∀ {m : Mat} {p0 : Pt} {us ds}, Same m p0 us ds → us.length = ds.length := by
      intro m p0 us ds h
      induction h with
      | nil => rfl
      | move _ _ ih => simp [ih]
      | line _ _ ih => simp [ih]
      | cubic _ _ ih => simp [ih]
      | quad _ _ ih => simp [ih]
    have := hlen hs
    rw [hds] at this
    simp at this

/-- **C67, the part that holds**: if every command has one group of arguments and no `S` directly follows an `S`, what is drawn are the curves
of the SVG specification, for every transformation that can be inverted. (Missing: several groups and `S` after `S`, see above.) -/
theorem C67_smooth_partial (c : Ctx) (cmds : List (Char × List Pt)) (segs : List USeg) (hm : c.gs.ctm.det ≠ 0) (hp : SvgPath cmds segs)
    (hone : ∀ x ∈ cmds, arity x.1 = some x.2.length) (hss : List.IsChain (fun a b => ¬ (a = 'S' ∧ b = 'S')) (cmds.map (·.1))) :
    DrawnAsSvg c cmds segs := by
  obtain ⟨hM, hc⟩ := hp
  cases hc with
  | nil => simp at hM
  | @cons _ name n args gs segs1 st' cmds segs2 ha hgr hne hsg hrest =>
    simp only [List.head?_cons, Option.map_some, Option.some.injEq] at hM
    subst hM
    have h1 : arity 'M' = some args.length := hone ('M', args) (by simp)
    have hl : args.length = 1 := by
      have : some 1 = some args.length := h1
      exact (Option.some.inj this).symm
    have hn : n = 1 := by
      have : some 1 = some n := ha
      exact (Option.some.inj this).symm
    subst hn
    have := groups_one (by decide) hgr hl
    subst this
    obtain ⟨p, rfl⟩ := List.length_eq_one_iff.mp hl
    obtain ⟨seg, rfl, hg⟩ := svgGroups_one hsg
    obtain ⟨rfl, rfl⟩ : (USeg.move p = seg) ∧ ({ cur := p } : SvgSt) = st' := by simpa [svgGroup] using hg
    have hi : Inv c.gs.ctm 'M' (c.moveDev (c.gs.ctm.apply p)) {} { cur := p } := ⟨rfl, rfl, rfl, fun _ => rfl⟩
    obtain ⟨c2, ds, he2, hp2, hgs2, hs2⟩ := loop_ok hm hi hrest (fun y hy => hone y (List.mem_cons_of_mem _ hy)) hss
    exact ⟨c2, _ :: ds, he2, by rw [hp2]; simp [Ctx.moveDev], hgs2, Same.move p hs2⟩

example : (∀ x ∈ [('M', [((0, 0) : Pt)]), ('C', [(0, 1), (1, 1), (1, 0)]), ('S', [(2, 5), (2, 0)]), ('T', [(3, 0)]), ('T', [(4, 4)])],
    arity x.1 = some x.2.length) := by decide
example : drawPath {} [('M', [(0, 0)]), ('Q', [(3, 3), (6, 0)]), ('T', [(12, 0)])] =
    .ok { path := [.move (0, 0), .curve (2, 2) (4, 2) (6, 0), .curve (8, -2) (10, -2) (12, 0)], cur := some (12, 0), start := some (0, 0) } := by
  decide +kernel

end Verif.CairoDraw
