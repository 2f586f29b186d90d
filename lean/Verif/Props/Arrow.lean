import Verif.Model.Arrow
import Mathlib.Analysis.SpecialFunctions.Trigonometric.Inverse
import Mathlib.Tactic.FieldSimp
import Mathlib.Tactic.LinearCombination

/-! # Properties C69 and C87: arrows -/

namespace Verif.Arrow

/-! ### Specification -/

/-- Euclidean distance. -/
noncomputable def distance (p q : Pt) : ℝ := Real.sqrt ((p.1 - q.1) ^ 2 + (p.2 - q.2) ^ 2)

/-- The point of the half line from `p` through `q` at a (signed) distance from `p`. -/
def AtDistance (p q : Pt) (d : ℝ) (r : Pt) : Prop :=
  ∃ k : ℝ, r = (p.1 + k * (q.1 - p.1), p.2 + k * (q.2 - p.2)) ∧ k * distance p q = d

def dot (o a b : Pt) : ℝ := (a.1 - o.1) * (b.1 - o.1) + (a.2 - o.2) * (b.2 - o.2)
def cross (o a b : Pt) : ℝ := (a.1 - o.1) * (b.2 - o.2) - (a.2 - o.2) * (b.1 - o.1)

/-! ### Helper lemmas -/

theorem len_eq (p1 p2 : Pt) : len p1 p2 = distance p1 p2 := by
  unfold len distance delta
  congr 1
  ring

theorem distance_comm (p q : Pt) : distance p q = distance q p := by
  unfold distance
  congr 1
  ring

theorem distance_pos {p q : Pt} (h : p ≠ q) : 0 < distance p q := by
  unfold distance
  apply Real.sqrt_pos.mpr
  by_contra hn
  have h1 : (p.1 - q.1) ^ 2 + (p.2 - q.2) ^ 2 ≤ 0 := not_lt.mp hn
  have h2 : p.1 - q.1 = 0 := by nlinarith [sq_nonneg (p.1 - q.1), sq_nonneg (p.2 - q.2)]
  have h3 : p.2 - q.2 = 0 := by nlinarith [sq_nonneg (p.1 - q.1), sq_nonneg (p.2 - q.2)]
  exact h (Prod.ext (by linarith) (by linarith))

theorem distance_sq (p q : Pt) : distance p q * distance p q = (p.1 - q.1) ^ 2 + (p.2 - q.2) ^ 2 :=
  Real.mul_self_sqrt (by positivity)

/-- The distance from `p` of a point of the half line. -/
theorem AtDistance.distance {p q r : Pt} {d : ℝ} (h : AtDistance p q d r) : distance p r = |d| := by
  obtain ⟨k, rfl, hk⟩ := h
  rw [← hk]
  unfold Arrow.distance
  rw [abs_mul, abs_of_nonneg (Real.sqrt_nonneg _), ← Real.sqrt_sq_eq_abs, ← Real.sqrt_mul (sq_nonneg k)]
  congr 1
  ring

theorem resize_spec {p1 p2 : Pt} (h : p1 ≠ p2) (change : ℝ) :
    ∃ q, resize p1 p2 change = .ok q ∧ AtDistance p1 p2 (distance p1 p2 + change) q := by
  have hl := distance_pos h
  unfold resize
  rw [len_eq, if_neg hl.ne']
  refine ⟨_, rfl, 1 + change / distance p1 p2, ?_, ?_⟩
  · simp only [delta]
    ext <;> simp only <;> ring
  · field_simp

/-! ### C69 -/

/-- **C69.** The new end point is on the line through the two points, at the old length plus the change from the first point, on the side of the
second point as long as that number is positive. A segment of length zero is a `ZeroDivisionError`. -/
theorem C69_resize (p1 p2 : Pt) (change : ℝ) :
    (p1 ≠ p2 → ∃ q, resize p1 p2 change = .ok q ∧ AtDistance p1 p2 (distance p1 p2 + change) q ∧ distance p1 q = |distance p1 p2 + change|) ∧
    (p1 = p2 → resize p1 p2 change = .error .zeroDivision) := by
  constructor
  · intro h
    obtain ⟨q, h1, h2⟩ := resize_spec h change
    exact ⟨q, h1, h2, h2.distance⟩
  · rintro rfl
    unfold resize
    rw [if_pos]
    unfold len delta
    simp

example : ((0, 0) : Pt) ≠ (3, 4) := by simp

/-- **C69 for arrows.** The end of a line with an arrow head is moved back by half of the stroke width of the head, or by half of its length along the
line if the head is filled; it does not leave the segment if that is at most the length of the segment. -/
theorem C69_move_end (a : Shape) (p1 p2 : Pt) (h : p1 ≠ p2) (shift : ℝ)
    (hs : (∃ w, a.strokeWidth = some w ∧ w ≠ 0 ∧ shift = w / 2) ∨
      ((a.strokeWidth = none ∨ a.strokeWidth = some 0) ∧ shift = a.size * Real.cos a.angle / 2)) :
    ∃ q, moveEndPoint a p1 p2 = .ok q ∧ AtDistance p1 p2 (distance p1 p2 - shift) q ∧
      (0 ≤ shift → shift ≤ distance p1 p2 → distance q p2 = shift ∧ distance p1 q + distance q p2 = distance p1 p2) := by
  have hsh : (if truthy a.strokeWidth then (a.strokeWidth.getD 0) / 2 else Real.cos a.angle * a.size / 2) = shift := by
    rcases hs with ⟨w, h1, h2, rfl⟩ | ⟨h1 | h1, rfl⟩
    · simp [h1, truthy, h2]
    · rw [h1, if_neg (by simp [truthy])]; ring
    · rw [h1, if_neg (by simp [truthy])]; ring
  obtain ⟨q, h1, h2⟩ := resize_spec h (-shift)
  refine ⟨q, by unfold moveEndPoint; rw [hsh]; exact h1, by rwa [← sub_eq_add_neg] at h2, ?_⟩
  intro h0 hle
  have hd : distance p1 q = distance p1 p2 - shift := by
    rw [h2.distance, ← sub_eq_add_neg, abs_of_nonneg (by linarith)]
  have hq : distance q p2 = shift := by
    obtain ⟨k, rfl, hk⟩ := h2
    have hpos := distance_pos h
    have hk' : (1 - k) * distance p1 p2 = shift := by linarith
    have hk1 : 0 ≤ 1 - k := by
      by_contra hn
      have := mul_neg_of_neg_of_pos (not_le.mp hn) hpos
      linarith
    rw [← hk']
    unfold distance
    rw [show (1 - k) * Real.sqrt ((p1.1 - p2.1) ^ 2 + (p1.2 - p2.2) ^ 2) = Real.sqrt ((1 - k) ^ 2) * Real.sqrt ((p1.1 - p2.1) ^ 2 + (p1.2 - p2.2) ^ 2) by
      rw [Real.sqrt_sq hk1], ← Real.sqrt_mul (sq_nonneg _)]
    congr 1
    ring
  exact ⟨hq, by rw [hd, hq]; ring⟩

example : ∃ a : Shape, a.strokeWidth = none := ⟨{ size := 10, angle := 1 }, rfl⟩

/-! ### C87 -/

/-- The points drawn for a head. -/
def Head.points : Head → List Pt
  | .polyline ps _ => ps
  | .polygon ps => ps

theorem sincos {p1 p2 : Pt} (h : p1 ≠ p2) :
    Real.sin (atan2 (delta p1 p2).1 (delta p1 p2).2) * distance p1 p2 = p2.1 - p1.1 ∧
    Real.cos (atan2 (delta p1 p2).1 (delta p1 p2).2) * distance p1 p2 = p2.2 - p1.2 := by
  have hpos := distance_pos h
  have hn : ‖(⟨(delta p1 p2).2, (delta p1 p2).1⟩ : ℂ)‖ = distance p1 p2 := by
    rw [Complex.norm_def, Complex.normSq_mk]
    unfold distance delta
    congr 1
    ring
  have hz : (⟨(delta p1 p2).2, (delta p1 p2).1⟩ : ℂ) ≠ 0 := by
    intro h0
    rw [h0, norm_zero] at hn
    linarith
  unfold atan2
  rw [Complex.sin_arg, Complex.cos_arg hz, hn]
  constructor <;> (field_simp; rfl)

/-- A side of the head: a point at distance `size` from the tip in the direction of the segment turned by the angle. -/
theorem side_spec {p1 p2 : Pt} (h : p1 ≠ p2) (size θ : ℝ) (q : Pt)
    (hq : q = (p2.1 + size * Real.sin (atan2 (delta p1 p2).1 (delta p1 p2).2 + Real.pi + θ),
      p2.2 + size * Real.cos (atan2 (delta p1 p2).1 (delta p1 p2).2 + Real.pi + θ))) :
    distance p2 q = |size| ∧ dot p2 p1 q = distance p1 p2 * size * Real.cos θ ∧ cross p2 p1 q = - (distance p1 p2 * size * Real.sin θ) := by
  obtain ⟨h1, h2⟩ := sincos h
  generalize atan2 (delta p1 p2).1 (delta p1 p2).2 = a at *
  have hs : Real.sin (a + Real.pi + θ) = - Real.sin (a + θ) := by rw [show a + Real.pi + θ = a + θ + Real.pi by ring, Real.sin_add_pi]
  have hc : Real.cos (a + Real.pi + θ) = - Real.cos (a + θ) := by rw [show a + Real.pi + θ = a + θ + Real.pi by ring, Real.cos_add_pi]
  rw [hs, hc] at hq
  subst hq
  have hsq := Real.sin_sq_add_cos_sq (a + θ)
  have e := Real.sin_sq_add_cos_sq a
  refine ⟨?_, ?_, ?_⟩
  · unfold distance
    rw [← Real.sqrt_sq_eq_abs]
    congr 1
    simp only
    linear_combination size ^ 2 * hsq
  · unfold dot
    simp only
    rw [Real.sin_add, Real.cos_add]
    rw [show p1.1 - p2.1 = -(Real.sin a * distance p1 p2) by linarith, show p1.2 - p2.2 = -(Real.cos a * distance p1 p2) by linarith]
    linear_combination distance p1 p2 * size * Real.cos θ * e
  · unfold cross
    simp only
    rw [Real.sin_add, Real.cos_add]
    rw [show p1.1 - p2.1 = -(Real.sin a * distance p1 p2) by linarith, show p1.2 - p2.2 = -(Real.cos a * distance p1 p2) by linarith]
    linear_combination -(distance p1 p2 * size * Real.sin θ) * e

/-- **C87.** The head of an arrow from `p1` to `p2` has its tip at `p2`; its two sides have the length `size` and the angle `angle` to the segment, one on
each side of it; a filled head with `inner` has its notch on the segment at `inner` times the depth of the head before the tip. It is drawn
as lines if there is a stroke width, and filled otherwise. -/
theorem C87_head (a : Shape) (p1 p2 : Pt) (h : p1 ≠ p2) :
    ∃ head q1 q2 rest, render a p1 p2 = .ok head ∧ head.points = [q1, p2, q2] ++ rest ∧
      (∀ q ∈ [q1, q2], distance p2 q = |a.size| ∧ dot p2 p1 q = distance p2 p1 * a.size * Real.cos a.angle) ∧
      cross p2 p1 q1 = distance p2 p1 * a.size * Real.sin a.angle ∧ cross p2 p1 q2 = - cross p2 p1 q1 ∧
      (∀ k, a.strokeWidth = none → a.inner = some k → k ≠ 0 → ∃ q, rest = [q] ∧ AtDistance p2 p1 (k * (a.size * Real.cos a.angle)) q) ∧
      (a.inner = none → rest = []) ∧ (∀ w, a.strokeWidth = some w → w ≠ 0 → rest = []) ∧
      (∀ w, a.strokeWidth = some w ↔ ∃ ps, head = .polyline ps w) := by
  have s1 := side_spec h a.size (-a.angle) _ rfl
  have s2 := side_spec h a.size a.angle _ rfl
  rw [Real.cos_neg, Real.sin_neg] at s1
  rw [← sub_eq_add_neg] at s1
  rw [distance_comm p1 p2] at s1 s2
  have key : ∃ rest, withInner a p1 p2 (sides a p1 p2) = .ok (sides a p1 p2 ++ rest) ∧
      (∀ k, a.strokeWidth = none → a.inner = some k → k ≠ 0 → ∃ q, rest = [q] ∧ AtDistance p2 p1 (k * (a.size * Real.cos a.angle)) q) ∧
      (a.inner = none → rest = []) ∧ (∀ w, a.strokeWidth = some w → w ≠ 0 → rest = []) := by
    unfold withInner
    by_cases hc : (truthy a.inner && !truthy a.strokeWidth) = true
    · rw [if_pos hc]
      obtain ⟨q, h1, k, h2, h3⟩ := resize_spec h (-(a.inner.getD 0) * a.size * Real.cos a.angle)
      rw [h1]
      refine ⟨[q], rfl, ?_, ?_, ?_⟩
      · intro n _ hi _
        refine ⟨q, rfl, 1 - k, ?_, ?_⟩
        · rw [h2]
          ext <;> simp only <;> ring
        · rw [distance_comm p2 p1]
          rw [hi] at h3
          simp only [Option.getD_some] at h3
          linarith
      · intro hi
        simp [hi, truthy] at hc
      · intro w hw hw0
        simp [hw, truthy, hw0] at hc
    · rw [if_neg hc]
      refine ⟨[], rfl, ?_, fun _ => rfl, fun _ _ _ => rfl⟩
      intro n hs hi hn
      simp [hs, hi, truthy, hn] at hc
  obtain ⟨rest, hkey, r1, r2, r3⟩ := key
  unfold render
  rw [hkey]
  cases hw : a.strokeWidth with
  | none =>
    refine ⟨_, _, _, rest, rfl, rfl, ?_, ?_, ?_, fun k _ => r1 k hw, r2, fun w hf => (by cases hf), fun w => ⟨fun hf => (by cases hf), fun ⟨ps, hf⟩ => (by cases hf)⟩⟩
    · intro q hq
      rcases List.mem_cons.mp hq with rfl | hq
      · exact ⟨s1.1, s1.2.1⟩
      · rw [List.mem_singleton] at hq
        subst hq
        exact ⟨s2.1, s2.2.1⟩
    · rw [s1.2.2]; ring
    · rw [s1.2.2, s2.2.2]; ring
  | some v =>
    refine ⟨_, _, _, rest, rfl, rfl, ?_, ?_, ?_, fun k hf => (by cases hf), r2, fun w hf hn => r3 w (hw.trans hf) hn, fun w => ⟨?_, ?_⟩⟩
    · intro q hq
      rcases List.mem_cons.mp hq with rfl | hq
      · exact ⟨s1.1, s1.2.1⟩
      · rw [List.mem_singleton] at hq
        subst hq
        exact ⟨s2.1, s2.2.1⟩
    · rw [s1.2.2]; ring
    · rw [s1.2.2, s2.2.2]; ring
    · intro hf
      injection hf with hf
      subst hf
      exact ⟨_, rfl⟩
    · rintro ⟨ps, hf⟩
      injection hf with _ hf
      rw [hf]

theorem line_points (p : List Pt) (hp : 2 ≤ p.length) (start end_ : Option Shape) (q : List Pt) (h : linePoints p start end_ = .ok q) :
    q.length = p.length ∧ (∀ i, 0 < i → i + 1 < p.length → q[i]? = p[i]?) ∧
      (match start with
        | none => q[0]? = p[0]?
        | some a => ∃ u v w, p[1]? = some u ∧ p[0]? = some v ∧ moveEndPoint a u v = .ok w ∧ q[0]? = some w) ∧
      (match end_ with
        | none => q[p.length - 1]? = p[p.length - 1]?
        | some a => ∃ u v w, p[p.length - 2]? = some u ∧ p[p.length - 1]? = some v ∧ moveEndPoint a u v = .ok w ∧ q[p.length - 1]? = some w) := by
  have step1 : ∃ p2, linePoints p start end_ = (match end_ with
      | none => .ok p2
      | some a =>
        match p[p.length - 2]?, p[p.length - 1]? with
        | some q1, some q0 =>
          match moveEndPoint a q1 q0 with
          | .error e => .error e
          | .ok q => .ok (p2.set (p.length - 1) q)
        | _, _ => .error .index) ∧ p2.length = p.length ∧ (∀ i, 0 < i → p2[i]? = p[i]?) ∧
      (match start with
        | none => p2[0]? = p[0]?
        | some a => ∃ u v w, p[1]? = some u ∧ p[0]? = some v ∧ moveEndPoint a u v = .ok w ∧ p2[0]? = some w) := by
    unfold linePoints at h ⊢
    cases start with
    | none => exact ⟨p, rfl, rfl, fun _ _ => rfl, rfl⟩
    | some a =>
      have e1 : p[1]? = some p[1] := List.getElem?_eq_getElem (by omega)
      have e0 : p[0]? = some p[0] := List.getElem?_eq_getElem (by omega)
      simp only [e1, e0] at h ⊢
      cases hm : moveEndPoint a p[1] p[0] with
      | error e => rw [hm] at h; cases h
      | ok w =>
        refine ⟨p.set 0 w, rfl, by simp, ?_, p[1], p[0], w, rfl, rfl, hm, ?_⟩
        · intro i hi
          rw [List.getElem?_set_ne (by omega)]
        · rw [List.getElem?_set_self (by omega)]
  obtain ⟨p2, h1, h2, h3, h4⟩ := step1
  rw [h1] at h
  cases end_ with
  | none =>
    injection h with h
    subst h
    exact ⟨h2, fun i hi _ => h3 i hi, h4, h3 _ (by omega)⟩
  | some a =>
    have e1 : p[p.length - 2]? = some p[p.length - 2] := List.getElem?_eq_getElem (by omega)
    have e0 : p[p.length - 1]? = some p[p.length - 1] := List.getElem?_eq_getElem (by omega)
    simp only [e1, e0] at h ⊢
    cases hm : moveEndPoint a p[p.length - 2] p[p.length - 1] with
    | error e => rw [hm] at h; cases h
    | ok w =>
      rw [hm] at h
      injection h with h
      subst h
      refine ⟨by simp [h2], ?_, ?_, _, _, w, rfl, rfl, hm, ?_⟩
      · intro i hi hi'
        rw [List.getElem?_set_ne (by omega)]
        exact h3 i hi
      · rw [List.getElem?_set_ne (by omega)]
        exact h4
      · rw [List.getElem?_set_self (by omega)]

/-- How far the end of a line with this head is moved back: half of the stroke width of the head, or half of its depth if it is filled. -/
def Shift (a : Shape) (shift : ℝ) : Prop :=
  (∃ w, a.strokeWidth = some w ∧ w ≠ 0 ∧ shift = w / 2) ∨
    ((a.strokeWidth = none ∨ a.strokeWidth = some 0) ∧ shift = a.size * Real.cos a.angle / 2)

theorem moveEnd_ok {a : Shape} {u v w : Pt} (h : moveEndPoint a u v = .ok w) :
    u ≠ v ∧ ∃ shift, Shift a shift ∧ AtDistance u v (distance u v - shift) w := by
  have hne : u ≠ v := by
    rintro rfl
    unfold moveEndPoint at h
    rw [(C69_resize u u _).2 rfl] at h
    cases h
  have hs : ∃ shift, Shift a shift := by
    cases hw : a.strokeWidth with
    | none => exact ⟨_, .inr ⟨.inl hw, rfl⟩⟩
    | some w =>
      by_cases h0 : w = 0
      · exact ⟨_, .inr ⟨.inr (h0 ▸ hw), rfl⟩⟩
      · exact ⟨_, .inl ⟨w, hw, h0, rfl⟩⟩
  obtain ⟨shift, hs⟩ := hs
  obtain ⟨q, h1, h2, -⟩ := C69_move_end a u v hne shift hs
  rw [h] at h1
  injection h1 with h1
  subst h1
  exact ⟨hne, shift, hs, h2⟩

/-- The end `v` of the segment from `u` is moved to `w` by a head. -/
def Shortened (head : Option Shape) (u v w : Pt) : Prop :=
  match head with
  | none => w = v
  | some a => u ≠ v ∧ ∃ shift, Shift a shift ∧ AtDistance u v (distance u v - shift) w

/-- **C87 for lines.** A line has the same points with and without arrows, except that the first and the last point are moved towards
their neighbours to end inside the head: by half of its stroke width, or by half of its depth if it is filled. Both heads can be used
together. -/
theorem C87_line (p : List Pt) (hp : 2 ≤ p.length) (start end_ : Option Shape) (q : List Pt) (h : linePoints p start end_ = .ok q) :
    ∃ hl : q.length = p.length, (∀ i, 0 < i → i + 1 < p.length → q[i]? = p[i]?) ∧
      Shortened start p[1] p[0] q[0] ∧ Shortened end_ p[p.length - 2] p[p.length - 1] q[p.length - 1] := by
  obtain ⟨h1, h2, h3, h4⟩ := line_points p hp start end_ q h
  refine ⟨h1, h2, ?_, ?_⟩
  · cases start with
    | none =>
      rw [List.getElem?_eq_getElem (by omega), List.getElem?_eq_getElem (by omega)] at h3
      exact Option.some.inj h3
    | some a =>
      obtain ⟨u, v, w, e1, e2, e3, e4⟩ := h3
      rw [List.getElem?_eq_getElem (by omega)] at e1 e2 e4
      rw [Option.some.inj e1, Option.some.inj e2, Option.some.inj e4]
      exact moveEnd_ok e3
  · cases end_ with
    | none =>
      rw [List.getElem?_eq_getElem (by omega), List.getElem?_eq_getElem (by omega)] at h4
      exact Option.some.inj h4
    | some a =>
      obtain ⟨u, v, w, e1, e2, e3, e4⟩ := h4
      rw [List.getElem?_eq_getElem (by omega)] at e1 e2 e4
      rw [Option.some.inj e1, Option.some.inj e2, Option.some.inj e4]
      exact moveEnd_ok e3

/-- **C87 for lines, when it works.** A line with arrows is drawn exactly if the segments at the heads are not empty. -/
theorem C87_line_drawn (p : List Pt) (hp : 2 ≤ p.length) (start end_ : Option Shape) :
    (∃ q, linePoints p start end_ = .ok q) ↔ (start ≠ none → p[1] ≠ p[0]) ∧ (end_ ≠ none → p[p.length - 2] ≠ p[p.length - 1]) := by
  have ok : ∀ (a : Shape) (u v : Pt), u ≠ v → ∃ w, moveEndPoint a u v = .ok w := by
    intro a u v h
    obtain ⟨q, h1, -⟩ := resize_spec h (-(if truthy a.strokeWidth then (a.strokeWidth.getD 0) / 2 else Real.cos a.angle * a.size / 2))
    exact ⟨q, h1⟩
  constructor
  · rintro ⟨q, h⟩
    obtain ⟨_, -, h3, h4⟩ := C87_line p hp start end_ q h
    refine ⟨fun hs => ?_, fun he => ?_⟩
    · cases start with
      | none => exact absurd rfl hs
      | some a => exact h3.1
    · cases end_ with
      | none => exact absurd rfl he
      | some a => exact h4.1
  · rintro ⟨h1, h2⟩
    have e1 : p[1]? = some p[1] := List.getElem?_eq_getElem (by omega)
    have e0 : p[0]? = some p[0] := List.getElem?_eq_getElem (by omega)
    have e3 : p[p.length - 2]? = some p[p.length - 2] := List.getElem?_eq_getElem (by omega)
    have e4 : p[p.length - 1]? = some p[p.length - 1] := List.getElem?_eq_getElem (by omega)
    unfold linePoints
    cases start with
    | none =>
      cases end_ with
      | none => exact ⟨_, rfl⟩
      | some b =>
        obtain ⟨w, hw⟩ := ok b _ _ (h2 (by simp))
        simp only [e3, e4, hw]
        exact ⟨_, rfl⟩
    | some a =>
      obtain ⟨v, hv⟩ := ok a _ _ (h1 (by simp))
      simp only [e1, e0, hv]
      cases end_ with
      | none => exact ⟨_, rfl⟩
      | some b =>
        obtain ⟨w, hw⟩ := ok b _ _ (h2 (by simp))
        simp only [e3, e4, hw]
        exact ⟨_, rfl⟩

/-- Two heads on a line with a corner. -/
example : ∃ q, linePoints [(0, 0), (0, 5), (5, 5)] (some { size := 2, angle := 1 }) (some { size := 2, angle := 1, strokeWidth := some 1 }) = .ok q := by
  rw [C87_line_drawn _ (by simp)]
  simp

/-- **C87, the unit.** The angle is given in degrees: between each side of the head and the line there are that many degrees. -/
theorem C87_degrees (size degrees : ℝ) (h0 : 0 ≤ degrees) (h1 : degrees ≤ 180) (hs : 0 < size) (p1 p2 : Pt) (h : p1 ≠ p2) (w inner : Option ℝ) :
    ∃ head q1 q2 rest, render { size := size, angle := radians degrees, strokeWidth := w, inner := inner } p1 p2 = .ok head ∧
      head.points = [q1, p2, q2] ++ rest ∧
      ∀ q ∈ [q1, q2], Real.arccos (dot p2 p1 q / (distance p2 p1 * distance p2 q)) * 180 = degrees * Real.pi := by
  obtain ⟨head, q1, q2, rest, e1, e2, e3, -⟩ := C87_head { size := size, angle := radians degrees, strokeWidth := w, inner := inner } p1 p2 h
  refine ⟨head, q1, q2, rest, e1, e2, fun q hq => ?_⟩
  obtain ⟨d1, d2⟩ := e3 q hq
  have hpos := distance_pos (Ne.symm h)
  rw [d1, d2]
  simp only
  rw [abs_of_pos hs, mul_div_cancel_left₀ _ (by positivity), Real.arccos_cos]
  · unfold radians; ring
  · unfold radians; positivity
  · unfold radians
    have := Real.pi_pos
    rw [div_le_iff₀ (by norm_num)]
    nlinarith

end Verif.Arrow
