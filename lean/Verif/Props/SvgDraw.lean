import Verif.Proofs.SvgItems

/-! # Property C96: shapes on an SVG page -/

namespace Verif.SvgDraw
open Spec Verif.Xml Verif.Ora
open Verif.Xml.Spec (Attrs Forest readXml norm)
open Verif.CairoDraw (Pt)

/-- The page of a slide of the given size is well-formed XML; an SVG reader sees the size and the view box of the slide, and on it
exactly the items, in their order, as they are meant. -/
def Shows (fmt : Rat → Str) (read : Str → Option Rat) (width height : Rat) (viewBox : Option Rect) (items : List Item) : Prop :=
  ∃ s as K, page fmt width height viewBox items = .ok s ∧ readXml s = some (.elem "svg".toList as K .nil) ∧
    readShapes read K = some (items.map meant) ∧
    num read as "width" = some width ∧ num read as "height" = some height ∧
    (as.lookup "viewBox".toList).map (readNumbers read) = viewBox.map (fun v => some [v.x, v.y, v.width, v.height])

/-! ### numbers -/

/-- A way of writing numbers: sign, numerator, `e`, denominator. (Not that of Python; it shows that `Numbers` can be met.) -/
def sampleFmt (q : Rat) : Str := (if q.num < 0 then '-' else '+') :: (natStr q.num.natAbs ++ 'e' :: natStr q.den)

def sampleRead : Str → Option Rat
  | [] => none
  | c :: s => some ((if c = '-' then -1 else 1) * (Nat.ofDigitChars 10 (cut 'e' s).1 0 : Rat) / (Nat.ofDigitChars 10 (cut 'e' s).2 0 : Rat))

theorem natStr_digits {n : Nat} {c : Char} (h : c ∈ natStr n) : c.isDigit = true := Nat.isDigit_of_mem_toDigits (b := 10) (by omega) (by omega) h

theorem sampleNumbers : Numbers sampleFmt sampleRead := by
  refine ⟨fun q => ?_, fun q c hc => ?_, rfl⟩
  · unfold sampleFmt sampleRead
    dsimp only
    rw [cut_append (by intro h; have := natStr_digits h; revert this; decide)]
    unfold natStr
    rw [Nat.ofDigitChars_ten_toDigits, Nat.ofDigitChars_ten_toDigits]
    congr 1
    by_cases h : q.num < 0
    · rw [if_pos h]
      have e : ((q.num.natAbs : Nat) : Rat) = -(q.num : Rat) := by
        have : ((q.num.natAbs : Int)) = -q.num := by omega
        have h2 : (((q.num.natAbs : Int)) : Rat) = ((-q.num : Int) : Rat) := by rw [this]
        simpa using h2
      rw [if_pos rfl, e]
      have := Rat.num_div_den q
      rw [neg_mul_neg, one_mul]
      exact this
    · rw [if_neg h]
      have e : ((q.num.natAbs : Nat) : Rat) = (q.num : Rat) := by
        have : ((q.num.natAbs : Int)) = q.num := by omega
        have h2 : (((q.num.natAbs : Int)) : Rat) = ((q.num : Int) : Rat) := by rw [this]
        simpa using h2
      rw [if_neg (by decide), e, one_mul]
      exact Rat.num_div_den q
  · unfold sampleFmt at hc
    rcases List.mem_cons.mp hc with rfl | hc
    · split <;> decide
    · rcases List.mem_append.mp hc with hc | hc
      · simp [numChar, natStr_digits hc]
      · rcases List.mem_cons.mp hc with rfl | hc
        · decide
        · simp [numChar, natStr_digits hc]

/-! ### C96 -/

/-- What a reader sees on a page; for evaluating examples. -/
def seen (fmt : Rat → Str) (read : Str → Option Rat) (items : List Item) : Option (List Drawn) :=
  match page fmt 100 100 none items with
  | .error _ => none
  | .ok s =>
    match readXml s with
    | some (.elem _ _ K .nil) => readShapes read K
    | _ => none

theorem seen_of {fmt : Rat → Str} {read : Str → Option Rat} {items : List Item} (h : Shows fmt read 100 100 none items) :
    seen fmt read items = some (items.map meant) := by
  obtain ⟨s, as, K, h1, h2, h3, _⟩ := h
  unfold seen
  rw [h1]
  dsimp only
  rw [h2]
  exact h3

/-- A rectangle with corners rounded only in one direction. -/
def oneRadius : Item := .rect ⟨10, 20, 30, 40⟩ (some 5) (some 0) none { bgColor := some "red".toList }

/-- A rectangle with an outline of width zero. -/
def zeroWidth : Item := .rect ⟨10, 20, 30, 40⟩ none none none { color := some "red".toList, strokeWidth := some 0 }

theorem paintOk_of {p : Paint} (h : ∀ c, p.color = some c ∨ p.bgColor = some c ∨ p.dash = some c → CssOk c) : PaintOk p :=
  ⟨fun c hc => h c (.inl hc), fun c hc => h c (.inr (.inl hc)), fun c hc => h c (.inr (.inr hc))⟩

theorem red_ok : CssOk "red".toList := ⟨okStr_of_decide (by decide), by decide, by decide, by decide⟩

/-- **C96 is false of the code** (first reason): a radius of zero is left out, and SVG takes the other one instead. -/
theorem C96_shapes_false : ¬ ∀ (fmt : Rat → Str) (read : Str → Option Rat), Numbers fmt read → ∀ (w h : Rat) (v : Option Rect) (items : List Item),
    (∀ i ∈ items, ItemOk i ∧ HasCenter i) → Shows fmt read w h v items := by
  intro h
  have := seen_of (h sampleFmt sampleRead sampleNumbers 100 100 none [oneRadius] (by
    intro i hi
    rw [List.mem_singleton.mp hi]
    refine ⟨paintOk_of ?_, trivial⟩
    rintro c (hc | hc | hc) <;> cases hc
    exact red_ok))
  exact absurd this (by decide +kernel)

/-- Second reason: an outline of width zero is drawn with width 1. -/
theorem C96_width_false : ItemOk zeroWidth ∧ HasCenter zeroWidth ∧ EvenRadii zeroWidth ∧ ¬ Shows sampleFmt sampleRead 100 100 none [zeroWidth] := by
  refine ⟨paintOk_of ?_, trivial, ⟨by simp, by simp, by simp⟩, fun h => ?_⟩
  · rintro c (hc | hc | hc) <;> cases hc
    exact red_ok
  · exact absurd (seen_of h) (by decide +kernel)

/-- **C96, the part that holds**: if no outline has width zero and no rectangle has exactly one radius equal to zero, a page shows what is
meant: every shape, path and picture with its position, size, rotation, colours, outline and dash pattern, one after the other. (Missing:
the two situations above.) -/
theorem C96_shapes_partial (fmt : Rat → Str) (read : Str → Option Rat) (hn : Numbers fmt read) (w h : Rat) (v : Option Rect) (items : List Item)
    (hi : ∀ i ∈ items, ItemOk i ∧ outlineWidth i ≠ some 0 ∧ EvenRadii i ∧ HasCenter i) : Shows fmt read w h v items := by
  obtain ⟨ops, F, e, hF, hr⟩ := items_reads hn items hi
  obtain ⟨h1, h2⟩ := svg_sets_ok hn w h v
  obtain ⟨x, s, hx, hs, hread⟩ := (hF.block (n := "svg".toList) (validName_of_decide (by decide)) (setsOk_of h1 h2)).read
  refine ⟨s, readAttrs (svgSets fmt w h v), norm [] F, ?_, hread, hr, ?_, ?_, ?_⟩
  · unfold page
    rw [e]
    dsimp only
    rw [hx]
    exact hs
  · rw [readAttrs_clean h2]
    exact hn.back w
  · rw [readAttrs_clean h2]
    exact hn.back h
  · rw [readAttrs_clean h2]
    cases v with
    | none => rfl
    | some v =>
      show some (readNumbers read (joinWith [' '] ([v.x, v.y, v.width, v.height].map fmt))) = _
      rw [readNumbers_fmt hn]
      rfl

/-- A polygon without points that is turned is rejected, everything else is drawn. -/
theorem C96_rejects (fmt : Rat → Str) (ps : List Pt) (rot : Option Rat) (p : Paint) :
    (∃ ops, itemOps fmt (.polygon ps rot p) = .ok ops) ↔ HasCenter (.polygon ps rot p) := by
  constructor
  · rintro ⟨ops, h⟩
    simp only [itemOps, drawPolygon] at h
    split at h
    · rename_i hz
      split at h
      · cases h
      · rename_i k hk
        refine .inl ?_
        rintro rfl
        cases hk
    · rename_i hz
      right
      rcases rot_cases fmt rot (0, 0) with ⟨_, _, h⟩ | ⟨a, ha, _⟩
      · exact h
      · exact absurd ha hz
  · intro h
    simp only [itemOps, drawPolygon]
    split
    · rename_i hz
      have hne : ps ≠ [] := by
        rcases h with h | h
        · exact h
        · obtain ⟨a, rfl, ha⟩ := (nonzero_iff rot).mp hz
          simp [turn, ha] at h
      have : CairoDraw.findCentroid ps = .ok (average ps) := by
        unfold CairoDraw.findCentroid average
        rw [if_neg (by simpa using hne)]
      rw [this]
      exact ⟨_, rfl⟩
    · exact ⟨_, rfl⟩

/-- Five items. -/
def sampleItems : List Item :=
  [.rect ⟨10, 20, 30, 40⟩ (some 5) none (some 45) { bgColor := some "red".toList, color := some "red".toList, strokeWidth := some (5 / 2), dash := some "4".toList },
    .ellipse ⟨0, 0, 10, 20⟩ none { bgColor := some "red".toList },
    .polygon [(0, 0), (1, 0), (1, 1)] (some 90) { color := some "red".toList },
    .path [('M', [(0, 0)]), ('C', [(0, 1), (1, 1), (1, 0)])] { color := some "red".toList },
    .bitmap ⟨1, 2, 3, 4⟩ "image/png".toList "QUJD".toList none]

theorem four_ok : CssOk "4".toList := ⟨okStr_of_decide (by decide), by decide, by decide, by decide⟩

example : (∀ i ∈ sampleItems, ItemOk i ∧ outlineWidth i ≠ some 0 ∧ EvenRadii i ∧ HasCenter i) ∧
    seen sampleFmt sampleRead sampleItems = some (sampleItems.map meant) := by
  refine ⟨?_, by decide +kernel⟩
  intro i hi
  simp only [sampleItems, List.mem_cons, List.not_mem_nil, or_false] at hi
  rcases hi with rfl | rfl | rfl | rfl | rfl
  · refine ⟨paintOk_of ?_, by decide +kernel, ⟨by simp, by simp, by simp⟩, trivial⟩
    rintro c (hc | hc | hc) <;> cases hc
    · exact red_ok
    · exact red_ok
    · exact four_ok
  · refine ⟨paintOk_of ?_, by simp [outlineWidth], trivial, trivial⟩
    rintro c (hc | hc | hc) <;> cases hc
    exact red_ok
  · refine ⟨paintOk_of ?_, by simp [outlineWidth], trivial, .inl (by simp)⟩
    rintro c (hc | hc | hc) <;> cases hc
    exact red_ok
  · refine ⟨⟨paintOk_of ?_, by decide⟩, by simp [outlineWidth], trivial, trivial⟩
    rintro c (hc | hc | hc) <;> cases hc
    exact red_ok
  · exact ⟨⟨⟨okStr_of_decide (by decide), by decide⟩, ⟨okStr_of_decide (by decide), by decide⟩⟩, by simp [outlineWidth], trivial, trivial⟩

end Verif.SvgDraw
