import Verif.Proofs.SvgDraw

/-! # Lemmas about reading the items of an SVG page -/

namespace Verif.SvgDraw
open Spec Verif.Xml Verif.Ora
open Verif.Xml.Spec (Attrs Forest OkStr isWs attrText ValidName norm)
open Verif.CairoDraw (Pt midPoint findCentroid given nonzero)

/-! ### attributes -/

def validB : Str → Bool
  | [] => false
  | c :: r => Xml.Spec.nameStart c && r.all Xml.Spec.nameChar

/-- Distinct valid names. -/
def namesOk : List Str → Bool
  | [] => true
  | n :: ns => validB n && ns.all (fun m => decide (m ≠ n)) && namesOk ns

theorem setsOk_of {sets : List (Str × Str × Bool)} (hn : namesOk (sets.map (·.1)) = true) (h : ∀ s ∈ sets, Clean s.2.1) : SetsOk sets := by
  have h1 : ∀ s ∈ sets, ValidName s.1 := by
    induction sets with
    | nil => intro s hs; cases hs
    | cons x sets ih =>
      simp only [List.map_cons, namesOk, Bool.and_eq_true] at hn
      intro s hs
      rcases List.mem_cons.mp hs with rfl | hs
      · apply validName_of_decide
        exact hn.1.1
      · exact ih hn.2 (fun s hs => h s (List.mem_cons_of_mem _ hs)) s hs
  have h2 : (sets.map (·.1)).Nodup := by
    clear h h1
    induction sets with
    | nil => exact List.nodup_nil
    | cons x sets ih =>
      simp only [List.map_cons, namesOk, Bool.and_eq_true, List.all_eq_true, decide_eq_true_eq] at hn
      refine List.nodup_cons.mpr ⟨fun hc => ?_, ih hn.2⟩
      exact hn.1.2 _ hc rfl
  exact ⟨h2, h1, fun s hs => (h s hs).ok⟩

theorem readAttrs_clean {sets : List (Str × Str × Bool)} (h : ∀ s ∈ sets, Clean s.2.1) : readAttrs sets = sets.map (fun s => (s.1, s.2.1)) := by
  unfold readAttrs
  rw [List.map_map]
  apply List.map_congr_left
  intro s hs
  show (s.1, attrText s.2.1) = _
  rw [(h s hs).same]

/-- What is to be shown about an item. -/
def Reads (read : Str → Option Rat) (n : Str) (sets : List (Str × Str × Bool)) (d : Drawn) : Prop :=
  ValidName n ∧ SetsOk sets ∧ readShape read n (readAttrs sets) = some d

/-- From the attributes as they are written. -/
theorem reads_of {read : Str → Option Rat} {n : Str} {sets : List (Str × Str × Bool)} {d : Drawn} (hv : validB n = true)
    (hn : namesOk (sets.map (·.1)) = true) (h : ∀ s ∈ sets, Clean s.2.1) (hr : readShape read n (sets.map (fun s => (s.1, s.2.1))) = some d) :
    Reads read n sets d :=
  ⟨validName_of_decide hv, setsOk_of hn h, by rw [readAttrs_clean h]; exact hr⟩

theorem readShape_of {read : Str → Option Rat} {n : Str} {as : Attrs} {g : Geometry} {t : List (Str × List Rat)} {st : Option Stroke}
    (hg : readGeometry read n as = some g) (ht : readTransform read (as.lookup "transform".toList) = some t)
    (hs : strokeOf read (readStyle (as.lookup "style".toList)) = some st) (hp : g.painted = true) :
    readShape read n as = some ⟨g, t, fillOf (readStyle (as.lookup "style".toList)), st⟩ := by
  unfold readShape
  rw [hg, ht, hs]
  show (if g.painted = true then _ else _) = _
  rw [if_pos hp]

section
variable {fmt : Rat → Str} {read : Str → Option Rat}

theorem geometry_rect {as : Attrs} {x y w h : Rat} {rx ry : Option Rat} (h1 : num read as "x" = some x) (h2 : num read as "y" = some y)
    (h3 : num read as "width" = some w) (h4 : num read as "height" = some h) (h5 : optNum read as "rx" = some rx)
    (h6 : optNum read as "ry" = some ry) :
    readGeometry read "rect".toList as = some (.rect x y w h (radii w h rx ry).1 (radii w h rx ry).2) := by
  unfold readGeometry
  rw [if_pos rfl, h1, h2, h3, h4, h5, h6]
  rfl

theorem geometry_ellipse {as : Attrs} {x y w h : Rat} (h1 : num read as "cx" = some x) (h2 : num read as "cy" = some y)
    (h3 : num read as "rx" = some w) (h4 : num read as "ry" = some h) :
    readGeometry read "ellipse".toList as = some (.ellipse x y w h) := by
  unfold readGeometry
  rw [if_neg (by decide), if_pos rfl, h1, h2, h3, h4]
  rfl

theorem geometry_polygon {as : Attrs} {s : Str} {ps : List Pt} (h1 : as.lookup "points".toList = some s) (h2 : readPoints read s = some ps) :
    readGeometry read "polygon".toList as = some (.polygon ps) := by
  unfold readGeometry
  rw [if_neg (by decide), if_neg (by decide), if_pos rfl, h1]
  show (readPoints read s).bind _ = _
  rw [h2]
  rfl

theorem geometry_polyline {as : Attrs} {s : Str} {ps : List Pt} (h1 : as.lookup "points".toList = some s) (h2 : readPoints read s = some ps) :
    readGeometry read "polyline".toList as = some (.polyline ps) := by
  unfold readGeometry
  rw [if_neg (by decide), if_neg (by decide), if_neg (by decide), if_pos rfl, h1]
  show (readPoints read s).bind _ = _
  rw [h2]
  rfl

theorem geometry_path {as : Attrs} {s : Str} {cmds : List (Char × List Pt)} (h1 : as.lookup "d".toList = some s) (h2 : readPath read s = some cmds) :
    readGeometry read "path".toList as = some (.path cmds) := by
  unfold readGeometry
  rw [if_neg (by decide), if_neg (by decide), if_neg (by decide), if_neg (by decide), if_pos rfl, h1]
  show (readPath read s).bind _ = _
  rw [h2]
  rfl

theorem geometry_image {as : Attrs} {x y w h : Rat} {s : Str} (h1 : num read as "x" = some x) (h2 : num read as "y" = some y)
    (h3 : num read as "width" = some w) (h4 : num read as "height" = some h) (h5 : as.lookup "xlink:href".toList = some s) :
    readGeometry read "image".toList as = some (.image x y w h s) := by
  unfold readGeometry
  rw [if_neg (by decide), if_neg (by decide), if_neg (by decide), if_neg (by decide), if_neg (by decide), if_pos rfl, h1, h2, h3, h4, h5]
  rfl

/-! ### rotations -/

theorem nonzero_iff (o : Option Rat) : nonzero o = true ↔ ∃ a, o = some a ∧ a ≠ 0 := by
  cases o with
  | none => simp [nonzero]
  | some a => simp [nonzero]

theorem rot_cases (fmt : Rat → Str) (rot : Option Rat) (k : Pt) :
    (nonzero rot = false ∧ rotationSets fmt rot k = [] ∧ turn rot k = []) ∨
    (∃ a, nonzero rot = true ∧ rotationSets fmt rot k = [("transform".toList, rotateStr fmt a k, true)] ∧ turn rot k = [("rotate".toList, [a, k.1, k.2])]) := by
  cases hz : nonzero rot with
  | false =>
    refine .inl ⟨rfl, by simp [rotationSets, hz], ?_⟩
    cases rot with
    | none => rfl
    | some a =>
      have : a = 0 := by simpa [nonzero] using hz
      simp [turn, this]
  | true =>
    obtain ⟨a, rfl, ha⟩ := (nonzero_iff rot).mp hz
    refine .inr ⟨a, rfl, ?_, ?_⟩
    · unfold rotationSets rotateStr
      rw [if_pos hz]
      rfl
    · simp [turn, ha]

theorem opt_cases (fmt : Rat → Str) (n : Str) (v : Option Rat) :
    (nonzero v = false ∧ optSet fmt n v = []) ∨ (∃ a, v = some a ∧ a ≠ 0 ∧ optSet fmt n v = [(n, fmt a, true)]) := by
  cases hz : nonzero v with
  | false => exact .inl ⟨rfl, by simp [optSet, hz]⟩
  | true =>
    obtain ⟨a, rfl, ha⟩ := (nonzero_iff v).mp hz
    exact .inr ⟨a, rfl, ha, by simp [optSet, hz]⟩

theorem clamp_zero (s : Rat) : clamp s 0 = 0 := by
  unfold clamp
  exact max_eq_left (min_le_left _ _)

theorem radii_even {r : Rect} {rx ry : Option Rat} (he : ∀ a b, rx = some a → ry = some b → (a = 0 ↔ b = 0)) :
    radii r.width r.height (if nonzero rx then rx else none) (if nonzero ry then ry else none) = radii r.width r.height rx ry := by
  rcases rx with _ | a <;> rcases ry with _ | b
  · rfl
  · by_cases hb : b = 0
    · subst hb; simp [nonzero, radii, clamp_zero]
    · simp [nonzero, hb]
  · by_cases ha : a = 0
    · subst ha; simp [nonzero, radii, clamp_zero]
    · simp [nonzero, ha]
  · have := he a b rfl rfl
    by_cases ha : a = 0
    · have hb := this.mp ha
      subst ha hb; simp [nonzero, radii, clamp_zero]
    · have hb : b ≠ 0 := fun hb => ha (this.mpr hb)
      simp [nonzero, ha, hb]

theorem rect_reads (hn : Numbers fmt read) (r : Rect) (rx ry rot : Option Rat) (p : Paint) (hp : PaintOk p) (hw : p.strokeWidth ≠ some 0)
    (he : EvenRadii (.rect r rx ry rot p)) :
    ∃ sets, drawRect fmt r rx ry rot p = block "rect".toList sets [] ∧ Reads read "rect".toList sets (meant (.rect r rx ry rot p)) := by
  refine ⟨_, rfl, ?_⟩
  obtain ⟨c1, c2, c3⟩ := paint_reads hn hp hw
  unfold paintSets
  generalize joinWith ";".toList (paintDecls fmt p) = st at c1 c2 c3
  have k1 := fmt_clean hn r.x
  have k2 := fmt_clean hn r.y
  have k3 := fmt_clean hn r.width
  have k4 := fmt_clean hn r.height
  have hmeant : meant (.rect r rx ry rot p) = ⟨.rect r.x r.y r.width r.height
      (radii r.width r.height (if nonzero rx then rx else none) (if nonzero ry then ry else none)).1
      (radii r.width r.height (if nonzero rx then rx else none) (if nonzero ry then ry else none)).2, turn rot (midPoint r), fillOf (readStyle (some st)), wantedStroke p⟩ := by
    rw [radii_even he.2.2, c2]; rfl
  rw [hmeant]
  have kr : ∀ a, Clean (rotateStr fmt a (midPoint r)) := fun a => rotateStr_clean hn a _
  have hb := hn.back
  rcases rot_cases fmt rot (midPoint r) with ⟨-, e3, f3⟩ | ⟨a3, -, e3, f3⟩ <;>
  rcases opt_cases fmt "rx".toList rx with ⟨z1, e1⟩ | ⟨a1, rfl, z1, e1⟩ <;>
  rcases opt_cases fmt "ry".toList ry with ⟨z2, e2⟩ | ⟨a2, rfl, z2, e2⟩ <;>
  rw [e1, e2, e3, f3] <;>
  simp only [List.cons_append, List.nil_append, List.append_nil] <;>
  refine reads_of (by decide) rfl ?_ ?_
  all_goals first
    | (simp only [List.mem_cons, List.not_mem_nil, or_false]
       rintro s (rfl | rfl | rfl | rfl | rfl | rfl | rfl | rfl) <;> first | assumption | exact kr _ | exact fmt_clean hn _)
    | (simp only [List.mem_cons, List.not_mem_nil, or_false]
       rintro s (rfl | rfl | rfl | rfl | rfl | rfl | rfl) <;> first | assumption | exact kr _ | exact fmt_clean hn _)
    | (simp only [List.mem_cons, List.not_mem_nil, or_false]
       rintro s (rfl | rfl | rfl | rfl | rfl | rfl) <;> first | assumption | exact kr _ | exact fmt_clean hn _)
    | (simp only [List.mem_cons, List.not_mem_nil, or_false]
       rintro s (rfl | rfl | rfl | rfl | rfl) <;> first | assumption | exact kr _ | exact fmt_clean hn _)
    | (refine readShape_of (geometry_rect (hb r.x) (hb r.y) (hb r.width) (hb r.height) ?_ ?_) ?_ c3 rfl
       · first
          | (rw [z1]; rfl)
          | (show (read (fmt _)).map some = _
             rw [hb]; simp [nonzero, z1])
       · first
          | (rw [z2]; rfl)
          | (show (read (fmt _)).map some = _
             rw [hb]; simp [nonzero, z2])
       · first
          | rfl
          | exact readTransform_rotate hn _ _)

theorem ellipse_reads (hn : Numbers fmt read) (r : Rect) (rot : Option Rat) (p : Paint) (hp : PaintOk p) (hw : p.strokeWidth ≠ some 0) :
    ∃ sets, drawEllipse fmt r rot p = block "ellipse".toList sets [] ∧ Reads read "ellipse".toList sets (meant (.ellipse r rot p)) := by
  refine ⟨_, rfl, ?_⟩
  obtain ⟨c1, c2, c3⟩ := paint_reads hn hp hw
  unfold paintSets
  generalize joinWith ";".toList (paintDecls fmt p) = st at c1 c2 c3
  have hmeant : meant (.ellipse r rot p) = ⟨.ellipse (midPoint r).1 (midPoint r).2 (r.width / 2) (r.height / 2), turn rot (midPoint r), fillOf (readStyle (some st)), wantedStroke p⟩ := by
    rw [c2]; rfl
  rw [hmeant]
  have kr : ∀ a, Clean (rotateStr fmt a (midPoint r)) := fun a => rotateStr_clean hn a _
  have hb := hn.back
  rcases rot_cases fmt rot (midPoint r) with ⟨-, e3, f3⟩ | ⟨a3, -, e3, f3⟩ <;>
  rw [e3, f3] <;>
  simp only [List.cons_append, List.nil_append, List.append_nil] <;>
  refine reads_of (by decide) rfl ?_ ?_
  all_goals first
    | (simp only [List.mem_cons, List.not_mem_nil, or_false]
       rintro s (rfl | rfl | rfl | rfl | rfl | rfl) <;> first | assumption | exact kr _ | exact fmt_clean hn _)
    | (simp only [List.mem_cons, List.not_mem_nil, or_false]
       rintro s (rfl | rfl | rfl | rfl | rfl) <;> first | assumption | exact kr _ | exact fmt_clean hn _)
    | (refine readShape_of (geometry_ellipse (hb _) (hb _) (hb _) (hb _)) ?_ c3 rfl
       first
          | rfl
          | exact readTransform_rotate hn _ _)

theorem polygon_sets (hn : Numbers fmt read) (ps : List Pt) (rot : Option Rat) (k : Pt) (p : Paint) (hp : PaintOk p) (hw : p.strokeWidth ≠ some 0) :
    Reads read "polygon".toList ([("points".toList, pointsStr fmt ps, true)] ++ rotationSets fmt rot k ++ paintSets fmt p)
      ⟨.polygon ps, turn rot k, wanted p.bgColor, wantedStroke p⟩ := by
  obtain ⟨c1, c2, c3⟩ := paint_reads hn hp hw
  unfold paintSets
  generalize joinWith ";".toList (paintDecls fmt p) = st at c1 c2 c3
  rw [← c2]
  have kr : ∀ a, Clean (rotateStr fmt a k) := fun a => rotateStr_clean hn a _
  have kp := points_clean hn ps
  have hb := hn.back
  rcases rot_cases fmt rot k with ⟨-, e3, f3⟩ | ⟨a3, -, e3, f3⟩ <;>
  rw [e3, f3] <;>
  simp only [List.cons_append, List.nil_append, List.append_nil] <;>
  refine reads_of (by decide) rfl ?_ ?_
  all_goals first
    | (simp only [List.mem_cons, List.not_mem_nil, or_false]
       rintro s (rfl | rfl | rfl) <;> first | assumption | exact kr _ | exact fmt_clean hn _)
    | (simp only [List.mem_cons, List.not_mem_nil, or_false]
       rintro s (rfl | rfl) <;> first | assumption | exact kr _ | exact fmt_clean hn _)
    | (refine readShape_of (geometry_polygon rfl (readPoints_points hn ps)) ?_ c3 rfl
       first
          | rfl
          | exact readTransform_rotate hn _ _)

theorem polygon_reads (hn : Numbers fmt read) (ps : List Pt) (rot : Option Rat) (p : Paint) (hp : PaintOk p) (hw : p.strokeWidth ≠ some 0)
    (hc : HasCenter (.polygon ps rot p)) :
    ∃ sets, drawPolygon fmt ps rot p = .ok (block "polygon".toList sets []) ∧ Reads read "polygon".toList sets (meant (.polygon ps rot p)) := by
  unfold drawPolygon
  by_cases hz : nonzero rot = true
  · rw [if_pos hz]
    have hne : ps ≠ [] := by
      rcases hc with hc | hc
      · exact hc
      · obtain ⟨a, rfl, ha⟩ := (nonzero_iff rot).mp hz
        simp [turn, ha] at hc
    have : findCentroid ps = .ok (average ps) := by
      unfold findCentroid average
      rw [if_neg (by simpa using hne)]
    rw [this]
    exact ⟨_, rfl, polygon_sets hn ps rot (average ps) p hp hw⟩
  · rw [if_neg hz]
    refine ⟨_, rfl, ?_⟩
    have := polygon_sets (fmt := fmt) hn ps rot (average ps) p hp hw
    rw [show rotationSets fmt rot (average ps) = [] by simp [rotationSets, hz], List.append_nil] at this
    exact this

theorem polyline_reads (hn : Numbers fmt read) (ps : List Pt) (p : Paint) (hp : PaintOk p) (hw : p.strokeWidth ≠ some 0) :
    ∃ sets, drawPolyline fmt ps p = block "polyline".toList sets [] ∧ Reads read "polyline".toList sets (meant (.polyline ps p)) := by
  refine ⟨_, rfl, ?_⟩
  obtain ⟨c1, c2, c3⟩ := paint_reads hn hp hw
  unfold paintSets
  generalize joinWith ";".toList (paintDecls fmt p) = st at c1 c2 c3
  have hmeant : meant (.polyline ps p) = ⟨.polyline ps, [], fillOf (readStyle (some st)), wantedStroke p⟩ := by rw [c2]; rfl
  rw [hmeant]
  have kp := points_clean hn ps
  simp only [List.cons_append, List.nil_append]
  refine reads_of (by decide) rfl ?_ (readShape_of (geometry_polyline rfl (readPoints_points hn ps)) rfl c3 rfl)
  simp only [List.mem_cons, List.not_mem_nil, or_false]
  rintro s (rfl | rfl) <;> assumption

theorem path_reads (hn : Numbers fmt read) (cmds : List (Char × List Pt)) (hcmd : ∀ c ∈ cmds, isCommand c.1 = true) (p : Paint) (hp : PaintOk p)
    (hw : p.strokeWidth ≠ some 0) :
    ∃ sets, drawPath fmt cmds p = block "path".toList sets [] ∧ Reads read "path".toList sets (meant (.path cmds p)) := by
  refine ⟨_, rfl, ?_⟩
  obtain ⟨c1, c2, c3⟩ := paint_reads hn hp hw
  unfold paintSets
  generalize joinWith ";".toList (paintDecls fmt p) = st at c1 c2 c3
  have hmeant : meant (.path cmds p) = ⟨.path cmds, [], fillOf (readStyle (some st)), wantedStroke p⟩ := by rw [c2]; rfl
  rw [hmeant]
  have kp : Clean (joinWith " ".toList (cmds.map (commandStr fmt))) := by
    apply clean_join (clean_dec (by decide))
    intro l hl
    obtain ⟨c, hc, rfl⟩ := List.mem_map.mp hl
    exact command_clean hn (hcmd c hc)
  have hr : readPath read (joinWith " ".toList (cmds.map (commandStr fmt))) = some cmds := by
    obtain ⟨h1, h2⟩ := readPath_cmds hn cmds hcmd
    unfold readPath
    rw [h1, if_pos (show words isWs [] = [] from rfl), h2]
  generalize joinWith " ".toList (cmds.map (commandStr fmt)) = ds at kp hr
  simp only [List.cons_append, List.nil_append]
  refine reads_of (by decide) rfl ?_ (readShape_of (geometry_path rfl hr) rfl c3 rfl)
  simp only [List.mem_cons, List.not_mem_nil, or_false]
  rintro s (rfl | rfl) <;> assumption

theorem Spec.Dense.clean {s : Str} (h : Dense s) : Clean s := clean_of h.1 fun c hc hw => by rw [h.2 c hc] at hw; cases hw

theorem bitmap_reads (hn : Numbers fmt read) (r : Rect) (mime data : Str) (rot : Option Rat) (h1 : Dense mime) (h2 : Dense data) :
    ∃ sets, drawBitmap fmt r mime data rot = block "image".toList sets [] ∧ Reads read "image".toList sets (meant (.bitmap r mime data rot)) := by
  refine ⟨_, rfl, ?_⟩
  have kh : Clean ("data:".toList ++ mime ++ ";base64,".toList ++ data) :=
    (((clean_dec (by decide)).append h1.clean).append (clean_dec (by decide))).append h2.clean
  have hmeant : meant (.bitmap r mime data rot) = ⟨.image r.x r.y r.width r.height ("data:".toList ++ mime ++ ";base64,".toList ++ data), turn rot (midPoint r), none, none⟩ := rfl
  rw [hmeant]
  generalize "data:".toList ++ mime ++ ";base64,".toList ++ data = hd at kh
  have kr : ∀ a, Clean (rotateStr fmt a (midPoint r)) := fun a => rotateStr_clean hn a _
  have hb := hn.back
  have key : ∀ {as : Attrs} {g : Geometry} {t : List (Str × List Rat)}, readGeometry read "image".toList as = some g →
      readTransform read (as.lookup "transform".toList) = some t → as.lookup "style".toList = none → g.painted = false →
      readShape read "image".toList as = some ⟨g, t, none, none⟩ := by
    intro as g t hg ht hs hp
    unfold readShape
    rw [hg, ht, hs]
    show (if g.painted = true then _ else _) = _
    rw [if_neg (by rw [hp]; decide)]
  rcases rot_cases fmt rot (midPoint r) with ⟨-, e3, f3⟩ | ⟨a3, -, e3, f3⟩ <;>
  rw [e3, f3] <;>
  simp only [List.cons_append, List.nil_append, List.append_nil] <;>
  refine reads_of (by decide) rfl ?_ ?_
  all_goals first
    | (simp only [List.mem_cons, List.not_mem_nil, or_false]
       rintro s (rfl | rfl | rfl | rfl | rfl | rfl) <;> first | assumption | exact kr _ | exact fmt_clean hn _)
    | (simp only [List.mem_cons, List.not_mem_nil, or_false]
       rintro s (rfl | rfl | rfl | rfl | rfl) <;> first | assumption | exact kr _ | exact fmt_clean hn _)
    | (refine key (geometry_image (hb _) (hb _) (hb _) (hb _) rfl) ?_ rfl rfl
       first
          | rfl
          | exact readTransform_rotate hn _ _)

theorem item_reads (hn : Numbers fmt read) (i : Item) (hok : ItemOk i) (hw : outlineWidth i ≠ some 0) (he : EvenRadii i) (hc : HasCenter i) :
    ∃ n sets, itemOps fmt i = .ok (block n sets []) ∧ Reads read n sets (meant i) := by
  cases i with
  | rect r rx ry rot p =>
    obtain ⟨sets, h1, h2⟩ := rect_reads hn r rx ry rot p hok hw he
    exact ⟨_, sets, by rw [itemOps, h1], h2⟩
  | ellipse r rot p =>
    obtain ⟨sets, h1, h2⟩ := ellipse_reads hn r rot p hok hw
    exact ⟨_, sets, by rw [itemOps, h1], h2⟩
  | polygon ps rot p =>
    obtain ⟨sets, h1, h2⟩ := polygon_reads hn ps rot p hok hw hc
    exact ⟨_, sets, by rw [itemOps, h1], h2⟩
  | polyline ps p =>
    obtain ⟨sets, h1, h2⟩ := polyline_reads hn ps p hok hw
    exact ⟨_, sets, by rw [itemOps, h1], h2⟩
  | path cmds p =>
    obtain ⟨sets, h1, h2⟩ := path_reads hn cmds hok.2 p hok.1 hw
    exact ⟨_, sets, by rw [itemOps, h1], h2⟩
  | bitmap r mime data rot =>
    obtain ⟨sets, h1, h2⟩ := bitmap_reads hn r mime data rot hok.1 hok.2
    exact ⟨_, sets, by rw [itemOps, h1], h2⟩

/-! ### pages -/

theorem items_reads (hn : Numbers fmt read) : ∀ (items : List Item), (∀ i ∈ items, ItemOk i ∧ outlineWidth i ≠ some 0 ∧ EvenRadii i ∧ HasCenter i) →
    ∃ ops F, itemsOps fmt items = .ok ops ∧ Writes ops F ∧ readShapes read (norm [] F) = some (items.map meant)
  | [], _ => ⟨[], .nil, rfl, writes_nil, rfl⟩
  | i :: is, h => by
    obtain ⟨h1, h2, h3, h4⟩ := h i (by simp)
    obtain ⟨n, sets, e1, hv, hs, hr⟩ := item_reads hn i h1 h2 h3 h4
    obtain ⟨ops, F, e2, hF, hrs⟩ := items_reads hn is (fun x hx => h x (by simp [hx]))
    refine ⟨_, _, by rw [itemsOps, e1, e2], (writes_nil.block hv hs).append hF, ?_⟩
    show readShapes read (.elem n (readAttrs sets) .nil (norm [] F)) = _
    simp only [readShapes, hr, hrs, List.map_cons]

theorem svg_sets_ok (hn : Numbers fmt read) (w h : Rat) (v : Option Rect) : namesOk ((svgSets fmt w h v).map (·.1)) = true ∧
    ∀ s ∈ svgSets fmt w h v, Clean s.2.1 := by
  cases v with
  | none =>
    refine ⟨rfl, ?_⟩
    simp only [svgSets, List.cons_append, List.nil_append, List.mem_cons, List.not_mem_nil, or_false]
    rintro s (rfl | rfl | rfl | rfl)
    · exact clean_dec (by decide)
    · exact clean_dec (by decide)
    · exact fmt_clean hn _
    · exact fmt_clean hn _
  | some v =>
    refine ⟨rfl, ?_⟩
    simp only [svgSets, List.cons_append, List.nil_append, List.mem_cons, List.not_mem_nil, or_false]
    rintro s (rfl | rfl | rfl | rfl | rfl)
    · exact clean_dec (by decide)
    · exact clean_dec (by decide)
    · exact fmt_clean hn _
    · exact fmt_clean hn _
    · apply clean_join (clean_dec (by decide))
      simp only [List.mem_cons, List.not_mem_nil, or_false]
      rintro l (rfl | rfl | rfl | rfl) <;> exact fmt_clean hn _

end

end Verif.SvgDraw
