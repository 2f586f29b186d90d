import Verif.Proofs.Debug
import Verif.Props.Scene
import Verif.Spec.SceneDebug

/-! # C122: the frames of `debug_boxes` -/

namespace Verif.Scene
open Spec
open Verif.Layout (Env)
open Verif.Slide (Painter isItem)
open Verif.Slide.Spec (OnPage ItemOf Level Under BoxOf Depth WalkUp)
open Verif.SvgDraw.Spec (Numbers num readNumbers)
open Verif.Xml (Xml)
open Verif.Xml.Spec (readXml Forest Attrs linesForest)

variable {fmt fmt2 : Rat → Str} {read : Str → Option Rat}

theorem isBoxNumber_iff {cs : List Verif.Slide.Call} {u : Nat} : isBoxNumber cs u = true ↔ BoxOf cs u := by
  constructor
  · intro h
    cases u with
    | zero => exact .slide
    | succ k =>
      simp only [isBoxNumber] at h
      split at h
      · rename_i p c hc; exact .mk hc
      · cases h
  · intro h
    cases h with
    | slide => rfl
    | mk hc => simp only [isBoxNumber, hc]

/-- Something that can be written in a document whatever was written before. -/
def Draws (x0 : Xml) (nm : Str) (as : Attrs) (f : Xml → Except Err Xml) (G : Forest) : Prop :=
  ∀ x F, Stage x0 x nm as F → ∃ x', f x = .ok x' ∧ Stage x0 x' nm as (F ++ G)

theorem draws_none {x0 : Xml} {nm : Str} {as : Attrs} {f : Xml → Except Err Xml} (h : ∀ x, f x = .ok x) : Draws x0 nm as f .nil :=
  fun x F hs => ⟨x, h x, by rw [Verif.Xml.Forest.append_nil]; exact hs⟩

theorem draws_part {x0 : Xml} {nm : Str} {as : Attrs} (h0 : Within x0.closeTag nm as .nil) {f : Xml → Except Err Xml} {y : Xml} {G : Forest}
    (h : ∀ x, f x = .ok (x.closeTag.over y)) (hy : Part y G) : Draws x0 nm as f G :=
  fun x _ hs => ⟨_, h x, hs.part h0 hy⟩

theorem paintAll_draws {x0 : Xml} {nm : Str} {as : Attrs} {info : Nat → BoxInfo} {s : State} {env : Env} {step : Int} (G : Painter → Forest) :
    ∀ (qs : List Painter), (∀ q ∈ qs, Draws x0 nm as (fun x => paint fmt fmt2 info s env step x q) (G q)) →
      Draws x0 nm as (fun x => paintAll fmt fmt2 info s env step x qs) (concat (qs.map G))
  | [], _ => draws_none (fun _ => rfl)
  | q :: qs, h => by
    intro x F hs
    obtain ⟨x1, h1, h2⟩ := h q (.head _) x F hs
    obtain ⟨x2, h3, h4⟩ := paintAll_draws G qs (fun q hq => h q (.tail _ hq)) x1 _ h2
    dsimp only at h1 h3 ⊢
    refine ⟨x2, by simp only [paintAll, h1]; exact h3, ?_⟩
    simp only [List.map_cons, concat]
    rw [← Verif.Xml.Forest.append_assoc]; exact h4

/-- Without frames this is the page of C108. -/
theorem paintAll_items {info : Nat → BoxInfo} {s : State} {env : Env} {step : Int} : ∀ (qs : List Painter), (∀ q ∈ qs, isItem q = true) → ∀ x,
    paintAll fmt fmt2 info s env step x qs = renderAll fmt env step s.contents x qs
  | [], _, x => rfl
  | .debug u z :: qs, h, x => by cases h _ (.head _)
  | .item u z :: qs, h, x => by
    simp only [paintAll, paint, renderAll]
    cases s.contents.lookup u with
    | none => rfl
    | some pk =>
      dsimp only
      cases render fmt env step x pk.1 pk.2 with
      | error e => rfl
      | ok y => exact paintAll_items qs (fun q hq => h q (.tail _ hq)) y

theorem page_same (info : Nat → BoxInfo) (s : State) (env : Env) (w h : Rat) (viewBox : Option Rect) (step : Int) :
    svgPageDebug fmt fmt2 info s env w h viewBox step false = svgPage fmt s env w h viewBox step := by
  unfold svgPageDebug svgPage
  have hp : ∀ q ∈ Verif.Slide.page s.slide step false, isItem q = true := by
    rw [← Verif.Slide.page_items]; exact fun q hq => (List.mem_filter.mp hq).2
  cases Verif.Xml.run {} (.element "svg".toList :: (Verif.SvgDraw.svgSets fmt w h viewBox).map (fun a => Verif.Xml.Op.set a.1 a.2.1 a.2.2)) with
  | error e => rfl
  | ok x =>
    dsimp only
    rw [paintAll_items _ hp]
    rfl

theorem plain_of_clean {s : Str} (h : Verif.Xml.Spec.OkStr s) : Verif.Xml.Spec.Plain s := h.1

theorem formatNum_eq (v : Rat) : formatNum fmt fmt2 v = shownNumber fmt fmt2 v := by
  unfold formatNum shownNumber
  have : ((v.num.tdiv v.den : Int) : Rat) = v ↔ v.den = 1 := by
    constructor
    · intro h
      rw [← h]; rfl
    · intro h
      rw [h]
      simp only [Nat.cast_one, Int.tdiv_one]
      exact Rat.coe_int_num_of_den_eq_one h
  by_cases h : v.den = 1
  · rw [if_pos h, if_pos (this.mpr h)]
  · rw [if_neg h, if_neg (fun e => h (this.mp e))]

theorem frameText_eq (name : Str) (depth : Nat) (r : Rect) : frameText fmt fmt2 name depth r = label fmt fmt2 name depth r := by
  unfold frameText label
  rw [formatNum_eq, formatNum_eq]
  have e1 : "↖".toList = ['↖'] := rfl
  have e2 : "↙".toList = ['↙'] := rfl
  have e3 : " ".toList = [' '] := rfl
  have e4 : "[".toList = ['['] := rfl
  have e5 : ",".toList = [','] := rfl
  have e6 : "]".toList = [']'] := rfl
  rw [e1, e2, e3, e4, e5, e6]
  by_cases h : depth % 2 = 1 <;> simp [h]

theorem frameDash_eq (depth : Nat) : frameDash depth = dashes depth := by
  unfold frameDash dashes
  have : depth % 3 = 0 ∨ depth % 3 = 1 ∨ depth % 3 = 2 := by omega
  rcases this with h | h | h <;> rw [h] <;> rfl

theorem label_plain (hn : Numbers fmt read) (h2 : ∀ v, Verif.Xml.Spec.Plain (fmt2 v)) {name : Str} (h : Verif.Xml.Spec.Plain name) (depth : Nat) (r : Rect) :
    Verif.Xml.Spec.Plain (label fmt fmt2 name depth r) := by
  have hnum : ∀ v, Verif.Xml.Spec.Plain (shownNumber fmt fmt2 v) := by
    intro v; unfold shownNumber; split
    · exact (Verif.SvgDraw.fmt_clean hn v).ok.1
    · exact h2 v
  have app : ∀ {a b : Str}, Verif.Xml.Spec.Plain a → Verif.Xml.Spec.Plain b → Verif.Xml.Spec.Plain (a ++ b) := by
    intro a b ha hb c hc
    rcases List.mem_append.mp hc with hc | hc
    · exact ha c hc
    · exact hb c hc
  have one : ∀ c : Char, Verif.Xml.Spec.xmlChar c = true → c ≠ '\r' → Verif.Xml.Spec.Plain [c] := by
    intro c h1 h2 d hd
    rw [List.mem_singleton.mp hd]; exact ⟨h1, h2⟩
  unfold label
  refine app (app (app (app (app (app ?_ ?_) ?_) (hnum _)) ?_) (hnum _)) ?_
  · intro c hc
    simp only [List.mem_cons, List.not_mem_nil, or_false] at hc
    rcases hc with rfl | rfl
    · split <;> exact ⟨by decide, by decide⟩
    · exact ⟨by decide, by decide⟩
  · split
    · intro c hc; cases hc
    · exact app h (one ' ' (by decide) (by decide))
  · exact one '[' (by decide) (by decide)
  · exact one ',' (by decide) (by decide)
  · exact one ']' (by decide) (by decide)

/-- A frame appears as it is meant. -/
theorem frame_draws (hn : Numbers fmt read) (h2 : ∀ v, Verif.Xml.Spec.Plain (fmt2 v)) {info : Nat → BoxInfo} {env : Env} {u : Nat} {r : Rect} (hr : env u = some r)
    (hi : InfoOk (info u)) (d : Nat) {x0 : Xml} {nm : Str} {as : Attrs} (h0 : Within x0.closeTag nm as .nil) :
    ∃ G, Draws x0 nm as (fun x => drawFrame fmt fmt2 info env d x u) G ∧ Framed fmt fmt2 read (info u).name d r G := by
  -- the outline
  have hmag : Verif.Xml.Spec.OkStr "#ff00ff".toList := Verif.Xml.okStr_of_decide (by decide)
  obtain ⟨sets, e, hv, hs, hread⟩ := Verif.SvgDraw.rect_reads hn (visible r) none none none
      { color := some "#ff00ff".toList, strokeWidth := some 2, dash := dashes d }
    (Verif.SvgDraw.paintOk_of (by
      rintro c (hc | hc | hc)
      · injection hc with hc; subst hc; exact ⟨Verif.Xml.okStr_of_decide (by decide), by decide, by decide, by decide⟩
      · cases hc
      · unfold dashes at hc
        split at hc
        · cases hc
        · injection hc with hc; subst hc; exact ⟨Verif.Xml.okStr_of_decide (by decide), by decide, by decide, by decide⟩
        · injection hc with hc; subst hc; exact ⟨Verif.Xml.okStr_of_decide (by decide), by decide, by decide, by decide⟩))
    (by intro h; injection h with h; exact absurd h (by decide +kernel)) ⟨by simp, by simp, by simp⟩
  obtain ⟨y1, op, hx1, hg1⟩ := writes_at (Verif.Ora.writes_nil.block hv hs) Verif.Xml.good_init
  have hp1 : Part y1 (.elem "rect".toList (Verif.Ora.readAttrs sets) .nil .nil) := part_of_good hg1 rfl
  -- the label
  set r' := visible r with hr'
  obtain ⟨sp, hsp⟩ := Option.ne_none_iff_exists'.mp hi.spacing
  set style := (info u).dflt.compose frameStyle with hstyle
  have hsz : style.size = some 14 := by rw [hstyle]; simp [Verif.Style.TextStyle.compose, Verif.Style.TextStyle.update, frameStyle, Verif.Style.construct]
  have hls : style.lineSpacing = some sp := by
    rw [hstyle]; simp [Verif.Style.TextStyle.compose, Verif.Style.TextStyle.update, frameStyle, Verif.Style.construct, hsp]
  have hal : style.align = some "left".toList := by
    rw [hstyle]; simp [Verif.Style.TextStyle.compose, Verif.Style.TextStyle.update, frameStyle, Verif.Style.construct]
  have hok : Verif.Xml.Spec.StyleOk style := by
    rw [hstyle]
    refine ⟨?_, ?_, ?_⟩
    · intro f hf; exact hi.dflt.font f (by simpa [Verif.Style.TextStyle.compose, Verif.Style.TextStyle.update, frameStyle, Verif.Style.construct] using hf)
    · intro f hf
      have : f = "#ff00ff".toList := by
        simpa [Verif.Style.TextStyle.compose, Verif.Style.TextStyle.update, frameStyle, Verif.Style.construct, eq_comm] using hf
      rw [this]; exact hmag
    · intro f hf; exact hi.dflt.variant f (by simpa [Verif.Style.TextStyle.compose, Verif.Style.TextStyle.update, frameStyle, Verif.Style.construct] using hf)
  have hy : frameY d r' = labelY d r' := by
    unfold frameY labelY; split <;> ring
  let tenv : Verif.Xml.Env := { fmt := fmt, x := fmt r'.x, y := fmt (frameY d r'), style := style, styles := (info u).styles, id := none, idIndex := none, transform := none, lineSize := 14 * sp }
  have henv : Verif.Xml.Spec.EnvOk tenv :=
    { fmt := fun r => (Verif.SvgDraw.fmt_clean hn r).ok, x := (Verif.SvgDraw.fmt_clean hn _).ok, y := (Verif.SvgDraw.fmt_clean hn _).ok
      transform := (by intro t h; cases h), id := (by intro t h; cases h), style := hok, styles := hi.styles }
  obtain ⟨y2, as2, K, attrs, first, lines, k1, k2, k3, k4, k5, k6, k7, k8, k9⟩ := Verif.Xml.drawText_at tenv
    [.text (frameText fmt fmt2 (info u).name d r')] henv (.text _ _ .nil) (by simp)
    (by
      intro s hs
      simp only [List.mem_singleton, Verif.Text.Tok.text.injEq] at hs
      subst hs
      rw [frameText_eq]; exact label_plain hn h2 hi.name d r') (.inl hal) trivial Verif.Xml.good_init
  have hp2 : Part y2 (.elem "text".toList attrs (linesForest (first :: lines)) .nil) := by
    have := part_of_good k2 (by rw [← k3]; rfl)
    rw [show (({} : Verif.Xml.A).cur ++ Forest.elem "text".toList as2 K .nil) = Forest.elem "text".toList as2 K .nil from rfl, k3] at this
    exact this
  have hl : lines = [] := by
    simp only [Verif.Xml.Spec.breaks] at k5
    cases k5; rfl
  subst hl
  have htext : ∀ x, Verif.TextItem.svgText fmt x { r' with y := frameY d r' } r'.x (frameY d r')
      [.text (frameText fmt fmt2 (info u).name d r')] style (info u).styles none none = .ok (x.closeTag.over y2) := by
    intro x
    have ht : Verif.TextItem.transform fmt { r' with y := frameY d r' } none none = none := rfl
    simp only [Verif.TextItem.svgText, Verif.TextItem.unscaled, Verif.Xml.mkEnv, ht, hsz, hls]
    exact Verif.Xml.drawText_over x k1
  refine ⟨_, fun x F hst => ?_, Verif.Ora.readAttrs sets, attrs, first, rfl, hread, ?_, ?_, ?_, ?_, ?_⟩
  · have s1 := hst.part h0 hp1
    have s2 := s1.part h0 hp2
    refine ⟨(x.closeTag.over y1).closeTag.over y2, ?_, ?_⟩
    · dsimp only [drawFrame]
      rw [hr]
      dsimp only
      have er : frameRect r = r' := rfl
      rw [er, frameDash_eq]
      simp only [Verif.SvgDraw.itemOps, e]
      have hrx : Verif.Xml.run x (Verif.Ora.block "rect".toList sets []) = .ok (x.closeTag.over y1) := Verif.Xml.run_at x rfl hx1
      rw [hrx]
      exact htext _
    · rw [Verif.Xml.Forest.append_assoc] at s2
      exact s2
  · unfold num; rw [k6]; show read (Verif.Xml.Spec.attrText (fmt r'.x)) = _
    rw [(Verif.SvgDraw.fmt_clean hn _).same]; exact hn.back _
  · unfold num; rw [k7]; show read (Verif.Xml.Spec.attrText (fmt (frameY d r'))) = _
    rw [(Verif.SvgDraw.fmt_clean hn _).same, hy]; exact hn.back _
  · rcases k9 with h' | h' | h'
    · exact h'.2
    · have := h'.1.symm.trans hal; exact absurd this (by decide)
    · have := h'.1.symm.trans hal; exact absurd this (by decide)
  · rw [k8]; rfl
  · simp only [Verif.Xml.Spec.lineTexts, List.map_cons, List.map_nil, List.cons.injEq, and_true, List.append_nil] at k4
    rw [k4, frameText_eq]

/-! ### C122 -/

theorem depths_has : ∀ (t : Verif.Slide.Tree) (d u e : Nat), (u, e) ∈ depths d t → t.has u = true
  | .nil, _, _, _, h => by cases h
  | .item _ _ rest, d, u, e, h => by
    have := depths_has rest d u e h
    simpa [Verif.Slide.Tree.has] using this
  | .box v i z kids rest, d, u, e, h => by
    simp only [depths, List.mem_cons, List.mem_append] at h
    simp only [Verif.Slide.Tree.has, Bool.or_eq_true, decide_eq_true_eq, beq_iff_eq]
    rcases h with h | h | h
    · injection h with h1 h2; subst h1; simp
    · simp [depths_has kids _ u e h]
    · simp [depths_has rest _ u e h]

theorem lookup_mem {α : Type} {u : Nat} {a : α} : ∀ {l : List (Nat × α)}, l.lookup u = some a → (u, a) ∈ l
  | [], h => by cases h
  | (v, b) :: l, h => by
    by_cases e : u = v
    · subst e; rw [List.lookup_cons_self] at h; injection h with h; subst h; exact .head _
    · have : (u == v) = false := by simpa using e
      rw [List.lookup, this] at h; exact .tail _ (lookup_mem h)

theorem choose_forests {α : Type} {P : α → Forest → Prop} (l : List α) (h : ∀ a ∈ l, ∃ G, P a G) : ∃ f : α → Forest, ∀ a ∈ l, P a (f a) := by
  classical
  refine ⟨fun a => if ha : a ∈ l then (h a ha).choose else .nil, fun a ha => ?_⟩
  simp only [dif_pos ha]
  exact (h a ha).choose_spec

/-- **C122.** With `debug_boxes` a page shows what it shows without, in the same order, and besides exactly one frame for the slide and for every
box that is on the page: an outline of its rectangle (dashed by how deep the box is) and its name and size in its upper or lower left corner.
Frames are ordered with the items by z-level, and among equals a frame is above everything inside its box. -/
theorem C122_page (hn : Numbers fmt read) (h2 : ∀ v, Verif.Xml.Spec.Plain (fmt2 v)) (ang : Rat → Rat × Rat)
    (h0 : ang 0 = (1, 0)) (w h : Rat) (cs : List Call) (s : State)
    (hr : run (newScene w h) cs = .ok s) (env : Env) (he : s.slide.rects w h = .ok env) (viewBox : Option Rect) (step : Int)
    (hd : ∀ (k : Nat) p d, (things cs)[k]? = some (Call.draw p d) → OnPage ((things cs).map outline) step p → Drawable env step p d)
    (info : Nat → BoxInfo) (hi : ∀ u, InfoOk (info u)) :
    ∃ (parts : List ((Nat × Int) × Forest)) (order : List Nat) (str str0 : Str) (as : Attrs),
      svgPageDebug fmt fmt2 info s env w h viewBox step true = .ok str ∧
      readXml str = some (.elem "svg".toList as (concat (parts.map (·.2))) .nil) ∧
      svgPage fmt s env w h viewBox step = .ok str0 ∧
      readXml str0 = some (.elem "svg".toList as (concat ((parts.filter (fun x => !isBoxNumber ((things cs).map outline) x.1.1)).map (·.2))) .nil) ∧
      (∀ x ∈ parts, (∃ (k : Nat) (p : Nat) (d : Draw), x.1.1 = k + 1 ∧ (things cs)[k]? = some (.draw p d) ∧ Shown read ang env step p d x.2) ∨
        (∃ r d, BoxOf ((things cs).map outline) x.1.1 ∧ env x.1.1 = some r ∧ Depth ((things cs).map outline) x.1.1 d ∧
          Framed fmt fmt2 read (info x.1.1).name d r x.2)) ∧
      (parts.map (·.1.1)).Nodup ∧
      (∀ u z, (u, z) ∈ parts.map (·.1) ↔
        (∃ p, ItemOf ((things cs).map outline) p u ∧ Level ((things cs).map outline) p z ∧ OnPage ((things cs).map outline) step p) ∨
        (BoxOf ((things cs).map outline) u ∧ Level ((things cs).map outline) u z ∧ OnPage ((things cs).map outline) step u)) ∧
      WalkUp ((things cs).map outline) [0] order ∧ order.Nodup ∧ (parts.map (·.1)).Pairwise (Under order) := by
  obtain ⟨hrun, hkept⟩ := kept_run (kept_new w h) hr
  rw [List.nil_append] at hkept
  have hrun' : Verif.Slide.run (Verif.Slide.newSlide w h) ((things cs).map outline) = .ok s.slide := hrun
  obtain ⟨order, hfil, hnd, hitem, hframe, hdepth, hwalk, -, hon, hpair⟩ := Verif.Slide.frames_page w h _ _ hrun' step
  have hlaid0 := Verif.Slide.newSlide_laid w h
  have htarget := (target_laid hrun' hlaid0).2
  have hrects := rects_some (Verif.Slide.run_laid hrun' hlaid0) he
  obtain ⟨g1, g2⟩ := Verif.SvgDraw.svg_sets_ok hn w h viewBox
  set sets := Verif.SvgDraw.svgSets fmt w h viewBox with hsets
  have hnm : Verif.Xml.Spec.ValidName "svg".toList := Verif.Xml.validName_of_decide (by decide)
  obtain ⟨x0, hx0, hg0, hw0⟩ := start_tag hnm g1 g2
  set qs := Verif.Slide.page s.slide step true with hqs
  -- every painter
  obtain ⟨G, hG⟩ : ∃ G : Painter → Forest, ∀ q ∈ qs, Draws x0 "svg".toList (Verif.Ora.readAttrs sets) (fun x => paint fmt fmt2 info s env step x q) (G q) ∧
      ((isItem q = true ∧ isBoxNumber ((things cs).map outline) q.uid = false ∧ ∃ (k : Nat) (p : Nat) (d : Draw), q.uid = k + 1 ∧ (things cs)[k]? = some (.draw p d) ∧ Shown read ang env step p d (G q)) ∨
       (isItem q = false ∧ isBoxNumber ((things cs).map outline) q.uid = true ∧ ∃ r d, BoxOf ((things cs).map outline) q.uid ∧ env q.uid = some r ∧ Depth ((things cs).map outline) q.uid d ∧
          Framed fmt fmt2 read (info q.uid).name d r (G q))) := by
    refine choose_forests (P := fun q F => Draws x0 "svg".toList (Verif.Ora.readAttrs sets) (fun x => paint fmt fmt2 info s env step x q) F ∧
      ((isItem q = true ∧ isBoxNumber ((things cs).map outline) q.uid = false ∧ ∃ (k : Nat) (p : Nat) (d : Draw), q.uid = k + 1 ∧ (things cs)[k]? = some (.draw p d) ∧ Shown read ang env step p d F) ∨
       (isItem q = false ∧ isBoxNumber ((things cs).map outline) q.uid = true ∧ ∃ r d, BoxOf ((things cs).map outline) q.uid ∧ env q.uid = some r ∧ Depth ((things cs).map outline) q.uid d ∧
          Framed fmt fmt2 read (info q.uid).name d r F))) qs (fun q hq => ?_)
    cases q with
    | item u z =>
      obtain ⟨p, hii, -, hp⟩ := (hitem u z).mp hq
      cases hii with
      | @mk k c hc hb ht =>
        have hc0 := hc
        rw [List.getElem?_map] at hc
        cases hk : (things cs)[k]? with
        | none => rw [hk] at hc; cases hc
        | some c' =>
          rw [hk] at hc
          injection hc with hc
          cases c' with
          | box q b => subst hc; cases hb
          | draw q d =>
            have hq' : q = p := by
              rw [← ht, ← hc]
              cases d <;> rfl
            subst hq'
            obtain ⟨c0, kk, h3, h4⟩ := hkept.item k q d hk
            obtain ⟨r, hr'⟩ := hrects q (by rw [← ht]; exact htarget c (hc ▸ List.mem_map_of_mem (List.mem_of_getElem? hk)))
            have hnb : isBoxNumber ((things cs).map outline) (k + 1) = false := by
              cases hh : isBoxNumber ((things cs).map outline) (k + 1) with
              | false => rfl
              | true =>
                cases isBoxNumber_iff.mp hh with
                | mk h5 => rw [hc0] at h5; injection h5 with h5; subst h5; cases hb
            rcases render_shown (read := read) hn h0 (env := env) (step := step) h3 (hd k q d hk hp) hr' with ⟨h5, h6⟩ | ⟨y, F, h5, h6, h7⟩
            · refine ⟨.nil, draws_none (fun x => ?_), .inl ⟨rfl, hnb, k, q, d, rfl, hk, h6⟩⟩
              simp only [paint, h4]; exact h5 x
            · refine ⟨F, draws_part hw0 (y := y) (fun x => ?_) h6, .inl ⟨rfl, hnb, k, q, d, rfl, hk, h7⟩⟩
              simp only [paint, h4]; exact h5 x
    | debug u z =>
      obtain ⟨hb, -, -⟩ := (hframe u z).mp hq
      obtain ⟨d, hd1, hd2⟩ := hdepth u z hq
      obtain ⟨r, hr'⟩ : ∃ r, env u = some r :=
        hrects u ((Verif.Slide.run_laid hrun' hlaid0).has u (depths_has s.slide.tree 0 u d (lookup_mem hd1)))
      obtain ⟨F, h3, h4⟩ := frame_draws hn h2 hr' (hi u) d hw0
      refine ⟨F, ?_, .inr ⟨rfl, isBoxNumber_iff.mpr hb, r, d, hb, hr', hd2, h4⟩⟩
      intro x F' hst
      simp only [paint, hd1]
      exact h3 x F' hst
  -- both pages
  have hclose : ∀ l : List Painter, (∀ q ∈ l, q ∈ qs) → ∃ x1 x2, paintAll fmt fmt2 info s env step x0 l = .ok x1 ∧
      Verif.Xml.run x1 [.close (some "svg".toList)] = .ok x2 ∧ x2.toString = .ok x2.chunks.flatten ∧
      readXml x2.chunks.flatten = some (.elem "svg".toList (Verif.Ora.readAttrs sets) (concat (l.map G)) .nil) := by
    intro l hl
    obtain ⟨x1, hx1, hg1⟩ := paintAll_draws (fmt := fmt) (fmt2 := fmt2) (info := info) (s := s) (env := env) (step := step) G l (fun q hq => (hG q (hl q hq)).1) x0 .nil (.inl ⟨rfl, rfl⟩)
    rw [Verif.Xml.Forest.nil_append] at hg1
    obtain ⟨x2, hx2, hp⟩ := hg1.close hg0 hnm
    refine ⟨x1, x2, hx1, hx2, ?_, hp.reads⟩
    unfold Verif.Xml.Xml.toString; rw [if_pos (by rw [hp.stack]; rfl)]
  obtain ⟨x1, x2, hx1, hx2, hstr, hread⟩ := hclose qs (fun _ h => h)
  obtain ⟨y1, y2, hy1, hy2, hstr', hread'⟩ := hclose (qs.filter isItem) (fun _ h => (List.mem_filter.mp h).1)
  refine ⟨qs.map (fun q => ((q.uid, q.z), G q)), order, x2.chunks.flatten, y2.chunks.flatten, Verif.Ora.readAttrs sets, ?_, ?_, ?_, ?_, ?_, ?_, ?_, hwalk, hon, ?_⟩
  · unfold svgPageDebug
    rw [← hsets, hx0]
    dsimp only
    rw [← hqs, hx1]
    dsimp only
    rw [hx2]
    exact hstr
  · rw [List.map_map]; exact hread
  · rw [← page_same (fmt2 := fmt2) info]
    unfold svgPageDebug
    rw [← hsets, hx0]
    dsimp only
    rw [← hfil, hy1]
    dsimp only
    rw [hy2]
    exact hstr'
  · rw [List.filter_map, List.map_map]
    have : qs.filter ((fun x : (Nat × Int) × Forest => !isBoxNumber ((things cs).map outline) x.1.1) ∘ fun q => ((q.uid, q.z), G q)) = qs.filter isItem := by
      apply List.filter_congr
      intro q hq
      simp only [Function.comp]
      rcases (hG q hq).2 with ⟨a, b, -⟩ | ⟨a, b, -⟩ <;> rw [a, b] <;> rfl
    rw [this]
    exact hread'
  · intro x hx
    obtain ⟨q, hq, rfl⟩ := List.mem_map.mp hx
    rcases (hG q hq).2 with ⟨-, -, a⟩ | ⟨-, -, a⟩
    · exact .inl a
    · exact .inr a
  · rw [List.map_map]; exact hnd
  · intro u z
    rw [List.map_map, ← hitem, ← hframe]
    simp only [List.mem_map, Function.comp]
    constructor
    · rintro ⟨q, hq, e⟩
      injection e with e1 e2
      cases q with
      | item v y => dsimp only [Painter.uid, Painter.z] at e1 e2; subst e1; subst e2; exact .inl hq
      | debug v y => dsimp only [Painter.uid, Painter.z] at e1 e2; subst e1; subst e2; exact .inr hq
    · rintro (hq | hq)
      · exact ⟨_, hq, rfl⟩
      · exact ⟨_, hq, rfl⟩
  · rw [List.map_map]; exact hpair

/-! ### an example -/

/-- The first box of the example has a name. -/
def exInfo (u : Nat) : BoxInfo :=
  { name := if u = 1 then "logo".toList else [], dflt := { exBoxStyle with lineSpacing := some (6/5) }, styles := fun _ => none }
where
  exBoxStyle : Verif.Style.TextStyle := { font := some "Lato".toList, color := some "black".toList, priority := 0 }

theorem exInfo_ok (u : Nat) : InfoOk (exInfo u) where
  name := by
    unfold exInfo
    dsimp only
    split
    · exact (Verif.Xml.okStr_of_decide (by decide)).1
    · intro c hc; cases hc
  dflt := ⟨(by intro f h; injection h with h; subst h; exact Verif.Xml.okStr_of_decide (by decide)),
    (by intro f h; injection h with h; subst h; exact Verif.Xml.okStr_of_decide (by decide)), (by intro f h; cases h)⟩
  styles := by intro n s h; cases h
  spacing := by simp [exInfo]

/-- On page 1 of the example of C108 are the frames of the first box and of the slide, above what is in them; on page 2 also that of the other box. -/
example : Verif.Slide.page exSceneState.slide 1 true = [.item 2 0, .item 6 0, .debug 1 0, .debug 0 0] ∧
    Verif.Slide.page exSceneState.slide 2 true = [.item 2 0, .item 6 0, .debug 1 0, .item 4 0, .item 5 0, .debug 3 0, .debug 0 0] ∧
    (depths 0 exSceneState.slide.tree).lookup 1 = some 1 := by decide +kernel

example : Depth ((things exScene).map outline) 1 1 ∧ Depth ((things exScene).map outline) 0 0 ∧
    label Verif.SvgDraw.sampleFmt Verif.SvgDraw.sampleFmt "logo".toList 1 ⟨10, 20, 40, 1/2⟩ = "↖ logo [+40e1,+1e2]".toList :=
  ⟨.box (k := 0) rfl .slide, .slide, by decide +kernel⟩

example (u : Nat) : (∀ v, Verif.Xml.Spec.Plain (Verif.SvgDraw.sampleFmt v)) ∧ InfoOk (exInfo u) :=
  ⟨fun v => (Verif.SvgDraw.fmt_clean Verif.SvgDraw.sampleNumbers v).ok.1, exInfo_ok u⟩

end Verif.Scene
