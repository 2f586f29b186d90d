import Verif.Proofs.Scene
import Verif.Proofs.XmlFrame
import Verif.Props.TextItem

/-! # Lemmas about pictures in SVG on a page -/

namespace Verif.Scene
open Spec
open Verif.Layout (Env)
open Verif.CairoDraw (Mat Pt)
open Verif.Xml (Good Xml Op steps_part steps_append eol_id)
open Verif.Xml.Spec (Forest norm readXml Attrs steps final isWs attrText)
open Verif.SvgDraw (joinWith Clean clean_dec fmt_clean words_split words_one words_close words_fmt cut_append)
open Verif.SvgDraw.Spec (Numbers readTransform readFunction readNumbers all? words trim commaWs)
open Verif.TextItem.Spec (placement turn)

variable {fmt : Rat → Str} {read : Str → Option Rat}

/-! ### reading the transformations -/

/-- A transformation in the form `name(numbers)`. -/
structure Fn (read : Str → Option Rat) (name body : Str) (qs : List Rat) : Prop where
  open_ : '(' ∉ name
  close : ')' ∉ name
  name1 : trim name = name
  name2 : trim (' ' :: name) = name
  inner : ')' ∉ body
  nums : readNumbers read body = some qs

theorem Fn.readFunction {name body : Str} {qs : List Rat} (h : Fn read name body qs) :
    readFunction read (name ++ '(' :: body) = some (name, qs) ∧ readFunction read (' ' :: name ++ '(' :: body) = some (name, qs) := by
  have h1 : '(' ∉ ' ' :: name := by
    intro h'
    rcases List.mem_cons.mp h' with h' | h'
    · exact absurd h' (by decide)
    · exact h.open_ h'
  constructor
  · unfold Verif.SvgDraw.Spec.readFunction
    rw [cut_append h.open_]
    simp [h.nums, h.name1]
  · unfold Verif.SvgDraw.Spec.readFunction
    rw [cut_append h1]
    simp [h.nums, h.name2]

theorem Fn.noClose {name body : Str} {qs : List Rat} (h : Fn read name body qs) : ∀ c ∈ name ++ '(' :: body, (decide (c = ')')) = false := by
  intro c hc
  refine decide_eq_false ?_
  rintro rfl
  rcases List.mem_append.mp hc with hc | hc
  · exact h.close hc
  · rcases List.mem_cons.mp hc with hc | hc
    · exact absurd hc (by decide)
    · exact h.inner hc

/-- Several transformations, separated by blanks. -/
theorem readTransform_join : ∀ {fs : List (Str × Str × List Rat)}, (∀ f ∈ fs, Fn read f.1 f.2.1 f.2.2) → fs ≠ [] →
    readTransform read (some (joinWith [' '] (fs.map (fun f => f.1 ++ '(' :: f.2.1 ++ [')'])))) = some (fs.map (fun f => (f.1, f.2.2))) ∧
    all? (readFunction read) (words (fun c => decide (c = ')')) (' ' :: joinWith [' '] (fs.map (fun f => f.1 ++ '(' :: f.2.1 ++ [')'])))) =
      some (fs.map (fun f => (f.1, f.2.2)))
  | [], _, h => absurd rfl h
  | [f], h, _ => by
    have hf := h f (by simp)
    have n1 : f.1 ++ '(' :: f.2.1 ≠ [] := by simp
    have c2 : ∀ c ∈ ' ' :: f.1 ++ '(' :: f.2.1, (decide (c = ')')) = false := by
      intro c hc
      rcases List.mem_cons.mp hc with rfl | hc
      · decide
      · exact hf.noClose c hc
    constructor
    · simp only [List.map_cons, List.map_nil, joinWith, readTransform]
      rw [words_close hf.noClose n1]
      simp only [all?, hf.readFunction.1]
    · simp only [List.map_cons, List.map_nil, joinWith]
      have e : ' ' :: (f.1 ++ '(' :: f.2.1 ++ [')']) = (' ' :: f.1 ++ '(' :: f.2.1) ++ [')'] := by simp
      rw [e, words_close c2 (by simp)]
      simp only [all?, hf.readFunction.2]
  | f :: g :: fs, h, _ => by
    have hf := h f (by simp)
    have ih := (readTransform_join (fs := g :: fs) (fun x hx => h x (.tail _ hx)) (by simp)).2
    have c2 : ∀ c ∈ ' ' :: f.1 ++ '(' :: f.2.1, (decide (c = ')')) = false := by
      intro c hc
      rcases List.mem_cons.mp hc with rfl | hc
      · decide
      · exact hf.noClose c hc
    have e1 : joinWith [' '] ((f :: g :: fs).map (fun f => f.1 ++ '(' :: f.2.1 ++ [')'])) =
        (f.1 ++ '(' :: f.2.1) ++ ')' :: (' ' :: joinWith [' '] ((g :: fs).map (fun f => f.1 ++ '(' :: f.2.1 ++ [')']))) := by
      simp [joinWith]
    constructor
    · rw [e1]
      simp only [readTransform]
      rw [words_split _ (by decide), words_one _ hf.noClose (by simp)]
      simp only [List.cons_append, List.nil_append, all?, hf.readFunction.1, ih]
      rfl
    · rw [e1]
      have e2 : ' ' :: ((f.1 ++ '(' :: f.2.1) ++ ')' :: (' ' :: joinWith [' '] ((g :: fs).map (fun f => f.1 ++ '(' :: f.2.1 ++ [')'])))) =
        (' ' :: f.1 ++ '(' :: f.2.1) ++ ')' :: (' ' :: joinWith [' '] ((g :: fs).map (fun f => f.1 ++ '(' :: f.2.1 ++ [')']))) := by simp
      rw [e2, words_split _ (by decide), words_one _ c2 (by simp)]
      simp only [List.cons_append, List.nil_append, all?]
      rw [show ' ' :: (f.1 ++ '(' :: f.2.1) = ' ' :: f.1 ++ '(' :: f.2.1 from rfl, hf.readFunction.2, ih]
      rfl

theorem fmt_noClose (hn : Numbers fmt read) (q : Rat) : ')' ∉ fmt q := by
  intro h
  have := hn.chars q _ h
  revert this
  decide

/-- The transformations of a picture. -/
def pictureFns (fmt : Rat → Str) (r : Rect) (scale : Rat) (rotation : Option Rat) : List (Str × Str × List Rat) :=
  (match rotation with
    | some a => [("rotate".toList, fmt a ++ ' ' :: (fmt (r.x + r.width / 2) ++ ' ' :: fmt (r.y + r.height / 2)), [a, r.x + r.width / 2, r.y + r.height / 2])]
    | none => []) ++
  [("translate".toList, fmt r.x ++ ',' :: ' ' :: fmt r.y, [r.x, r.y])] ++
  (if scale ≠ 1 then [("scale".toList, fmt scale, [scale])] else [])

theorem pictureFns_str (fmt : Rat → Str) (r : Rect) (scale : Rat) (rotation : Option Rat) :
    pictureTransform fmt r scale rotation = joinWith [' '] ((pictureFns fmt r scale rotation).map (fun f => f.1 ++ '(' :: f.2.1 ++ [')'])) := by
  have h1 : "rotate(".toList = "rotate".toList ++ ['('] := by decide
  have h2 : "translate(".toList = "translate".toList ++ ['('] := by decide
  have h3 : "scale(".toList = "scale".toList ++ ['('] := by decide
  have h4 : ", ".toList = [',', ' '] := by decide
  have h5 : " ".toList = [' '] := by decide
  have h6 : ")".toList = [')'] := by decide
  unfold pictureTransform pictureFns
  rw [h1, h2, h3, h4, h5, h6]
  congr 1
  cases rotation <;> by_cases hs : scale = 1 <;> simp [hs]

theorem pictureFns_ok (hn : Numbers fmt read) (r : Rect) (scale : Rat) (rotation : Option Rat) :
    ∀ f ∈ pictureFns fmt r scale rotation, Fn read f.1 f.2.1 f.2.2 := by
  have hc := fmt_noClose hn
  have back := hn.back
  have r1 : trim "rotate".toList = "rotate".toList ∧ trim (' ' :: "rotate".toList) = "rotate".toList := by decide +kernel
  have r2 : trim "translate".toList = "translate".toList ∧ trim (' ' :: "translate".toList) = "translate".toList := by decide +kernel
  have r3 : trim "scale".toList = "scale".toList ∧ trim (' ' :: "scale".toList) = "scale".toList := by decide +kernel
  have o1 : ('(' ∉ "rotate".toList ∧ ')' ∉ "rotate".toList) := by decide
  have o2 : ('(' ∉ "translate".toList ∧ ')' ∉ "translate".toList) := by decide
  have o3 : ('(' ∉ "scale".toList ∧ ')' ∉ "scale".toList) := by decide
  have blank : commaWs ' ' = true := by decide
  have comma : commaWs ',' = true := by decide
  intro f hf
  unfold pictureFns at hf
  rcases List.mem_append.mp hf with hf | hf
  · rcases List.mem_append.mp hf with hf | hf
    · cases rotation with
      | none => cases hf
      | some a =>
        rw [List.mem_singleton.mp hf]
        refine ⟨o1.1, o1.2, r1.1, r1.2, ?_, ?_⟩
        · simp only [List.mem_append, List.mem_cons, not_or]
          exact ⟨hc _, by decide, hc _, by decide, hc _⟩
        · unfold readNumbers
          rw [words_split _ blank, words_split _ blank, words_fmt hn, words_fmt hn, words_fmt hn]
          simp [all?, back]
    · rw [List.mem_singleton.mp hf]
      refine ⟨o2.1, o2.2, r2.1, r2.2, ?_, ?_⟩
      · simp only [List.mem_append, List.mem_cons, not_or]
        exact ⟨hc _, by decide, by decide, hc _⟩
      · unfold readNumbers
        rw [words_split _ comma, words_fmt hn]
        have : words commaWs (' ' :: fmt r.y) = [fmt r.y] := by
          have := words_split commaWs (c := ' ') (by decide) [] (fmt r.y)
          rw [List.nil_append] at this
          rw [this, words_fmt hn]
          rfl
        rw [this]
        simp [all?, back]
  · split at hf
    · rw [List.mem_singleton.mp hf]
      refine ⟨o3.1, o3.2, r3.1, r3.2, hc _, ?_⟩
      unfold readNumbers
      rw [words_fmt hn]
      simp [all?, back]
    · cases hf

theorem pictureTransform_clean (hn : Numbers fmt read) (r : Rect) (scale : Rat) (rotation : Option Rat) : Clean (pictureTransform fmt r scale rotation) := by
  unfold pictureTransform
  refine Verif.SvgDraw.clean_join (clean_dec (by decide)) ?_
  intro l hl
  have f := fmt_clean hn
  rcases List.mem_append.mp hl with hl | hl
  · rcases List.mem_append.mp hl with hl | hl
    · cases rotation with
      | none => cases hl
      | some a =>
        rw [List.mem_singleton.mp hl]
        exact ((((((clean_dec (by decide)).append (f _)).append (clean_dec (by decide))).append (f _)).append (clean_dec (by decide))).append (f _)).append (clean_dec (by decide))
    · rw [List.mem_singleton.mp hl]
      exact ((((clean_dec (by decide)).append (f _)).append (clean_dec (by decide))).append (f _)).append (clean_dec (by decide))
  · split at hl
    · rw [List.mem_singleton.mp hl]
      exact ((clean_dec (by decide)).append (f _)).append (clean_dec (by decide))
    · cases hl

/-- The transformation puts the picture where it is meant to be. -/
theorem placement_picture {ang : Rat → Rat × Rat} (h0 : ang 0 = (1, 0)) (q : Rect) (s : Rat) (rotation : Option Rat) :
    ∃ m, placement ang {} ((pictureFns fmt q s rotation).map (fun f => (f.1, f.2.2))) = some m ∧
      ∀ u v, m.apply (u, v) = (turn ang rotation (q.x + q.width / 2, q.y + q.height / 2)).apply (q.x + u * s, q.y + v * s) := by
  have n1 : ("translate".toList = "rotate".toList) = False := by decide
  unfold pictureFns
  cases rotation with
  | none =>
    by_cases hs : s = 1
    · subst hs
      refine ⟨_, by simp [placement]; rfl, fun u v => ?_⟩
      simp [turn, Mat.apply, Mat.translate]
      constructor <;> ring
    · refine ⟨_, by simp [placement, hs]; rfl, fun u v => ?_⟩
      simp [turn, Mat.apply, Mat.translate, Mat.scale]
      constructor <;> ring
  | some a =>
    have ht : ∀ c : Pt, turn ang (some a) c = ((({} : Mat).translate c.1 c.2).rotate (ang a).1 (ang a).2).translate (-c.1) (-c.2) := by
      intro c
      unfold turn
      by_cases ha : a = 0
      · subst ha
        simp [h0, Mat.translate, Mat.rotate]
      · simp [ha]
    by_cases hs : s = 1
    · subst hs
      refine ⟨_, by simp [placement]; rfl, fun u v => ?_⟩
      rw [ht]
      simp [Mat.apply, Mat.translate, Mat.rotate]
      constructor <;> ring
    · refine ⟨_, by simp [placement, hs]; rfl, fun u v => ?_⟩
      rw [ht]
      simp [Mat.apply, Mat.translate, Mat.rotate, Mat.scale]
      constructor <;> ring

/-! ### the element of a picture -/

/-- What was written alone as one element, and how it is written in the middle of a document. -/
structure Part (y : Xml) (F : Forest) : Prop where
  stack : y.stack = []
  isOpen : y.isOpen = false
  noCR : '\r' ∉ y.chunks.flatten
  elem : ∃ n as K, F = .elem n as K .nil
  reads : readXml y.chunks.flatten = some F

theorem part_of_good {y : Xml} {F : Forest} {op : Bool} (h : Good y { cur := F, up := [], isOpen := op }) {n : Str} {as : Attrs} {K : Forest}
    (hF : norm [] F = .elem n as K .nil) : Part y (norm [] F) := by
  have hst : y.stack = [] := h.stack
  have hs : y.toString = .ok y.chunks.flatten := by unfold Verif.Xml.Xml.toString; rw [if_pos (by rw [hst]; rfl)]
  have hop : op = false := by
    cases op with
    | false => rfl
    | true => exact absurd rfl (h.top rfl)
  exact ⟨hst, h.isOpen.trans hop, h.noCR, ⟨n, as, K, hF⟩, (h.toString hs).2⟩

/-- A document in which one element is open and its start tag is complete; `F` is what it contains so far. -/
structure Within (x : Xml) (nm : Str) (as : Attrs) (F : Forest) : Prop where
  stack : x.stack = [nm]
  isOpen : x.isOpen = false
  noCR : '\r' ∉ x.chunks.flatten
  reads : steps ({}, .content []) x.chunks.flatten = some ({ cur := F, up := [(.nil, nm, as)] }, .content [])

/-- A part is added. -/
theorem Within.part {x : Xml} {nm : Str} {as : Attrs} {F : Forest} (h : Within x nm as F) {y : Xml} {G : Forest} (hy : Part y G) :
    Within (x.over y) nm as (F ++ G) := by
  obtain ⟨n, bs, K, rfl⟩ := hy.elem
  refine ⟨by simp [Verif.Xml.Xml.over, hy.stack, h.stack], hy.isOpen, ?_, ?_⟩
  · simp only [Verif.Xml.Xml.over, List.flatten_append, List.mem_append, not_or]
    exact ⟨h.noCR, hy.noCR⟩
  · simp only [Verif.Xml.Xml.over, List.flatten_append]
    rw [steps_append, h.reads, Option.bind_some, steps_part _ hy.noCR hy.reads]

/-- A part given as a string is added. -/
theorem Within.raw {x : Xml} {nm : Str} {as : Attrs} {F : Forest} (h : Within x nm as F) {s : Str} (hs : '\r' ∉ s) {n : Str} {bs : Attrs} {K : Forest}
    (hr : readXml s = some (.elem n bs K .nil)) : ∃ x', Verif.Xml.exec x (.raw s) = .ok x' ∧ Within x' nm as (F ++ .elem n bs K .nil) := by
  have e : x.closeTag = x := by unfold Verif.Xml.Xml.closeTag; rw [h.isOpen]; simp
  refine ⟨_, rfl, ?_⟩
  rw [e]
  refine ⟨h.stack, h.isOpen, ?_, ?_⟩
  · simp only [List.flatten_append, List.mem_append, not_or, List.flatten_cons, List.flatten_nil, List.append_nil]
    exact ⟨h.noCR, hs⟩
  · simp only [List.flatten_append, List.flatten_cons, List.flatten_nil, List.append_nil]
    rw [steps_append, h.reads, Option.bind_some, steps_part _ hs hr]

/-- The element is closed. -/
theorem Within.close {x : Xml} {nm : Str} {as : Attrs} {F : Forest} (h : Within x nm as F) (hnm : Verif.Xml.Spec.ValidName nm) :
    ∃ y, Verif.Xml.exec x (.close (some nm)) = .ok y ∧ Part y (.elem nm as F .nil) := by
  refine ⟨{ x with chunks := x.chunks ++ [['<', '/'], nm, ['>']], stack := [] }, ?_, ?_⟩
  · simp only [Verif.Xml.exec, h.stack, h.isOpen]
    simp
  have hcr : '\r' ∉ (x.chunks ++ [['<', '/'], nm, ['>']]).flatten := by
    simp only [List.flatten_append, List.mem_append, not_or, List.flatten_cons, List.flatten_nil, List.append_nil]
    exact ⟨h.noCR, by decide, hnm.noCR, by decide⟩
  refine ⟨rfl, h.isOpen, hcr, ⟨_, _, _, rfl⟩, ?_⟩
  unfold readXml
  rw [eol_id hcr]
  simp only [List.flatten_append, List.flatten_cons, List.flatten_nil, List.append_nil]
  rw [steps_append, h.reads, Option.bind_some, steps_append]
  have e1 : ∀ z : Verif.Xml.Spec.Ctx, steps (z, .content []) ['<', '/'] = some ({ z with cur := z.cur ++ Verif.Xml.Spec.textNode [] }, .endName []) := by
    intro z
    rfl
  rw [e1, Option.bind_some, steps_append, Verif.Xml.steps_endName _ _ _ hnm.all, Option.bind_some]
  simp [steps, Verif.Xml.Spec.step, Verif.Xml.Spec.xmlChar, final, Verif.Xml.Spec.textNode, Verif.Xml.Forest.append_nil, Verif.Xml.Forest.nil_append]

/-- The start tag of an element. -/
theorem start_tag {nm : Str} (hnm : Verif.Xml.Spec.ValidName nm) {sets : List (Str × Str × Bool)} (h1 : Verif.SvgDraw.namesOk (sets.map (·.1)) = true)
    (h2 : ∀ s ∈ sets, Clean s.2.1) :
    ∃ x0, Verif.Xml.run {} (.element nm :: sets.map (fun a => Op.set a.1 a.2.1 a.2.2)) = .ok x0 ∧
      Good x0 { cur := .nil, up := [(.nil, nm, sets.map Verif.Xml.toAttr)], isOpen := true } ∧
      Within x0.closeTag nm (Verif.Ora.readAttrs sets) .nil := by
  have hso := Verif.SvgDraw.setsOk_of h1 h2
  obtain ⟨x0, hx0, hg0⟩ : ∃ x0, Verif.Xml.run {} (.element nm :: sets.map (fun a => Op.set a.1 a.2.1 a.2.2)) = .ok x0 ∧
      Good x0 { cur := .nil, up := [(.nil, nm, sets.map Verif.Xml.toAttr)], isOpen := true } := by
    refine Verif.Xml.good_init.go ?_ ?_ ?_
    · intro o ho
      rcases List.mem_cons.mp ho with rfl | ho
      · exact hnm
      · obtain ⟨t, ht, rfl⟩ := List.mem_map.mp ho
        exact ⟨hso.names t ht, (hso.values t ht).1, (hso.values t ht).2⟩
    · have := Verif.Xml.sd_block nm (rest := []) hso.nodup Verif.Xml.sd_nil (Verif.Xml.seen {})
      rwa [List.append_nil] at this
    · simp only [Verif.Xml.arun, Verif.Xml.aexec]
      have := Verif.Xml.arun_sets sets .nil .nil nm [] []
      rwa [List.nil_append] at this
  refine ⟨x0, hx0, hg0, ?_⟩
  have hc := hg0.closeTag
  have hreads := hc.reads
  unfold Verif.Xml.Reads at hreads
  simp only [Bool.false_eq_true, if_false] at hreads
  exact ⟨hc.stack, hc.isOpen, hc.noCR, hreads⟩

theorem drawSvg_part (hn : Numbers fmt read) {doc : Str} (hd : DocOk doc) (q : Rect) (s : Rat) (rotation : Option Rat) :
    ∃ y G as, readXml doc = some G ∧ (∀ x, drawSvg fmt x doc q s rotation = .ok (x.closeTag.over y)) ∧ Part y (.elem "g".toList as G .nil) ∧
      as.lookup "transform".toList = some (pictureTransform fmt q s rotation) := by
  obtain ⟨hcr, n, as, K, hdoc⟩ := hd
  have hclean := pictureTransform_clean hn q s rotation
  unfold drawSvg
  generalize pictureTransform fmt q s rotation = T at *
  have hnm : Verif.Xml.Spec.ValidName "g".toList := Verif.Xml.validName_of_decide (by decide)
  have hall : ∀ x ∈ [("transform".toList, T, true)], Clean x.2.1 := by
    intro x hx
    rw [List.mem_singleton.mp hx]
    exact hclean
  obtain ⟨x0, hx0, -, hw⟩ := start_tag hnm (sets := [("transform".toList, T, true)]) (by show Verif.SvgDraw.namesOk ["transform".toList] = true; decide) hall
  obtain ⟨x1, hx1, hw1⟩ := hw.raw hcr hdoc
  rw [Verif.Xml.Forest.nil_append] at hw1
  obtain ⟨x2, hx2, hp⟩ := hw1.close hnm
  have hrun : Verif.Xml.run {} [.element "g".toList, .set "transform".toList T true, .raw doc, .close (some "g".toList)] = .ok x2 := by
    have e : [Op.element "g".toList, .set "transform".toList T true, .raw doc, .close (some "g".toList)] =
      (.element "g".toList :: [("transform".toList, T, true)].map (fun a => Op.set a.1 a.2.1 a.2.2)) ++ [.raw doc, .close (some "g".toList)] := rfl
    rw [e, Verif.Xml.run_append, hx0]
    dsimp only
    have e1 : Verif.Xml.exec x0 (.raw doc) = .ok x1 := by
      rw [← hx1]
      simp only [Verif.Xml.exec, Verif.Xml.closeTag_closeTag]
    simp only [Verif.Xml.run, e1, hx2]
  have hstr : x2.toString = .ok x2.chunks.flatten := by unfold Verif.Xml.Xml.toString; rw [if_pos (by rw [hp.stack]; rfl)]
  refine ⟨{ chunks := [x2.chunks.flatten], stack := [], isOpen := false }, _, _, hdoc, ?_, ⟨rfl, rfl, ?_, hp.elem, ?_⟩, ?_⟩
  · intro x
    rw [hrun]
    dsimp only
    rw [hstr]
    exact Verif.Xml.run_at x rfl rfl
  · simpa using hp.noCR
  · simpa using hp.reads
  · simp [Verif.Ora.readAttrs, hclean.same]

/-- The picture appears on the page as it is meant. -/
theorem picture_shown (hn : Numbers fmt read) {ang : Rat → Rat × Rat} (h0 : ang 0 = (1, 0)) {env : Env} {step : Int} {p : Nat} {b : Picture}
    {scale rotation : Option Rat} {r : Rect} (hd : Drawable env step p (.svg b scale rotation)) (hr : env p = some r) :
    ((∀ x, renderPicture fmt env step x p b scale rotation = .ok x) ∧ Shown read ang env step p (.svg b scale rotation) .nil) ∨
    ∃ y F, (∀ x, renderPicture fmt env step x p b scale rotation = .ok (x.closeTag.over y)) ∧ Part y F ∧ Shown read ang env step p (.svg b scale rotation) F := by
  obtain ⟨hsz, hdoc | ⟨doc, hdoc, hok⟩⟩ := hd
  · left
    refine ⟨fun x => ?_, .inl ⟨hdoc, rfl⟩⟩
    simp only [renderPicture, hr, hdoc]
  · right
    obtain ⟨y, G, as, h1, h2, h3, h4⟩ := drawSvg_part hn hok (centered r (b.width * factor r b.width b.height scale) (b.height * factor r b.width b.height scale))
      (factor r b.width b.height scale) rotation
    obtain ⟨m, h5, h6⟩ := placement_picture (fmt := fmt) h0 (centered r (b.width * factor r b.width b.height scale) (b.height * factor r b.width b.height scale))
      (factor r b.width b.height scale) rotation
    refine ⟨y, _, fun x => ?_, h3, .inr ⟨doc, G, r, as, _, m, hdoc, h1, hr, rfl, ?_, h5, _, _, rfl, rfl, h6⟩⟩
    · simp only [renderPicture, hr, hdoc, imageScale_eq hsz, imageRect_eq hsz]
      exact h2 x
    · rw [h4, pictureFns_str]
      exact (readTransform_join (pictureFns_ok hn _ _ _) (by simp [pictureFns])).1

end Verif.Scene
