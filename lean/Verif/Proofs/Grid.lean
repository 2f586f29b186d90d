import Verif.Proofs.ScenePicture
import Verif.Spec.Grid

/-! # Lemmas: several pages in one document -/

namespace Verif.Book
open Spec
open Verif.Scene (Within Part start_tag Fn readTransform_join fmt_noClose)
open Verif.Scene.Spec (concat DocOk)
open Verif.Xml (Xml Op)
open Verif.Xml.Spec (Forest readXml)
open Verif.SvgDraw (joinWith Clean clean_dec fmt_clean words_split words_fmt)
open Verif.SvgDraw.Spec (Numbers readTransform readNumbers all? words trim commaWs num)

variable {fmt : Rat → Str} {read : Str → Option Rat}

/-- The text of the transformation of a cell. -/
def moveStr (fmt : Rat → Str) (x y : Rat) : Str := "translate(".toList ++ fmt x ++ ", ".toList ++ fmt y ++ ")".toList

theorem moveStr_clean (hn : Numbers fmt read) (x y : Rat) : Clean (moveStr fmt x y) :=
  ((((clean_dec (by decide)).append (fmt_clean hn _)).append (clean_dec (by decide))).append (fmt_clean hn _)).append (clean_dec (by decide))

theorem moveStr_read (hn : Numbers fmt read) (x y : Rat) : readTransform read (some (moveStr fmt x y)) = some [("translate".toList, [x, y])] := by
  have hfns : Verif.Scene.pictureFns fmt ⟨x, y, 0, 0⟩ 1 none = [("translate".toList, fmt x ++ ',' :: ' ' :: fmt y, [x, y])] := by
    unfold Verif.Scene.pictureFns
    rw [if_neg (fun h => h rfl)]
    rfl
  have hok := Verif.Scene.pictureFns_ok hn ⟨x, y, 0, 0⟩ 1 none
  have h2 := Verif.Scene.pictureFns_str fmt ⟨x, y, 0, 0⟩ 1 none
  rw [hfns] at hok h2
  have h1 := (readTransform_join hok (by simp)).1
  rw [← h2] at h1
  have e : Verif.Scene.pictureTransform fmt ⟨x, y, 0, 0⟩ 1 none = moveStr fmt x y := by
    unfold Verif.Scene.pictureTransform moveStr
    rw [if_neg (fun h => h rfl)]
    rfl
  rw [e] at h1
  rw [h1]
  rfl

/-- The cells written so far hold the given pages. -/
def Cells (read : Str → Option Rat) (cols : Nat) (w h : Rat) (pages : List Str) (parts : List Forest) : Prop :=
  parts.length = pages.length ∧
    ∀ j page, pages[j]? = some page → ∃ as' G, parts[j]? = some (.elem "g".toList as' G .nil) ∧ readXml page = some G ∧
      readTransform read (as'.lookup "transform".toList) = some [("translate".toList, [(j % cols : Nat) * w, (j / cols : Nat) * h])]

/-- A document with the cells of the given pages, not yet finished. -/
def Filled (fmt : Rat → Str) (read : Str → Option Rat) (rows cols : Nat) (w h : Rat) (xml : Xml) (pages : List Str) : Prop :=
  ∃ parts, Within xml.closeTag "svg".toList (Verif.Ora.readAttrs (Verif.SvgDraw.svgSets fmt (w * cols) (h * rows) none)) (concat parts) ∧
    (pages ≠ [] → xml.closeTag = xml) ∧ Cells read cols w h pages parts

theorem concat_snoc (parts : List Forest) (F : Forest) : concat (parts ++ [F]) = concat parts ++ F := by
  induction parts with
  | nil => simp [concat, Verif.Xml.Forest.append_nil, Verif.Xml.Forest.nil_append]
  | cons G parts ih => simp only [List.cons_append, concat, ih, Verif.Xml.Forest.append_assoc]

theorem gridNew_ok (hn : Numbers fmt read) (rows cols : Nat) (w h : Rat) :
    ∃ x, gridNew fmt cols rows w h = .ok x ∧ Filled fmt read rows cols w h x [] := by
  obtain ⟨h1, h2⟩ := Verif.SvgDraw.svg_sets_ok hn (w * cols) (h * rows) none
  have hnm : Verif.Xml.Spec.ValidName "svg".toList := Verif.Xml.validName_of_decide (by decide)
  obtain ⟨x0, hx0, -, hw0⟩ := start_tag hnm h1 h2
  exact ⟨x0, hx0, [], hw0, fun h => absurd rfl h, rfl, by simp⟩

theorem gridCell_ok (hn : Numbers fmt read) {rows cols : Nat} {w h : Rat} {xml : Xml} {pages : List Str} (hf : Filled fmt read rows cols w h xml pages)
    {svg : Str} (hd : DocOk svg) :
    ∃ x, gridCell fmt cols w h xml pages.length svg = .ok x ∧ Filled fmt read rows cols w h x (pages ++ [svg]) := by
  obtain ⟨parts, hw, -, hl, hc⟩ := hf
  obtain ⟨hcr, n, as, K, hdoc⟩ := hd
  have hread := moveStr_read hn ((pages.length % cols : Nat) * w) ((pages.length / cols : Nat) * h)
  have hclean := moveStr_clean hn ((pages.length % cols : Nat) * w) ((pages.length / cols : Nat) * h)
  show ∃ x, Verif.Xml.run xml [.element "g".toList, .set "transform".toList (moveStr fmt ((pages.length % cols : Nat) * w) ((pages.length / cols : Nat) * h)) true,
    .raw svg, .close (some "g".toList)] = .ok x ∧ _
  generalize moveStr fmt ((pages.length % cols : Nat) * w) ((pages.length / cols : Nat) * h) = T at *
  have hnm : Verif.Xml.Spec.ValidName "g".toList := Verif.Xml.validName_of_decide (by decide)
  have hall : ∀ x ∈ [("transform".toList, T, true)], Clean x.2.1 := by
    intro x hx
    rw [List.mem_singleton.mp hx]
    exact hclean
  obtain ⟨x0, hx0, -, hw0⟩ := start_tag hnm (sets := [("transform".toList, T, true)]) (by show Verif.SvgDraw.namesOk ["transform".toList] = true; decide) hall
  obtain ⟨x1, hx1, hw1⟩ := hw0.raw hcr hdoc
  rw [Verif.Xml.Forest.nil_append] at hw1
  obtain ⟨x2, hx2, hp⟩ := hw1.close hnm
  have hrun : Verif.Xml.run {} [.element "g".toList, .set "transform".toList T true, .raw svg, .close (some "g".toList)] = .ok x2 := by
    have e : [Op.element "g".toList, .set "transform".toList T true, .raw svg, .close (some "g".toList)] =
      (.element "g".toList :: [("transform".toList, T, true)].map (fun a => Op.set a.1 a.2.1 a.2.2)) ++ [.raw svg, .close (some "g".toList)] := rfl
    rw [e, Verif.Xml.run_append, hx0]
    dsimp only
    have e1 : Verif.Xml.exec x0 (.raw svg) = .ok x1 := by
      rw [← hx1]
      simp only [Verif.Xml.exec, Verif.Xml.closeTag_closeTag]
    simp only [Verif.Xml.run, e1, hx2]
  have hw2 := hw.part hp
  have hcl : (xml.closeTag.over x2).closeTag = xml.closeTag.over x2 := by
    have := hw2.isOpen
    generalize xml.closeTag.over x2 = z at this ⊢
    unfold Verif.Xml.Xml.closeTag
    rw [this]
    rfl
  refine ⟨_, Verif.Xml.run_at xml rfl hrun, parts ++ [.elem "g".toList (Verif.Ora.readAttrs [("transform".toList, T, true)]) (.elem n as K .nil) .nil], ?_, fun _ => hcl, by simp [hl], ?_⟩
  · rw [hcl, concat_snoc]
    exact hw2
  · intro j page hj
    by_cases hlt : j < pages.length
    · rw [List.getElem?_append_left hlt] at hj
      obtain ⟨as', G, h1, h2⟩ := hc j page hj
      exact ⟨as', G, by rw [List.getElem?_append_left (by omega)]; exact h1, h2⟩
    · have hj' : j = pages.length := by
        have := (List.getElem?_eq_some_iff.mp hj).1
        simp at this
        omega
      subst hj'
      simp at hj
      subst hj
      refine ⟨_, _, by rw [← hl, List.getElem?_concat_length], hdoc, ?_⟩
      rw [Verif.SvgDraw.readAttrs_clean hall]
      exact hread

theorem gridClose_ok (hn : Numbers fmt read) {rows cols : Nat} {w h : Rat} {xml : Xml} {pages : List Str} (hf : Filled fmt read rows cols w h xml pages) (new : List Out) :
    (pages = [] → gridClose xml pages.length new = .ok new) ∧
    (pages ≠ [] → ∃ doc, gridClose xml pages.length new = .ok (new ++ [.grid doc]) ∧ GridDoc read rows cols w h pages doc) := by
  constructor
  · rintro rfl
    rfl
  · intro hne
    obtain ⟨parts, hw, hcl, hl, hc⟩ := hf
    obtain ⟨-, h2⟩ := Verif.SvgDraw.svg_sets_ok hn (w * cols) (h * rows) none
    rw [hcl hne] at hw
    obtain ⟨y, hy, hp⟩ := hw.close (Verif.Xml.validName_of_decide (by decide))
    have hstr : y.toString = .ok y.chunks.flatten := by unfold Verif.Xml.Xml.toString; rw [if_pos (by rw [hp.stack]; rfl)]
    refine ⟨y.chunks.flatten, ?_, _, parts, hp.noCR, hp.reads, ?_, ?_, ?_, hl, hc⟩
    · unfold gridClose
      rw [if_pos (List.length_pos_of_ne_nil hne)]
      simp only [Verif.Xml.run, hy, hstr]
    · rw [Verif.SvgDraw.readAttrs_clean h2]
      exact hn.back _
    · rw [Verif.SvgDraw.readAttrs_clean h2]
      exact hn.back _
    · rw [Verif.SvgDraw.readAttrs_clean h2]
      rfl

/-- Documents for consecutive groups of `n` pages. -/
def Chunked (n : Nat) (D : List Str → Str → Prop) (pages docs : List Str) : Prop :=
  docs.length = (pages.length + n - 1) / n ∧ ∀ k doc, docs[k]? = some doc → D ((pages.drop (k * n)).take n) doc

theorem chunked_nil {n : Nat} (hn : 0 < n) (D : List Str → Str → Prop) : Chunked n D [] [] :=
  ⟨by simp; rw [Nat.div_eq_of_lt (by omega)], by simp⟩

theorem chunked_last {n : Nat} (hn : 0 < n) {D : List Str → Str → Prop} {pages : List Str} (h0 : pages ≠ []) (hl : pages.length ≤ n) {doc : Str} (hd : D pages doc) :
    Chunked n D pages [doc] := by
  have := List.length_pos_of_ne_nil h0
  refine ⟨?_, ?_⟩
  · rw [List.length_singleton]
    symm
    rw [Nat.div_eq_iff hn]
    constructor <;> omega
  · intro k d hk
    cases k with
    | succ k => simp at hk
    | zero =>
      simp at hk
      subst hk
      rw [Nat.zero_mul, List.drop_zero, List.take_of_length_le hl]
      exact hd

theorem chunked_cons {n : Nat} (hn : 0 < n) {D : List Str → Str → Prop} {pages rest docs : List Str} (hl : pages.length = n) {doc : Str} (hd : D pages doc)
    (hc : Chunked n D rest docs) : Chunked n D (pages ++ rest) (doc :: docs) := by
  obtain ⟨h1, h2⟩ := hc
  refine ⟨?_, ?_⟩
  · rw [List.length_cons, h1, List.length_append, hl, show n + rest.length + n - 1 = (rest.length + n - 1) + n by omega, Nat.add_div_right _ hn]
  · intro k d hk
    cases k with
    | zero =>
      simp at hk
      subst hk
      rw [Nat.zero_mul, List.drop_zero, ← hl, List.take_left]
      exact hd
    | succ k =>
      have := h2 k d (by simpa using hk)
      rw [show (k + 1) * n = pages.length + k * n by rw [hl]; ring, ← List.drop_drop, List.drop_left]
      exact this

theorem gridLoop_ok (hn : Numbers fmt read) {rows cols : Nat} (hpos : 0 < cols * rows) {w h : Rat} : ∀ {us : List (Sheet Str)}, (∀ u i s d, Sheet.page u i s d ∈ us → DocOk d) →
    ∀ {new : List Out} {xml : Xml} {cur : List Str}, cur.length ≤ cols * rows → Filled fmt read rows cols w h xml cur →
    ∃ rest, gridLoop fmt cols rows w h us new xml cur.length = .ok (new ++ rest) ∧ rest.filterMap Out.kept = us.filter Sheet.isPdf ∧
      Chunked (cols * rows) (GridDoc read rows cols w h) (cur ++ us.filterMap Sheet.doc) (rest.filterMap Out.doc)
  | [], _, new, xml, cur, hl, hf => by
    obtain ⟨h1, h2⟩ := gridClose_ok hn hf new
    by_cases h0 : cur = []
    · refine ⟨[], ?_, rfl, ?_⟩
      · rw [List.append_nil]
        exact h1 h0
      · subst h0
        exact chunked_nil hpos _
    · obtain ⟨doc, h3, h4⟩ := h2 h0
      refine ⟨[.grid doc], h3, rfl, ?_⟩
      rw [List.filterMap_nil, List.append_nil]
      exact chunked_last hpos h0 hl h4
  | .pdf u f :: us, hd, new, xml, cur, hl, hf => by
    obtain ⟨rest, h1, h2, h3⟩ := gridLoop_ok hn hpos (fun u i s d hm => hd u i s d (.tail _ hm)) (new := new ++ [.sheet (.pdf u f)]) hl hf
    refine ⟨.sheet (.pdf u f) :: rest, ?_, ?_, h3⟩
    · rw [gridLoop, h1, List.append_assoc]
      rfl
    · show Sheet.pdf u f :: rest.filterMap Out.kept = Sheet.pdf u f :: us.filter Sheet.isPdf
      rw [h2]
  | .page u i s d :: us, hd, new, xml, cur, hl, hf => by
    have hdoc := hd u i s d (by simp)
    have hd' := fun u i s d hm => hd u i s d (.tail _ hm)
    by_cases hc : cur.length = cols * rows
    · obtain ⟨doc, h3, h4⟩ := (gridClose_ok hn hf new).2 (by rintro rfl; rw [List.length_nil] at hc; omega)
      obtain ⟨x0, hx0, hf0⟩ := gridNew_ok hn rows cols w h
      obtain ⟨x1, hx1, hf1⟩ := gridCell_ok hn hf0 hdoc
      obtain ⟨rest, h5, h6, h7⟩ := gridLoop_ok hn hpos hd' (new := new ++ [.grid doc]) (cur := [d]) (by simp; omega) hf1
      refine ⟨.grid doc :: rest, ?_, h6, ?_⟩
      · rw [List.length_singleton, List.append_assoc] at h5
        rw [List.length_nil] at hx1
        simp only [gridLoop, if_pos hc, h3, hx0, hx1, h5]
        rfl
      · exact chunked_cons hpos hc h4 h7
    · obtain ⟨x1, hx1, hf1⟩ := gridCell_ok hn hf hdoc
      obtain ⟨rest, h5, h6, h7⟩ := gridLoop_ok hn hpos hd' (new := new) (by rw [List.length_append, List.length_singleton]; omega) hf1
      refine ⟨rest, ?_, h6, ?_⟩
      · rw [List.length_append, List.length_singleton] at h5
        simp only [gridLoop, if_neg hc, hx1, h5]
      · rw [List.append_assoc] at h7
        exact h7

end Verif.Book
