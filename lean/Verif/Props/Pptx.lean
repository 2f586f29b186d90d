import Verif.Spec.Pptx
import Verif.Props.Output

/-! # C118: `export_pptx` -/

namespace Verif.Book
open Spec
open Verif.Cache (World Fs Bytes Disk Op encode openFs after GoodHash SameBytes Correct copying bits_good)

theorem blankLayout_ok : ∀ {ls : List Str}, "Blank".toList ∈ ls → blankLayout ls = .ok "Blank".toList
  | l :: ls, h => by
    unfold blankLayout
    by_cases hl : l = "Blank".toList
    · rw [if_pos hl, hl]
    · rw [if_neg hl]
      exact blankLayout_ok ((List.mem_cons.mp h).resolve_left (fun e => hl e.symm))

theorem blankLayout_error : ∀ {ls : List Str}, "Blank".toList ∉ ls → ∃ msg, blankLayout ls = .error (.user msg)
  | [], _ => ⟨_, rfl⟩
  | l :: ls, h => by
    unfold blankLayout
    rw [if_neg (fun e => h (by rw [e]; exact List.mem_cons_self ..))]
    exact blankLayout_error (fun hm => h (.tail _ hm))

theorem addPictures_ok {w : World} {v : Str} {src : Str → Option Bytes} {s : Fs} {t : Template} {units : List Out} {files : List File}
    (h : List.Forall₂ (fun u f => readFile src s f = content w v src "png".toList u) units files) (hmake : ∀ u ∈ units, content w v src "png".toList u ≠ none) :
    ∃ slides, addPictures src s t "Blank".toList files = .ok slides ∧ List.Forall₂ (Shows w v src t) units slides := by
  induction h with
  | nil => exact ⟨[], rfl, .nil⟩
  | @cons u f us fs hu _ ih =>
    obtain ⟨slides, h1, h2⟩ := ih (fun u hu => hmake u (.tail _ hu))
    cases hc : content w v src "png".toList u with
    | none => exact absurd hc (hmake u (by simp))
    | some b =>
      refine ⟨⟨"Blank".toList, b, 0, 0, t.width, t.height⟩ :: slides, ?_, .cons ⟨rfl, hc.symm, ⟨rfl, rfl⟩, ⟨rfl, rfl⟩⟩ h2⟩
      unfold addPictures
      rw [hu, hc]
      dsimp only
      rw [h1]

/-- **C118, the part that holds**: as C117 for PNG. If the template has a blank layout, the presentation has one slide per page (or grid), in order, each with
the picture of its own page over the whole slide; and in the proportions of the page, if the slides of the template have them. Without a blank
layout, nothing is rendered. (Missing: proportions in general.) -/
theorem C118_pptx_partial {w : World} (hw : GoodHash w.digest) (hu : SameBytes w) (hm : ∀ v t d b, w.make v t d ≠ .fails (some b)) (disk : Disk) (v : Str)
    (hc : Correct w [v] (fun _ => False) disk) (hd : (disk.map (·.1)).Nodup) (ops : List Op)
    (hops : (∀ op ∈ ops, op.isPrune = false) ∨ ∀ n, "cache.".toList <+: n → disk.read n = none)
    (src : Str → Option Bytes) (dir : Str) (fmt : Rat → Str) (b : Book) (spp : Option (Nat × Nat)) (units : List Out)
    (hunits : renderUnits fmt b false spp = .ok units) (hmake : ∀ u ∈ units, content w v src "png".toList u ≠ none) (merger : Option Str) (prune : Bool) (t : Template) :
    if "Blank".toList ∈ t.layouts then
      ∃ slides, (exportPptx w src dir fmt (after w (openFs disk v) ops) t b merger spp prune).1 = .ok slides ∧ List.Forall₂ (Shows w v src t) units slides ∧
        (t.width * (sheetSize b spp).2 = t.height * (sheetSize b spp).1 → ∀ p ∈ slides, InProportion (sheetSize b spp) p)
    else ∃ msg, exportPptx w src dir fmt (after w (openFs disk v) ops) t b merger spp prune = (.error (.user msg), after w (openFs disk v) ops) := by
  split
  · rename_i hb
    obtain ⟨files, hf⟩ := C117_render_partial hw hu hm disk v hc hd ops hops src dir "png".toList [] fmt b spp units (by rw [decide_eq_false (by decide)]; exact hunits) hmake merger prune
    rw [show expected dir "png".toList [] merger files (units.filterMap (content w v src "png".toList)) = some (.files files) from if_pos (.inl (by decide))] at hf
    obtain ⟨h1, h2⟩ := hf
    obtain ⟨slides, h3, h4⟩ := addPictures_ok (t := t) h2 hmake
    refine ⟨slides, ?_, h4, ?_⟩
    · unfold exportPptx
      rw [blankLayout_ok hb]
      dsimp only
      rw [show renderOutput w src dir fmt (after w (openFs disk v) ops) b "png".toList merger [] spp prune =
        (.ok (.files files), (renderOutput w src dir fmt (after w (openFs disk v) ops) b "png".toList merger [] spp prune).2) from Prod.ext h1 rfl]
      exact h3
    · intro hp p hmem
      clear h3 h2 h1 hunits hmake
      induction h4 with
      | nil => cases hmem
      | cons hs _ ih =>
        rcases List.mem_cons.mp hmem with rfl | hmem
        · unfold InProportion
          rw [hs.cover.1, hs.cover.2]
          exact hp
        · exact ih hmem
  · rename_i hb
    obtain ⟨msg, hmsg⟩ := blankLayout_error hb
    refine ⟨msg, ?_⟩
    unfold exportPptx
    rw [hmsg]

/-- A deck with one empty slide. -/
def onePage (width height : Rat) : Book :=
  match run (newBook width height none .unique) [.newSlide .none none none] with | .ok b => b | .error _ => newBook 0 0 none .unique

/-- The size of the template that comes with the library. -/
def standard : Template := ⟨["Title Slide".toList, "Blank".toList], 9144000, 6858000⟩

/-- A deck in these proportions, in a new directory, with a world that copies documents. -/
example : ∃ units slides, renderUnits Verif.SvgDraw.sampleFmt (onePage 1024 768) false none = .ok units ∧ units ≠ [] ∧
    (exportPptx copying (fun _ => none) [] Verif.SvgDraw.sampleFmt (openFs [] "3".toList) standard (onePage 1024 768) none none true).1 = .ok slides ∧
    ∀ p ∈ slides, InProportion (1024, 768) p := by
  have e : ((renderUnits Verif.SvgDraw.sampleFmt (onePage 1024 768) false none).map List.length).toOption = some 1 := by decide +kernel
  cases hr : renderUnits Verif.SvgDraw.sampleFmt (onePage 1024 768) false none with
  | error e' => rw [hr] at e; cases e
  | ok units =>
    rw [hr] at e
    have hlen : units.length = 1 := by injection e
    have h4 := C118_pptx_partial (w := copying) bits_good (fun _ _ i i' h => by
      show Verif.Cache.Made.ok i.data = .ok i'.data
      rw [← Verif.Cache.bytesOf_data, ← Verif.Cache.bytesOf_data, h]) (by intro _ t d b hb; cases hb) [] "3".toList
      (by intro v _ i t b _ hb; cases hb) (by simp) [] (.inl (by simp)) (fun _ => none) [] Verif.SvgDraw.sampleFmt (onePage 1024 768) none units hr
      (by
        intro u hu
        have := renderUnits_pages hr u hu
        cases u with
        | grid doc => simp [content, copying]
        | sheet sh =>
          cases sh with
          | page => simp [content, copying]
          | pdf => cases this) none true standard
    rw [if_pos (by decide)] at h4
    obtain ⟨slides, h5, h6, h7⟩ := h4
    have hs : sheetSize (onePage 1024 768) none = (1024, 768) := by decide +kernel
    rw [hs] at h7
    exact ⟨units, slides, rfl, (by rintro rfl; cases hlen), h5, h7 (by decide +kernel)⟩

/-- **C118 is false of the code**: a page of 1600 × 900 is stretched to the slides of the standard template. -/
theorem C118_proportions_false : ¬ ∀ (w : World) (fmt : Rat → Str) (b : Book) (slides : List PSlide),
    (exportPptx w (fun _ => none) [] fmt (openFs [] "3".toList) standard b none none true).1 = .ok slides → ∀ p ∈ slides, InProportion (sheetSize b none) p := by
  intro h
  have h1 := h copying (fun _ => "1".toList) (onePage 1600 900)
  generalize hr : (exportPptx copying (fun _ => none) [] (fun _ => "1".toList) (openFs [] "3".toList) standard (onePage 1600 900) none none true).1 = r at h1
  have e1 : (r.map (·.map fun p => (p.width, p.height))).toOption = some [(9144000, 6858000)] := by rw [← hr]; decide +kernel
  cases r with
  | error e => cases e1
  | ok slides =>
    have h2 := h1 slides rfl
    have hs : sheetSize (onePage 1600 900) none = (1600, 900) := by decide +kernel
    rw [hs] at h2
    have e2 : slides.map (fun p => (p.width, p.height)) = [(9144000, 6858000)] := by injection e1
    cases slides with
    | nil => cases e2
    | cons p ps =>
      have h3 := h2 p (by simp)
      simp only [List.map_cons, List.cons.injEq, Prod.mk.injEq] at e2
      unfold InProportion at h3
      rw [e2.1.1, e2.1.2] at h3
      norm_num at h3

end Verif.Book
