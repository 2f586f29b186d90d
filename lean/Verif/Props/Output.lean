import Verif.Proofs.Output
import Verif.Props.Grid

/-! # C117: what `render` delivers -/

namespace Verif.Book
open Spec
open Verif.Cache (World Fs Bytes Disk Op encode fileName openFs after GoodHash SameBytes Correct removeUnused copying bits_good)

/-- Pruning keeps the files in use. -/
theorem prune_ok {w : World} {v : Str} {s : Fs} (h : Ready w v s) : (removeUnused s).1 = .done ∧ ∀ n, InUse s n → (removeUnused s).2.disk.read n = s.disk.read n := by
  obtain ⟨r1, r2⟩ := Verif.Cache.removeAll_ok (ns := s.cacheFiles.filter fun n => n ∉ s.touched) (d := s.disk) (h.nodup.filter _) (by
    intro n hn
    rcases h.present n (List.mem_filter.mp hn).1 with h | h
    · exact absurd h id
    · exact h)
  refine ⟨r1, fun n hn => ?_⟩
  refine (r2 n).trans (if_neg ?_)
  intro hx
  have := (List.mem_filter.mp hx).2
  simp [hn.2] at this

theorem deliver_ok {w : World} (hw : GoodHash w.digest) (hu : SameBytes w) (hm : ∀ v t d b, w.make v t d ≠ .fails (some b)) {s : Fs} {v : Str} (hready : Ready w v s)
    (src : Str → Option Bytes) (dir type output : Str) (units : List Out) (hmake : ∀ u ∈ units, content w v src type u ≠ none)
    (hpdf : ∀ u ∈ units, isPdf u = true → type = "pdf".toList) (merger : Option Str) (prune : Bool) :
    ∃ files, match expected dir type output merger files (units.filterMap (content w v src type)) with
      | some r => (deliver w src dir s units type merger output prune).1 = .ok r ∧
        List.Forall₂ (fun u f => readFile src (deliver w src dir s units type merger output prune).2 f = content w v src type u) units files
      | none => ∃ msg, (deliver w src dir s units type merger output prune).1 = .error (.user msg) := by
  have main : ∀ m : Merger, chooseMerger type merger = .ok m →
      ∃ files, (deliver w src dir s units type merger output prune).1 = .ok ((m.more files (units.filterMap (content w v src type))).write dir output) ∧
        List.Forall₂ (fun u f => readFile src (deliver w src dir s units type merger output prune).2 f = content w v src type u) units files := by
    intro m hsel
    obtain ⟨s', files, h1, h2, h3, -⟩ := exportAll_ok hw hu hm (src := src) (m := m) hready hmake hpdf
    obtain ⟨p1, p2⟩ := prune_ok h2
    have hdel : deliver w src dir s units type merger output prune =
        (.ok ((m.more files (units.filterMap (content w v src type))).write dir output), if prune then (removeUnused s').2 else s') := by
      unfold deliver
      rw [hsel]
      dsimp only
      rw [h1]
      dsimp only
      cases prune with
      | false => rfl
      | true =>
        rw [show removeUnused s' = (.done, (removeUnused s').2) from Prod.ext p1 rfl]
        rfl
    refine ⟨files, by rw [hdel], ?_⟩
    rw [hdel]
    clear hdel h1
    dsimp only
    induction h3 with
    | nil => exact .nil
    | @cons u f us fs hu' _ ih =>
      refine .cons ?_ (ih (fun u hu => hmake u (.tail _ hu)) (fun u hu => hpdf u (.tail _ hu)))
      have hr := hu'.read (src := src) h2 (hmake u (by simp))
      cases prune with
      | false => exact hr
      | true =>
        rw [← hr]
        cases f with
        | given g => rfl
        | cached n =>
          refine p2 n ?_
          cases u with
          | grid doc => obtain ⟨h4, h5⟩ := hu'; injection h4 with h4; rw [h4]; exact h5
          | sheet sh =>
            cases sh with
            | pdf _ g => cases hu'
            | page _ _ _ doc => obtain ⟨h4, h5⟩ := hu'; injection h4 with h4; rw [h4]; exact h5
  by_cases ht : type = "pdf".toList
  · cases merger with
    | none =>
      obtain ⟨files, h1, h2⟩ := main (.list []) (if_pos ht)
      refine ⟨files, ?_⟩
      rw [show expected dir type output none files (units.filterMap (content w v src type)) = some (.files files) from if_pos (.inr rfl)]
      exact ⟨h1, h2⟩
    | some n =>
      by_cases hn1 : n = "pypdf".toList
      · obtain ⟨files, h1, h2⟩ := main (.pypdf []) (by rw [chooseMerger, if_pos ht]; exact if_pos hn1)
        refine ⟨files, ?_⟩
        have e : expected dir type output (some n) files (units.filterMap (content w v src type)) = some (.written output (units.filterMap (content w v src type))) := by
          unfold expected
          rw [if_neg (by simp [ht]), if_pos (by rw [hn1])]
        rw [e]
        exact ⟨h1, h2⟩
      · by_cases hn2 : n = "pdfunite".toList
        · obtain ⟨files, h1, h2⟩ := main (.external ["pdfunite".toList, "INPUTS".toList, "OUTPUT".toList] []) (by
            rw [chooseMerger, if_pos ht]
            show getMerger n = _
            unfold getMerger
            rw [if_neg hn1, if_pos hn2])
          refine ⟨files, ?_⟩
          have e : expected dir type output (some n) files (units.filterMap (content w v src type)) = some (.called ("pdfunite".toList :: files.map (File.path dir) ++ [output])) := by
            unfold expected
            rw [if_neg (by simp [ht]), if_neg (by simpa using hn1), if_pos (by rw [hn2])]
          rw [e]
          refine ⟨?_, h2⟩
          rw [h1]
          have d1 : ("pdfunite".toList = "INPUTS".toList) = False := by decide
          have d2 : ("pdfunite".toList = "OUTPUT".toList) = False := by decide
          have d3 : ("OUTPUT".toList = "INPUTS".toList) = False := by decide
          simp [Merger.more, Merger.write, commandArgs]
        · refine ⟨[], ?_⟩
          have e : expected dir type output (some n) [] (units.filterMap (content w v src type)) = none := by
            unfold expected
            rw [if_neg (by simp [ht]), if_neg (by simpa using hn1), if_neg (by simpa using hn2)]
          rw [e]
          refine ⟨"Unknown pdfmerger", ?_⟩
          unfold deliver
          rw [chooseMerger, if_pos ht]
          simp only [getMerger, if_neg hn1, if_neg hn2]
  · obtain ⟨files, h1, h2⟩ := main (.list []) (if_neg ht)
    refine ⟨files, ?_⟩
    rw [show expected dir type output merger files (units.filterMap (content w v src type)) = some (.files files) from if_pos (.inl ht)]
    exact ⟨h1, h2⟩

/-! ### whole decks -/

theorem pagesFrom_pages {δ : Type} {make : Int → Except Err δ} {u i : Nat} : ∀ {n step : Nat} {ds : List (Sheet δ)}, pagesFrom make u i step n = .ok ds →
    ∀ v f, Sheet.pdf v f ∉ ds
  | 0, step, ds, h, v, f => by
    injection h with h
    subst h
    simp
  | n + 1, step, ds, h, v, f => by
    simp only [pagesFrom] at h
    split at h
    · cases h
    · split at h
      · cases h
      · rename_i ds' hds
        injection h with h
        subst h
        intro hm
        rcases List.mem_cons.mp hm with hm | hm
        · cases hm
        · exact pagesFrom_pages hds v f hm

theorem sheetsLoop_pages {δ : Type} {make : Verif.Scene.State → Verif.Layout.Env → Option Rect → Int → Except Err δ} {b : Book} :
    ∀ {es : List Verif.Deck.Entry} {ds : List (Sheet δ)}, sheetsLoop make b false es = .ok ds → ∀ v f, Sheet.pdf v f ∉ ds
  | [], ds, h, v, f => by
    injection h with h
    subst h
    simp
  | e :: es, ds, h, v, f => by
    simp only [sheetsLoop] at h
    split at h
    · cases h
    · rename_i d1 h1
      split at h
      · cases h
      · rename_i d2 h2
        injection h with h
        subst h
        intro hm
        rcases List.mem_append.mp hm with hm | hm
        · cases e with
          | pdf u g => simp [sheetsOf] at h1
          | slide u i n =>
            simp only [sheetsOf] at h1
            split at h1
            · cases h1
            · split at h1
              · cases h1
              · exact pagesFrom_pages h1 v f hm
        · exact sheetsLoop_pages h2 v f hm

theorem gridClose_pages {xml : Verif.Xml.Xml} {idx : Nat} {new outs : List Out} (h : gridClose xml idx new = .ok outs) (hn : ∀ u ∈ new, isPdf u = false) : ∀ u ∈ outs, isPdf u = false := by
  unfold gridClose at h
  split at h
  · split at h
    · cases h
    · split at h
      · cases h
      · injection h with h
        subst h
        intro u hu
        rcases List.mem_append.mp hu with hu | hu
        · exact hn u hu
        · rw [List.mem_singleton.mp hu]
          rfl
  · injection h with h
    subst h
    exact hn

theorem gridLoop_pages {fmt : Rat → Str} {cx cy : Nat} {w h : Rat} : ∀ {us : List (Sheet Str)} {new : List Out} {xml : Verif.Xml.Xml} {idx : Nat} {outs : List Out},
    gridLoop fmt cx cy w h us new xml idx = .ok outs → (∀ v f, Sheet.pdf v f ∉ us) → (∀ u ∈ new, isPdf u = false) → ∀ u ∈ outs, isPdf u = false
  | [], new, xml, idx, outs, ho, _, hn => gridClose_pages ho hn
  | .pdf v f :: us, new, xml, idx, outs, ho, hp, hn => absurd (List.mem_cons_self ..) (hp v f)
  | .page _ _ _ svg :: us, new, xml, idx, outs, ho, hp, hn => by
    have hp' : ∀ v f, Sheet.pdf v f ∉ us := fun v f hm => hp v f (.tail _ hm)
    simp only [gridLoop] at ho
    split at ho
    · split at ho
      · cases ho
      · rename_i new' hnew
        split at ho
        · cases ho
        · split at ho
          · cases ho
          · exact gridLoop_pages ho hp' (gridClose_pages hnew hn)
    · split at ho
      · cases ho
      · exact gridLoop_pages ho hp' hn

theorem renderUnits_pages {fmt : Rat → Str} {b : Book} {spp : Option (Nat × Nat)} {units : List Out} (h : renderUnits fmt b false spp = .ok units) : ∀ u ∈ units, isPdf u = false := by
  have single : ∀ sheets : List (Sheet Str), (∀ v f, Sheet.pdf v f ∉ sheets) → ∀ u ∈ sheets.map Out.sheet, isPdf u = false := by
    intro sheets hs u hu
    obtain ⟨x, hx, rfl⟩ := List.mem_map.mp hu
    cases x with
    | page => rfl
    | pdf v f => exact absurd hx (hs v f)
  unfold renderUnits at h
  split at h
  · cases h
  · rename_i sheets hs
    have hno : ∀ v f, Sheet.pdf v f ∉ sheets := by
      unfold renderSvg render at hs
      split at hs
      · cases hs
      · exact sheetsLoop_pages hs
    split at h
    · injection h with h
      subst h
      exact single sheets hno
    · unfold gridSheets at h
      split at h
      · cases h
      · split at h
        · cases h
        · split at h
          · injection h with h
            subst h
            exact single sheets hno
          · split at h
            · cases h
            · exact gridLoop_pages h hno (by simp)

/-- **C117, the part that holds**: `render` of any deck with Inkscape, after any requests in this session, if nothing was pruned in it yet or there were no
files of earlier sessions. `units` are the pages (C115) or the grids (C116). If Inkscape
can export them and the embedded PDFs are there, the result is as documented: every unit once and in order, each file (there afterwards, too) with
the export of its own document. (Missing: renders after one that has pruned old files.) -/
theorem C117_render_partial {w : World} (hw : GoodHash w.digest) (hu : SameBytes w) (hm : ∀ v t d b, w.make v t d ≠ .fails (some b)) (disk : Disk) (v : Str)
    (hc : Correct w [v] (fun _ => False) disk) (hd : (disk.map (·.1)).Nodup) (ops : List Op)
    (hops : (∀ op ∈ ops, op.isPrune = false) ∨ ∀ n, "cache.".toList <+: n → disk.read n = none)
    (src : Str → Option Bytes) (dir type output : Str) (fmt : Rat → Str) (b : Book) (spp : Option (Nat × Nat)) (units : List Out)
    (hunits : renderUnits fmt b (type = "pdf".toList) spp = .ok units) (hmake : ∀ u ∈ units, content w v src type u ≠ none) (merger : Option Str) (prune : Bool) :
    ∃ files, match expected dir type output merger files (units.filterMap (content w v src type)) with
      | some r => (renderOutput w src dir fmt (after w (openFs disk v) ops) b type merger output spp prune).1 = .ok r ∧
        List.Forall₂ (fun u f => readFile src (renderOutput w src dir fmt (after w (openFs disk v) ops) b type merger output spp prune).2 f = content w v src type u) units files
      | none => ∃ msg, (renderOutput w src dir fmt (after w (openFs disk v) ops) b type merger output spp prune).1 = .error (.user msg) := by
  have e : renderOutput w src dir fmt (after w (openFs disk v) ops) b type merger output spp prune = deliver w src dir (after w (openFs disk v) ops) units type merger output prune := by
    unfold renderOutput
    rw [hunits]
  rw [e]
  have hready : Ready w v (after w (openFs disk v) ops) := by
    rcases hops with hops | hops
    · exact ready_ops hw hu hm hops (ready_open hc hd)
    · refine ready_fresh hw hu hm (ready_open hc hd) ?_
      intro n hn
      obtain ⟨h1, h2⟩ := List.mem_filter.mp hn
      exact absurd (hops n (List.isPrefixOf_iff_prefix.mp h2)) ((Verif.Cache.read_isSome _ _).mpr h1)
  refine deliver_ok hw hu hm hready src dir type output units hmake ?_ merger prune
  intro u hmem hpdf
  by_cases ht : type = "pdf".toList
  · exact ht
  · rw [decide_eq_false ht] at hunits
    rw [renderUnits_pages hunits u hmem] at hpdf
    cases hpdf

/-- The deck of C115, two pages on a sheet, in a new directory: with a world that copies documents and a file for every name, the pages are written into one document. -/
example : ∃ units parts, renderUnits Verif.SvgDraw.sampleFmt exBook true (some (2, 1)) = .ok units ∧ units ≠ [] ∧
    (renderOutput copying (fun _ => some []) [] Verif.SvgDraw.sampleFmt (openFs [] "3".toList) exBook "pdf".toList (some "pypdf".toList) "a.pdf".toList (some (2, 1)) true).1 =
      .ok (.written "a.pdf".toList parts) := by
  obtain ⟨sheets, units, h1, h2, h2', -, h3, -⟩ := C116_deck Verif.SvgDraw.sampleNumbers (fun _ => (1, 0)) rfl 100 80 (some "red".toList) .unique exCalls exBook ex_run true
    (by rw [ex_slides]; simp) (fun _ _ _ => rfl) ex_drawn 1 2 (by decide) (by decide)
  obtain ⟨files, h4⟩ := C117_render_partial (w := copying) bits_good (fun _ _ i i' h => by
      show Verif.Cache.Made.ok i.data = .ok i'.data
      rw [← Verif.Cache.bytesOf_data, ← Verif.Cache.bytesOf_data, h]) (by intro _ t d b hb; cases hb) [] "3".toList
    (by intro v _ i t b _ hb; cases hb) (by simp) [] (.inl (by simp)) (fun _ => some []) [] "pdf".toList "a.pdf".toList Verif.SvgDraw.sampleFmt exBook (some (2, 1)) units h2
    (by
      intro u _
      cases u with
      | grid doc => simp [content, copying]
      | sheet sh => cases sh <;> simp [content, copying]) (some "pypdf".toList) true
  refine ⟨units, units.filterMap (content copying "3".toList (fun _ => some []) "pdf".toList), h2, ?_, h4.1⟩
  intro hnil
  have hp := (h3 (by decide)).pdfs
  rw [hnil] at hp
  obtain ⟨pages, -, hall⟩ := h2'.each
  have hmem : Verif.Deck.RUnit.pdf 1 "x.pdf".toList ∈ sheets.map Sheet.unit := (hall _).mpr ⟨.pdf 1 "x.pdf".toList, by rw [ex_slides]; simp, rfl⟩
  obtain ⟨x, hx, hxe⟩ := List.mem_map.mp hmem
  cases x with
  | page => cases hxe
  | pdf u f =>
    have : Sheet.pdf u f ∈ sheets.filter Sheet.isPdf := List.mem_filter.mpr ⟨hx, rfl⟩
    rw [← hp] at this
    cases this

/-- **C117 is false of the code**: if there is an old file in the cache, `render` of a deck with one empty slide succeeds, but the same call again raises. -/
theorem C117_again_false : ¬ ∀ (w : World) (disk : Disk) (v : Str) (fmt : Rat → Str) (b : Book) (r : Result),
    (renderOutput w (fun _ => none) [] fmt (openFs disk v) b "pdf".toList (some "pypdf".toList) "a.pdf".toList none true).1 = .ok r →
    (renderOutput w (fun _ => none) [] fmt (renderOutput w (fun _ => none) [] fmt (openFs disk v) b "pdf".toList (some "pypdf".toList) "a.pdf".toList none true).2
      b "pdf".toList (some "pypdf".toList) "a.pdf".toList none true).1 = .ok r := by
  intro h
  let b : Book := match run (newBook 10 10 none .unique) [.newSlide .none none none] with | .ok b => b | .error _ => newBook 0 0 none .unique
  have h1 := h copying [("cache.old".toList, [])] "3".toList (fun _ => "1".toList) b
  generalize hr : (renderOutput copying (fun _ => none) [] (fun _ => "1".toList) (openFs [("cache.old".toList, [])] "3".toList) b "pdf".toList (some "pypdf".toList) "a.pdf".toList none true) = r at h1
  have e1 : r.1.isOk = true := by rw [← hr]; decide +kernel
  have e2 : (renderOutput copying (fun _ => none) [] (fun _ => "1".toList) r.2 b "pdf".toList (some "pypdf".toList) "a.pdf".toList none true).1.isOk = false := by
    rw [← hr]; decide +kernel
  cases hx : r.1 with
  | error e => rw [hx] at e1; cases e1
  | ok x =>
    have := h1 x hx
    rw [this] at e2
    cases e2

end Verif.Book
