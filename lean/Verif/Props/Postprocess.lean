import Verif.Model.Postprocess
import Verif.Props.Book
import Verif.Props.Independent
import Verif.Props.Calls
import Verif.Props.WholeSlide

/-! # Property C137: postprocessing of slides -/

namespace Verif.Book
open Verif.Book.Spec
open Verif.Scene.Spec
open Verif.Deck (Deck Entry Name Policy RUnit)
open Verif.Slide.Spec (OnPage ItemOf Level Walk Under Pages)
open Verif.SvgDraw.Spec (Numbers readShape meant)

namespace Spec

/-- What is called on the slide at place `k` of `total` slides: what was called before, then what the function calls. (The next box has the number of things made
before, plus 1.) -/
def extended (bg : Option Str) (cs : List Call) (f : Nat → Nat → Nat → List Verif.Scene.Call) (total k u : Nat) : List Verif.Scene.Call :=
  historyOf bg cs u ++ f k total ((things (historyOf bg cs u)).length + 1)

end Spec

/-! ### lemmas -/

theorem run_append {b b1 b2 : Book} {cs ds : List Call} (h1 : run b cs = .ok b1) (h2 : run b1 ds = .ok b2) : run b (cs ++ ds) = .ok b2 := by
  induction cs generalizing b with
  | nil => injection h1 with h1; subst h1; exact h2
  | cons c cs ih =>
    simp only [List.cons_append, run] at h1 ⊢
    split at h1
    · cases h1
    · rename_i b3 h3
      exact ih h1

theorem scene_prefix {s : Verif.Scene.State} : ∀ {t : Verif.Scene.State} {cs ds : List Verif.Scene.Call}, Verif.Scene.run s (cs ++ ds) = .ok t →
    ∃ s1, Verif.Scene.run s cs = .ok s1 ∧ Verif.Scene.run s1 ds = .ok t := by
  intro t cs
  induction cs generalizing s with
  | nil => intro ds h; exact ⟨s, rfl, h⟩
  | cons c cs ih =>
    intro ds h
    simp only [List.cons_append, Verif.Scene.run] at h ⊢
    split at h
    · cases h
    · rename_i s1 h1
      obtain ⟨s2, h2, h3⟩ := ih h
      exact ⟨s2, h2, h3⟩

/-- Calls on slides succeed if they do on each slide. -/
theorem run_ons {w h : Rat} {bg : Option Str} {policy : Policy} {l : List Call} : ∀ {cs : List Call} {b : Book}, Kept w h bg policy cs b →
    (∀ c ∈ l, ∃ u d, c = .on u d ∧ ∃ n c vb, (made cs)[u]? = some (.newSlide n c vb)) →
    (∀ u, (∃ d, Call.on u d ∈ l) → ∃ s, Verif.Scene.run (Verif.Scene.newScene w h) (historyOf bg (cs ++ l) u) = .ok s) →
    ∃ b', run b l = .ok b' ∧ b'.deck = b.deck := by
  induction l with
  | nil => intro cs b _ _ _; exact ⟨b, rfl, rfl⟩
  | cons c l ih =>
    intro cs b hk hon hrun
    obtain ⟨v, d, rfl, n, c, vb, hv⟩ := hon c List.mem_cons_self
    obtain ⟨s, hs1, hs2⟩ := hk.scenes v n c vb hv
    obtain ⟨t, ht⟩ := hrun v ⟨d, List.mem_cons_self⟩
    have happ : cs ++ Call.on v d :: l = (cs ++ [Call.on v d]) ++ l := by simp
    have hh : ∃ rest, historyOf bg (cs ++ Call.on v d :: l) v = (historyOf bg cs v ++ [d]) ++ rest := by
      refine ⟨l.filterMap (onSlide v), ?_⟩
      have hm : made (cs ++ Call.on v d :: l) = made cs := by
        have : l.filter makes = [] := by
          rw [List.filter_eq_nil_iff]
          intro a ha
          obtain ⟨u', d', rfl, -⟩ := hon a (List.mem_cons_of_mem _ ha)
          simp [makes]
        simp [made, makes, this]
      unfold historyOf
      rw [hm]
      simp [onSlide]
    obtain ⟨rest, hh⟩ := hh
    rw [hh] at ht
    obtain ⟨s1, h1, -⟩ := scene_prefix ht
    obtain ⟨s2, h2, h3⟩ := scene_prefix h1
    rw [hs1] at h2
    injection h2 with h2; subst h2
    have hex : (Verif.Scene.exec s d).2 = none := by
      simp only [Verif.Scene.run] at h3
      split at h3
      · cases h3
      · rename_i s3 h4; rw [h4]
    have he : exec b (.on v d) = ({ b with scenes := setScene v (Verif.Scene.exec s d).1 b.scenes }, none) := by
      simp only [exec, hs2, hex]
    obtain ⟨b', hb1, hb2⟩ := ih (kept_exec hk he) (fun a ha => by
        obtain ⟨u', d', rfl, n', c', vb', hu⟩ := hon a (List.mem_cons_of_mem _ ha)
        exact ⟨u', d', rfl, n', c', vb', by rw [made_snoc_on]; exact hu⟩) (fun u ⟨d', hd'⟩ => by
        rw [← happ]; exact hrun u ⟨d', List.mem_cons_of_mem _ hd'⟩)
    refine ⟨b', ?_, hb2⟩
    simp only [run, he]
    exact hb1

theorem rootBoxes_ok : ∀ {es : List Entry}, (∀ u f, Entry.pdf u f ∉ es) → ∃ us, rootBoxes es = .ok us ∧ us = es.map Entry.uid
  | [], _ => ⟨[], rfl, rfl⟩
  | .pdf u f :: es, h => absurd List.mem_cons_self (h u f)
  | .slide u i n :: es, h => by
    obtain ⟨us, h1, h2⟩ := rootBoxes_ok (es := es) (fun u f hm => h u f (List.mem_cons_of_mem _ hm))
    exact ⟨u :: us, by simp only [rootBoxes, h1], by rw [h2]; rfl⟩

theorem filterMap_on (u : Nat) (v : Nat) (l : List Verif.Scene.Call) : (l.map (Call.on v)).filterMap (onSlide u) = if v = u then l else [] := by
  by_cases h : v = u
  · rw [if_pos h]
    induction l with
    | nil => rfl
    | cons a l ih => simp only [List.map_cons, List.filterMap_cons, onSlide, h, if_true]; rw [← h] at ih ⊢; simpa [h] using ih
  · rw [if_neg h]
    induction l with
    | nil => rfl
    | cons a l ih => simp only [List.map_cons, List.filterMap_cons, onSlide, if_neg h]; exact ih

theorem flatMap_on {g : Nat × Nat → List Verif.Scene.Call} {u : Nat} : ∀ {l : List (Nat × Nat)}, (l.map (·.1)).Nodup → ∀ k, (u, k) ∈ l →
    (l.flatMap fun p => (g p).map (Call.on p.1)).filterMap (onSlide u) = g (u, k)
  | [], _, _, hm => by cases hm
  | (v, j) :: l, hnd, k, hm => by
    simp only [List.map_cons, List.nodup_cons] at hnd
    rw [List.flatMap_cons, List.filterMap_append, filterMap_on]
    have none : ∀ {l : List (Nat × Nat)}, u ∉ l.map (·.1) → (l.flatMap fun p => (g p).map (Call.on p.1)).filterMap (onSlide u) = [] := by
      intro l
      induction l with
      | nil => intro _; rfl
      | cons a l ih =>
        intro ha
        simp only [List.map_cons, List.mem_cons, not_or] at ha
        rw [List.flatMap_cons, List.filterMap_append, filterMap_on, if_neg (Ne.symm ha.1), ih ha.2]
        rfl
    rcases List.mem_cons.mp hm with hm | hm
    · injection hm with h1 h2
      subst h1 h2
      rw [if_pos rfl, none hnd.1, List.append_nil]
    · have hne : v ≠ u := by
        rintro rfl
        exact hnd.1 (List.mem_map.mpr ⟨_, hm, rfl⟩)
      rw [if_neg hne, List.nil_append]
      exact flatMap_on hnd.2 k hm

/-- What the function does to the deck. -/
theorem post_ready {w h : Rat} {bg : Option Str} {policy : Policy} {cs : List Call} {b : Book} (hr : run (newBook w h bg policy) cs = .ok b)
    (hp : ∀ u g, Entry.pdf u g ∉ b.deck.slides) (f : Nat → Nat → Nat → List Verif.Scene.Call)
    (hf : ∀ k u i n, b.deck.slides[k]? = some (Entry.slide u i n) →
      ∃ s, Verif.Scene.run (Verif.Scene.newScene w h) (extended bg cs f b.deck.slides.length k u) = .ok s) :
    ∃ us b' cs', rootBoxes b.deck.slides = .ok us ∧ run b (each f b us) = .ok b' ∧ run (newBook w h bg policy) cs' = .ok b' ∧ b'.deck = b.deck ∧
      ∀ k u i n, b.deck.slides[k]? = some (Entry.slide u i n) → historyOf bg cs' u = extended bg cs f b.deck.slides.length k u ∧ viewBoxOf cs' u = viewBoxOf cs u := by
  have hk := kept_run (kept_new w h bg policy) hr
  rw [List.nil_append] at hk
  obtain ⟨us, hus, hmap⟩ := rootBoxes_ok hp
  have hnd : us.Nodup := by
    rw [hmap, hk.deck]
    exact (Verif.Deck.history_inv policy _).1.uids
  have hlen : us.length = b.deck.slides.length := by rw [hmap, List.length_map]
  have hnd' : ((us.zipIdx).map (·.1)).Nodup := by
    have : us.zipIdx.map (·.1) = us := by simp
    rw [this]; exact hnd
  have hent : ∀ k u : Nat, us[k]? = some u → ∃ (i : Nat) (n : Name), b.deck.slides[k]? = some (Entry.slide u i n) := by
    intro k u hu
    rw [hmap, List.getElem?_map] at hu
    cases he : b.deck.slides[k]? with
    | none => rw [he] at hu; cases hu
    | some e =>
      rw [he] at hu
      cases e with
      | slide v i n =>
        simp only [Option.map_some, Option.some.injEq, Entry.uid] at hu
        subst hu
        exact ⟨i, n, rfl⟩
      | pdf v g => exact absurd (List.mem_of_getElem? he) (hp v g)
  have hnext : ∀ (k u i : Nat) (n : Name), b.deck.slides[k]? = some (Entry.slide u i n) → nextOf b u = (things (historyOf bg cs u)).length + 1 := by
    intro k u i n he
    obtain ⟨c, vb, h1⟩ := hk.entries u i n (List.mem_of_getElem? he)
    obtain ⟨s, h2, h3⟩ := hk.scenes u n c vb h1
    obtain ⟨-, hkept⟩ := Verif.Scene.kept_run (Verif.Scene.kept_new w h) h2
    have := hkept.next
    rw [List.nil_append] at this
    simp only [nextOf, h3, this]
  have hmade : made (cs ++ each f b us) = made cs := by
    have : (each f b us).filter makes = [] := by
      rw [List.filter_eq_nil_iff]
      intro a ha
      simp only [each, List.mem_flatMap, List.mem_map] at ha
      obtain ⟨p, -, d, -, rfl⟩ := ha
      simp [makes]
    unfold made
    rw [List.filter_append, this, List.append_nil]
  have hhist : ∀ (k u i : Nat) (n : Name), b.deck.slides[k]? = some (Entry.slide u i n) → historyOf bg (cs ++ each f b us) u = extended bg cs f b.deck.slides.length k u := by
    intro k u i n he
    have hu : us[k]? = some u := by rw [hmap, List.getElem?_map, he]; rfl
    have hm : (u, k) ∈ us.zipIdx := by rw [List.mem_zipIdx_iff_getElem?]; exact hu
    have h1 : (each f b us).filterMap (onSlide u) = f k us.length (nextOf b u) :=
      flatMap_on (g := fun p => f p.2 us.length (nextOf b p.1)) hnd' k hm
    unfold extended
    unfold historyOf
    rw [hmade, List.filterMap_append, h1, hnext k u i n he, hlen, ← List.append_assoc]
    rfl
  have hmem : ∀ c ∈ each f b us, ∃ u d, c = .on u d ∧ ∃ k : Nat, us[k]? = some u := by
    intro c hc
    simp only [each, List.mem_flatMap, List.mem_map] at hc
    obtain ⟨⟨u, k⟩, hp', d, -, rfl⟩ := hc
    exact ⟨u, d, rfl, k, by rw [List.mem_zipIdx_iff_getElem?] at hp'; exact hp'⟩
  obtain ⟨b', hb1, hb2⟩ := run_ons (l := each f b us) hk (fun c hc => by
      obtain ⟨u, d, rfl, k, hu⟩ := hmem c hc
      obtain ⟨i, n, he⟩ := hent k u hu
      obtain ⟨c', vb, h1⟩ := hk.entries u i n (List.mem_of_getElem? he)
      exact ⟨u, d, rfl, n, c', vb, h1⟩) (fun u ⟨d, hd⟩ => by
      obtain ⟨u', d', he, k, hu⟩ := hmem _ hd
      injection he with he1 he2
      subst he1
      obtain ⟨i, n, he⟩ := hent k u hu
      rw [hhist k u i n he]
      exact hf k u i n he)
  refine ⟨us, b', cs ++ each f b us, hus, hb1, run_append hr hb1, hb2, fun k u i n he => ⟨hhist k u i n he, ?_⟩⟩
  unfold viewBoxOf
  rw [hmade]

theorem renderWith_ok {δ : Type} {make : Verif.Scene.State → Verif.Layout.Env → Option Rect → Int → Except Err δ} {b b' : Book} {pdf : Bool}
    {post : Book → List Nat → List Call} {us : List Nat} {sheets : List (Sheet δ)} (hne : b.deck.slides ≠ []) (h1 : rootBoxes b.deck.slides = .ok us)
    (h2 : run b (post b us) = .ok b') (h3 : render make b' pdf = .ok sheets) : renderWith make b pdf post = .ok (b', sheets) := by
  unfold render at h3
  split at h3
  · cases h3
  · unfold renderWith
    rw [if_neg hne, h1]
    simp only [h2, h3]

/-- Where a page comes from. -/
theorem page_entry {δ : Type} {bg : Option Str} {cs : List Call} {slides : List Entry} {sheets : List (Sheet δ)} (hc : Complete bg cs slides sheets) {u i step : Nat} {d : δ}
    (hm : Sheet.page u i step d ∈ sheets) : ∃ (k : Nat) (n : Name), slides[k]? = some (Entry.slide u i n) := by
  obtain ⟨⟨pages, -, hiff⟩, -, -⟩ := hc
  obtain ⟨e, he, hs⟩ := (hiff (.svg u i step)).mp (List.mem_map.mpr ⟨_, hm, rfl⟩)
  cases e with
  | slide v j n =>
    obtain ⟨s, -, -, h3⟩ := hs
    injection h3 with h4 h5 h6
    subst h4 h5
    obtain ⟨k, hk⟩ := List.getElem?_of_mem he
    exact ⟨k, n, hk⟩
  | pdf v g => cases hs

/-! ### C137 -/

/-- **C137 is false of the code** for decks with PDFs: a deck with a slide and a PDF is rendered, but not with a function that does nothing. -/
theorem C137_postprocessing_false : ¬ ∀ (w h : Rat) (policy : Policy) (cs : List Call) (b : Book) (fmt : Rat → Str), run (newBook w h none policy) cs = .ok b →
    (∃ sheets, renderSvg fmt b true = .ok sheets) →
    ∃ b' sheets, renderWith (fun s env vb step => Verif.Scene.svgPage fmt s env b.width b.height vb step) b true (fun _ _ => []) = .ok (b', sheets) := by
  intro hall
  have h1 : ∃ b, run (newBook 100 100 none .ignore) [.newSlide .none none none, .addPdf "a.pdf".toList] = .ok b ∧
      b.deck.slides = [.slide 0 0 .none, .pdf 1 "a.pdf".toList] := by
    refine ⟨_, rfl, rfl⟩
  obtain ⟨b, hb, hs⟩ := h1
  obtain ⟨b', sheets, h2⟩ := hall 100 100 .ignore _ b (fun _ => []) hb (by
    obtain ⟨rfl⟩ : _ = b := by injection hb
    exact ⟨_, rfl⟩)
  unfold renderWith at h2
  rw [hs] at h2
  simp [rootBoxes] at h2

/-- **C137, what holds (SVG).** For decks without PDFs: the slides and their order stay; every page of the slide at place `k` shows what was drawn on it before and then
what the function draws on the box at place `k` of its list, with the pages that both together need; the lists are as long as the deck. -/
theorem C137_svg_partial {fmt : Rat → Str} {read : Str → Option Rat} (hn : Numbers fmt read) (ang : Rat → Rat × Rat) (h0 : ang 0 = (1, 0))
    (w h : Rat) (bg : Option Str) (policy : Policy) (cs : List Call) (b : Book) (hr : run (newBook w h bg policy) cs = .ok b) (pdf : Bool)
    (hne : b.deck.slides ≠ []) (hp : ∀ u g, Entry.pdf u g ∉ b.deck.slides) (f : Nat → Nat → Nat → List Verif.Scene.Call)
    (hd : ∀ k u i n, b.deck.slides[k]? = some (Entry.slide u i n) → ∃ s env, Verif.Scene.run (Verif.Scene.newScene w h) (extended bg cs f b.deck.slides.length k u) = .ok s ∧
      s.slide.rects w h = .ok env ∧ ∀ (j step p : Nat) d, 1 ≤ step → (things (extended bg cs f b.deck.slides.length k u))[j]? = some (.draw p d) →
        OnPage ((things (extended bg cs f b.deck.slides.length k u)).map outline) step p → Drawable env step p d) :
    ∃ b' sheets cs', renderWith (fun s env vb step => Verif.Scene.svgPage fmt s env b.width b.height vb step) b pdf (each f) = .ok (b', sheets) ∧ b'.deck = b.deck ∧
      (∀ k u i n, b.deck.slides[k]? = some (Entry.slide u i n) → historyOf bg cs' u = extended bg cs f b.deck.slides.length k u) ∧ Complete bg cs' b.deck.slides sheets ∧
      ∀ u i step doc, Sheet.page u i step doc ∈ sheets → ∃ k n s env l, b.deck.slides[k]? = some (Entry.slide u i n) ∧
        Verif.Scene.run (Verif.Scene.newScene w h) (extended bg cs f b.deck.slides.length k u) = .ok s ∧
        s.slide.rects w h = .ok env ∧ InOrder (things (extended bg cs f b.deck.slides.length k u)) step l ∧
        SvgPage read ang env step (things (extended bg cs f b.deck.slides.length k u)) w h (viewBoxOf cs u) l doc := by
  obtain ⟨us, b', cs', h1, h2, h3, h4, h5⟩ := post_ready hr hp f (fun k u i n he => by obtain ⟨s, -, hs, -⟩ := hd k u i n he; exact ⟨s, hs⟩)
  obtain ⟨hbw, hbh⟩ := run_size hr
  obtain ⟨hbw', hbh'⟩ := run_size h3
  obtain ⟨-, sheets, h6, h7, h8⟩ := C115_svg hn ang h0 w h bg policy cs' b' h3 pdf (by rw [h4]; exact hne)
    (fun u g hm => absurd (h4 ▸ hm) (hp u g)) (by
      intro u i n hm s hs
      rw [h4] at hm
      obtain ⟨k, hk⟩ := List.getElem?_of_mem hm
      rw [(h5 k u i n hk).1] at hs ⊢
      obtain ⟨s', env, hs', henv, hdr⟩ := hd k u i n hk
      rw [hs] at hs'
      injection hs' with hs'; subst hs'
      exact ⟨env, henv, hdr⟩)
  rw [h4] at h7
  unfold renderSvg at h6
  rw [hbw', hbh'] at h6
  rw [hbw, hbh]
  refine ⟨b', sheets, cs', renderWith_ok hne h1 h2 h6, h4, fun k u i n he => (h5 k u i n he).1, h7, ?_⟩
  intro u i step doc hm
  obtain ⟨s, env, l, g1, g2, g3, g4⟩ := h8 u i step doc hm
  obtain ⟨k, n, hk⟩ := page_entry h7 hm
  rw [(h5 k u i n hk).1] at g1 g3 g4
  rw [(h5 k u i n hk).2] at g4
  exact ⟨k, n, s, env, l, hk, g1, g2, g3, g4⟩

/-- **C137, what holds (Cairo).** The same with Cairo, within the part of C112 that holds. -/
theorem C137_cairo_partial (x : Verif.Scene.Ext) (hkn : x.known "none".toList = false) (h0 : x.ang 0 = (1, 0))
    (w h : Rat) (hw : 0 < w) (hh : 0 < h) (bg : Option Str) (policy : Policy) (cs : List Call) (b : Book) (hr : run (newBook w h bg policy) cs = .ok b) (png : Bool)
    (hne : b.deck.slides ≠ []) (hp : ∀ u g, Entry.pdf u g ∉ b.deck.slides) (f : Nat → Nat → Nat → List Verif.Scene.Call)
    (hd : ∀ k u i n, b.deck.slides[k]? = some (Entry.slide u i n) → (∀ v, viewBoxOf cs u = some v → 0 < v.width ∧ 0 < v.height) ∧
      ∃ s env, Verif.Scene.run (Verif.Scene.newScene w h) (extended bg cs f b.deck.slides.length k u) = .ok s ∧ s.slide.rects w h = .ok env ∧
      ∀ step : Nat, 1 ≤ step → (∀ l, InOrder (things (extended bg cs f b.deck.slides.length k u)) step l → Smooth (things (extended bg cs f b.deck.slides.length k u)) l) ∧
        ∀ (j p : Nat) d, (things (extended bg cs f b.deck.slides.length k u))[j]? = some (.draw p d) →
        OnPage ((things (extended bg cs f b.deck.slides.length k u)).map outline) step p → Paintable x (viewBoxOf cs u) env step p d) :
    ∃ b' sheets cs', renderWith (fun s env vb step => Verif.Scene.cairoPage x png s env b.width b.height vb step) b (!png) (each f) = .ok (b', sheets) ∧ b'.deck = b.deck ∧
      (∀ k u i n, b.deck.slides[k]? = some (Entry.slide u i n) → historyOf bg cs' u = extended bg cs f b.deck.slides.length k u) ∧ Complete bg cs' b.deck.slides sheets ∧
      ∀ u i step ps, Sheet.page u i step ps ∈ sheets → ∃ k n s env l, b.deck.slides[k]? = some (Entry.slide u i n) ∧
        Verif.Scene.run (Verif.Scene.newScene w h) (extended bg cs f b.deck.slides.length k u) = .ok s ∧
        s.slide.rects w h = .ok env ∧ InOrder (things (extended bg cs f b.deck.slides.length k u)) step l ∧
        PageOf x (onPaper png w h (viewBoxOf cs u)) (zoomOf w h (viewBoxOf cs u)) env step (things (extended bg cs f b.deck.slides.length k u)) l ps := by
  obtain ⟨us, b', cs', h1, h2, h3, h4, h5⟩ := post_ready hr hp f (fun k u i n he => by obtain ⟨-, s, -, hs, -⟩ := hd k u i n he; exact ⟨s, hs⟩)
  obtain ⟨hbw, hbh⟩ := run_size hr
  obtain ⟨hbw', hbh'⟩ := run_size h3
  obtain ⟨-, sheets, h6, h7, h8⟩ := C115_cairo x hkn h0 w h hw hh bg policy cs' b' h3 png (by rw [h4]; exact hne)
    (fun u g hm => absurd (h4 ▸ hm) (hp u g)) (by
      intro u i n hm
      rw [h4] at hm
      obtain ⟨k, hk⟩ := List.getElem?_of_mem hm
      obtain ⟨hv, s', env, hs', henv, hdr⟩ := hd k u i n hk
      rw [(h5 k u i n hk).1, (h5 k u i n hk).2]
      refine ⟨hv, fun s hs => ?_⟩
      rw [hs] at hs'
      injection hs' with hs'; subst hs'
      exact ⟨env, henv, hdr⟩)
  rw [h4] at h7
  unfold renderCairo at h6
  rw [hbw', hbh'] at h6
  rw [hbw, hbh]
  refine ⟨b', sheets, cs', renderWith_ok hne h1 h2 h6, h4, fun k u i n he => (h5 k u i n he).1, h7, ?_⟩
  intro u i step ps hm
  obtain ⟨s, env, l, g1, g2, g3, g4⟩ := h8 u i step ps hm
  obtain ⟨k, n, hk⟩ := page_entry h7 hm
  rw [(h5 k u i n hk).1] at g1 g3 g4
  rw [(h5 k u i n hk).2] at g4
  exact ⟨k, n, s, env, l, hk, g1, g2, g3, g4⟩

/-- **C137, the page numbers of the cookbook** ("Slide numbering"). If the calls succeed on a slide: the slide has as many pages as before; everything that was on a page
before is still there, and the box with the number is on every page, 90% of the width and of the height of the page from its corner, at least 70 × 45 large;
every other box is where it would be without the number. -/
theorem C137_numbering (w h : Rat) (style : Verif.Style.TextStyle) (styles : Str → Option Verif.Style.TextStyle) (width : Str → Rat) (i total : Nat)
    (cs : List Verif.Scene.Call) (t : Verif.Scene.State)
    (ht : Verif.Scene.run (Verif.Scene.newScene w h) (cs ++ pageNumber style styles width i total ((things cs).length + 1)) = .ok t) :
    let ts := (things cs).map outline
    let ts' := (things (cs ++ pageNumber style styles width i total ((things cs).length + 1))).map outline
    ∃ s, Verif.Scene.run (Verif.Scene.newScene w h) cs = .ok s ∧ t.slide.steps = s.slide.steps ∧ ts <+: ts' ∧
      (∀ n p, OnPage ts n p → OnPage ts' n p) ∧ (∀ n : Int, 1 ≤ n → OnPage ts' n (ts.length + 1)) ∧
      ∀ env env', s.slide.rects w h = .ok env → t.slide.rects w h = .ok env' →
        (∀ v, s.slide.tree.has v = true → env' v = env v) ∧
        ∃ r, env' (ts.length + 1) = some r ∧ r.x = w * (9 / 10) ∧ r.y = h * (9 / 10) ∧ 70 ≤ r.width ∧ 45 ≤ r.height := by
  intro ts ts'
  obtain ⟨s, hs, hst⟩ := scene_prefix ht
  obtain ⟨h1, hk⟩ := Verif.Scene.kept_run (Verif.Scene.kept_new w h) hs
  obtain ⟨h2, -⟩ := Verif.Scene.kept_run hk hst
  obtain ⟨h3, -⟩ := Verif.Scene.kept_run (Verif.Scene.kept_new w h) ht
  rw [List.nil_append] at hk
  have hnext := hk.next
  have hlen : ts.length = (things cs).length := List.length_map ..
  have hts : ts' = ts ++ (things (pageNumber style styles width i total ((things cs).length + 1))).map outline := by
    simp only [ts, ts', things, List.filter_append, List.map_append]
  obtain ⟨c, y, z, hpn, hc1, hc2, hy, hz⟩ : ∃ (c : Verif.Slide.BoxCall) (y z : Verif.Slide.Call), (things (pageNumber style styles width i total ((things cs).length + 1))).map outline = [.box 0 c, y, z] ∧
      c.show_ = .none ∧ c.layout = { x := .str "90%".toList, y := .str "90%".toList, width := .num 70, height := .num 45 } ∧
      (∃ p, y = .shape p ∧ p = s.slide.next) ∧ ∃ p a b f, z = .text p a b f ∧ p = s.slide.next := by
    refine ⟨_, _, _, rfl, rfl, rfl, ⟨_, rfl, hnext.symm⟩, ⟨_, _, _, _, rfl, hnext.symm⟩⟩
  rw [hpn] at h2 hts
  have hrs : Verif.Slide.run (Verif.Slide.newSlide w h) ts = .ok s.slide := h1
  have hreach : Verif.Slide.Reachable s.slide := ⟨w, h, _, hrs⟩
  obtain ⟨hi, hp, -⟩ := Verif.Slide.run_pages (cs := []) hrs (Verif.Slide.newSlide_inv w h) Pages.new
  rw [List.nil_append] at hp
  have hone := hi.one_le
  obtain ⟨-, hp', -⟩ := Verif.Slide.run_pages h2 hi hp
  have hmen : ∀ n, Verif.Slide.Spec.CallMentions s.slide.maxStep (.box 0 c) n ↔ n = 1 := by
    intro n; simp only [Verif.Slide.Spec.CallMentions, hc1, Verif.Slide.Spec.Mentions]
  have hsame : t.slide.maxStep = s.slide.maxStep := by
    have g1 : Pages (ts ++ [.box 0 c]) s.slide.maxStep := .call hp ⟨.inl rfl, fun n hn => by
      rcases hn with hn | hn
      · exact le_of_eq hn
      · rw [hmen] at hn; omega⟩
    have g2 : Pages (ts ++ [.box 0 c] ++ [y]) s.slide.maxStep := .call g1 ⟨.inl rfl, fun n hn => by
      obtain ⟨p, rfl, -⟩ := hy
      rcases hn with hn | hn
      · exact le_of_eq hn
      · exact hn.elim⟩
    have g3 : Pages (ts ++ [.box 0 c] ++ [y] ++ [z]) s.slide.maxStep := .call g2 ⟨.inl rfl, fun n hn => by
      obtain ⟨p, a, b, f, rfl, -⟩ := hz
      rcases hn with hn | hn
      · exact le_of_eq hn
      · exact hn.elim⟩
    refine Verif.Slide.pages_unique hp' ?_
    simpa using g3
  have hat : ts'[ts.length]? = some (.box 0 c) := by rw [hts]; simp
  refine ⟨s, hs, ?_, ⟨_, hts.symm⟩, ?_, ?_, ?_⟩
  · rw [← (Verif.Slide.C21_page_count w h _ _ h3).2, ← (Verif.Slide.C21_page_count w h _ _ hrs).2, hsame]
  · intro n p hp
    induction hp with
    | slide h => exact .slide h
    | @box k p c' cur g1 g2 g3 _ ih =>
      have hk' : k < ts.length := (List.getElem?_eq_some_iff.mp g1).1
      refine .box (cur := cur) (by rw [hts, List.getElem?_append_left hk']; exact g1) ?_ g3 ih
      rw [hts, List.take_append_of_le_length (by omega)]
      exact g2
  · intro n hn
    refine .box hat (cur := s.slide.maxStep) (by rw [hts, List.take_left']; exact hp; rfl) ?_ (.slide hn)
    rw [hc1]; exact hn
  · intro env env' he he'
    constructor
    · simp only [Verif.Slide.run] at h2
      split at h2
      · cases h2
      · rename_i s1 hb
        refine Verif.Slide.C104_added hreach hb (fun b _ _ => by rw [hc2]; split <;> simp) (cs := [y, z]) (by simpa only [Verif.Slide.run] using h2) ?_ w h he he'
        intro d hd
        obtain ⟨p, rfl, rfl⟩ := hy
        obtain ⟨q, a, b, f, rfl, rfl⟩ := hz
        simp only [List.mem_cons, List.not_mem_nil, or_false] at hd
        rcases hd with rfl | rfl <;> exact le_refl _
    · obtain ⟨P, R, hP, ⟨r, hr1, hR⟩, hax⟩ := Verif.Slide.C124_box w h ts' t.slide h3 w h env' he' ts.length 0 c hat
      have hpage := (Verif.Slide.C113_page w h ts' t.slide h3 env' he').1
      rw [hP] at hpage
      injection hpage with hpage
      subst hpage
      have hrow : Verif.Slide.Spec.row ts' 0 = false := rfl
      have hRr : R = r := by rw [hR, hc2]; simp [Verif.Scene.Spec.padded, Verif.Layout.Spec.mostSpecific]
      subst hRr
      refine ⟨R, hr1, ?_⟩
      have pos : ∀ axis, Verif.Layout.Spec.start axis R = (if axis then w else h) * (9 / 10) ∧ (if axis then 70 else 45) ≤ Verif.Layout.Spec.extent axis R := by
        intro axis
        obtain ⟨a1, -, a3⟩ := hax axis
        have e1 : Verif.Slide.Spec.posArg axis c.layout = .str ("90".toList ++ ['%']) := by rw [hc2]; cases axis <;> rfl
        have e2 : Verif.Slide.Spec.extentArg axis c.layout = .num (if axis then 70 else 45) := by rw [hc2]; cases axis <;> rfl
        constructor
        · have g := a1 _ (by rw [e1]; exact .text (.percent ⟨by decide, by decide⟩)) (fun _ h' => by rw [hrow] at h'; cases h')
          generalize Verif.Layout.Spec.start axis R = q at g
          have e3 : (Verif.Show.Spec.numeralValue "90".toList : Rat) / 100 = 9 / 10 := by decide +kernel
          rw [e3] at g
          cases g
          cases axis <;> simp [Verif.Layout.Spec.start, Verif.Layout.Spec.extent]
        · exact (((a3 _ (by rw [e2]; exact .number)).2.2 rfl rfl).1)
      exact ⟨(pos true).1, (pos false).1, (pos true).2, (pos false).2⟩

/-! ### an example -/

/-- Two slides, the first with two pages. -/
def exTwo : List Call := [.newSlide .none none none, .newSlide .none none none, .on 0 (.box 0 { show_ := .str "2+".toList })]

/-- A red box on the second slide only. -/
def exPost (k _total next : Nat) : List Verif.Scene.Call :=
  if k = 0 then []
  else [.box 0 { layout := { x := .num 10, y := .num 20, width := .num 40, height := .num 30 } }, .draw next (.rect none none none { bgColor := some "red".toList })]

def exDeck : Book := match run (newBook 100 80 none .unique) exTwo with | .ok b => b | .error _ => newBook 0 0 none .unique

theorem exTwo_run : run (newBook 100 80 none .unique) exTwo = .ok exDeck := by
  have : (run (newBook 100 80 none .unique) exTwo).isOk = true := by decide +kernel
  unfold exDeck
  revert this
  cases run (newBook 100 80 none .unique) exTwo with
  | ok s => intro _; rfl
  | error e => intro h; cases h

theorem exTwo_slides : exDeck.deck.slides = [.slide 0 0 .none, .slide 1 1 .none] := by decide +kernel

/-- The rectangles of two boxes of a slide. -/
theorem rectsOf_run {w h : Rat} {cs : List Verif.Scene.Call} {p : Option Rect × Option Rect} (hr : rectsOf w h cs = some p) :
    ∃ s env, Verif.Scene.run (Verif.Scene.newScene w h) cs = .ok s ∧ s.slide.rects w h = .ok env ∧ env 0 = p.1 ∧ env 1 = p.2 := by
  cases hs : Verif.Scene.run (Verif.Scene.newScene w h) cs with
  | error e => unfold rectsOf at hr; rw [hs] at hr; cases hr
  | ok s =>
    obtain ⟨env, h1, h2⟩ := rectsOf_some hr hs
    exact ⟨s, env, rfl, h1, h2⟩

theorem exTwo_cases {k u i : Nat} {n : Name} (he : exDeck.deck.slides[k]? = some (Entry.slide u i n)) : (k = 0 ∧ u = 0) ∨ (k = 1 ∧ u = 1) := by
  rw [exTwo_slides] at he
  match k, he with
  | 0, he => injection he with he; injection he with h1 h2 h3; exact .inl ⟨rfl, h1.symm⟩
  | 1, he => injection he with he; injection he with h1 h2 h3; exact .inr ⟨rfl, h1.symm⟩
  | k + 2, he => cases he

/-- The hypotheses of `C137_svg_partial` hold. -/
theorem exTwo_svg : run (newBook 100 80 none .unique) exTwo = .ok exDeck ∧ exDeck.deck.slides ≠ [] ∧ (∀ u g, Entry.pdf u g ∉ exDeck.deck.slides) ∧
    ∀ k u i n, exDeck.deck.slides[k]? = some (Entry.slide u i n) → ∃ s env, Verif.Scene.run (Verif.Scene.newScene 100 80) (extended none exTwo exPost exDeck.deck.slides.length k u) = .ok s ∧
      s.slide.rects 100 80 = .ok env ∧ ∀ (j step p : Nat) d, 1 ≤ step → (things (extended none exTwo exPost exDeck.deck.slides.length k u))[j]? = some (.draw p d) →
        OnPage ((things (extended none exTwo exPost exDeck.deck.slides.length k u)).map outline) step p → Drawable env step p d := by
  refine ⟨exTwo_run, by rw [exTwo_slides]; simp, by rw [exTwo_slides]; simp, fun k u i n he => ?_⟩
  rcases exTwo_cases he with ⟨rfl, rfl⟩ | ⟨rfl, rfl⟩
  · obtain ⟨s, env, h1, h2, -, -⟩ := rectsOf_run (show rectsOf 100 80 (extended none exTwo exPost exDeck.deck.slides.length 0 0) = some (some ⟨0, 0, 100, 80⟩, some ⟨50, 40, 0, 0⟩) by decide +kernel)
    refine ⟨s, env, h1, h2, fun j step p d _ h _ => ?_⟩
    have e : things (extended none exTwo exPost exDeck.deck.slides.length 0 0) = [.box 0 { show_ := .str "2+".toList }] := rfl
    rw [e] at h
    match j, h with
    | 0, h => cases h
    | j + 1, h => cases h
  · obtain ⟨s, env, h1, h2, -, e1⟩ := rectsOf_run (show rectsOf 100 80 (extended none exTwo exPost exDeck.deck.slides.length 1 1) = some (some ⟨0, 0, 100, 80⟩, some ⟨10, 20, 40, 30⟩) by decide +kernel)
    refine ⟨s, env, h1, h2, fun j step p d _ h _ => ?_⟩
    have e : things (extended none exTwo exPost exDeck.deck.slides.length 1 1) = [.box 0 { layout := { x := .num 10, y := .num 20, width := .num 40, height := .num 30 } },
      .draw 1 (.rect none none none { bgColor := some "red".toList })] := rfl
    rw [e] at h
    match j, h with
    | 0, h => cases h
    | 1, h =>
      injection h with h; injection h with h1 h2; subst h1; subst h2
      refine ⟨by simp [pointsOf], _, .rect e1, Verif.SvgDraw.paintOk_of ?_, by decide, ⟨by simp, by simp, by simp⟩, trivial⟩
      rintro c (hc | hc | hc) <;> cases hc
      exact Verif.SvgDraw.red_ok
    | j + 2, h => cases h

/-- The hypothesis of `C137_cairo_partial` about what is drawn holds too. -/
example : ∀ k u i n, exDeck.deck.slides[k]? = some (Entry.slide u i n) → (∀ v, viewBoxOf exTwo u = some v → 0 < v.width ∧ 0 < v.height) ∧
      ∃ s env, Verif.Scene.run (Verif.Scene.newScene 100 80) (extended none exTwo exPost exDeck.deck.slides.length k u) = .ok s ∧ s.slide.rects 100 80 = .ok env ∧
      ∀ step : Nat, 1 ≤ step → (∀ l, InOrder (things (extended none exTwo exPost exDeck.deck.slides.length k u)) step l → Smooth (things (extended none exTwo exPost exDeck.deck.slides.length k u)) l) ∧
        ∀ (j p : Nat) d, (things (extended none exTwo exPost exDeck.deck.slides.length k u))[j]? = some (.draw p d) →
        OnPage ((things (extended none exTwo exPost exDeck.deck.slides.length k u)).map outline) step p → Paintable Verif.Scene.exExt (viewBoxOf exTwo u) env step p d := by
  intro k u i n he
  have hsm : ∀ (ts : List Verif.Scene.Call) l, (∀ (i p : Nat) d, ts[i]? = some (.draw p d) → ¬ DashedEllipse d ∧ ¬ LeavesPoint d) → Smooth ts l :=
    fun ts l h => List.pairwise_of_forall fun a b i j p q d e _ hi _ _ => ⟨(h i p d hi).1, fun hl => absurd hl (h i p d hi).2⟩
  have hred : ∀ c : Str, c = "red".toList → Verif.Scene.exExt.known c = true := by
    rintro c rfl; decide
  rcases exTwo_cases he with ⟨rfl, rfl⟩ | ⟨rfl, rfl⟩
  · obtain ⟨s, env, h1, h2, -, -⟩ := rectsOf_run (show rectsOf 100 80 (extended none exTwo exPost exDeck.deck.slides.length 0 0) = some (some ⟨0, 0, 100, 80⟩, some ⟨50, 40, 0, 0⟩) by decide +kernel)
    have e : things (extended none exTwo exPost exDeck.deck.slides.length 0 0) = [.box 0 { show_ := .str "2+".toList }] := rfl
    have hno : ∀ (j p : Nat) d, (things (extended none exTwo exPost exDeck.deck.slides.length 0 0))[j]? ≠ some (.draw p d) := by
      intro j p d h
      rw [e] at h
      match j, h with
      | 0, h => cases h
      | j + 1, h => cases h
    exact ⟨(by intro v hv; cases hv), s, env, h1, h2, fun step _ => ⟨fun l _ => hsm _ _ (fun j p d h => absurd h (hno j p d)), fun j p d h _ => absurd h (hno j p d)⟩⟩
  · obtain ⟨s, env, h1, h2, -, e1⟩ := rectsOf_run (show rectsOf 100 80 (extended none exTwo exPost exDeck.deck.slides.length 1 1) = some (some ⟨0, 0, 100, 80⟩, some ⟨10, 20, 40, 30⟩) by decide +kernel)
    have e : things (extended none exTwo exPost exDeck.deck.slides.length 1 1) = [.box 0 { layout := { x := .num 10, y := .num 20, width := .num 40, height := .num 30 } },
      .draw 1 (.rect none none none { bgColor := some "red".toList })] := rfl
    have hone : ∀ (j p : Nat) d, (things (extended none exTwo exPost exDeck.deck.slides.length 1 1))[j]? = some (.draw p d) → p = 1 ∧ d = .rect none none none { bgColor := some "red".toList } := by
      intro j p d h
      rw [e] at h
      match j, h with
      | 0, h => cases h
      | 1, h => injection h with h; injection h with h1 h2; exact ⟨h1.symm, h2.symm⟩
      | j + 2, h => cases h
    refine ⟨(by intro v hv; cases hv), s, env, h1, h2, fun step _ => ⟨fun l _ => hsm _ _ (fun j p d h => ?_), fun j p d h _ => ?_⟩⟩
    · obtain ⟨rfl, rfl⟩ := hone j p d h; exact ⟨id, id⟩
    · obtain ⟨rfl, rfl⟩ := hone j p d h
      refine ⟨by simp [pointsOf], _, .rect e1, by decide, ⟨by simp, by simp, by simp⟩, by decide +kernel, by decide +kernel, Verif.Scene.ex_style_ok ?_ ?_ rfl⟩
      · intro c h; cases h
      · intro c h; injection h with h; exact hred c h.symm

/-- The hypothesis of `C137_numbering` holds, and the rectangles can be computed: the number of the third of 12 slides, on a slide with a box. -/
example : rectsOf 800 600 (pageNumber Verif.TextItem.exStyle Verif.TextItem.exStyles (fun s => 10 * s.length) 2 12 1) = some (some ⟨0, 0, 800, 600⟩, some ⟨720, 540, 70, 45⟩) ∧
    (rectsOf 800 600 ([.box 0 { layout := { height := .num 30 } }] ++ pageNumber Verif.TextItem.exStyle Verif.TextItem.exStyles (fun s => 10 * s.length) 2 12 2)).isSome = true := by
  decide +kernel

/-- The text is the number from 1 and the number of slides. -/
example : natStr (2 + 1) ++ '/' :: natStr 12 = "3/12".toList := by decide

end Verif.Book
