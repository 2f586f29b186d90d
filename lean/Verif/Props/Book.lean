import Verif.Proofs.Book
import Verif.Props.Scene
import Verif.Props.SceneCairo
import Verif.Props.WholeSlide
import Verif.Props.LayoutStrings

/-! # Properties C114 and C115: backgrounds, and the pages of a whole deck -/

namespace Verif.Book
open Verif.Book.Spec
open Verif.Scene.Spec
open Verif.Deck (Deck Entry Name Policy RUnit)
open Verif.Slide.Spec (OnPage ItemOf Level Walk Under Pages)
open Verif.SvgDraw.Spec (Numbers readShape meant)

theorem run_size {w h : Rat} {bg : Option Str} {policy : Policy} {cs : List Call} {b : Book} (hr : run (newBook w h bg policy) cs = .ok b) :
    b.width = w ∧ b.height = h :=
  ⟨(kept_run (kept_new w h bg policy) hr).size.1, (kept_run (kept_new w h bg policy) hr).size.2.1⟩

/-! ### C115 -/

/-- **C115 (SVG).** After any successful sequence of calls that add slides and PDFs and draw on the slides, in any order: what is rendered is every slide with all its pages and
every PDF, in the order of the deck, each once; and every page is an SVG document with the size of the deck and the view box of its slide
that shows what was drawn on this slide, and nothing of the other slides. -/
theorem C115_svg {fmt : Rat → Str} {read : Str → Option Rat} (hn : Numbers fmt read) (ang : Rat → Rat × Rat) (h0 : ang 0 = (1, 0))
    (w h : Rat) (bg : Option Str) (policy : Policy) (cs : List Call) (b : Book) (hr : run (newBook w h bg policy) cs = .ok b) (pdf : Bool)
    (hne : b.deck.slides ≠ []) (hp : ∀ u f, Entry.pdf u f ∈ b.deck.slides → pdf = true)
    (hd : ∀ u i n, Entry.slide u i n ∈ b.deck.slides → ∀ s, Verif.Scene.run (Verif.Scene.newScene w h) (historyOf bg cs u) = .ok s →
      ∃ env, s.slide.rects w h = .ok env ∧ ∀ (k step p : Nat) d, 1 ≤ step → (things (historyOf bg cs u))[k]? = some (.draw p d) →
        OnPage ((things (historyOf bg cs u)).map outline) step p → Drawable env step p d) :
    b.deck = Verif.Deck.history policy (deckCalls cs) ∧
    ∃ sheets, renderSvg fmt b pdf = .ok sheets ∧ Complete bg cs b.deck.slides sheets ∧
      ∀ u i step doc, Sheet.page u i step doc ∈ sheets → ∃ s env l, Verif.Scene.run (Verif.Scene.newScene w h) (historyOf bg cs u) = .ok s ∧
        s.slide.rects w h = .ok env ∧ InOrder (things (historyOf bg cs u)) step l ∧
        SvgPage read ang env step (things (historyOf bg cs u)) w h (viewBoxOf cs u) l doc := by
  obtain ⟨hw, hh⟩ := run_size hr
  unfold renderSvg
  rw [hw, hh]
  refine render_complete (P := fun u step doc => ∃ s env l, Verif.Scene.run (Verif.Scene.newScene w h) (historyOf bg cs u) = .ok s ∧
        s.slide.rects w h = .ok env ∧ InOrder (things (historyOf bg cs u)) step l ∧
        SvgPage read ang env step (things (historyOf bg cs u)) w h (viewBoxOf cs u) l doc) hr hne hp ?_
  intro u i n hu s hs
  obtain ⟨env, henv, hdraw⟩ := hd u i n hu s hs
  refine ⟨env, henv, fun k hk => ?_⟩
  obtain ⟨l, order, str, as, parts, h1, hcr, h2, h3, h4, h5, h6, h7, h8, h9, h10, h11⟩ :=
    Verif.Scene.page_shown hn ang h0 w h _ s hs env henv (viewBoxOf cs u) k (fun j p d hj ho => hdraw j k p d hk hj ho)
  exact ⟨str, h1, s, env, l, hs, henv, ⟨h7, h8, order, h9, h10, h11⟩, as, parts, hcr, h2, h3, h4, h5, h6⟩

/-- **C115 (Cairo).** The same with Cairo, for PDF and PNG, within the part of C112 that holds. -/
theorem C115_cairo (x : Verif.Scene.Ext) (hk : x.known "none".toList = false) (h0 : x.ang 0 = (1, 0))
    (w h : Rat) (hw : 0 < w) (hh : 0 < h) (bg : Option Str) (policy : Policy) (cs : List Call) (b : Book) (hr : run (newBook w h bg policy) cs = .ok b) (png : Bool)
    (hne : b.deck.slides ≠ []) (hp : ∀ u f, Entry.pdf u f ∈ b.deck.slides → png = false)
    (hd : ∀ u i n, Entry.slide u i n ∈ b.deck.slides → (∀ v, viewBoxOf cs u = some v → 0 < v.width ∧ 0 < v.height) ∧
      ∀ s, Verif.Scene.run (Verif.Scene.newScene w h) (historyOf bg cs u) = .ok s →
      ∃ env, s.slide.rects w h = .ok env ∧ ∀ step : Nat, 1 ≤ step → (∀ l, InOrder (things (historyOf bg cs u)) step l → Smooth (things (historyOf bg cs u)) l) ∧
        ∀ (k p : Nat) d, (things (historyOf bg cs u))[k]? = some (.draw p d) →
        OnPage ((things (historyOf bg cs u)).map outline) step p → Paintable x (viewBoxOf cs u) env step p d) :
    b.deck = Verif.Deck.history policy (deckCalls cs) ∧
    ∃ sheets, renderCairo x b png = .ok sheets ∧ Complete bg cs b.deck.slides sheets ∧
      ∀ u i step ps, Sheet.page u i step ps ∈ sheets → ∃ s env l, Verif.Scene.run (Verif.Scene.newScene w h) (historyOf bg cs u) = .ok s ∧
        s.slide.rects w h = .ok env ∧ InOrder (things (historyOf bg cs u)) step l ∧
        PageOf x (onPaper png w h (viewBoxOf cs u)) (zoomOf w h (viewBoxOf cs u)) env step (things (historyOf bg cs u)) l ps := by
  obtain ⟨hbw, hbh⟩ := run_size hr
  unfold renderCairo
  rw [hbw, hbh]
  refine render_complete (P := fun u step ps => ∃ s env l, Verif.Scene.run (Verif.Scene.newScene w h) (historyOf bg cs u) = .ok s ∧
        s.slide.rects w h = .ok env ∧ InOrder (things (historyOf bg cs u)) step l ∧
        PageOf x (onPaper png w h (viewBoxOf cs u)) (zoomOf w h (viewBoxOf cs u)) env step (things (historyOf bg cs u)) l ps) hr hne (fun u f hm => by rw [hp u f hm]; rfl) ?_
  intro u i n hu s hs
  obtain ⟨hv, hd⟩ := hd u i n hu
  obtain ⟨env, henv, hdraw⟩ := hd s hs
  refine ⟨env, henv, fun k hk1 => ?_⟩
  obtain ⟨hsm, hpaint⟩ := hdraw k hk1
  obtain ⟨l, h1, h2⟩ := Verif.Scene.C112_page_partial x hk h0 png w h hw hh _ s hs env henv (viewBoxOf cs u) hv k hpaint
  obtain ⟨ps, h3, h4⟩ := h2 (hsm l h1)
  exact ⟨ps, h3, s, env, l, hs, henv, h1, h4⟩

/-! ### C114 -/

/-- On a slide with a background: nobody else draws in its box (which `new_slide` does not return), and all given levels are above the one of the background. -/
def AboveGround (rest : List Verif.Scene.Call) : Prop :=
  (∀ c ∈ rest, Verif.Slide.Spec.target (outline c) ≠ 1) ∧ ∀ p b z, Verif.Scene.Call.box p b ∈ rest → b.z = some z → -1000000 < z

theorem tops_append (u : Nat) (a : Verif.Layout.Attrs) : ∀ f : Verif.Layout.Forest, Verif.Layout.Spec.tops (Verif.Slide.appendLayout u a f) = Verif.Layout.Spec.tops f ++ [(u, a, .nil)]
  | .nil => rfl
  | .node v b kids rest => by simp only [Verif.Slide.appendLayout, Verif.Layout.Spec.tops, tops_append u a rest, List.cons_append]

theorem tops_modify {p v : Nat} {g : Verif.Layout.Attrs → Verif.Layout.Forest → Verif.Layout.Attrs × Verif.Layout.Forest} {A : Verif.Layout.Attrs} (hp : p ≠ v) :
    ∀ {f : Verif.Layout.Forest}, (v, A, .nil) ∈ Verif.Layout.Spec.tops f → (v, A, .nil) ∈ Verif.Layout.Spec.tops (Verif.Slide.modifyLayout p g f)
  | .nil, h => by cases h
  | .node u b kids rest, h => by
    simp only [Verif.Layout.Spec.tops, List.mem_cons, Prod.mk.injEq] at h
    simp only [Verif.Slide.modifyLayout]
    rcases h with ⟨rfl, rfl, rfl⟩ | h
    · rw [if_neg (Ne.symm hp)]
      simp [Verif.Layout.Spec.tops, Verif.Slide.modifyLayout]
    · split
      · simp [Verif.Layout.Spec.tops, h]
      · simp [Verif.Layout.Spec.tops, tops_modify hp h]

/-- A box without children, directly in the slide, stays as it is. -/
theorem run_tops_kept {s s' : Verif.Slide.State} {cs : List Verif.Slide.Call} {v : Nat} {A : Verif.Layout.Attrs} (hv : v ≠ 0) (h : Verif.Slide.run s cs = .ok s')
    (hc : ∀ c ∈ cs, Verif.Slide.Spec.target c ≠ v) (hs : ∃ a kids, s.layouts = .node 0 a kids .nil ∧ (v, A, .nil) ∈ Verif.Layout.Spec.tops kids) :
    ∃ a kids, s'.layouts = .node 0 a kids .nil ∧ (v, A, .nil) ∈ Verif.Layout.Spec.tops kids := by
  have hmod : ∀ {f : Verif.Layout.Forest} {p : Nat} {g : Verif.Layout.Attrs → Verif.Layout.Forest → Verif.Layout.Attrs × Verif.Layout.Forest}, p ≠ v →
      (∀ a kids, (v, A, .nil) ∈ Verif.Layout.Spec.tops kids → (v, A, .nil) ∈ Verif.Layout.Spec.tops (g a kids).2) →
      (∃ a kids, f = .node 0 a kids .nil ∧ (v, A, .nil) ∈ Verif.Layout.Spec.tops kids) →
      ∃ a kids, Verif.Slide.modifyLayout p g f = .node 0 a kids .nil ∧ (v, A, .nil) ∈ Verif.Layout.Spec.tops kids := by
    rintro f p g hp hg ⟨a, kids, rfl, hm⟩
    simp only [Verif.Slide.modifyLayout]
    split
    · exact ⟨_, _, rfl, hg a kids hm⟩
    · exact ⟨_, _, rfl, tops_modify hp hm⟩
  induction cs generalizing s with
  | nil => injection h with h; subst h; exact hs
  | cons c cs ih =>
    simp only [Verif.Slide.run] at h
    split at h
    · cases h
    · rename_i s1 he
      refine ih h (fun d hd => hc d (List.mem_cons_of_mem _ hd)) ?_
      obtain ⟨-, hl⟩ := Verif.Slide.exec_layouts he
      have hcv := hc c List.mem_cons_self
      rw [hl]
      cases c with
      | box p b =>
        simp only [Verif.Slide.layoutsAfter]
        split
        · refine hmod hcv (fun a kids hm => ?_) hs
          dsimp only
          split
          · simp [Verif.Layout.Spec.tops, hm]
          · simp [tops_append, hm]
        · exact hs
      | text p w ht fit => exact hmod hcv (fun a kids hm => hm) hs
      | shape p => exact hs
      | image p w ht steps => exact hmod hcv (fun a kids hm => hm) hs

/-- The layout of the background. -/
def groundAttrs : Verif.Layout.Attrs :=
  { x := some (.fix 0), y := some (.fix 0), width := { ratio := some 1 }, height := { ratio := some 1 }, widthUndef := false, heightUndef := false }

theorem groundAttrs_eq : Verif.Layout.newAttrs { x := .num 0, y := .num 0, width := .str "100%".toList, height := .str "100%".toList } = .ok groundAttrs := by
  have h1 : Verif.Layout.parseSize (Verif.Layout.orZero (.str "100%".toList)) = .ok { ratio := some 1 } := by
    have h := Verif.Layout.C38_size_strings_accepted _ _ (.percent (ds := ['1', '0', '0']) ⟨by simp, by decide⟩)
    have h2 : ((Verif.Show.Spec.numeralValue ['1', '0', '0'] : Rat) / 100) = 1 := by
      have : Verif.Show.Spec.numeralValue ['1', '0', '0'] = 100 := by decide
      rw [this]; norm_num
    rw [h2] at h
    exact h
  unfold Verif.Layout.newAttrs
  simp only [h1]
  rfl

theorem things_ground (c : Str) (rest : List Verif.Scene.Call) : things (ground c ++ rest) = ground c ++ things rest := rfl

/-- The box of the background is the page. -/
theorem ground_rect {w h : Rat} (hw : 0 ≤ w) (hh : 0 ≤ h) {c : Str} {rest : List Verif.Scene.Call} {s : Verif.Scene.State}
    (hr : Verif.Scene.run (Verif.Scene.newScene w h) (ground c ++ rest) = .ok s) (ha : ∀ d ∈ rest, Verif.Slide.Spec.target (outline d) ≠ 1)
    {env : Verif.Layout.Env} (he : s.slide.rects w h = .ok env) : env 1 = some ⟨0, 0, w, h⟩ := by
  obtain ⟨hrun, -⟩ := Verif.Scene.kept_run (Verif.Scene.kept_new w h) hr
  have hrun' : Verif.Slide.run (Verif.Slide.newSlide w h) ((things (ground c ++ rest)).map outline) = .ok s.slide := hrun
  obtain ⟨-, a, kids, hlay, hall⟩ := Verif.Slide.C113_page w h _ _ hrun' env he
  rw [things_ground, List.map_append] at hrun'
  obtain ⟨s2, h1, h2⟩ := Verif.Slide.run_append hrun'
  have hs2 : ∃ a kids, s2.layouts = .node 0 a kids .nil ∧ (1, groundAttrs, .nil) ∈ Verif.Layout.Spec.tops kids := by
    simp only [ground, List.map_cons, List.map_nil, outline, Verif.Slide.run] at h1
    split at h1
    · cases h1
    · rename_i s3 h3
      split at h1
      · cases h1
      · rename_i s4 h4
        injection h1 with h1; subst h1
        obtain ⟨-, hl4⟩ := Verif.Slide.exec_layouts h4
        obtain ⟨-, hl3⟩ := Verif.Slide.exec_layouts h3
        rw [hl4]
        simp only [Verif.Slide.layoutsAfter] at hl3 ⊢
        rw [groundAttrs_eq] at hl3
        rw [hl3]
        exact ⟨_, _, rfl, List.mem_cons_self⟩
  obtain ⟨a', kids', hlay', hm⟩ := run_tops_kept (by decide) h2 (by
    intro d hd
    obtain ⟨e, he, rfl⟩ := List.mem_map.mp hd
    exact ha e (List.mem_filter.mp he).1) hs2
  rw [hlay] at hlay'
  injection hlay' with _ h5 h6
  subst h5 h6
  obtain ⟨r, hr1, hax⟩ := hall _ hm
  have hg : Verif.Layout.Spec.grow groundAttrs r = r := by
    simp [Verif.Layout.Spec.grow, groundAttrs]
  have e1 : r.x = 0 := by
    have := (hax true).1 0 rfl
    simpa [hg, Verif.Layout.Spec.start] using this
  have e2 : r.y = 0 := by
    have := (hax false).1 0 rfl
    simpa [hg, Verif.Layout.Spec.start] using this
  have e3 : r.width = w := by
    have := (hax true).2.2.2.2.1 rfl rfl 1 rfl (by decide)
    simp only [hg] at this
    simpa [Verif.Layout.Spec.extent, Verif.Layout.Spec.content, Verif.Layout.Spec.sizeOn, groundAttrs, Verif.Layout.Spec.pads, Verif.Layout.Spec.needs, Verif.Layout.Spec.largest, hw] using this
  have e4 : r.height = h := by
    have := (hax false).2.2.2.2.1 rfl rfl 1 rfl (by decide)
    simp only [hg] at this
    simpa [Verif.Layout.Spec.extent, Verif.Layout.Spec.content, Verif.Layout.Spec.sizeOn, groundAttrs, Verif.Layout.Spec.pads, Verif.Layout.Spec.needs, Verif.Layout.Spec.largest, hh] using this
  rw [hr1]
  cases r
  simp_all

theorem level_above {c : Str} {rest : List Verif.Scene.Call} (ha : AboveGround rest) {p : Nat} {z : Int}
    (hl : Level ((things (ground c ++ rest)).map outline) p z) : p ≠ 1 → -1000000 < z := by
  have hget : ∀ {k q : Nat} {b : Verif.Slide.BoxCall}, ((things (ground c ++ rest)).map outline)[k]? = some (.box q b) → k + 1 ≠ 1 → Verif.Scene.Call.box q b ∈ rest := by
    intro k q b hk hne
    rw [things_ground, List.map_append] at hk
    match k, hk, hne with
    | 0, _, hne => exact absurd rfl hne
    | 1, hk, _ => simp [ground, outline] at hk
    | k + 2, hk, _ =>
      have hk' : ((things rest).map outline)[k]? = some (.box q b) := by simpa [ground] using hk
      obtain ⟨d, hd, ho⟩ := List.mem_map.mp (List.mem_of_getElem? hk')
      have : d = .box q b := by
        cases d with
        | box q' b' => simpa [outline] using ho
        | draw q' d' => cases d' <;> simp [outline] at ho
      subst this
      exact (List.mem_filter.mp hd).1
  induction hl with
  | slide => intro _; decide
  | given hk hz => intro hne; exact ha.2 _ _ _ (hget hk hne) hz
  | inherited hk hz _ ih => intro hne; exact ih (ha.1 _ (hget hk hne))

/-- On every page, the background is the lowest of all. -/
theorem ground_first {c : Str} {rest : List Verif.Scene.Call} (ha : AboveGround rest) {step : Int} (hs : 1 ≤ step) {l : List (Nat × Int)}
    (hl : InOrder (things (ground c ++ rest)) step l) : ∃ l', l = (2, -1000000) :: l' ∧ ∀ x ∈ l', -1000000 < x.2 := by
  obtain ⟨hnd, hmem, order, -, -, hpair⟩ := hl
  have hin : (2, -1000000) ∈ l := by
    rw [hmem]
    refine ⟨1, ItemOf.mk (k := 1) (c := .shape 1) (by rw [things_ground]; rfl) rfl rfl, ?_, ?_⟩
    · exact Level.given (k := 0) (by rw [things_ground]; rfl) rfl
    · have hk : ((things (ground c ++ rest)).map outline)[0]? = some (.box 0 { layout := { x := .num 0, y := .num 0, width := .str "100%".toList, height := .str "100%".toList }, z := some (-1000000) }) := by
        rw [things_ground]; rfl
      exact OnPage.box hk Pages.new hs (OnPage.slide hs)
  have hother : ∀ x ∈ l, x.1 ≠ 2 → -1000000 < x.2 := by
    rintro ⟨u, z⟩ hx hne
    obtain ⟨p, hi, hlev, -⟩ := (hmem u z).mp hx
    refine level_above ha hlev ?_
    rintro rfl
    cases hi with
    | @mk k d hk hb ht =>
      rw [things_ground, List.map_append] at hk
      match k, hk, hne with
      | 0, hk, _ =>
        simp only [ground, outline, List.map_cons, List.cons_append, List.getElem?_cons_zero, Option.some.injEq] at hk
        subst hk; cases hb
      | 1, _, hne => exact hne rfl
      | k + 2, hk, _ =>
        have hk' : ((things rest).map outline)[k]? = some d := by simpa [ground] using hk
        obtain ⟨e, he, rfl⟩ := List.mem_map.mp (List.mem_of_getElem? hk')
        exact ha.1 e (List.mem_filter.mp he).1 ht
  cases l with
  | nil => cases hin
  | cons x l' =>
    have hx : x = (2, -1000000) := by
      rcases List.mem_cons.mp hin with h | h
      · exact h.symm
      · have h1 := (List.pairwise_cons.mp hpair).1 _ h
        have h2 : x.1 ≠ 2 := by
          simp only [List.map_cons, List.nodup_cons] at hnd
          intro h2
          exact hnd.1 (List.mem_map.mpr ⟨_, h, h2.symm⟩)
        have h3 := hother x List.mem_cons_self h2
        rcases h1 with h1 | ⟨h1, -⟩ <;> simp only at h1 <;> omega
    subst hx
    refine ⟨l', rfl, fun y hy => hother y (List.mem_cons_of_mem _ hy) ?_⟩
    simp only [List.map_cons, List.nodup_cons] at hnd
    intro h2
    exact hnd.1 (List.mem_map.mpr ⟨_, hy, h2⟩)

/-- What was called on a slide with a background: the background comes first. -/
theorem historyOf_ground {bg given : Option Str} {cs : List Call} {u : Nat} {n : Name} {vb : Option Rect} {c : Str}
    (hu : (made cs)[u]? = some (.newSlide n given vb)) (hc : groundColor bg given = some c) : historyOf bg cs u = ground c ++ cs.filterMap (onSlide u) := by
  unfold historyOf
  rw [hu]
  simp only [hc, Option.elim_some]

theorem step_pos {δ : Type} {bg : Option Str} {cs : List Call} {slides : List Entry} {sheets : List (Sheet δ)} (hc : Complete bg cs slides sheets) {u i step : Nat} {doc : δ}
    (hm : Sheet.page u i step doc ∈ sheets) : 1 ≤ (step : Int) := by
  obtain ⟨pages, -, hsh⟩ := hc.each
  obtain ⟨e, -, he⟩ := (hsh (.svg u i step)).mp (List.mem_map.mpr ⟨_, hm, rfl⟩)
  cases e with
  | slide v j m =>
    obtain ⟨k, hk1, -, hk⟩ := he
    injection hk with _ _ hk
    omega
  | pdf v f => cases he

/-- **C114 (SVG).** A slide with a colour (given to `new_slide`, otherwise that of the deck; an empty one is none): on all its pages, the first and so the lowest thing is a
rectangle of the size of the page in this colour, without outline; everything else is above it. -/
theorem C114_svg {fmt : Rat → Str} {read : Str → Option Rat} (hn : Numbers fmt read) (ang : Rat → Rat × Rat) (h0 : ang 0 = (1, 0))
    (w h : Rat) (hw : 0 ≤ w) (hh : 0 ≤ h) (bg : Option Str) (policy : Policy) (cs : List Call) (b : Book) (hr : run (newBook w h bg policy) cs = .ok b) (pdf : Bool)
    (hne : b.deck.slides ≠ []) (hp : ∀ u f, Entry.pdf u f ∈ b.deck.slides → pdf = true)
    (hd : ∀ u i n, Entry.slide u i n ∈ b.deck.slides → ∀ s, Verif.Scene.run (Verif.Scene.newScene w h) (historyOf bg cs u) = .ok s →
      ∃ env, s.slide.rects w h = .ok env ∧ ∀ (k step p : Nat) d, 1 ≤ step → (things (historyOf bg cs u))[k]? = some (.draw p d) →
        OnPage ((things (historyOf bg cs u)).map outline) step p → Drawable env step p d)
    (u : Nat) (n : Name) (given : Option Str) (vb : Option Rect) (hu : (made cs)[u]? = some (.newSlide n given vb)) (c : Str) (hc : groundColor bg given = some c)
    (ha : AboveGround (cs.filterMap (onSlide u))) :
    ∃ sheets, renderSvg fmt b pdf = .ok sheets ∧ ∀ i step doc, Sheet.page u i step doc ∈ sheets →
      ∃ as name attrs parts, Verif.Xml.Spec.readXml doc = some (.elem "svg".toList as (.elem name attrs .nil (concat parts)) .nil) ∧
        readShape read name attrs = some (meant (.rect ⟨0, 0, w, h⟩ none none none { bgColor := some c, strokeWidth := some 1 })) := by
  obtain ⟨-, sheets, h1, h2, h3⟩ := C115_svg hn ang h0 w h bg policy cs b hr pdf hne hp hd
  refine ⟨sheets, h1, fun i step doc hm => ?_⟩
  obtain ⟨s, env, l, hs, henv, hord, as, parts, -, hread, -, -, -, hparts⟩ := h3 u i step doc hm
  have hstep := step_pos h2 hm
  rw [historyOf_ground hu hc] at hs hord hparts
  obtain ⟨l', rfl, -⟩ := ground_first ha hstep hord
  cases hparts with
  | @cons _ F _ parts hF hrest =>
    obtain ⟨k, p, d, hk, hkd, hsh⟩ := hF
    have hk1 : k = 1 := by simpa using hk.symm
    subst hk1
    rw [things_ground] at hkd
    have hkd' : some (Verif.Scene.Call.draw 1 (.rect none none none { bgColor := some c, strokeWidth := some 1 })) = some (.draw p d) := hkd
    simp only [Option.some.injEq, Verif.Scene.Call.draw.injEq] at hkd'
    obtain ⟨rfl, rfl⟩ := hkd'
    obtain ⟨name, attrs, item, rfl, hdep, hshape⟩ := hsh
    have henv1 := ground_rect hw hh hs ha.1 henv
    cases hdep with
    | rect hr1 =>
      rw [henv1] at hr1
      injection hr1 with hr1
      subst hr1
      exact ⟨as, name, attrs, parts, hread, hshape⟩

/-- **C114 (Cairo).** The same with Cairo, for PDF and PNG: what is painted first is this rectangle. -/
theorem C114_cairo (x : Verif.Scene.Ext) (hk : x.known "none".toList = false) (h0 : x.ang 0 = (1, 0))
    (w h : Rat) (hw : 0 < w) (hh : 0 < h) (bg : Option Str) (policy : Policy) (cs : List Call) (b : Book) (hr : run (newBook w h bg policy) cs = .ok b) (png : Bool)
    (hne : b.deck.slides ≠ []) (hp : ∀ u f, Entry.pdf u f ∈ b.deck.slides → png = false)
    (hd : ∀ u i n, Entry.slide u i n ∈ b.deck.slides → (∀ v, viewBoxOf cs u = some v → 0 < v.width ∧ 0 < v.height) ∧
      ∀ s, Verif.Scene.run (Verif.Scene.newScene w h) (historyOf bg cs u) = .ok s →
      ∃ env, s.slide.rects w h = .ok env ∧ ∀ step : Nat, 1 ≤ step → (∀ l, InOrder (things (historyOf bg cs u)) step l → Smooth (things (historyOf bg cs u)) l) ∧
        ∀ (k p : Nat) d, (things (historyOf bg cs u))[k]? = some (.draw p d) →
        OnPage ((things (historyOf bg cs u)).map outline) step p → Paintable x (viewBoxOf cs u) env step p d)
    (u : Nat) (n : Name) (given : Option Str) (vb : Option Rect) (hu : (made cs)[u]? = some (.newSlide n given vb)) (c : Str) (hc : groundColor bg given = some c)
    (ha : AboveGround (cs.filterMap (onSlide u))) :
    ∃ sheets, renderCairo x b png = .ok sheets ∧ ∀ i step ps, Sheet.page u i step ps ∈ sheets →
      ∃ first rest qs m, ps = first ++ rest ∧ first.map Verif.CairoDraw.Spec.Paint.seen = qs.map Verif.CairoDraw.Spec.Paint.seen ∧
        (∀ q, Verif.CairoDraw.Mat.apply m q = onPaper png w h vb q) ∧
        Verif.Backends.Spec.Paints true x.read x.ang m (meant (.rect ⟨0, 0, w, h⟩ none none none { bgColor := some c, strokeWidth := some 1 })) qs := by
  obtain ⟨-, sheets, h1, h2, h3⟩ := C115_cairo x hk h0 w h hw hh bg policy cs b hr png hne hp hd
  refine ⟨sheets, h1, fun i step ps hm => ?_⟩
  obtain ⟨s, env, l, hs, henv, hord, parts, hflat, hparts⟩ := h3 u i step ps hm
  have hstep := step_pos h2 hm
  have hvb : viewBoxOf cs u = vb := by simp only [viewBoxOf, hu]
  rw [hvb] at hparts
  rw [historyOf_ground hu hc] at hs hord hparts
  obtain ⟨l', rfl, -⟩ := ground_first ha hstep hord
  cases hparts with
  | @cons _ F _ parts hF hrest =>
    obtain ⟨k, p, d, qs, hk, hkd, hsh, hseen⟩ := hF
    have hk1 : k = 1 := by simpa using hk.symm
    subst hk1
    rw [things_ground] at hkd
    have hkd' : some (Verif.Scene.Call.draw 1 (.rect none none none { bgColor := some c, strokeWidth := some 1 })) = some (.draw p d) := hkd
    simp only [Option.some.injEq, Verif.Scene.Call.draw.injEq] at hkd'
    obtain ⟨rfl, rfl⟩ := hkd'
    obtain ⟨item, m, hdep, hm, hpaints⟩ := hsh
    have henv1 := ground_rect hw.le hh.le hs ha.1 henv
    cases hdep with
    | rect hr1 =>
      rw [henv1] at hr1
      injection hr1 with hr1
      subst hr1
      exact ⟨F, parts.flatten, qs, m, by rw [hflat]; rfl, hseen, hm, hpaints⟩

/-! ### an example -/

/-- A red deck with a slide, a PDF and a slide without background, made before anything was drawn. -/
def exCalls : List Call :=
  [.newSlide (.str "a".toList) none none, .addPdf "x.pdf".toList, .newSlide .none (some []) (some ⟨0, 0, 50, 50⟩),
   .on 2 (.box 0 { show_ := .str "2+".toList, layout := { x := .num 10, y := .num 20, width := .num 40, height := .num 30 } }),
   .on 0 (.draw 0 (.rect none none (some 30) { bgColor := some "red".toList })),
   .on 2 (.draw 1 (.ellipse none { bgColor := some "red".toList }))]

def exBook : Book := match run (newBook 100 80 (some "red".toList) .unique) exCalls with | .ok b => b | .error _ => newBook 0 0 none .unique

theorem ex_run : run (newBook 100 80 (some "red".toList) .unique) exCalls = .ok exBook := by
  have : (run (newBook 100 80 (some "red".toList) .unique) exCalls).isOk = true := by decide +kernel
  unfold exBook
  revert this
  cases run (newBook 100 80 (some "red".toList) .unique) exCalls with
  | ok s => intro _; rfl
  | error e => intro h; cases h

theorem ex_slides : exBook.deck.slides = [.slide 0 0 (.str "a".toList), .pdf 1 "x.pdf".toList, .slide 2 2 .none] := by decide +kernel

/-- The rectangles of two boxes of a slide. -/
def rectsOf (w h : Rat) (cs : List Verif.Scene.Call) : Option (Option Rect × Option Rect) :=
  match Verif.Scene.run (Verif.Scene.newScene w h) cs with
  | .error _ => none
  | .ok s =>
    match s.slide.rects w h with
    | .error _ => none
    | .ok env => some (env 0, env 1)

theorem rectsOf_some {w h : Rat} {cs : List Verif.Scene.Call} {s : Verif.Scene.State} {p : Option Rect × Option Rect} (hr : rectsOf w h cs = some p)
    (hs : Verif.Scene.run (Verif.Scene.newScene w h) cs = .ok s) : ∃ env, s.slide.rects w h = .ok env ∧ env 0 = p.1 ∧ env 1 = p.2 := by
  unfold rectsOf at hr
  rw [hs] at hr
  simp only at hr
  split at hr
  · cases hr
  · rename_i env he
    injection hr with hr
    subst hr
    exact ⟨env, he, rfl, rfl⟩

theorem ex_drawn : ∀ u i n, Entry.slide u i n ∈ exBook.deck.slides → ∀ s, Verif.Scene.run (Verif.Scene.newScene 100 80) (historyOf (some "red".toList) exCalls u) = .ok s →
    ∃ env, s.slide.rects 100 80 = .ok env ∧ ∀ (k step p : Nat) d, 1 ≤ step → (things (historyOf (some "red".toList) exCalls u))[k]? = some (.draw p d) →
      OnPage ((things (historyOf (some "red".toList) exCalls u)).map outline) step p → Drawable env step p d := by
  have red := Verif.SvgDraw.red_ok
  intro u i n hm s hs
  rw [ex_slides] at hm
  simp only [List.mem_cons, List.not_mem_nil, or_false, reduceCtorEq, false_or] at hm
  rcases hm with hm | hm
  · injection hm with h1 _ _
    subst h1
    obtain ⟨env, he, e0, e1⟩ := rectsOf_some (show rectsOf 100 80 (historyOf (some "red".toList) exCalls 0) = some (some ⟨0, 0, 100, 80⟩, some ⟨0, 0, 100, 80⟩) by decide +kernel) hs
    refine ⟨env, he, fun k step p d _ h _ => ?_⟩
    have e : things (historyOf (some "red".toList) exCalls 0) = ground "red".toList ++ [.draw 0 (.rect none none (some 30) { bgColor := some "red".toList })] := rfl
    rw [e] at h
    match k, h with
    | 0, h => cases h
    | 1, h =>
      injection h with h; injection h with h1 h2; subst h1; subst h2
      refine ⟨by simp [pointsOf], _, .rect e1, Verif.SvgDraw.paintOk_of ?_, by decide, ⟨by simp, by simp, by simp⟩, trivial⟩
      rintro c (hc | hc | hc) <;> cases hc
      exact red
    | 2, h =>
      injection h with h; injection h with h1 h2; subst h1; subst h2
      refine ⟨by simp [pointsOf], _, .rect e0, Verif.SvgDraw.paintOk_of ?_, by decide, ⟨by simp, by simp, by simp⟩, trivial⟩
      rintro c (hc | hc | hc) <;> cases hc
      exact red
    | k + 3, h => cases h
  · injection hm with h1 _ _
    subst h1
    obtain ⟨env, he, e0, e1⟩ := rectsOf_some (show rectsOf 100 80 (historyOf (some "red".toList) exCalls 2) = some (some ⟨0, 0, 100, 80⟩, some ⟨10, 20, 40, 30⟩) by decide +kernel) hs
    refine ⟨env, he, fun k step p d _ h _ => ?_⟩
    have e : things (historyOf (some "red".toList) exCalls 2) =
        [.box 0 { show_ := .str "2+".toList, layout := { x := .num 10, y := .num 20, width := .num 40, height := .num 30 } }, .draw 1 (.ellipse none { bgColor := some "red".toList })] := rfl
    rw [e] at h
    match k, h with
    | 0, h => cases h
    | 1, h =>
      injection h with h; injection h with h1 h2; subst h1; subst h2
      refine ⟨by simp [pointsOf], _, .ellipse e1, Verif.SvgDraw.paintOk_of ?_, by decide, trivial, trivial⟩
      rintro c (hc | hc | hc) <;> cases hc
      exact red
    | k + 2, h => cases h

/-- The hypotheses of `C115_svg` and `C114_svg` (for the slide 0) hold. -/
example : run (newBook 100 80 (some "red".toList) .unique) exCalls = .ok exBook ∧ exBook.deck.slides ≠ [] ∧
    (made exCalls)[0]? = some (.newSlide (.str "a".toList) none none) ∧ groundColor (some "red".toList) none = some "red".toList ∧
    AboveGround (exCalls.filterMap (onSlide 0)) := by
  have e : exCalls.filterMap (onSlide 0) = [.draw 0 (.rect none none (some 30) { bgColor := some "red".toList })] := rfl
  refine ⟨ex_run, by rw [ex_slides]; simp, rfl, rfl, ?_⟩
  rw [e]
  constructor
  · simp [outline, Verif.Slide.Spec.target]
  · simp

/-- The pages: one of the first slide (with two rectangles), the PDF, two of the second slide (the first one is empty). -/
example : (match renderSvg (fun q => Verif.natStr q.num.toNat) exBook true with
    | .ok sheets => sheets.map Sheet.unit | .error _ => []) = [.svg 0 0 1, .pdf 1 "x.pdf".toList, .svg 2 2 1, .svg 2 2 2] := by decide +kernel

/-- The hypothesis of `C115_cairo` and `C114_cairo` about what is drawn holds too. -/
theorem ex_painted : ∀ u i n, Entry.slide u i n ∈ exBook.deck.slides → (∀ v, viewBoxOf exCalls u = some v → 0 < v.width ∧ 0 < v.height) ∧
    ∀ s, Verif.Scene.run (Verif.Scene.newScene 100 80) (historyOf (some "red".toList) exCalls u) = .ok s →
    ∃ env, s.slide.rects 100 80 = .ok env ∧ ∀ step : Nat, 1 ≤ step →
      (∀ l, InOrder (things (historyOf (some "red".toList) exCalls u)) step l → Smooth (things (historyOf (some "red".toList) exCalls u)) l) ∧
      ∀ (k p : Nat) d, (things (historyOf (some "red".toList) exCalls u))[k]? = some (.draw p d) →
      OnPage ((things (historyOf (some "red".toList) exCalls u)).map outline) step p → Paintable Verif.Scene.exExt (viewBoxOf exCalls u) env step p d := by
  intro u i n hm
  rw [ex_slides] at hm
  simp only [List.mem_cons, List.not_mem_nil, or_false, reduceCtorEq, false_or] at hm
  have hsm : ∀ (ts : List Verif.Scene.Call) l, (∀ (i p : Nat) d, ts[i]? = some (.draw p d) → ¬ DashedEllipse d ∧ ¬ LeavesPoint d) → Smooth ts l :=
    fun ts l h => List.pairwise_of_forall fun a b i j p q d e _ hi _ _ => ⟨(h i p d hi).1, fun hl => absurd hl (h i p d hi).2⟩
  have hred : ∀ c : Str, c = "red".toList → Verif.Scene.exExt.known c = true := by
    rintro c rfl; decide
  rcases hm with hm | hm
  · injection hm with h1 _ _
    subst h1
    refine ⟨(by intro v hv; cases hv), fun s hs => ?_⟩
    obtain ⟨env, he, e0, e1⟩ := rectsOf_some (show rectsOf 100 80 (historyOf (some "red".toList) exCalls 0) = some (some ⟨0, 0, 100, 80⟩, some ⟨0, 0, 100, 80⟩) by decide +kernel) hs
    have e : things (historyOf (some "red".toList) exCalls 0) = ground "red".toList ++ [.draw 0 (.rect none none (some 30) { bgColor := some "red".toList })] := rfl
    refine ⟨env, he, fun step _ => ⟨fun l _ => hsm _ _ ?_, fun k p d h _ => ?_⟩⟩
    · intro i p d h
      rw [e] at h
      match i, h with
      | 0, h => cases h
      | 1, h => injection h with h; injection h with h1 h2; subst h2; exact ⟨id, id⟩
      | 2, h => injection h with h; injection h with h1 h2; subst h2; exact ⟨id, id⟩
      | k + 3, h => cases h
    rw [e] at h
    match k, h with
    | 0, h => cases h
    | 1, h =>
      injection h with h; injection h with h1 h2; subst h1; subst h2
      refine ⟨by simp [pointsOf], _, .rect e1, by decide, ⟨by simp, by simp, by simp⟩, by decide +kernel, by decide +kernel, Verif.Scene.ex_style_ok ?_ ?_ rfl⟩
      · intro c h; cases h
      · intro c h; injection h with h; exact hred c h.symm
    | 2, h =>
      injection h with h; injection h with h1 h2; subst h1; subst h2
      refine ⟨by simp [pointsOf], _, .rect e0, by decide, ⟨by simp, by simp, by simp⟩, by decide +kernel, by decide +kernel, Verif.Scene.ex_style_ok ?_ ?_ rfl⟩
      · intro c h; cases h
      · intro c h; injection h with h; exact hred c h.symm
    | k + 3, h => cases h
  · injection hm with h1 _ _
    subst h1
    refine ⟨fun v hv => by
      have : viewBoxOf exCalls 2 = some ⟨0, 0, 50, 50⟩ := rfl
      rw [this] at hv; injection hv with hv; subst hv; decide +kernel, fun s hs => ?_⟩
    obtain ⟨env, he, e0, e1⟩ := rectsOf_some (show rectsOf 100 80 (historyOf (some "red".toList) exCalls 2) = some (some ⟨0, 0, 100, 80⟩, some ⟨10, 20, 40, 30⟩) by decide +kernel) hs
    have e : things (historyOf (some "red".toList) exCalls 2) =
        [.box 0 { show_ := .str "2+".toList, layout := { x := .num 10, y := .num 20, width := .num 40, height := .num 30 } }, .draw 1 (.ellipse none { bgColor := some "red".toList })] := rfl
    refine ⟨env, he, fun step _ => ⟨fun l _ => hsm _ _ ?_, fun k p d h _ => ?_⟩⟩
    · intro i p d h
      rw [e] at h
      match i, h with
      | 0, h => cases h
      | 1, h =>
        injection h with h; injection h with h1 h2; subst h2
        refine ⟨?_, id⟩
        rintro ⟨-, e, he, -⟩
        cases he
      | k + 2, h => cases h
    rw [e] at h
    match k, h with
    | 0, h => cases h
    | 1, h =>
      injection h with h; injection h with h1 h2; subst h1; subst h2
      refine ⟨by simp [pointsOf], _, .ellipse e1, by decide, trivial, by decide +kernel, by decide +kernel, Verif.Scene.ex_style_ok ?_ ?_ rfl⟩
      · intro c h; cases h
      · intro c h; injection h with h; exact hred c h.symm
    | k + 2, h => cases h

end Verif.Book
