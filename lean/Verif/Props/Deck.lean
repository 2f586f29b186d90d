import Verif.Proofs.Deck

/-! # Properties C48–C54: slide decks -/

namespace Verif.Deck
open Spec

/-! ### C48 -/

/-- **C48 (names).** Under `unique` and `replace`, after any history of calls (also failing ones, caught by the
user), no two slides have the same name. -/
theorem C48_no_shared_names (policy : Policy) (hp : policy ≠ .ignore) (cs : List Call) :
    (names (history policy cs).slides).Nodup := by
  obtain ⟨h1, h2⟩ := history_inv policy cs
  exact h1.names (by rw [h2]; exact hp)

/-- **C48 (effect).** A successful `new_slide` puts the new slide at the end. Under `unique` and `ignore` all the
others stay as they are, under `replace` exactly those with the same name go. -/
theorem C48_new_slide (policy : Policy) (cs : List Call) (name : Name) (v : Bool) (d' : Deck)
    (h : exec (history policy cs) (.newSlide name v) = (d', none)) :
    ∃ u i, (∀ e ∈ (history policy cs).slides, e.uid ≠ u) ∧
      d'.slides = (history policy cs).slides.filter (stays policy name) ++ [.slide u i name] := by
  obtain ⟨hi, hpol⟩ := history_inv policy cs
  obtain ⟨-, -, -, keep, hs, hk⟩ := newSlide_ok hi h
  refine ⟨_, keep.length, fun e he => Nat.ne_of_lt (hi.lt e he), hs.trans ?_⟩
  rcases hk with ⟨rfl, h2⟩ | ⟨hr, n, rfl, h3, rfl⟩
  · congr 1
    symm
    rw [List.filter_eq_self]
    intro e he
    unfold stays
    split
    · rename_i n
      simp only [ne_eq, decide_not, Bool.not_eq_true', decide_eq_false_iff_not]
      intro hx
      exact h2 (by rw [hpol]; simp) n rfl (List.mem_filterMap.mpr ⟨e, he, hx⟩)
    · rfl
  · rw [hpol] at hr
    subst hr
    rfl

/-- **C48 (failure).** A call that raises leaves the deck as it was. -/
theorem C48_failure (d d' : Deck) (c : Call) (e : Err) (h : exec d c = (d', some e)) : d' = d := by
  cases c with
  | addPdf f => cases h
  | newSlide name v =>
    simp only [exec] at h
    split at h
    · injection h with h _; exact h.symm
    · split at h
      · injection h with h _; exact h.symm
      · cases h

/-- **C48 (duplicates).** Under `unique` a name that is in use is refused. -/
theorem C48_duplicate (cs : List Call) (n : Str) (v : Bool) (hn : n ∈ names (history .unique cs).slides) :
    ∃ e, exec (history .unique cs) (.newSlide (.str n) v) = (history .unique cs, some e) := by
  obtain ⟨hi, hpol⟩ := history_inv .unique cs
  cases hx : exec (history .unique cs) (.newSlide (.str n) v) with
  | mk d' o =>
    cases o with
    | some e => exact ⟨e, by rw [C48_failure _ _ _ _ hx]⟩
    | none =>
      obtain ⟨-, -, -, keep, hs, hk⟩ := newSlide_ok hi hx
      rcases hk with ⟨-, h2⟩ | ⟨hr, -⟩
      · exact absurd hn (h2 (by rw [hpol]; simp) n rfl)
      · rw [hpol] at hr; cases hr

/-- A history with duplicates, under each policy. -/
example :
    names (history .replace [.newSlide (.str ['a']) true, .newSlide (.str ['b']) true, .newSlide (.str ['a']) true]).slides =
      [['b'], ['a']] ∧
    names (history .unique [.newSlide (.str ['a']) true, .newSlide .none true, .newSlide (.str ['b']) true, .newSlide (.str ['a']) true]).slides =
      [['a'], ['b']] ∧
    names (history .ignore [.newSlide (.str ['a']) true, .newSlide (.str ['a']) true]).slides = [['a'], ['a']] := by
  decide +kernel

/-! ### C49 -/

/-- **C49 is false**: after `add_pdf`, looking a name up fails with `AttributeError`, because an external PDF has
no attribute `name`. -/
theorem C49_pdf_false : ¬ ∀ (policy : Policy) (cs : List Call) (n : Str), n ∉ names (history policy cs).slides →
    (exec (history policy cs) (.newSlide (.str n) true)).2 = none := by
  intro h
  have := h .unique [.addPdf ['x']] ['a'] (by decide +kernel)
  exact absurd this (by decide +kernel)

/-- **C49, what holds.** A slide with a fresh name can be created when the deck has no PDF, or the policy is
`ignore`; a slide without name under `unique` and `ignore` always. With a PDF in the deck, under `unique` and
`replace`, a slide with a fresh name can never be created, the exception being `AttributeError`. -/
theorem C49_pdf_partial (policy : Policy) (cs : List Call) (n : Str) (hn : n ∉ names (history policy cs).slides) :
    ((exec (history policy cs) (.newSlide (.str n) true)).2 = none ↔
      (policy = .ignore ∨ ∀ u f, Entry.pdf u f ∉ (history policy cs).slides)) ∧
    (∀ e, (exec (history policy cs) (.newSlide (.str n) true)).2 = some e → e = .attribute) ∧
    (policy ≠ .replace → (exec (history policy cs) (.newSlide .none true)).2 = none) := by
  obtain ⟨hi, hpol⟩ := history_inv policy cs
  generalize history policy cs = d at *
  subst hpol
  have key : ∀ l : List Entry, n ∉ names l → ((∃ u f, Entry.pdf u f ∈ l) → getByName n l = .error .attribute) ∧
      ((∀ u f, Entry.pdf u f ∉ l) → getByName n l = .ok none) := by
    intro l
    induction l with
    | nil => intro _; exact ⟨fun ⟨u, f, h⟩ => (by cases h), fun _ => rfl⟩
    | cons e l ih =>
      intro hn
      cases e with
      | pdf u f => exact ⟨fun _ => rfl, fun h => absurd (by simp) (h u f)⟩
      | slide u i m =>
        have hm : m ≠ .str n := by
          rintro rfl
          exact hn (by rw [names_str]; simp)
        have hn' : n ∉ names l := by
          cases m with
          | none => exact hn
          | other => exact hn
          | str k => rw [names_str] at hn; exact fun h => hn (List.mem_cons_of_mem _ h)
        obtain ⟨i1, i2⟩ := ih hn'
        simp only [getByName, if_neg hm]
        constructor
        · rintro ⟨a, b, h⟩
          refine i1 ⟨a, b, ?_⟩
          simpa using h
        · intro h
          exact i2 (fun a b hm => h a b (List.mem_cons_of_mem _ hm))
  obtain ⟨k1, k2⟩ := key d.slides hn
  have hnone : d.policy ≠ .replace → (exec d (.newSlide .none true)).2 = none := by
    intro hp
    simp only [exec, applyNamePolicy]
    revert hp
    cases d.policy <;> simp
  by_cases hig : d.policy = .ignore
  · have : exec d (.newSlide (.str n) true) = ({ d with slides := d.slides ++ [.slide d.next d.slides.length (.str n)], next := d.next + 1 }, none) := by
      simp [exec, applyNamePolicy, hig]
    rw [this]
    exact ⟨⟨fun _ => Or.inl hig, fun _ => rfl⟩, fun e h => (by cases h), hnone⟩
  · by_cases hpdf : ∃ u f, Entry.pdf u f ∈ d.slides
    · have : exec d (.newSlide (.str n) true) = (d, some .attribute) := by
        simp [exec, applyNamePolicy, hig, k1 hpdf]
      rw [this]
      refine ⟨⟨fun h => (by cases h), ?_⟩, fun e h => (by cases h; rfl), hnone⟩
      rintro (h | h)
      · exact absurd h hig
      · obtain ⟨u, f, hm⟩ := hpdf; exact absurd hm (h u f)
    · have hno : ∀ u f, Entry.pdf u f ∉ d.slides := fun u f h => hpdf ⟨u, f, h⟩
      have : exec d (.newSlide (.str n) true) = ({ d with slides := d.slides ++ [.slide d.next d.slides.length (.str n)], next := d.next + 1 }, none) := by
        simp [exec, applyNamePolicy, hig, k2 hno]
      rw [this]
      exact ⟨⟨fun _ => Or.inr hno, fun _ => rfl⟩, fun e h => (by cases h), hnone⟩

/-- A fresh name, and a deck with a PDF. -/
example : ['b'] ∉ names (history .unique [.newSlide (.str ['a']) true, .addPdf ['x']]).slides ∧
    (exec (history .unique [.newSlide (.str ['a']) true, .addPdf ['x']]) (.newSlide (.str ['b']) true)).2 = some .attribute ∧
    (exec (history .unique [.newSlide (.str ['a']) true]) (.newSlide (.str ['b']) true)).2 = none := by decide +kernel

/-! ### C50 -/

/-- **C50.** The pages of a deck: exactly the fragments `1 … steps()` of the slides and the PDFs, ordered by the
position in the deck and then by fragment, each once. -/
theorem C50_pages_in_order (policy : Policy) (cs : List Call) (pages : Nat → Nat) (w h : Nat) (pdf pp : Bool) (out : List Page)
    (hr : render pages w h (history policy cs).slides pdf pp none = .ok out) :
    ∃ us : List RUnit, out = us.map .single ∧
      (∀ v, v ∈ us ↔ ∃ e ∈ (history policy cs).slides, Shows pages e v) ∧
      us.Pairwise (Before (history policy cs).slides) ∧ us.Nodup := by
  obtain ⟨hi, -⟩ := history_inv policy cs
  simp only [render] at hr
  split at hr
  · cases hr
  · split at hr
    · cases hr
    · split at hr
      · cases hr
      · rename_i us hus
        injection hr with hr
        have hs := unitsLoop_sorted hi.uids hus
        refine ⟨us, hr.symm, unitsLoop_mem hus, hs, ?_⟩
        refine hs.imp ?_
        rintro a b (h | ⟨-, h⟩) rfl <;> omega

/-- **C50 (success).** Rendering a deck to PDF without postprocessing fails only when there is nothing to render. -/
theorem C50_render_succeeds (pages : Nat → Nat) (w h : Nat) (l : List Entry) (hl : l ≠ []) :
    ∃ out, render pages w h l true false none = .ok out := by
  have : ∃ us, unitsLoop pages true l = .ok us := by
    clear hl
    induction l with
    | nil => exact ⟨[], rfl⟩
    | cons e l ih =>
      obtain ⟨us, hus⟩ := ih
      cases e with
      | slide u i m => simp only [unitsLoop, unitsOf, hus]; exact ⟨_, rfl⟩
      | pdf u f => simp only [unitsLoop, unitsOf, hus]; exact ⟨_, rfl⟩
  obtain ⟨us, hus⟩ := this
  exact ⟨us.map .single, by simp [render, hl, hus]⟩

/-- Three entries, one with two fragments. -/
example : render (fun u => if u = 0 then 2 else 1) 10 10
      (history .ignore [.newSlide .none true, .addPdf ['x'], .newSlide .none true]).slides true false none =
    .ok [.single (.svg 0 0 1), .single (.svg 0 0 2), .single (.pdf 1 ['x']), .single (.svg 2 2 1)] := by decide +kernel

/-! ### C51 -/

/-- **C51.** For every grid and every list of svg pages: the number of pages is the least that suffices, the `j`-th
place of page `k` holds page `k * x * y + j` and is column `j % x` of row `j / x`; every page but the last is full. -/
theorem C51_grid (cx cy w h : Nat) (hx : 0 < cx) (hy : 0 < cy) (units : List RUnit) (hsvg : ∀ u ∈ units, isSlide u = true) :
    ∃ pages, perPageGrouping cx cy w h units = .ok pages ∧ GridOf cy cx w h units pages := by
  rw [isSlide_eq] at hsvg
  have hpos : 0 < cx * cy := Nat.mul_pos hx hy
  unfold perPageGrouping
  rw [if_neg (by omega), if_neg (by omega)]
  by_cases h1 : cx * cy = 1
  · rw [if_pos h1]
    have hcx : cx = 1 := Nat.eq_one_of_mul_eq_one_right h1
    refine ⟨_, rfl, by simp [h1], ?_, ?_, fun h => absurd h1 h⟩
    · intro k j hj
      have : j = 0 := by omega
      subst this
      rw [h1]
      simp only [List.getElem?_map, Nat.mul_one, Nat.add_zero]
      cases units[k]? with
      | none => rfl
      | some u => simp [Page.cells, place]
    · intro p hp
      obtain ⟨u, -, rfl⟩ := List.mem_map.mp hp
      simp [Page.cells, h1]
  · rw [if_neg h1]
    obtain ⟨pages, g1, g2, g3, g4⟩ := groupLoop_svg cx cy w h hpos units hsvg [] [] (by simp)
    have e : cellsOf cx w h [] = [] := rfl
    rw [e] at g1
    simp only [List.nil_append] at g1 g2
    refine ⟨_, rfl, ?_, ?_, ?_, ?_⟩
    · rw [g1, List.length_map]
      obtain ⟨l1, l2⟩ := chunks_length pages g3 g4
      rw [g2] at l1 l2
      generalize cx * cy = L at *
      symm
      by_cases hn : pages = []
      · subst hn
        simp at l1
        subst l1
        simp; omega
      · have l2 := l2 hn
        have hl : 0 < pages.length := List.length_pos_of_ne_nil hn
        obtain ⟨m, hm⟩ : ∃ m, pages.length = m + 1 := ⟨pages.length - 1, by omega⟩
        rw [hm] at l1 l2 ⊢
        simp only [Nat.add_sub_cancel] at l2
        have hr : (m + 1) * L = m * L + L := by ring
        rw [Nat.div_eq_iff hpos]
        constructor <;> omega
    · intro k j hj
      rw [g1, List.getElem?_map, ← g2, ← chunks_getElem pages g3 g4 k j hj]
      cases pages[k]? with
      | none => rfl
      | some p =>
        simp only [Option.map_some, Option.bind_some, Page.cells, cellsOf, List.getElem?_mapIdx]
    · intro p hp
      rw [g1] at hp
      obtain ⟨q, hq, rfl⟩ := List.mem_map.mp hp
      simp only [Page.cells, cellsOf_length]
      exact (g3 q hq).2
    · intro _ p hp
      rw [g1] at hp
      obtain ⟨q, hq, rfl⟩ := List.mem_map.mp hp
      exact ⟨_, rfl⟩

/-- **C51 (cells).** The places of a page are inside the page and do not overlap. -/
theorem C51_cells_disjoint (cx cy w h j j' : Nat) (hj : j < cx * cy) :
    (place cx w h j).1 + w ≤ w * cx ∧ (place cx w h j).2 + h ≤ h * cy ∧
    (j ≠ j' → (place cx w h j).1 + w ≤ (place cx w h j').1 ∨ (place cx w h j').1 + w ≤ (place cx w h j).1 ∨
      (place cx w h j).2 + h ≤ (place cx w h j').2 ∨ (place cx w h j').2 + h ≤ (place cx w h j).2) := by
  have hx : 0 < cx := by
    rcases Nat.eq_zero_or_pos cx with h0 | h0
    · rw [h0, Nat.zero_mul] at hj; omega
    · exact h0
  have hc : j % cx < cx := Nat.mod_lt _ hx
  have hr : j / cx < cy := Nat.div_lt_of_lt_mul hj
  have mono : ∀ a b s : Nat, a < b → a * s + s ≤ b * s := by
    intro a b s hab
    calc a * s + s = (a + 1) * s := by ring
      _ ≤ b * s := Nat.mul_le_mul_right s hab
  refine ⟨?_, ?_, ?_⟩
  · simp only [place]; rw [Nat.mul_comm w cx]; exact mono _ _ _ hc
  · simp only [place]; rw [Nat.mul_comm h cy]; exact mono _ _ _ hr
  · intro hne
    simp only [place]
    rcases Nat.lt_trichotomy (j % cx) (j' % cx) with h1 | h1 | h1
    · left; exact mono _ _ _ h1
    · right; right
      rcases Nat.lt_trichotomy (j / cx) (j' / cx) with h2 | h2 | h2
      · left; exact mono _ _ _ h2
      · exfalso
        apply hne
        rw [← Nat.div_add_mod j cx, ← Nat.div_add_mod j' cx, h1, h2]
      · right; exact mono _ _ _ h2
    · right; left; exact mono _ _ _ h1

/-- **C51 (decks).** A deck without embedded PDFs, rendered with `slides_per_page`, has exactly the pages it has without it (C50), in such grids. -/
theorem C51_render (pages : Nat → Nat) (w h cx cy : Nat) (hx : 0 < cx) (hy : 0 < cy) (l : List Entry) (hl : l ≠ [])
    (hs : ∀ e ∈ l, ∃ u i m, e = .slide u i m) (pdf pp : Bool) :
    ∃ us out, render pages w h l pdf pp none = .ok (us.map .single) ∧ render pages w h l pdf pp (some (cx, cy)) = .ok out ∧ GridOf cy cx w h us out := by
  have hun : ∃ us, unitsLoop pages pdf l = .ok us ∧ ∀ u ∈ us, isSlide u = true := by
    clear hl
    induction l with
    | nil => exact ⟨[], rfl, by simp⟩
    | cons e l ih =>
      obtain ⟨us, h1, h2⟩ := ih fun e he => hs e (List.mem_cons_of_mem _ he)
      obtain ⟨u, i, m, rfl⟩ := hs e (by simp)
      refine ⟨(List.range (pages u)).map (fun k => .svg u i (k + 1)) ++ us, by simp only [unitsLoop, unitsOf, h1], ?_⟩
      intro v hv
      rcases List.mem_append.mp hv with hv | hv
      · obtain ⟨k, -, rfl⟩ := List.mem_map.mp hv
        rfl
      · exact h2 v hv
  obtain ⟨us, h1, h2⟩ := hun
  obtain ⟨out, h3, h4⟩ := C51_grid cx cy w h hx hy us h2
  have hr : ∀ spp, render pages w h l pdf pp spp = match spp with | none => .ok (us.map .single) | some (a, b) => perPageGrouping a b w h us := by
    intro spp
    unfold render
    rw [if_neg hl, if_neg, h1]
    · cases spp <;> rfl
    · rw [Bool.and_eq_true, List.any_eq_true]
      rintro ⟨-, e, he, h⟩
      obtain ⟨u, i, m, rfl⟩ := hs e he
      cases h
  exact ⟨us, out, hr none, (hr (some (cx, cy))).trans h3, h4⟩

/-- Three pages of two slides, with two columns and one row. -/
example : render (fun u => if u = 0 then 2 else 1) 10 20 (history .ignore [.newSlide .none true, .newSlide .none true]).slides true false (some (2, 1)) =
    .ok [.grid 20 20 [(0, 0, .svg 0 0 1), (10, 0, .svg 0 0 2)], .grid 20 20 [(0, 0, .svg 1 1 1)]] := by decide +kernel

/-- Five pages in a grid of two columns and one row. -/
example : perPageGrouping 2 1 10 20 [.svg 0 0 1, .svg 0 0 2, .svg 1 1 1, .svg 2 2 1, .svg 3 3 1] =
    .ok [.grid 20 20 [(0, 0, .svg 0 0 1), (10, 0, .svg 0 0 2)], .grid 20 20 [(0, 0, .svg 1 1 1), (10, 0, .svg 2 2 1)],
      .grid 20 20 [(0, 0, .svg 3 3 1)]] := by decide +kernel

/-! ### C52 -/

/-- **C52 is false**: an embedded PDF between two slides comes out before both. -/
theorem C52_pdf_order_false : ¬ ∀ (cx cy w h : Nat) (units : List RUnit) (pages : List Page),
    perPageGrouping cx cy w h units = .ok pages → allUnits pages = units := by
  intro h
  have := h 2 1 10 10 [.svg 0 0 1, .pdf 1 [], .svg 2 2 1] _ rfl
  exact absurd this (by decide +kernel)

/-- **C52, what holds.** The svg pages keep their order and so do the PDFs, nothing is lost or duplicated, and the
whole order is kept exactly when no PDF comes after an svg page (or the grid has one cell). A PDF has a page of its own. -/
theorem C52_pdf_order_partial (cx cy w h : Nat) (units : List RUnit) (pages : List Page)
    (hp : perPageGrouping cx cy w h units = .ok pages) :
    (allUnits pages).filter isSlide = units.filter isSlide ∧
    (allUnits pages).filter (fun u => !isSlide u) = units.filter (fun u => !isSlide u) ∧
    (allUnits pages).Perm units ∧
    (allUnits pages = units ↔ (cx * cy = 1 ∨ ∃ a b, units = a ++ b ∧ (∀ u ∈ a, isSlide u = false) ∧ ∀ u ∈ b, isSlide u = true)) ∧
    ∀ p ∈ pages, ∀ u ∈ Page.units p, isSlide u = false → p = .single u := by
  rw [isSlide_eq]
  have hcomb : ∀ us vs : List RUnit, us.filter RUnit.isSvg = vs.filter RUnit.isSvg →
      us.filter (fun u => !u.isSvg) = vs.filter (fun u => !u.isSvg) → us.Perm vs := by
    intro us vs h1 h2
    have p1 := List.filter_append_perm RUnit.isSvg us
    have p2 := List.filter_append_perm RUnit.isSvg vs
    rw [h1, h2] at p1
    exact p1.symm.trans p2
  unfold perPageGrouping at hp
  split at hp
  · cases hp
  · split at hp
    · cases hp
    · rename_i hx hy
      have hpos : 0 < cx * cy := Nat.mul_pos (by omega) (by omega)
      split at hp
      · rename_i h1
        injection hp with hp; subst hp
        have e : allUnits (units.map .single) = units := by
          clear hcomb
          induction units with
          | nil => rfl
          | cons u us ih =>
            have : allUnits ((u :: us).map .single) = u :: allUnits (us.map .single) := rfl
            rw [this, ih]
        rw [e]
        refine ⟨rfl, rfl, List.Perm.refl _, ⟨fun _ => Or.inl h1, fun _ => rfl⟩, ?_⟩
        intro p hp u hu _
        obtain ⟨v, -, rfl⟩ := List.mem_map.mp hp
        simp only [Page.units, List.mem_singleton] at hu
        rw [hu]
      · rename_i h1
        injection hp with hp; subst hp
        obtain ⟨f1, f2⟩ := groupLoop_units cx cy w h units [] [] (by simp)
        simp only [allUnits, List.flatMap_nil, List.filter_nil, List.map_nil, List.nil_append] at f1 f2
        refine ⟨f1, f2, hcomb _ _ f1 f2, ?_, groupLoop_alone cx cy w h units [] [] (by simp) (by simp)⟩
        constructor
        · intro heq
          right
          -- leading PDFs are copied
          have lead : ∀ (us : List RUnit) (new : List Page), allUnits (groupLoop cx cy w h us new []) = allUnits new ++ us →
              ∃ a b, us = a ++ b ∧ (∀ u ∈ a, u.isSvg = false) ∧ ∀ u ∈ b, u.isSvg = true := by
            intro us
            induction us with
            | nil => intro _ _; exact ⟨[], [], rfl, by simp, by simp⟩
            | cons u us ih =>
              intro new heq
              cases hu : u.isSvg with
              | false =>
                simp only [groupLoop, hu, Bool.not_false, if_true] at heq
                obtain ⟨a, b, e1, e2, e3⟩ := ih (new ++ [.single u]) (by rw [heq, allUnits_append]; simp [allUnits, Page.units])
                refine ⟨u :: a, b, by rw [e1]; rfl, ?_, e3⟩
                intro v hv
                rcases List.mem_cons.mp hv with rfl | hv
                · exact hu
                · exact e2 v hv
              | true =>
                simp only [groupLoop, hu, Bool.not_true, Bool.false_eq_true, if_false, List.length_nil] at heq
                rw [if_neg (by omega)] at heq
                have := groupLoop_order cx cy w h us new _ (by simp) (by simpa using hu) (heq.trans (by simp))
                refine ⟨[], u :: us, rfl, by simp, ?_⟩
                intro v hv
                rcases List.mem_cons.mp hv with rfl | hv
                · exact hu
                · exact this v hv
          exact lead units [] (by rw [heq]; rfl)
        · rintro (h | ⟨a, b, rfl, ha, hb⟩)
          · exact absurd h h1
          · have skip : ∀ (a : List RUnit) (new : List Page), (∀ u ∈ a, u.isSvg = false) →
                groupLoop cx cy w h (a ++ b) new [] = groupLoop cx cy w h b (new ++ a.map .single) [] := by
              intro a
              induction a with
              | nil => intro new _; simp
              | cons u a ih =>
                intro new ha
                simp only [List.cons_append, groupLoop, ha u (by simp), Bool.not_false, if_true]
                rw [ih _ (fun v hv => ha v (List.mem_cons_of_mem _ hv))]
                simp
            rw [skip a [] ha]
            obtain ⟨pages, g1, g2, -, -⟩ := groupLoop_svg cx cy w h hpos b hb ([] ++ a.map .single) [] (by simp)
            have e : cellsOf cx w h [] = [] := rfl
            rw [e] at g1
            rw [g1, allUnits_append]
            have e1 : ∀ a : List RUnit, allUnits (a.map .single) = a := by
              intro a
              induction a with
              | nil => rfl
              | cons u us ih =>
                have : allUnits ((u :: us).map .single) = u :: allUnits (us.map .single) := rfl
                rw [this, ih]
            have e2 : ∀ ps : List (List RUnit), allUnits (ps.map (fun p => .grid (w * cx) (h * cy) (cellsOf cx w h p))) = ps.flatten := by
              intro ps
              induction ps with
              | nil => rfl
              | cons p ps ih =>
                have : allUnits ((p :: ps).map (fun p => .grid (w * cx) (h * cy) (cellsOf cx w h p))) =
                    (cellsOf cx w h p).map (·.2.2) ++ allUnits (ps.map (fun p => .grid (w * cx) (h * cy) (cellsOf cx w h p))) := rfl
                rw [this, ih, List.flatten_cons]
                congr 1
                simp only [cellsOf]
                apply List.ext_getElem?
                intro i
                simp only [List.getElem?_map, List.getElem?_mapIdx]
                cases p[i]? <;> rfl
            rw [List.nil_append, e1, e2, g2, List.nil_append]

/-- PDFs first: the order is kept. -/
example : ∃ pages, perPageGrouping 2 1 10 10 [.pdf 0 [], .svg 1 1 1, .svg 2 2 1, .svg 3 3 1] = .ok pages ∧
    allUnits pages = [.pdf 0 [], .svg 1 1 1, .svg 2 2 1, .svg 3 3 1] := ⟨_, rfl, by decide +kernel⟩

/-! ### C53 -/

/-- The page size that the documentation of `render` asks for: `R` rows and `C` columns. -/
def docSize (w h rows cols : Nat) : Nat × Nat := (cols * w, rows * h)

/-- **C53 is false**: `slides_per_page=(1, 2)` should be one row of two slides and gives one column. -/
theorem C53_rows_columns_false : ¬ ∀ (rows cols w h : Nat) (units : List RUnit) (pages : List Page),
    perPageGrouping rows cols w h units = .ok pages → ∀ p ∈ pages, ∀ W H cells, p = .grid W H cells →
      (W, H) = docSize w h rows cols := by
  intro hc
  have := hc 1 2 10 10 [.svg 0 0 1, .svg 0 0 2] _ rfl (.grid 10 20 [(0, 0, .svg 0 0 1), (0, 10, .svg 0 0 2)]) (by decide +kernel)
    10 20 _ rfl
  exact absurd this (by decide +kernel)

/-- **C53, what holds.** The first component is the number of columns and the second the number of rows, in the
size of the page and in the place of every unit (so the documentation is right for square grids only). -/
theorem C53_rows_columns_partial (a b w h : Nat) (ha : 0 < a) (hb : 0 < b) (hne : a * b ≠ 1) (units : List RUnit)
    (hsvg : ∀ u ∈ units, isSlide u = true) : ∃ pages, perPageGrouping a b w h units = .ok pages ∧
      ∀ p ∈ pages, ∃ W H cells, p = .grid W H cells ∧ (W, H) = docSize w h b a ∧
        ((W, H) = docSize w h a b ↔ b * w = a * w ∧ b * h = a * h) ∧
        ∀ j, j < a * b → ∀ c, cells[j]? = some c → c.1 = j % a * w ∧ c.2.1 = j / a * h := by
  obtain ⟨pages, h1, -, h3, -, h5⟩ := C51_grid a b w h ha hb units hsvg
  refine ⟨pages, h1, ?_⟩
  intro p hp
  obtain ⟨cells, rfl⟩ := h5 hne p hp
  refine ⟨_, _, cells, rfl, by simp [docSize, Nat.mul_comm], ?_, ?_⟩
  · simp only [docSize, Prod.mk.injEq]
    rw [Nat.mul_comm w a, Nat.mul_comm h b]
    constructor
    · rintro ⟨x, y⟩; exact ⟨x.symm, y⟩
    · rintro ⟨x, y⟩; exact ⟨x.symm, y⟩
  · intro j hj c hc
    obtain ⟨k, hk⟩ := List.getElem?_of_mem hp
    have := h3 k j hj
    rw [hk] at this
    simp only [Option.bind_some, Page.cells, hc] at this
    cases hu : units[k * (a * b) + j]? with
    | none => rw [hu] at this; cases this
    | some u =>
      rw [hu] at this
      injection this with this
      subst this
      exact ⟨rfl, rfl⟩

/-- A grid with three columns and two rows. -/
example : perPageGrouping 3 2 10 10 ([1, 2, 3, 4].map (.svg 0 0)) =
    .ok [.grid 30 20 [(0, 0, .svg 0 0 1), (10, 0, .svg 0 0 2), (20, 0, .svg 0 0 3), (0, 10, .svg 0 0 4)]] := by decide +kernel

/-! ### C54 -/

/-- **C54 is false** under `replace`: the index of a new slide is the number of slides left, which another slide
may have. -/
theorem C54_debug_files_false : ¬ ∀ (policy : Policy) (cs : List Call) (pages : Nat → Nat) (us : List RUnit),
    unitsLoop pages true (history policy cs).slides = .ok us → (us.filterMap debugFile).Nodup := by
  intro h
  have := h .replace [.newSlide (.str ['a']) true, .newSlide (.str ['b']) true, .newSlide (.str ['a']) true] (fun _ => 1) _ rfl
  exact absurd this (by decide +kernel)

/-- **C54, what holds.** Under `ignore` and `unique` every page has its own debug file. -/
theorem C54_debug_files_partial (policy : Policy) (hp : policy ≠ .replace) (cs : List Call) (pages : Nat → Nat) (pdf : Bool)
    (us : List RUnit) (h : unitsLoop pages pdf (history policy cs).slides = .ok us) : (us.filterMap debugFile).Nodup := by
  obtain ⟨hi, -⟩ := history_inv policy cs
  have hidx := history_index hp cs
  have hs := unitsLoop_sorted hi.uids h
  rw [List.Nodup, List.pairwise_filterMap]
  refine hs.imp_of_mem ?_
  intro a b ha hb hab x hx y hy hxy
  subst hxy
  obtain ⟨e, he, hea⟩ := (unitsLoop_mem h a).mp ha
  obtain ⟨e', he', heb⟩ := (unitsLoop_mem h b).mp hb
  cases e with
  | pdf u f => cases hea; cases hx
  | slide u i m =>
    cases e' with
    | pdf u f => cases heb; cases hy
    | slide u' i' m' =>
      obtain ⟨s, -, -, rfl⟩ := hea
      obtain ⟨s', -, -, rfl⟩ := heb
      obtain ⟨h1, h2⟩ := debugFile_inj (Eq.trans hx (Eq.symm hy))
      subst h1 h2
      obtain ⟨k, hk⟩ := List.getElem?_of_mem he
      obtain ⟨k', hk'⟩ := List.getElem?_of_mem he'
      have e1 := hidx k u i m hk
      have e2 := hidx k' u' i m' hk'
      rw [← e1] at hk
      rw [← e2, hk] at hk'
      injection hk' with hk'
      injection hk' with hk' _ _
      subst hk'
      rcases hab with hab | ⟨-, hab⟩ <;> omega

/-- Two slides of two pages: four files. -/
example : ((match unitsLoop (fun _ => 2) true (history .ignore [.newSlide .none true, .newSlide .none true]).slides with
    | .ok us => us | .error _ => []).filterMap debugFile).map String.ofList = ["0-1.svg", "0-2.svg", "1-1.svg", "1-2.svg"] := by
  decide +kernel

end Verif.Deck
