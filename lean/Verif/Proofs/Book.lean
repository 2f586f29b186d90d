import Verif.Spec.Book
import Verif.Proofs.Deck
import Verif.Props.Slide
import Verif.Proofs.Scene

/-! # Lemmas about whole decks -/

namespace Verif.Book
open Verif.Book.Spec
open Verif.Deck (Deck Entry Name Policy RUnit)

theorem background_eq (default bg : Option Str) : background default bg = (groundColor default bg).elim [] ground := by
  unfold background groundColor
  have : ∀ c : Str, (match some c with
      | none => []
      | some [] => []
      | some c => ground c) = ((some c).filter fun c => c ≠ []).elim [] ground := by
    intro c
    cases c with
    | nil => rfl
    | cons a c => rfl
  cases bg with
  | some c => exact this c
  | none =>
    cases default with
    | none => rfl
    | some c => exact this c

theorem scene_run_snoc {s t : Verif.Scene.State} {cs : List Verif.Scene.Call} {c : Verif.Scene.Call} (h : Verif.Scene.run s cs = .ok t)
    {t' : Verif.Scene.State} (hc : Verif.Scene.exec t c = (t', none)) : Verif.Scene.run s (cs ++ [c]) = .ok t' := by
  induction cs generalizing s with
  | nil =>
    injection h with h; subst h
    simp only [List.nil_append, Verif.Scene.run, hc]
  | cons a cs ih =>
    simp only [List.cons_append, Verif.Scene.run] at h ⊢
    split at h
    · cases h
    · rename_i s1 h1
      exact ih h

theorem setScene_self {u : Nat} {s t : Verif.Scene.State} {vb : Option Rect} {l : List (Nat × Verif.Scene.State × Option Rect)} (h : l.lookup u = some (t, vb)) :
    (setScene u s l).lookup u = some (s, vb) := by
  induction l with
  | nil => cases h
  | cons a l ih =>
    obtain ⟨v, t', vb'⟩ := a
    by_cases hv : v = u
    · subst hv
      simp only [List.lookup, beq_self_eq_true, Option.some.injEq, Prod.mk.injEq] at h
      simp [setScene, List.lookup, h.2]
    · have hne : (u == v) = false := by simpa using fun h => hv h.symm
      simp only [List.lookup, hne] at h
      simp only [setScene, if_neg hv, List.lookup, hne]
      exact ih h

theorem setScene_other {u v : Nat} {s : Verif.Scene.State} {l : List (Nat × Verif.Scene.State × Option Rect)} (h : v ≠ u) :
    (setScene u s l).lookup v = l.lookup v := by
  induction l with
  | nil => rfl
  | cons a l ih =>
    obtain ⟨w, t', vb'⟩ := a
    by_cases hv : w = u
    · subst hv
      have hne : (v == w) = false := by simpa using h
      simp only [setScene, if_pos, List.lookup, hne]
    · simp only [setScene, if_neg hv, List.lookup, ih]

theorem lookup_snoc {α : Type} (l : List (Nat × α)) (k : Nat) (a : α) (v : Nat) :
    (l ++ [(k, a)]).lookup v = (l.lookup v).or (if v = k then some a else none) := by
  induction l with
  | nil =>
    by_cases h : v = k
    · subst h; simp [List.lookup]
    · have : (v == k) = false := by simpa using h
      simp [List.lookup, this, h]
  | cons b l ih =>
    obtain ⟨w, b⟩ := b
    simp only [List.cons_append, List.lookup]
    split
    · simp
    · exact ih

/-- How the parts of a deck follow from the calls. -/
structure Kept (w h : Rat) (bg : Option Str) (policy : Policy) (cs : List Call) (b : Book) : Prop where
  size : b.width = w ∧ b.height = h ∧ b.bg = bg
  deck : b.deck = Verif.Deck.history policy (deckCalls cs)
  next : b.deck.next = (made cs).length
  entries : ∀ u i n, Entry.slide u i n ∈ b.deck.slides → ∃ c vb, (made cs)[u]? = some (.newSlide n c vb)
  scenes : ∀ u n c vb, (made cs)[u]? = some (.newSlide n c vb) →
    ∃ s, Verif.Scene.run (Verif.Scene.newScene w h) (historyOf bg cs u) = .ok s ∧ b.scenes.lookup u = some (s, vb)
  absent : ∀ u, (∀ n c vb, (made cs)[u]? ≠ some (.newSlide n c vb)) → b.scenes.lookup u = none
  quiet : ∀ u d, Call.on u d ∈ cs → ∃ n c vb, (made cs)[u]? = some (.newSlide n c vb)

theorem kept_new (w h : Rat) (bg : Option Str) (policy : Policy) : Kept w h bg policy [] (newBook w h bg policy) where
  size := ⟨rfl, rfl, rfl⟩
  deck := rfl
  next := rfl
  entries := fun _ _ _ h => by cases h
  scenes := fun _ _ _ _ h => by simp [made] at h
  absent := fun _ _ => rfl
  quiet := fun _ _ h => by cases h

theorem made_snoc_on (cs : List Call) (u : Nat) (d : Verif.Scene.Call) : made (cs ++ [.on u d]) = made cs := by simp [made, makes]
theorem made_snoc_new (cs : List Call) (n : Name) (c : Option Str) (vb : Option Rect) :
    made (cs ++ [.newSlide n c vb]) = made cs ++ [.newSlide n c vb] := by simp [made, makes]
theorem made_snoc_pdf (cs : List Call) (f : Str) : made (cs ++ [.addPdf f]) = made cs ++ [.addPdf f] := by simp [made, makes]

theorem history_snoc (policy : Policy) (cs : List Verif.Deck.Call) (c : Verif.Deck.Call) :
    Verif.Deck.history policy (cs ++ [c]) = (Verif.Deck.exec (Verif.Deck.history policy cs) c).1 := by
  simp [Verif.Deck.history]

/-- The calls on a slide do not change when something is added to the deck. -/
theorem historyOf_snoc_lt {bg : Option Str} {cs : List Call} {c : Call} (hc : makes c = true) {u : Nat} (hu : u < (made cs).length) :
    historyOf bg (cs ++ [c]) u = historyOf bg cs u := by
  have h1 : made (cs ++ [c]) = made cs ++ [c] := by simp [made, hc]
  unfold historyOf
  rw [h1, List.getElem?_append_left hu, List.filterMap_append]
  cases c <;> simp_all [makes, onSlide]

theorem historyOf_snoc_new {bg : Option Str} {cs : List Call} {n : Name} {c : Option Str} {vb : Option Rect}
    (hq : ∀ d, Call.on (made cs).length d ∉ cs) :
    historyOf bg (cs ++ [.newSlide n c vb]) (made cs).length = background bg c := by
  unfold historyOf
  rw [made_snoc_new, List.getElem?_append_right le_rfl, background_eq]
  simp only [Nat.sub_self, List.getElem?_cons_zero]
  rw [List.filterMap_append]
  have : cs.filterMap (onSlide (made cs).length) = [] := by
    rw [List.filterMap_eq_nil_iff]
    intro a ha
    cases a with
    | on v d =>
      by_cases hv : v = (made cs).length
      · subst hv; exact absurd ha (hq d)
      · simp [onSlide, hv]
    | _ => rfl
  rw [this]
  simp [onSlide]

theorem historyOf_snoc_on {bg : Option Str} {cs : List Call} {v : Nat} {d : Verif.Scene.Call} (u : Nat) :
    historyOf bg (cs ++ [.on v d]) u = historyOf bg cs u ++ (if v = u then [d] else []) := by
  unfold historyOf
  rw [made_snoc_on, List.filterMap_append, ← List.append_assoc]
  by_cases h : v = u
  · simp [onSlide, h]
  · simp [onSlide, h]

theorem getElem?_snoc {α : Type} (l : List α) (a : α) (u : Nat) (b : α) : (l ++ [a])[u]? = some b ↔ l[u]? = some b ∨ (u = l.length ∧ b = a) := by
  by_cases h : u < l.length
  · rw [List.getElem?_append_left h]
    constructor
    · exact Or.inl
    · rintro (h' | ⟨h', -⟩)
      · exact h'
      · omega
  · rw [List.getElem?_append_right (by omega)]
    by_cases h2 : u = l.length
    · subst h2
      simp [eq_comm]
    · have h3 : l[u]? = none := List.getElem?_eq_none (by omega)
      rw [h3, List.getElem?_eq_none (by simp; omega)]
      simp [h2]

theorem kept_exec {w h : Rat} {bg : Option Str} {policy : Policy} {cs : List Call} {b b' : Book} {c : Call} (hk : Kept w h bg policy cs b)
    (he : exec b c = (b', none)) : Kept w h bg policy (cs ++ [c]) b' := by
  obtain ⟨hsize, hdeck, hnext, hent, hsc, habs, hq⟩ := hk
  obtain ⟨rfl, rfl, rfl⟩ := hsize
  have hlt : ∀ {u : Nat} {a : Call}, (made cs)[u]? = some a → u < (made cs).length := fun h => (List.getElem?_eq_some_iff.mp h).1
  cases c with
  | newSlide n c vb =>
    simp only [exec] at he
    split at he
    · cases he
    · rename_i d hd
      split at he
      · cases he
      · rename_i s hs
        injection he with he _; subst he
        obtain ⟨-, -, hn, keep, hkeep, hor⟩ := Verif.Deck.newSlide_ok (hdeck ▸ (Verif.Deck.history_inv policy (deckCalls cs)).1) hd
        refine ⟨⟨rfl, rfl, rfl⟩, ?_, ?_, ?_, ?_, ?_, ?_⟩
        · have : deckCalls (cs ++ [.newSlide n c vb]) = deckCalls cs ++ [.newSlide n true] := by simp [deckCalls]
          rw [this, history_snoc, ← hdeck, hd]
        · simp only [hn, hnext, made_snoc_new, List.length_append, List.length_singleton]
        · intro u i m hm
          simp only [hkeep, List.mem_append, List.mem_singleton] at hm
          rcases hm with hm | hm
          · have : Entry.slide u i m ∈ b.deck.slides := by
              rcases hor with ⟨rfl, -⟩ | ⟨-, _, -, -, rfl⟩
              · exact hm
              · exact (List.mem_filter.mp hm).1
            obtain ⟨c', vb', h'⟩ := hent u i m this
            exact ⟨c', vb', by rw [made_snoc_new, getElem?_snoc]; exact Or.inl h'⟩
          · injection hm with h1 h2 h3
            subst h1 h2 h3
            exact ⟨c, vb, by rw [made_snoc_new, getElem?_snoc]; exact Or.inr ⟨hnext, rfl⟩⟩
        · intro u m c' vb' hm
          rw [made_snoc_new, getElem?_snoc] at hm
          rcases hm with hm | ⟨hu, hm⟩
          · obtain ⟨s', h1, h2⟩ := hsc u m c' vb' hm
            refine ⟨s', ?_, ?_⟩
            · rw [historyOf_snoc_lt rfl (hlt hm)]; exact h1
            · simp only [lookup_snoc, h2, Option.some_or]
          · injection hm with h1 h2 h3
            subst h1 h2 h3 hu
            refine ⟨s, ?_, ?_⟩
            · rw [historyOf_snoc_new]
              · exact hs
              · intro d' hd'
                obtain ⟨_, _, _, h'⟩ := hq _ _ hd'
                exact absurd (hlt h') (lt_irrefl _)
            · have : b.scenes.lookup (made cs).length = none := habs _ (fun _ _ _ h' => absurd (hlt h') (lt_irrefl _))
              simp only [lookup_snoc, this, hnext, Option.none_or, if_true]
        · intro u hu
          have h1 : b.scenes.lookup u = none := habs u (fun m c' vb' h' => hu m c' vb' (by rw [made_snoc_new, getElem?_snoc]; exact Or.inl h'))
          have h2 : u ≠ b.deck.next := fun h' => hu n c vb (by rw [made_snoc_new, getElem?_snoc]; exact Or.inr ⟨h'.trans hnext, rfl⟩)
          simp only [lookup_snoc, h1, h2, if_false, Option.none_or]
        · intro u d' hm
          simp only [List.mem_append, List.mem_singleton, reduceCtorEq, or_false] at hm
          obtain ⟨m, c', vb', h'⟩ := hq u d' hm
          exact ⟨m, c', vb', by rw [made_snoc_new, getElem?_snoc]; exact Or.inl h'⟩
  | addPdf f =>
    simp only [exec, Verif.Deck.exec, Prod.mk.injEq, and_true] at he
    subst he
    have hiff : ∀ (u : Nat) (n : Name) (c : Option Str) (vb : Option Rect), (made (cs ++ [.addPdf f]))[u]? = some (Call.newSlide n c vb) ↔ (made cs)[u]? = some (Call.newSlide n c vb) := by
      intro u n c vb
      rw [made_snoc_pdf, getElem?_snoc]
      simp
    refine ⟨⟨rfl, rfl, rfl⟩, ?_, ?_, ?_, ?_, ?_, ?_⟩
    · have : deckCalls (cs ++ [.addPdf f]) = deckCalls cs ++ [.addPdf f] := by simp [deckCalls]
      rw [this, history_snoc, ← hdeck]
      rfl
    · simp only [hnext, made_snoc_pdf, List.length_append, List.length_singleton]
    · intro u i m hm
      simp only [List.mem_append, List.mem_singleton, reduceCtorEq, or_false] at hm
      obtain ⟨c', vb', h'⟩ := hent u i m hm
      exact ⟨c', vb', (hiff _ _ _ _).mpr h'⟩
    · intro u m c' vb' hm
      rw [hiff] at hm
      obtain ⟨s', h1, h2⟩ := hsc u m c' vb' hm
      exact ⟨s', by rw [historyOf_snoc_lt rfl (hlt hm)]; exact h1, h2⟩
    · intro u hu
      exact habs u (fun m c' vb' h' => hu m c' vb' ((hiff _ _ _ _).mpr h'))
    · intro u d' hm
      simp only [List.mem_append, List.mem_singleton, reduceCtorEq, or_false] at hm
      obtain ⟨m, c', vb', h'⟩ := hq u d' hm
      exact ⟨m, c', vb', (hiff _ _ _ _).mpr h'⟩
  | on v d =>
    simp only [exec] at he
    split at he
    · cases he
    · rename_i s vb hs
      simp only [Prod.mk.injEq] at he
      obtain ⟨rfl, he⟩ := he
      have hv : ∃ n c vb, (made cs)[v]? = some (.newSlide n c vb) := by
        by_contra hcon
        push Not at hcon
        rw [habs v hcon] at hs
        cases hs
      refine ⟨⟨rfl, rfl, rfl⟩, ?_, ?_, ?_, ?_, ?_, ?_⟩
      · have : deckCalls (cs ++ [.on v d]) = deckCalls cs := by simp [deckCalls]
        rw [this]; exact hdeck
      · rw [made_snoc_on]; exact hnext
      · intro u i m hm
        rw [made_snoc_on]; exact hent u i m hm
      · intro u m c' vb' hm
        rw [made_snoc_on] at hm
        obtain ⟨s', h1, h2⟩ := hsc u m c' vb' hm
        rw [historyOf_snoc_on]
        by_cases huv : v = u
        · subst huv
          rw [if_pos rfl]
          rw [hs] at h2
          simp only [Option.some.injEq, Prod.mk.injEq] at h2
          obtain ⟨rfl, rfl⟩ := h2
          exact ⟨_, scene_run_snoc h1 (Prod.ext rfl he), setScene_self hs⟩
        · rw [if_neg huv, List.append_nil]
          exact ⟨s', h1, by simp only [setScene_other (Ne.symm huv), h2]⟩
      · intro u hu
        rw [made_snoc_on] at hu
        have h1 := habs u hu
        have : u ≠ v := by
          rintro rfl
          rw [h1] at hs; cases hs
        simp only [setScene_other this, h1]
      · intro u d' hm
        rw [made_snoc_on]
        simp only [List.mem_append, List.mem_singleton, Call.on.injEq] at hm
        rcases hm with hm | ⟨rfl, -⟩
        · exact hq u d' hm
        · exact hv

theorem kept_run {w h : Rat} {bg : Option Str} {policy : Policy} {done cs : List Call} {b b' : Book} (hk : Kept w h bg policy done b)
    (hr : run b cs = .ok b') : Kept w h bg policy (done ++ cs) b' := by
  induction cs generalizing b done with
  | nil => injection hr with hr; subst hr; simpa using hk
  | cons c cs ih =>
    simp only [run] at hr
    split at hr
    · cases hr
    · rename_i b1 h1
      have := ih (kept_exec hk h1) hr
      simpa using this

/-! ### rendering -/

theorem pagesFrom_ok {δ : Type} {make : Int → Except Err δ} {u i : Nat} {P : Nat → δ → Prop} {step n : Nat}
    (h : ∀ k, step ≤ k → k < step + n → ∃ d, make k = .ok d ∧ P k d) :
    ∃ ds, pagesFrom make u i step n = .ok ds ∧ ds.map Sheet.unit = (List.range n).map (fun k => .svg u i (step + k)) ∧
      ∀ v j k d, Sheet.page v j k d ∈ ds → v = u ∧ step ≤ k ∧ P k d := by
  induction n generalizing step with
  | zero => exact ⟨[], rfl, rfl, fun _ _ _ _ h => by cases h⟩
  | succ n ih =>
    obtain ⟨d, h1, h2⟩ := h step le_rfl (by omega)
    obtain ⟨ds, h3, h4, h5⟩ := ih (step := step + 1) (fun k hk hk' => h k (by omega) (by omega))
    refine ⟨.page u i step d :: ds, ?_, ?_, ?_⟩
    · simp only [pagesFrom, h1, h3]
    · rw [List.range_succ_eq_map, List.map_cons, List.map_cons, h4, List.map_map]
      simp only [Sheet.unit, Nat.add_zero, List.cons.injEq, true_and]
      refine List.map_congr_left fun k _ => ?_
      simp only [Function.comp]
      congr 1
      omega
    · intro v j k e he
      rcases List.mem_cons.mp he with he | he
      · injection he with h6 h7 h8 h9
        subst h6 h8 h9
        exact ⟨rfl, le_rfl, h2⟩
      · obtain ⟨h6, h7, h8⟩ := h5 v j k e he
        exact ⟨h6, by omega, h8⟩

/-- The number of pages of a slide. -/
def pagesOf (b : Book) (u : Nat) : Nat := (b.scenes.lookup u).elim 0 (·.1.slide.steps.toNat)

theorem sheetsLoop_ok {δ : Type} {make : Verif.Scene.State → Verif.Layout.Env → Option Rect → Int → Except Err δ} {b : Book} {pdf : Bool}
    {P : Nat → Nat → δ → Prop} {es : List Entry}
    (h : ∀ u i n, Entry.slide u i n ∈ es → ∃ s vb env, b.scenes.lookup u = some (s, vb) ∧ s.slide.rects b.width b.height = .ok env ∧
      ∀ k : Nat, 1 ≤ k → ∃ d, make s env vb k = .ok d ∧ P u k d)
    (hp : ∀ u f, Entry.pdf u f ∈ es → pdf = true) :
    ∃ sheets, sheetsLoop make b pdf es = .ok sheets ∧ Verif.Deck.unitsLoop (pagesOf b) pdf es = .ok (sheets.map Sheet.unit) ∧
      ∀ v j k d, Sheet.page v j k d ∈ sheets → 1 ≤ k ∧ (∃ i n, Entry.slide v i n ∈ es) ∧ P v k d := by
  induction es with
  | nil => exact ⟨[], rfl, rfl, fun _ _ _ _ h => by cases h⟩
  | cons e es ih =>
    obtain ⟨rest, h1, h2, h3⟩ := ih (fun u i n hm => h u i n (List.mem_cons_of_mem _ hm)) (fun u f hm => hp u f (List.mem_cons_of_mem _ hm))
    have key : ∃ ds, sheetsOf make b pdf e = .ok ds ∧ Verif.Deck.unitsOf (pagesOf b) pdf e = .ok (ds.map Sheet.unit) ∧
        ∀ v j k d, Sheet.page v j k d ∈ ds → 1 ≤ k ∧ (∃ i n, e = Entry.slide v i n) ∧ P v k d := by
      cases e with
      | slide u i n =>
        obtain ⟨s, vb, env, ha, hb, hc⟩ := h u i n List.mem_cons_self
        obtain ⟨ds, hd, he, hf⟩ := pagesFrom_ok (make := make s env vb) (u := u) (i := i) (P := P u) (step := 1) (n := s.slide.steps.toNat)
          (fun k hk _ => hc k hk)
        refine ⟨ds, ?_, ?_, ?_⟩
        · simp only [sheetsOf, ha, hb, hd]
        · simp only [Verif.Deck.unitsOf, he, pagesOf, ha, Option.elim_some]
          congr 1
          refine List.map_congr_left fun k _ => ?_
          rw [Nat.add_comm]
        · intro v j k d hm
          obtain ⟨rfl, h6, h7⟩ := hf v j k d hm
          exact ⟨h6, ⟨i, n, rfl⟩, h7⟩
      | pdf u f =>
        have := hp u f List.mem_cons_self
        subst this
        exact ⟨[.pdf u f], rfl, rfl, fun v j k d hm => by simp at hm⟩
    obtain ⟨ds, h4, h5, h6⟩ := key
    refine ⟨ds ++ rest, ?_, ?_, ?_⟩
    · simp only [sheetsLoop, h4, h1]
    · simp only [Verif.Deck.unitsLoop, h5, h2, List.map_append]
    · intro v j k d hm
      rcases List.mem_append.mp hm with hm | hm
      · obtain ⟨h7, ⟨i, n, rfl⟩, h8⟩ := h6 v j k d hm
        exact ⟨h7, ⟨i, n, List.mem_cons_self⟩, h8⟩
      · obtain ⟨h7, ⟨i, n, hm'⟩, h8⟩ := h3 v j k d hm
        exact ⟨h7, ⟨i, n, List.mem_cons_of_mem _ hm'⟩, h8⟩

/-- Everything in a slide is drawn, if every page can be. -/
theorem render_complete {δ : Type} {make : Verif.Scene.State → Verif.Layout.Env → Option Rect → Int → Except Err δ} {w h : Rat} {bg : Option Str} {policy : Policy}
    {cs : List Call} {b : Book} {pdf : Bool} {P : Nat → Nat → δ → Prop} (hr : run (newBook w h bg policy) cs = .ok b)
    (hne : b.deck.slides ≠ []) (hp : ∀ u f, Entry.pdf u f ∈ b.deck.slides → pdf = true)
    (hm : ∀ u i n, Entry.slide u i n ∈ b.deck.slides → ∀ s, Verif.Scene.run (Verif.Scene.newScene w h) (historyOf bg cs u) = .ok s →
      ∃ env, s.slide.rects w h = .ok env ∧ ∀ k : Nat, 1 ≤ k → ∃ d, make s env (viewBoxOf cs u) k = .ok d ∧ P u k d) :
    b.deck = Verif.Deck.history policy (deckCalls cs) ∧
    ∃ sheets, render make b pdf = .ok sheets ∧ Complete bg cs b.deck.slides sheets ∧ ∀ v j k d, Sheet.page v j k d ∈ sheets → P v k d := by
  have hk := kept_run (kept_new w h bg policy) hr
  rw [List.nil_append] at hk
  obtain ⟨hsize, hdeck, hnext, hent, hsc, habs, hq⟩ := hk
  obtain ⟨hw, hh, hb⟩ := hsize
  have hscene : ∀ u i n, Entry.slide u i n ∈ b.deck.slides →
      ∃ s, Verif.Scene.run (Verif.Scene.newScene w h) (historyOf bg cs u) = .ok s ∧ b.scenes.lookup u = some (s, viewBoxOf cs u) := by
    intro u i n hu
    obtain ⟨c, vb, h1⟩ := hent u i n hu
    obtain ⟨s, h2, h3⟩ := hsc u n c vb h1
    exact ⟨s, h2, by simp only [h3, viewBoxOf, h1]⟩
  obtain ⟨sheets, h1, h2, h3⟩ := sheetsLoop_ok (make := make) (b := b) (pdf := pdf) (P := P) (es := b.deck.slides) (by
    intro u i n hu
    obtain ⟨s, h2, h3⟩ := hscene u i n hu
    obtain ⟨env, h4, h5⟩ := hm u i n hu s h2
    exact ⟨s, _, env, h3, by rw [hw, hh]; exact h4, h5⟩) hp
  refine ⟨hdeck, sheets, by rw [render, if_neg hne, h1], ⟨⟨pagesOf b, ?_, Verif.Deck.unitsLoop_mem h2⟩, ?_, ?_⟩, fun v j k d hd => (h3 v j k d hd).2.2⟩
  · intro u i n hu
    obtain ⟨s, h4, h5⟩ := hscene u i n hu
    obtain ⟨hrun, -⟩ := Verif.Scene.kept_run (Verif.Scene.kept_new w h) h4
    have hc := (Verif.Slide.C21_page_count w h _ _ hrun)
    have hpos : 1 ≤ s.slide.steps := by
      rw [Verif.Slide.steps_eq_top]
      exact s.slide.tree.top_greatest.2 1 (Or.inl rfl)
    rw [hc.1]
    simp only [pagesOf, h5, Option.elim_some]
    omega
  · refine Verif.Deck.unitsLoop_sorted ?_ h2
    rw [hdeck]
    exact (Verif.Deck.history_inv policy _).1.uids
  · have hs := Verif.Deck.unitsLoop_sorted (by rw [hdeck]; exact (Verif.Deck.history_inv policy _).1.uids) h2
    refine hs.imp ?_
    rintro a b (h | ⟨-, h⟩) rfl <;> omega

end Verif.Book
