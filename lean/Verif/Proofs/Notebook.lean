import Verif.Spec.Notebook
import Verif.Proofs.Book
import Mathlib.Data.List.Forall2

/-! # Lemmas about notebooks -/

namespace Verif.Notebook
open Spec
open Verif.Book (Book Sheet newBook setScene background render sheetsLoop sheetsOf pagesFrom)
open Verif.Deck (Name Entry Policy Deck)
open Verif.Deck.Spec (nameOf names)

theorem title_eq (c : Cell) : c.title = slideName c := by
  unfold Cell.title slideName
  cases c.name <;> rfl

theorem title_cases (c : Cell) : slideName c = .other ∨ ∃ n, slideName c = .str n := by
  unfold slideName
  cases c.name with
  | none => exact .inr ⟨_, rfl⟩
  | str n => exact .inr ⟨_, rfl⟩
  | other => exact .inl rfl

/-- Making the background succeeds. -/
theorem background_run (w h : Rat) (default bg : Option Str) : ∃ s, Verif.Scene.run (Verif.Scene.newScene w h) (background default bg) = .ok s := by
  have key : ∀ c : Str, (match Verif.Scene.run (Verif.Scene.newScene w h) (Verif.Book.Spec.ground c) with | .ok _ => true | .error _ => false) = true := by
    intro c
    rfl
  rw [Verif.Book.background_eq]
  cases hc : Verif.Book.Spec.groundColor default bg with
  | none => exact ⟨_, rfl⟩
  | some c =>
    have := key c
    simp only [Option.elim]
    cases hr : Verif.Scene.run (Verif.Scene.newScene w h) (Verif.Book.Spec.ground c) with
    | error e => rw [hr] at this; cases this
    | ok s => exact ⟨s, rfl⟩

/-- The slide after a cell was run. -/
noncomputable def result (w h : Rat) (bg : Option Str) (c : Cell) : Verif.Scene.State := drawn (Classical.choose (background_run w h bg c.bg)) c.body

theorem result_eq {w h : Rat} {bg : Option Str} {c : Cell} {s : Verif.Scene.State} (hs : Verif.Scene.run (Verif.Scene.newScene w h) (background bg c.bg) = .ok s) :
    result w h bg c = drawn s c.body := by
  have h2 := hs.symm.trans (Classical.choose_spec (background_run w h bg c.bg))
  injection h2 with h2
  unfold result
  rw [← h2]

/-- What running the body of a cell does. -/
theorem runBody_effect (u : Nat) (cs : List Verif.Scene.Call) : ∀ (b : Book) (s : Verif.Scene.State) (vb : Option Rect), b.scenes.lookup u = some (s, vb) →
    (runBody b u cs).1.deck = b.deck ∧ (runBody b u cs).1.width = b.width ∧ (runBody b u cs).1.height = b.height ∧ (runBody b u cs).1.bg = b.bg ∧
      (runBody b u cs).1.scenes.lookup u = some (drawn s cs, vb) ∧ ∀ v, v ≠ u → (runBody b u cs).1.scenes.lookup v = b.scenes.lookup v := by
  induction cs with
  | nil => intro b s vb h; exact ⟨rfl, rfl, rfl, rfl, h, fun _ _ => rfl⟩
  | cons c cs ih =>
    intro b s vb h
    simp only [runBody, Verif.Book.exec, h, drawn]
    rcases he : Verif.Scene.exec s c with ⟨s', o⟩
    simp only
    cases o with
    | some e =>
      simp only
      exact ⟨trivial, trivial, trivial, trivial, Verif.Book.setScene_self h, fun v hv => Verif.Book.setScene_other hv⟩
    | none =>
      simp only
      obtain ⟨h1, h2, h3, h4, h5, h6⟩ := ih { b with scenes := setScene u s' b.scenes } s' vb (Verif.Book.setScene_self h)
      exact ⟨h1, h2, h3, h4, h5, fun v hv => (h6 v hv).trans (Verif.Book.setScene_other hv)⟩

/-- The deck holds the slides `l`: for each a name, what is on it, and its view box. -/
structure Holds (w h : Rat) (bg : Option Str) (b : Book) (l : List (Str × Verif.Scene.State × Option Rect)) : Prop where
  size : b.width = w ∧ b.height = h ∧ b.bg = bg ∧ b.deck.policy = .replace
  inv : Verif.Deck.Inv b.deck
  entries : List.Forall₂ (fun e (x : Str × Verif.Scene.State × Option Rect) => ∃ u i, e = Entry.slide u i (.str x.1) ∧ b.scenes.lookup u = some x.2) b.deck.slides l
  fresh : ∀ u, b.deck.next ≤ u → b.scenes.lookup u = none

theorem holds_new (w h : Rat) (bg : Option Str) : Holds w h bg (newBook w h bg .replace) [] where
  size := ⟨rfl, rfl, rfl, rfl⟩
  inv := ⟨List.nodup_nil, (by intro e he; cases he), fun _ => List.nodup_nil⟩
  entries := .nil
  fresh := fun _ _ => rfl

theorem getByName_ok {l : List Entry} (h : ∀ e ∈ l, ∃ u i n, e = Entry.slide u i (.str n)) (m : Str) : ∃ o, Verif.Deck.getByName m l = .ok o := by
  induction l with
  | nil => exact ⟨none, rfl⟩
  | cons e l ih =>
    obtain ⟨u, i, n, rfl⟩ := h e (by simp)
    simp only [Verif.Deck.getByName]
    split
    · exact ⟨_, rfl⟩
    · exact ih fun e he => h e (by simp [he])

theorem forall₂_left {es : List Entry} {l : List (Str × Verif.Scene.State × Option Rect)} {f : Nat → Option (Verif.Scene.State × Option Rect)}
    (h : List.Forall₂ (fun e (x : Str × Verif.Scene.State × Option Rect) => ∃ u i, e = Entry.slide u i (.str x.1) ∧ f u = some x.2) es l) :
    ∀ e ∈ es, ∃ u i n, e = Entry.slide u i (.str n) := by
  induction h with
  | nil => intro e he; cases he
  | cons ha _ ih =>
    intro e he
    rcases List.mem_cons.mp he with rfl | he
    · obtain ⟨u, i, h1, -⟩ := ha
      exact ⟨u, i, _, h1⟩
    · exact ih e he

theorem forall₂_filter {α β : Type} {R : α → β → Prop} {p : α → Bool} {q : β → Bool} {l : List α} {m : List β} (h : List.Forall₂ R l m)
    (hpq : ∀ a b, a ∈ l → R a b → p a = q b) : List.Forall₂ R (l.filter p) (m.filter q) := by
  induction h with
  | nil => exact .nil
  | cons hab hl ih =>
    rename_i a b l m
    have h1 := hpq a b (by simp) hab
    have h2 := ih fun a b ha => hpq a b (by simp [ha])
    simp only [List.filter_cons]
    rw [← h1]
    cases p a with
    | true => exact .cons hab h2
    | false => exact h2

/-- What a run does to the slides. -/
noncomputable def after (w h : Rat) (bg : Option Str) (l : List (Str × Verif.Scene.State × Option Rect)) (c : Cell) : List (Str × Verif.Scene.State × Option Rect) :=
  match slideName c with
  | .str n => l.filter (fun x => x.1 ≠ n) ++ [(n, result w h bg c, c.viewBox)]
  | _ => l

theorem holds_decorate {w h : Rat} {bg : Option Str} {b : Book} {l} (hb : Holds w h bg b l) (c : Cell) : Holds w h bg (decorate b c).1 (after w h bg l c) := by
  obtain ⟨⟨hw, hh, hbg, hpol⟩, hinv, hent, hfresh⟩ := hb
  unfold decorate after
  rw [title_eq]
  rcases title_cases c with ht | ⟨n, ht⟩
  · have he : Verif.Book.exec b (.newSlide (slideName c) c.bg c.viewBox) = (b, some (.user "Slide name has to be a string or None")) := by
      simp [Verif.Book.exec, Verif.Deck.exec, ht, Verif.Deck.applyNamePolicy, hpol]
    rw [he, ht]
    exact ⟨⟨hw, hh, hbg, hpol⟩, hinv, hent, hfresh⟩
  · have hall : ∀ e ∈ b.deck.slides, ∃ u i n, e = Entry.slide u i (.str n) := by
      intro e he
      exact forall₂_left hent e he
    obtain ⟨o, ho⟩ := getByName_ok hall n
    have hdeck : ∃ d, Verif.Deck.exec b.deck (.newSlide (slideName c) true) = (d, none) := by
      simp only [Verif.Deck.exec, Bool.not_true, Bool.false_eq_true, if_false, ht, Verif.Deck.applyNamePolicy, hpol, reduceCtorEq, ho]
      cases o with
      | none => exact ⟨_, rfl⟩
      | some v => exact ⟨_, rfl⟩
    obtain ⟨d, hd⟩ := hdeck
    have hinv' := Verif.Deck.exec_inv hinv (.newSlide (slideName c) true)
    rw [hd] at hinv'
    obtain ⟨-, hpol', hnext, keep, hslides, hor⟩ := Verif.Deck.newSlide_ok hinv hd
    have hkeep : keep = b.deck.slides.filter (fun e => nameOf e ≠ some n) := by
      rcases hor with ⟨rfl, hnot⟩ | ⟨-, m, hm, -, hk⟩
      · symm
        rw [List.filter_eq_self]
        intro e he
        have := hnot (by rw [hpol]; simp) n ht
        simp only [ne_eq, decide_eq_true_eq]
        intro hc
        exact this (List.mem_filterMap.mpr ⟨e, he, hc⟩)
      · rw [ht] at hm; injection hm with hm; subst hm; exact hk
    obtain ⟨s, hs⟩ := background_run w h bg c.bg
    have he : Verif.Book.exec b (.newSlide (slideName c) c.bg c.viewBox) = ({ b with deck := d, scenes := b.scenes ++ [(b.deck.next, s, c.viewBox)] }, none) := by
      simp only [Verif.Book.exec, hd]
      rw [hw, hh, hbg, hs]
    rw [he]
    simp only [ht]
    have hlook : (b.scenes ++ [(b.deck.next, s, c.viewBox)]).lookup b.deck.next = some (s, c.viewBox) := by
      rw [Verif.Book.lookup_snoc, hfresh _ le_rfl]; simp
    obtain ⟨h1, h2, h3, h4, h5, h6⟩ := runBody_effect b.deck.next c.body { b with deck := d, scenes := b.scenes ++ [(b.deck.next, s, c.viewBox)] } s c.viewBox hlook
    refine ⟨⟨h2.trans hw, h3.trans hh, h4.trans hbg, ?_⟩, ?_, ?_, ?_⟩
    · rw [h1]; exact hpol'.trans hpol
    · rw [h1]; exact hinv'.1
    · rw [h1]
      simp only
      rw [hslides, hkeep]
      refine List.rel_append ?_ ?_
      · have hf := forall₂_filter (p := fun e => nameOf e ≠ some n) (q := fun x => x.1 ≠ n) hent (by
          rintro e x - ⟨u, i, rfl, -⟩
          simp [nameOf])
        have hlt : ∀ e ∈ b.deck.slides.filter (fun e => nameOf e ≠ some n), e.uid < b.deck.next := fun e he => hinv.lt e (List.mem_filter.mp he).1
        have : ∀ {es : List Entry} {xs : List (Str × Verif.Scene.State × Option Rect)}, (∀ e ∈ es, e.uid < b.deck.next) →
            List.Forall₂ (fun e (x : Str × Verif.Scene.State × Option Rect) => ∃ u i, e = Entry.slide u i (.str x.1) ∧ b.scenes.lookup u = some x.2) es xs →
            List.Forall₂ (fun e (x : Str × Verif.Scene.State × Option Rect) => ∃ u i, e = Entry.slide u i (.str x.1) ∧
              (runBody { b with deck := d, scenes := b.scenes ++ [(b.deck.next, s, c.viewBox)] } b.deck.next c.body).1.scenes.lookup u = some x.2) es xs := by
          intro es xs hlt hf
          induction hf with
          | nil => exact .nil
          | cons hab _ ih =>
            refine .cons ?_ (ih fun e he => hlt e (by simp [he]))
            obtain ⟨u, i, rfl, hu⟩ := hab
            refine ⟨u, i, rfl, ?_⟩
            have hul : (Entry.slide u i (.str _)).uid < b.deck.next := hlt _ (List.mem_cons_self)
            simp only [Verif.Deck.Entry.uid] at hul
            rw [h6 u (by omega)]
            simp only [Verif.Book.lookup_snoc, hu, Option.some_or]
        exact this hlt hf
      · refine .cons ⟨_, _, by rw [ht], ?_⟩ .nil
        rw [h5, result_eq hs]
    · intro u hu
      rw [h1] at hu
      simp only [hnext] at hu
      rw [h6 u (by omega)]
      simp only [Verif.Book.lookup_snoc]
      rw [hfresh u (by omega), if_neg (by omega)]
      rfl

/-- The slides after some runs. -/
theorem holds_session (w h : Rat) (bg : Option Str) (cells : List Cell) :
    Holds w h bg (session (newBook w h bg .replace) cells) (cells.foldl (after w h bg) []) := by
  have : ∀ b l, Holds w h bg b l → Holds w h bg (session b cells) (cells.foldl (after w h bg) l) := by
    induction cells with
    | nil => intro b l hb; exact hb
    | cons c cs ih => intro b l hb; exact ih _ _ (holds_decorate hb c)
  exact this _ _ (holds_new w h bg)

/-- The slide of a cell, with its name. -/
noncomputable def made (w h : Rat) (bg : Option Str) (c : Cell) : Option (Str × Verif.Scene.State × Option Rect) :=
  match slideName c with
  | .str n => some (n, result w h bg c, c.viewBox)
  | _ => none

theorem foldl_after (w h : Rat) (bg : Option Str) (cells : List Cell) : ∀ l,
    cells.foldl (after w h bg) l = l.filter (fun x => ∀ d ∈ cells, slideName d ≠ .str x.1) ++ (lastRuns cells).filterMap (made w h bg) := by
  induction cells with
  | nil => intro l; simp [lastRuns]
  | cons c cs ih =>
    intro l
    rw [List.foldl_cons, ih]
    rcases title_cases c with ht | ⟨n, ht⟩
    · have h1 : after w h bg l c = l := by simp [after, ht]
      have h2 : lastRuns (c :: cs) = lastRuns cs := by simp [lastRuns, ht]
      rw [h1, h2]
      congr 1
      apply List.filter_congr
      intro x _
      simp [ht]
    · have h1 : after w h bg l c = l.filter (fun x => x.1 ≠ n) ++ [(n, result w h bg c, c.viewBox)] := by simp [after, ht]
      rw [h1, List.filter_append, List.filter_filter, List.append_assoc]
      congr 1
      · apply List.filter_congr
        intro x _
        have : (Name.str n = Name.str x.1) ↔ x.1 = n := by constructor <;> intro h <;> simp_all
        simp only [List.mem_cons, forall_eq_or_imp, ht, ne_eq, this]
        by_cases hx : x.1 = n <;> simp [hx]
      · by_cases hl : ∀ d ∈ cs, slideName d ≠ slideName c
        · have h2 : lastRuns (c :: cs) = c :: lastRuns cs := by
            simp only [lastRuns]; rw [if_pos ⟨by rw [ht]; simp, hl⟩]
          rw [h2]
          simp only [List.filterMap_cons, made, ht]
          rw [ht] at hl
          rw [List.filter_cons_of_pos (by simpa using hl)]
          rfl
        · have h2 : lastRuns (c :: cs) = lastRuns cs := by
            simp only [lastRuns]; rw [if_neg (fun h => hl h.2)]
          rw [h2]
          rw [ht] at hl
          rw [List.filter_cons_of_neg (by simpa using hl)]
          rfl

theorem session_slides (w h : Rat) (bg : Option Str) (cells : List Cell) :
    Holds w h bg (session (newBook w h bg .replace) cells) ((lastRuns cells).filterMap (made w h bg)) := by
  have := holds_session w h bg cells
  rw [foldl_after] at this
  exact this

theorem mem_lastRuns {c : Cell} {cs : List Cell} (h : c ∈ lastRuns cs) : c ∈ cs := by
  induction cs with
  | nil => cases h
  | cons d cs ih =>
    simp only [lastRuns] at h
    split at h
    · rcases List.mem_cons.mp h with rfl | h
      · simp
      · simp [ih h]
    · simp [ih h]

theorem lastRuns_idem (cs : List Cell) : lastRuns (lastRuns cs) = lastRuns cs := by
  induction cs with
  | nil => rfl
  | cons c cs ih =>
    by_cases h : slideName c ≠ .other ∧ ∀ d ∈ cs, slideName d ≠ slideName c
    · have h2 : lastRuns (c :: cs) = c :: lastRuns cs := by simp only [lastRuns]; rw [if_pos h]
      rw [h2]
      simp only [lastRuns]
      rw [if_pos ⟨h.1, fun d hd => h.2 d (mem_lastRuns hd)⟩, ih]
    · have h2 : lastRuns (c :: cs) = lastRuns cs := by simp only [lastRuns]; rw [if_neg h]
      rw [h2, ih]

/-! ### rendering -/

theorem pagesFrom_docs {δ : Type} (make : Int → Except Err δ) (u i u' i' : Nat) (n : Nat) : ∀ step,
    (pagesFrom make u i step n).map docs = (pagesFrom make u' i' step n).map docs := by
  induction n with
  | zero => intro step; rfl
  | succ n ih =>
    intro step
    simp only [pagesFrom]
    cases make step with
    | error e => rfl
    | ok d =>
      have := ih (step + 1)
      simp only
      cases h1 : pagesFrom make u i (step + 1) n with
      | error e =>
        rw [h1] at this
        cases h2 : pagesFrom make u' i' (step + 1) n with
        | error e' => rw [h2] at this; exact this
        | ok x => rw [h2] at this; cases this
      | ok x =>
        rw [h1] at this
        cases h2 : pagesFrom make u' i' (step + 1) n with
        | error e' => rw [h2] at this; cases this
        | ok x' =>
          rw [h2] at this
          simp only [Except.map, Except.ok.injEq] at this ⊢
          simp only [docs, List.filterMap_cons] at this ⊢
          rw [this]

theorem docs_append {δ : Type} (a b : List (Sheet δ)) : docs (a ++ b) = docs a ++ docs b := List.filterMap_append

theorem loop_docs {δ : Type} (make : Verif.Scene.State → Verif.Layout.Env → Option Rect → Int → Except Err δ) {w h : Rat} (b b' : Book) (hw : b.width = w ∧ b.height = h)
    (hw' : b'.width = w ∧ b'.height = h) (pdf : Bool) (l : List (Str × Verif.Scene.State × Option Rect)) : ∀ (es es' : List Entry),
    List.Forall₂ (fun e (x : Str × Verif.Scene.State × Option Rect) => ∃ u i, e = Entry.slide u i (.str x.1) ∧ b.scenes.lookup u = some x.2) es l →
    List.Forall₂ (fun e (x : Str × Verif.Scene.State × Option Rect) => ∃ u i, e = Entry.slide u i (.str x.1) ∧ b'.scenes.lookup u = some x.2) es' l →
    (sheetsLoop make b pdf es).map docs = (sheetsLoop make b' pdf es').map docs := by
  induction l with
  | nil => intro es es' h1 h2; cases h1; cases h2; rfl
  | cons x l ih =>
    intro es es' h1 h2
    cases h1 with
    | cons ha hl =>
      cases h2 with
      | cons ha' hl' =>
        obtain ⟨u, i, rfl, hu⟩ := ha
        obtain ⟨u', i', rfl, hu'⟩ := ha'
        have hloop := ih _ _ hl hl'
        have hone : (sheetsOf make b pdf (.slide u i (.str x.1))).map docs = (sheetsOf make b' pdf (.slide u' i' (.str x.1))).map docs := by
          obtain ⟨nm, s, vb⟩ := x
          simp only [sheetsOf, hu, hu', hw.1, hw.2, hw'.1, hw'.2]
          cases s.slide.rects w h with
          | error e => rfl
          | ok env => exact pagesFrom_docs _ _ _ _ _ _ _
        simp only [sheetsLoop]
        revert hone hloop
        cases sheetsOf make b pdf (.slide u i (.str x.1)) <;> cases sheetsOf make b' pdf (.slide u' i' (.str x.1)) <;>
          cases sheetsLoop make b pdf _ <;> cases sheetsLoop make b' pdf _ <;> intro hloop hone <;>
          simp_all [Except.map, docs_append]

end Verif.Notebook
