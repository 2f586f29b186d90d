import Verif.Proofs.Notebook
import Verif.Props.Scene

/-! # Property C128: a deck made in the cells of a notebook -/

namespace Verif.Notebook
open Spec
open Verif.Book (Book Sheet newBook render)
open Verif.Deck (Name Entry)
open Verif.Deck.Spec (nameOf)

/-! ### the claim fails -/

/-- A cell with a frame. -/
def goodCell : Cell := { fn := "a".toList, body := [.draw 0 (.rect none none none { color := some "red".toList })] }

/-- The same cell after an edit: its second call raises. -/
def badCell : Cell := { fn := "a".toList, body := [.draw 0 (.ellipse none { color := some "red".toList }), .draw 0 (.line [] none none none)] }

/-- Another cell. -/
def otherCell : Cell := { fn := "b".toList, body := [] }

/-- A backend for the example: a document tells its page and how many things are drawn on its slide. -/
def exMake (s : Verif.Scene.State) (_ : Verif.Layout.Env) (_ : Option Rect) (k : Int) : Except Err (Int × Nat) := .ok (k, s.contents.length)

/-- What the deck shows: for each page its number and how many things are drawn on its slide. -/
def exShown (cells : List Cell) : List (Nat × Int × Nat) :=
  match (render exMake (session (newBook 100 100 none .replace) cells) true).map docs with
  | .ok l => l
  | .error _ => []

/-- **C128 is false.** A cell whose function raises changes the deck: the slide of its earlier run is gone, and the slide that is not finished has taken its place, at the end of the deck. -/
theorem C128_cells_false :
    (decorate (session (newBook 100 100 none .replace) [goodCell, otherCell]) badCell).2 = some .assertion ∧
    (session (newBook 100 100 none .replace) [goodCell, otherCell]).deck.slides = [.slide 0 0 (.str "a".toList), .slide 1 1 (.str "b".toList)] ∧
    (session (newBook 100 100 none .replace) [goodCell, otherCell, badCell]).deck.slides = [.slide 1 1 (.str "b".toList), .slide 2 1 (.str "a".toList)] ∧
    exShown [goodCell, otherCell] = [(1, 1, 1), (1, 1, 0)] ∧ exShown [goodCell, otherCell, badCell] = [(1, 1, 0), (1, 1, 1)] := by
  decide +kernel

/-! ### what holds -/

theorem drawn_run {s t : Verif.Scene.State} {cs : List Verif.Scene.Call} (h : Verif.Scene.run s cs = .ok t) : drawn s cs = t := by
  induction cs generalizing s with
  | nil => injection h
  | cons c cs ih =>
    simp only [Verif.Scene.run] at h
    simp only [drawn]
    rcases he : Verif.Scene.exec s c with ⟨s', o⟩
    rw [he] at h
    cases o with
    | some e => cases h
    | none => exact ih h

theorem run_append_ok {s t : Verif.Scene.State} {cs ds : List Verif.Scene.Call} (h : Verif.Scene.run s (cs ++ ds) = .ok t) :
    ∃ m, Verif.Scene.run s cs = .ok m ∧ Verif.Scene.run m ds = .ok t := by
  induction cs generalizing s with
  | nil => exact ⟨s, rfl, h⟩
  | cons c cs ih =>
    simp only [List.cons_append, Verif.Scene.run] at h ⊢
    rcases he : Verif.Scene.exec s c with ⟨s', o⟩
    rw [he] at h
    cases o with
    | some e => cases h
    | none => exact ih h

theorem render_docs {δ : Type} (make : Verif.Scene.State → Verif.Layout.Env → Option Rect → Int → Except Err δ) {w h : Rat} {bg : Option Str} {b b' : Book}
    {l : List (Str × Verif.Scene.State × Option Rect)} (hb : Holds w h bg b l) (hb' : Holds w h bg b' l) (pdf : Bool) :
    (render make b pdf).map docs = (render make b' pdf).map docs := by
  have hnil : b.deck.slides = [] ↔ b'.deck.slides = [] := by
    rw [← List.length_eq_zero_iff, ← List.length_eq_zero_iff, hb.entries.length_eq, hb'.entries.length_eq]
  unfold render
  by_cases h0 : b.deck.slides = []
  · rw [if_pos h0, if_pos (hnil.mp h0)]
  · rw [if_neg h0, if_neg (fun h => h0 (hnil.mpr h))]
    exact loop_docs make b b' ⟨hb.size.1, hb.size.2.1⟩ ⟨hb'.size.1, hb'.size.2.1⟩ pdf l _ _ hb.entries hb'.entries

theorem names_holds {es : List Entry} {f : Nat → Option (Verif.Scene.State × Option Rect)} {w h : Rat} {bg : Option Str} : ∀ {cs : List Cell}, (∀ c ∈ cs, ∃ n, slideName c = .str n) →
    List.Forall₂ (fun e (x : Str × Verif.Scene.State × Option Rect) => ∃ u i, e = Entry.slide u i (.str x.1) ∧ f u = some x.2) es (cs.filterMap (made w h bg)) →
    List.Forall₂ (fun e (c : Cell) => ∃ u i, e = Entry.slide u i (slideName c) ∧ f u = some (result w h bg c, c.viewBox)) es cs
  | [], _, hf => by
    rw [List.filterMap_nil] at hf
    cases hf
    exact .nil
  | c :: cs, hc, hf => by
    obtain ⟨n, hn⟩ := hc c (by simp)
    have hm : made w h bg c = some (n, result w h bg c, c.viewBox) := by simp [made, hn]
    rw [List.filterMap_cons, hm] at hf
    cases hf with
    | cons ha hl =>
      refine .cons ?_ (names_holds (fun d hd => hc d (by simp [hd])) hl)
      rw [hn]
      exact ha

theorem lastRuns_named {cs : List Cell} : ∀ c ∈ lastRuns cs, ∃ n, slideName c = .str n := by
  induction cs with
  | nil => intro c hc; cases hc
  | cons d cs ih =>
    intro c hc
    simp only [lastRuns] at hc
    split at hc
    · rename_i h
      rcases List.mem_cons.mp hc with rfl | hc
      · exact (title_cases _).resolve_left h.1
      · exact ih c hc
    · exact ih c hc

/-- **C128**, what holds (missing: a run that raises leaves the deck as it was). In a notebook, where the name policy is `replace`, let cells be run in any order and any number of times. Then the deck has exactly
one slide for each name that was used, in the order in which the cells with these names were run for the last time. Each has the view box given in that run and, if the function did not raise, what it drew, on the
background; otherwise what it drew up to the exception. The rendered deck is the same as after running just these last runs in a new notebook. -/
theorem C128_cells_partial (w h : Rat) (bg : Option Str) (cells : List Cell) :
    (∀ (δ : Type) (make : Verif.Scene.State → Verif.Layout.Env → Option Rect → Int → Except Err δ) (pdf : Bool),
      (render make (session (newBook w h bg .replace) cells) pdf).map docs = (render make (session (newBook w h bg .replace) (lastRuns cells)) pdf).map docs) ∧
    List.Forall₂ (fun e (c : Cell) => ∃ u i t m, e = Entry.slide u i (slideName c) ∧ (session (newBook w h bg .replace) cells).scenes.lookup u = some (t, c.viewBox) ∧
      Verif.Scene.run (Verif.Scene.newScene w h) ((Verif.Book.Spec.groundColor bg c.bg).elim [] Verif.Book.Spec.ground) = .ok m ∧ t = drawn m c.body ∧
      (∀ s, Verif.Scene.run (Verif.Scene.newScene w h) ((Verif.Book.Spec.groundColor bg c.bg).elim [] Verif.Book.Spec.ground ++ c.body) = .ok s → t = s))
      (session (newBook w h bg .replace) cells).deck.slides (lastRuns cells) := by
  have h1 := session_slides w h bg cells
  have h2 := session_slides w h bg (lastRuns cells)
  rw [lastRuns_idem] at h2
  refine ⟨fun δ make pdf => render_docs make h1 h2 pdf, ?_⟩
  have h3 := names_holds lastRuns_named h1.entries
  refine h3.imp ?_
  rintro e c ⟨u, i, he, hu⟩
  obtain ⟨m, hm⟩ := background_run w h bg c.bg
  have hres := result_eq hm
  rw [Verif.Book.background_eq] at hm
  refine ⟨u, i, _, m, he, hu, hm, hres, fun s hs => ?_⟩
  obtain ⟨m', h4, h5⟩ := run_append_ok hs
  rw [hm] at h4
  injection h4 with h4
  subst h4
  rw [hres, drawn_run h5]

theorem pagesFrom_get {δ : Type} {make : Int → Except Err δ} {u i : Nat} : ∀ {n step : Nat} {l : List (Sheet δ)}, Verif.Book.pagesFrom make u i step n = .ok l →
    l.length = n ∧ ∀ k < n, ∃ d, make ((step + k : Nat) : Int) = .ok d ∧ l[k]? = some (.page u i (step + k) d)
  | 0, step, l, h => by
    injection h with h; subst h
    exact ⟨rfl, fun k hk => absurd hk (by omega)⟩
  | n + 1, step, l, h => by
    simp only [Verif.Book.pagesFrom] at h
    split at h
    · cases h
    · rename_i d hd
      split at h
      · cases h
      · rename_i ds hds
        injection h with h; subst h
        obtain ⟨h1, h2⟩ := pagesFrom_get hds
        refine ⟨by simp [h1], fun k hk => ?_⟩
        cases k with
        | zero => exact ⟨d, hd, rfl⟩
        | succ k =>
          obtain ⟨d', h3, h4⟩ := h2 k (by omega)
          have e : step + 1 + k = step + (k + 1) := by omega
          rw [e] at h3 h4
          exact ⟨d', h3, by simpa using h4⟩

/-- **C128**, what a notebook shows below a cell: if it shows something at all, this is all pages of the slide of the cell, in order, each once, and nothing of other slides. -/
theorem C128_display {δ : Type} (make : Verif.Scene.State → Verif.Layout.Env → Option Rect → Int → Except Err δ) (b : Book) (u i : Nat) (n : Name) (l : List (Sheet δ))
    (h : reprSteps make b (.slide u i n) = .ok l) :
    ∃ s vb env, b.scenes.lookup u = some (s, vb) ∧ s.slide.rects b.width b.height = .ok env ∧ l.length = s.slide.steps.toNat ∧
      ∀ k < l.length, ∃ d, make s env vb ((1 + k : Nat) : Int) = .ok d ∧ l[k]? = some (.page u i (1 + k) d) := by
  simp only [reprSteps, Verif.Book.sheetsLoop, Verif.Book.sheetsOf] at h
  cases hu : b.scenes.lookup u with
  | none => rw [hu] at h; cases h
  | some x =>
    obtain ⟨s, vb⟩ := x
    rw [hu] at h
    simp only at h
    cases hr : s.slide.rects b.width b.height with
    | error e => rw [hr] at h; cases h
    | ok env =>
      rw [hr] at h
      simp only at h
      cases hp : Verif.Book.pagesFrom (make s env vb) u i 1 s.slide.steps.toNat with
      | error e => rw [hp] at h; cases h
      | ok ds =>
        rw [hp] at h
        injection h with h
        rw [List.append_nil] at h
        subst h
        obtain ⟨h1, h2⟩ := pagesFrom_get hp
        exact ⟨s, vb, env, rfl, hr, h1, fun k hk => h2 k (h1 ▸ hk)⟩

/-! ### an example -/

/-- Three cells; the first two are run again, the first one after an edit. -/
def exCells : List Cell := [goodCell, otherCell, { fn := "c".toList, name := .str "x".toList, bg := some "red".toList, body := [.box 0 { show_ := .str "2+".toList }] }, otherCell, { goodCell with body := [] }, { fn := "d".toList, name := .other, body := [] }]

example : (lastRuns exCells).map slideName = [.str "x".toList, .str "b".toList, .str "a".toList] ∧
    exShown exCells = [(1, 1, 1), (2, 2, 1), (1, 1, 0), (1, 1, 0)] := by decide +kernel

example : (match reprSteps exMake (session (newBook 100 100 none .replace) exCells) (.slide 2 2 (.str "x".toList)) with | .ok l => l.length | .error _ => 0) = 2 := by decide +kernel

end Verif.Notebook
