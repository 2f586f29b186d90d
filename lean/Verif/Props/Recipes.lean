import Verif.Props.Accept
import Verif.Props.Grids
import Verif.Props.Todo

/-! # Properties C141, C142, C143: the programs of the documentation never raise an exception -/

namespace Verif.Slide
open Verif.Show.Spec
open Verif.Layout (BoxArgs fboxArgs)
open Verif.Layout.Spec Verif.Slide.Spec

/-- What has to be checked of each call. -/
theorem accepted_of (cs : List Call) (h : ∀ (k : Nat) c, cs[k]? = some c → IsBox (cs.take k) (target c) ∧ ∀ p b, c = .box p b →
      PosOk b.layout.x ∧ PosOk b.layout.y ∧ SizeOk b.layout.width ∧ SizeOk b.layout.height ∧ (∀ cur, ShowOk cur b.show_) ∧ b.above = none ∧ b.below = none) :
    Accepted cs := by
  induction cs using List.reverseRecOn with
  | nil => exact .nothing
  | append_singleton cs c ih =>
    have hcs : Accepted cs := by
      refine ih (fun k d hk => ?_)
      have hlt := (List.getElem?_eq_some_iff.mp hk).1
      have := h k d (by rw [List.getElem?_append_left hlt]; exact hk)
      rwa [List.take_append_of_le_length hlt.le] at this
    obtain ⟨h1, h2⟩ := h cs.length c (by simp)
    rw [List.take_left'  rfl] at h1
    refine .call hcs h1 (fun p b e => ?_)
    obtain ⟨g1, g2, g3, g4, g5, g6, g7⟩ := h2 p b e
    obtain ⟨s, hs⟩ := (C144_accepted 1 1 cs).mpr hcs
    exact ⟨g1, g2, g3, g4, ⟨s.steps, ((C21_page_count 1 1 cs s hs).1 _).mpr rfl, g5 _⟩, by rw [g6, g7]; trivial⟩

theorem isBox_take {cs : List Call} {j k p : Nat} {c : BoxCall} (hj : cs[j]? = some (.box p c)) (hjk : j < k) : IsBox (cs.take k) (j + 1) := by
  refine .inr ⟨c.layout, ?_⟩
  simp only [madeBy]
  rw [List.getElem?_take_of_lt hjk, hj]

/-- **C141, the programs run.** The programs of the documentation never raise an exception: they are accepted for any numbers of rows and columns and any sizes, with the cells shown at once or one after
the other, and the slide can be laid out. -/
theorem C141_runs (R C : Nat) (w h gx gy : Rat) (tw th : Nat → Nat → Rat) (sh : Nat → Nat → Verif.Show.ShowArg) (hsh : sh = (fun _ _ => .none) ∨ sh = gradually C) (width height : Rat) :
    ∃ s env, run (newSlide width height) (gridCalls R C w h gx gy tw th sh) = .ok s ∧ s.rects width height = .ok env := by
  have key : ∀ (k : Nat) c, (gridCalls R C w h gx gy tw th sh)[k]? = some c → IsBox ((gridCalls R C w h gx gy tw th sh).take k) (target c) ∧ ∀ p b, c = .box p b →
      (PosOk b.layout.x ∧ PosOk b.layout.y ∧ SizeOk b.layout.width ∧ SizeOk b.layout.height ∧ (∀ cur, ShowOk cur b.show_) ∧ b.above = none ∧ b.below = none) ∧ ∀ v, ¬ DynamicArg b.layout v := by
    intro k d hk
    rcases at_index R C w h gx gy tw th sh hk with ⟨r, hr, rfl⟩ | ⟨r, hr, c, hc, j, hj, rfl⟩
    · rw [row_at R C w h gx gy tw th sh hr] at hk
      injection hk with hk; subst hk
      refine ⟨.inl rfl, ?_⟩
      intro p b e
      injection e with e1 e2; subst e1; subst e2
      refine ⟨⟨trivial, trivial, trivial, trivial, fun _ => trivial, rfl, rfl⟩, ?_⟩
      rintro v (h | h | h | h) <;> cases h
    · have hrow := row_at R C w h gx gy tw th sh hr
      have hcell := cell_at R C w h gx gy tw th sh hr hc 0 (by omega)
      rw [cell_at R C w h gx gy tw th sh hr hc j hj] at hk
      have b1 : ∀ k, r * (1 + C * 3) < k → IsBox ((gridCalls R C w h gx gy tw th sh).take k) (gridRow C r) := by
        intro k hk
        have := isBox_take hrow hk
        rwa [show r * (1 + C * 3) + 1 = gridRow C r by unfold gridRow; omega] at this
      have b2 : ∀ k, r * (1 + C * 3) + (1 + c * 3 + 0) < k → IsBox ((gridCalls R C w h gx gy tw th sh).take k) (gridCell C r c) := by
        intro k hk
        have := isBox_take hcell hk
        rwa [show r * (1 + C * 3) + (1 + c * 3 + 0) + 1 = gridCell C r c by unfold gridCell gridRow; omega] at this
      have : j = 0 ∨ j = 1 ∨ j = 2 := by omega
      rcases this with rfl | rfl | rfl
      · injection hk with hk; subst hk
        refine ⟨b1 _ (by omega), ?_⟩
        intro p b e
        injection e with e1 e2; subst e1; subst e2
        refine ⟨⟨trivial, trivial, trivial, trivial, fun cur => ?_, rfl, rfl⟩, ?_⟩
        · rcases hsh with rfl | rfl
          · trivial
          · exact ⟨_, writes_from' _, legal_from _ _⟩
        · rintro v (h | h | h | h) <;> cases h
      · injection hk with hk; subst hk
        exact ⟨b2 _ (by omega), fun p b e => by cases e⟩
      · injection hk with hk; subst hk
        exact ⟨b2 _ (by omega), fun p b e => by cases e⟩
  obtain ⟨s, hs⟩ := (C144_accepted width height _).mpr (accepted_of _ (fun k c hk => ⟨(key k c hk).1, fun p b e => ((key k c hk).2 p b e).1⟩))
  obtain ⟨env, he⟩ := C144_static width height _ s hs (fun p c hm v => by
    obtain ⟨k, hk⟩ := List.getElem?_of_mem hm
    exact ((key k _ hk).2 p c rfl).2 v) width height
  exact ⟨s, env, hs, he⟩

/-- **C142, the program runs.** `init_slide` of the documentation never raises an exception, and the slide can be laid out. -/
theorem C142_runs (ds : Str) (hds : Numeral ds) (x0 pad tw th width height : Rat) :
    ∃ s env, run (newSlide width height) (initSlide ds x0 pad tw th) = .ok s ∧ s.rects width height = .ok env := by
  have hh : SizeOk (headerArgs ds).height := .inr ⟨_, ds ++ ['%'], 0, [], by simp, .percent hds, .inl rfl, .inl rfl⟩
  have hf : SizeOk (.str ['f', 'i', 'l', 'l']) := .inr ⟨_, ['f', 'i', 'l', 'l'], 0, [], by simp, .fill, .inl rfl, .inl rfl⟩
  have key : ∀ (k : Nat) c, (initSlide ds x0 pad tw th)[k]? = some c → IsBox ((initSlide ds x0 pad tw th).take k) (target c) ∧ ∀ p b, c = .box p b →
      (PosOk b.layout.x ∧ PosOk b.layout.y ∧ SizeOk b.layout.width ∧ SizeOk b.layout.height ∧ (∀ cur, ShowOk cur b.show_) ∧ b.above = none ∧ b.below = none) ∧ ∀ v, ¬ DynamicArg b.layout v := by
    intro k d hk
    have hk5 := (List.getElem?_eq_some_iff.mp hk).1
    simp only [initSlide, List.length_cons, List.length_nil] at hk5
    have : k = 0 ∨ k = 1 ∨ k = 2 ∨ k = 3 ∨ k = 4 := by omega
    rcases this with rfl | rfl | rfl | rfl | rfl
    · injection hk with hk; subst hk
      refine ⟨.inl rfl, ?_⟩
      intro p b e
      injection e with e1 e2; subst e1; subst e2
      refine ⟨⟨trivial, trivial, hf, hh, fun _ => trivial, rfl, rfl⟩, ?_⟩
      rintro v (h | h | h | h) <;> cases h
    · injection hk with hk; subst hk
      exact ⟨.inr ⟨_, rfl⟩, fun p b e => by cases e⟩
    · injection hk with hk; subst hk
      refine ⟨.inr ⟨_, rfl⟩, ?_⟩
      intro p b e
      injection e with e1 e2; subst e1; subst e2
      refine ⟨⟨trivial, trivial, trivial, trivial, fun _ => trivial, rfl, rfl⟩, ?_⟩
      rintro v (h | h | h | h) <;> cases h
    · injection hk with hk; subst hk
      exact ⟨.inr ⟨_, rfl⟩, fun p b e => by cases e⟩
    · injection hk with hk; subst hk
      refine ⟨.inl rfl, ?_⟩
      intro p b e
      injection e with e1 e2; subst e1; subst e2
      refine ⟨⟨trivial, trivial, hf, hf, fun _ => trivial, rfl, rfl⟩, ?_⟩
      rintro v (h | h | h | h) <;> cases h
  obtain ⟨s, hs⟩ := (C144_accepted width height _).mpr (accepted_of _ (fun k c hk => ⟨(key k c hk).1, fun p b e => ((key k c hk).2 p b e).1⟩))
  obtain ⟨env, he⟩ := C144_static width height _ s hs (fun p c hm v => by
    obtain ⟨k, hk⟩ := List.getElem?_of_mem hm
    exact ((key k _ hk).2 p c rfl).2 v) width height
  exact ⟨s, env, hs, he⟩

theorem accepted_more {cs : List Call} {c : Call} (h : Accepted cs) (hc : IsBox cs (target c)) (hb : ∀ p b, c = .box p b →
      PosOk b.layout.x ∧ PosOk b.layout.y ∧ SizeOk b.layout.width ∧ SizeOk b.layout.height ∧ b.show_ = .none ∧ b.above = none ∧ b.below = none) : Accepted (cs ++ [c]) := by
  refine .call h hc (fun p b e => ?_)
  obtain ⟨g1, g2, g3, g4, g5, g6, g7⟩ := hb p b e
  obtain ⟨s, hs⟩ := (C144_accepted 1 1 cs).mpr h
  exact ⟨g1, g2, g3, g4, ⟨s.steps, ((C21_page_count 1 1 cs s hs).1 _).mpr rfl, by rw [g5]; trivial⟩, by rw [g6, g7]; trivial⟩

/-- **C143, a placeholder can be put into every box.** After any calls that were accepted, the calls of the placeholder are accepted, too; if the calls before have no dynamic values, the slide can be laid out. -/
theorem C143_runs (pw ph : Rat) (before : List Call) (s : State) (hr : run (newSlide pw ph) before = .ok s) (p : Nat) (hp : p = 0 ∨ ∃ b, madeBy before p = some b) (tw th : Rat) :
    ∃ s', run (newSlide pw ph) (before ++ Verif.Todo.todoCalls p (before.length + 1) tw th) = .ok s' ∧
      ((∀ q c, Call.box q c ∈ before → ∀ v, ¬ DynamicArg c.layout v) → ∀ width height, ∃ env, s'.rects width height = .ok env) := by
  have hf : SizeOk (.str ['f', 'i', 'l', 'l']) := .inr ⟨_, ['f', 'i', 'l', 'l'], 0, [], by simp, .fill, .inl rfl, .inl rfl⟩
  have h0 : Accepted before := (C144_accepted pw ph before).mp ⟨s, hr⟩
  have hbox : ∀ (q : Nat) pad r d, Call.box q { layout := fboxArgs { padding := some pad } } = .box r d →
      PosOk d.layout.x ∧ PosOk d.layout.y ∧ SizeOk d.layout.width ∧ SizeOk d.layout.height ∧ d.show_ = .none ∧ d.above = none ∧ d.below = none := by
    intro q pad r d e
    injection e with _ e; subst e
    exact ⟨trivial, trivial, hf, hf, rfl, rfl, rfl⟩
  have hno : ∀ (c : Call), isBox c = false → ∀ r d, c = .box r d →
      PosOk d.layout.x ∧ PosOk d.layout.y ∧ SizeOk d.layout.width ∧ SizeOk d.layout.height ∧ d.show_ = .none ∧ d.above = none ∧ d.below = none := by
    rintro c hc r d rfl
    cases hc
  set n := before.length + 1 with hn
  have h1 := accepted_more (c := .box p { layout := fboxArgs { padding := some 3 } }) h0 hp (hbox _ _)
  have i1 : IsBox (before ++ [.box p { layout := fboxArgs { padding := some 3 } }]) n := isBox_snoc.mpr (.inr ⟨rfl, rfl⟩)
  have h2 := accepted_more (c := .shape n) h1 i1 (hno _ rfl)
  have i2 := isBox_snoc (c := .shape n) |>.mpr (.inl i1)
  have h3 := accepted_more (c := .box n { layout := fboxArgs { padding := some 20 } }) h2 i2 (hbox _ _)
  have i3 : IsBox (before ++ [.box p { layout := fboxArgs { padding := some 3 } }] ++ [.shape n] ++ [.box n { layout := fboxArgs { padding := some 20 } }]) (n + 2) :=
    isBox_snoc.mpr (.inr ⟨by simp [hn], rfl⟩)
  have h4 := accepted_more (c := .shape (n + 2)) h3 i3 (hno _ rfl)
  have i4 := isBox_snoc (c := .shape (n + 2)) |>.mpr (.inl i3)
  have h5 := accepted_more (c := .text (n + 2) tw th false) h4 i4 (hno _ rfl)
  have e : before ++ Verif.Todo.todoCalls p n tw th = before ++ [.box p { layout := fboxArgs { padding := some 3 } }] ++ [.shape n] ++ [.box n { layout := fboxArgs { padding := some 20 } }] ++ [.shape (n + 2)] ++ [.text (n + 2) tw th false] := by
    simp [Verif.Todo.todoCalls]
  rw [← e] at h5
  obtain ⟨s', hs'⟩ := (C144_accepted pw ph _).mpr h5
  refine ⟨s', hs', fun hd width height => C144_static pw ph _ s' hs' ?_ width height⟩
  intro q c hm v
  rcases List.mem_append.mp hm with hm | hm
  · exact hd q c hm v
  · simp only [Verif.Todo.todoCalls, List.mem_cons, List.not_mem_nil, or_false, reduceCtorEq, false_or] at hm
    rcases hm with e | e
    · injection e with _ e; subst e
      rintro (h | h | h | h) <;> cases h
    · injection e with _ e; subst e
      rintro (h | h | h | h) <;> cases h

/-- Grids with one cell shown after the other, and a placeholder in a cell. -/
example : (∃ s env, run (newSlide 100 80) (gridCalls 2 3 20 10 4 6 (fun _ _ => 5) (fun _ _ => 5) (gradually 3)) = .ok s ∧ s.rects 100 80 = .ok env) ∧
    ∃ b, madeBy (gridCalls 2 3 20 10 4 6 (fun _ _ => 5) (fun _ _ => 5) (gradually 3)) (gridCell 3 1 2) = some b :=
  ⟨C141_runs 2 3 20 10 4 6 _ _ _ (.inr rfl) 100 80, ⟨_, rfl⟩⟩

end Verif.Slide
