import Verif.Model.Delegate
import Verif.Spec.Delegate
import Verif.Props.SlideLayout
import Verif.Proofs.Accept

/-! # Property C146: calls on items are calls on their box -/

namespace Verif.Slide
open Verif.Layout (Pos Arg BoxArgs)
open Verif.Slide.Spec

/-- The box of a thing as the model keeps it. -/
def At (objs : List Obj) (t b : Nat) : Prop := boxAt objs t = .ok b

theorem at_iff {objs : List Obj} {t b : Nat} : At objs t b ↔ ∃ o, objs[t]? = some o ∧ o.getBox = b := by
  unfold At boxAt
  split
  · rename_i h; simp [h]
  · rename_i o h; simp [h]

theorem posAt_iff {objs : List Obj} {v v' : Pos} : posAt objs v = .ok v' ↔ PosMoved (At objs) v v' := by
  constructor
  · intro h
    induction v generalizing v' with
    | empty => injection h with h; subst h; exact .empty
    | fix q => injection h with h; subst h; exact .fix q
    | ratio q => injection h with h; subst h; exact .ratio q
    | align q => injection h with h; subst h; exact .align q
    | ref u hor v ih =>
      simp only [posAt] at h
      split at h
      · cases h
      · rename_i b hb
        split at h
        · cases h
        · rename_i w hw
          injection h with h; subst h
          exact .ref hor hb (ih hw)
    | map f v ih =>
      simp only [posAt] at h
      split at h
      · cases h
      · rename_i w hw
        injection h with h; subst h
        exact .map f (ih hw)
    | fn u f =>
      simp only [posAt] at h
      split at h
      · cases h
      · rename_i b hb
        injection h with h; subst h
        exact .fn f hb
  · intro h
    induction h with
    | empty => rfl
    | fix q => rfl
    | ratio q => rfl
    | align q => rfl
    | ref hor hb _ ih => unfold At at hb; simp only [posAt, hb, ih]
    | map f _ ih => simp only [posAt, ih]
    | fn f hb => unfold At at hb; simp only [posAt, hb]

theorem argAt_iff {objs : List Obj} {a a' : Arg} : argAt objs a = .ok a' ↔ ArgMoved (At objs) a a' := by
  constructor
  · intro h
    cases a with
    | lazy v =>
      simp only [argAt] at h
      split at h
      · cases h
      · rename_i w hw
        injection h with h; subst h
        exact .dyn (posAt_iff.1 hw)
    | none => injection h with h; subst h; exact .plain (by simp)
    | num q => injection h with h; subst h; exact .plain (by simp)
    | str s => injection h with h; subst h; exact .plain (by simp)
    | other => injection h with h; subst h; exact .plain (by simp)
  · intro h
    cases h with
    | dyn hv => simp only [argAt, posAt_iff.2 hv]
    | plain hp => cases a with
      | lazy v => exact absurd rfl (hp v)
      | _ => rfl

theorem callAt_iff {objs : List Obj} {c d : Call} : callAt objs c = .ok d ↔ Moved (At objs) c d := by
  constructor
  · intro h
    cases c with
    | box t b =>
      simp only [callAt, argsAt] at h
      cases hb : boxAt objs t with
      | error e => simp [hb] at h
      | ok p =>
        cases hx : argAt objs b.layout.x with
        | error e => simp [hb, hx] at h
        | ok x =>
          cases hy : argAt objs b.layout.y with
          | error e => simp [hb, hx, hy] at h
          | ok y =>
            cases hw : argAt objs b.layout.width with
            | error e => simp [hb, hx, hy, hw] at h
            | ok w =>
              cases hh : argAt objs b.layout.height with
              | error e => simp [hb, hx, hy, hw, hh] at h
              | ok g =>
                simp only [hb, hx, hy, hw, hh] at h
                injection h with h; subst h
                exact .box hb (argAt_iff.1 hx) (argAt_iff.1 hy) (argAt_iff.1 hw) (argAt_iff.1 hh)
    | text t w g fit =>
      simp only [callAt] at h
      split at h
      · cases h
      · rename_i p hp
        injection h with h; subst h; exact .text w g fit hp
    | shape t =>
      simp only [callAt] at h
      split at h
      · cases h
      · rename_i p hp
        injection h with h; subst h; exact .shape hp
    | image t w g steps =>
      simp only [callAt] at h
      split at h
      · cases h
      · rename_i p hp
        injection h with h; subst h; exact .image w g steps hp
  · intro h
    cases h with
    | box hb hx hy hw hh =>
      unfold At at hb
      simp only [callAt, argsAt, hb, argAt_iff.2 hx, argAt_iff.2 hy, argAt_iff.2 hw, argAt_iff.2 hh]
    | text w g fit hp => unfold At at hp; simp only [callAt, hp]
    | shape hp => unfold At at hp; simp only [callAt, hp]
    | image w g steps hp => unfold At at hp; simp only [callAt, hp]

theorem moved_target {R : Nat → Nat → Prop} {c d : Call} (h : Moved R c d) : R (target c) (target d) := by
  cases h <;> assumption

theorem moved_kind {R : Nat → Nat → Prop} {c d : Call} (h : Moved R c d) : (∃ p a, c = .box p a) ↔ ∃ p a, d = .box p a := by
  cases h <;> simp

theorem returned_item {u : Nat} {d : Call} (h : ¬ ∃ p a, d = .box p a) : returned u d = .item (target d) := by
  cases d with
  | box p a => exact absurd ⟨p, a, rfl⟩ h
  | _ => rfl

theorem home_mono {cs ds : List Call} {t b : Nat} (h : Home cs t b) : Home (cs ++ ds) t b := by
  induction h with
  | slide => exact .slide
  | box hk => exact .box (by rw [List.getElem?_append_left (List.getElem?_eq_some_iff.1 hk).1]; exact hk)
  | item hk hn _ ih => exact .item (by rw [List.getElem?_append_left (List.getElem?_eq_some_iff.1 hk).1]; exact hk) hn ih

theorem home_le {cs : List Call} {t b : Nat} (h : Home cs t b) : t ≤ cs.length := by
  cases h with
  | slide => omega
  | box hk => have := (List.getElem?_eq_some_iff.1 hk).1; omega
  | item hk _ _ => have := (List.getElem?_eq_some_iff.1 hk).1; omega

theorem home_unique {cs : List Call} {t b b' : Nat} (h : Home cs t b) (h' : Home cs t b') : b = b' := by
  induction h with
  | slide => cases h'; rfl
  | box hk =>
    cases h' with
    | box _ => rfl
    | item hk' hn _ => rw [hk] at hk'; injection hk' with hk'; exact absurd hk'.symm (hn _ _)
  | item hk hn _ ih =>
    cases h' with
    | box hk' => rw [hk] at hk'; injection hk' with hk'; exact absurd hk' (hn _ _)
    | item hk' _ h' => rw [hk] at hk'; injection hk' with hk'; subst hk'; exact ih h'

/-- What the model keeps is what the chains of calls say, and every call was on something made before it. -/
def Known (cs : List Call) (objs : List Obj) : Prop :=
  objs.length = cs.length + 1 ∧ (∀ t b, At objs t b ↔ Home cs t b) ∧ ∀ k c, cs[k]? = some c → target c ≤ k

theorem known_nil : Known [] [.box 0] := by
  refine ⟨rfl, ?_, by simp⟩
  intro t b
  rw [at_iff]
  constructor
  · rintro ⟨o, ho, rfl⟩
    cases t with
    | zero => simp at ho; subst ho; exact .slide
    | succ t => simp at ho
  · intro h
    cases h with
    | slide => exact ⟨_, rfl, rfl⟩
    | box h => simp at h
    | item h => simp at h

theorem known_snoc {cs : List Call} {objs : List Obj} {c d : Call} (hk : Known cs objs) (hm : Moved (At objs) c d) :
    Known (cs ++ [c]) (objs ++ [returned (cs.length + 1) d]) := by
  obtain ⟨hl, hh, hp⟩ := hk
  have hc : target c ≤ cs.length := by
    obtain ⟨o, ho, _⟩ := at_iff.1 (moved_target hm)
    have := (List.getElem?_eq_some_iff.1 ho).1
    omega
  refine ⟨by simp [hl], ?_, ?_⟩
  rotate_left
  · intro k c' hk
    by_cases hlt : k < cs.length
    · rw [List.getElem?_append_left hlt] at hk; exact hp k c' hk
    · have hlen := (List.getElem?_eq_some_iff.1 hk).1
      simp at hlen
      have : k = cs.length := by omega
      subst this
      simp at hk; subst hk; exact hc
  have new : ∀ b, At (objs ++ [returned (cs.length + 1) d]) (cs.length + 1) b ↔ (returned (cs.length + 1) d).getBox = b := by
    intro b; rw [at_iff, ← hl]; simp
  have old : ∀ t b, t ≤ cs.length → (At (objs ++ [returned (cs.length + 1) d]) t b ↔ At objs t b) := by
    intro t b ht
    rw [at_iff, at_iff, List.getElem?_append_left (by omega)]
  have last : (cs ++ [c])[cs.length]? = some c := by simp
  have back : ∀ t b, Home (cs ++ [c]) t b → (t ≤ cs.length → Home cs t b) ∧ (t = cs.length + 1 → (returned (cs.length + 1) d).getBox = b) := by
    intro t b h
    induction h with
    | slide => exact ⟨fun _ => .slide, fun h => by omega⟩
    | @box k p a hk =>
      refine ⟨fun hle => .box (p := p) (b := a) (by rwa [List.getElem?_append_left (by omega)] at hk), fun he => ?_⟩
      have : k = cs.length := by omega
      subst this
      rw [last] at hk; injection hk with hk
      obtain ⟨p', a', rfl⟩ := (moved_kind hm).1 ⟨p, a, hk⟩
      rfl
    | @item k c' b hk hn h ih =>
      constructor
      · intro hle
        rw [List.getElem?_append_left (by omega)] at hk
        have := hp k c' hk
        exact .item hk hn (ih.1 (by omega))
      · intro he
        have : k = cs.length := by omega
        subst this
        rw [last] at hk; injection hk with hk; subst hk
        have hnd : ¬ ∃ p a, d = .box p a := fun h => by
          obtain ⟨p, a, e⟩ := (moved_kind hm).2 h
          exact hn p a e
        rw [returned_item hnd]
        have h1 := (hh _ _).1 (moved_target hm)
        exact home_unique (home_mono h1) h
  intro t b
  constructor
  · intro h
    by_cases ht : t ≤ cs.length
    · exact home_mono ((hh _ _).1 ((old t b ht).1 h))
    · have : t = cs.length + 1 := by
        rw [at_iff] at h
        obtain ⟨o, ho, _⟩ := h
        have := (List.getElem?_eq_some_iff.1 ho).1
        simp [hl] at this
        omega
      subst this
      have hb := (new b).1 h
      by_cases hd : ∃ p a, d = .box p a
      · obtain ⟨p, a, rfl⟩ := (moved_kind hm).2 hd
        obtain ⟨p', a', rfl⟩ := hd
        subst hb
        exact .box last
      · rw [returned_item hd] at hb
        change target d = b at hb
        subst hb
        exact .item last (fun p a e => hd ((moved_kind hm).1 ⟨p, a, e⟩)) (home_mono ((hh _ _).1 (moved_target hm)))
  · intro h
    by_cases ht : t ≤ cs.length
    · exact (old t b ht).2 ((hh _ _).2 ((back t b h).1 ht))
    · have := home_le h
      simp at this
      have : t = cs.length + 1 := by omega
      subst this
      exact (new b).2 ((back _ b h).2 rfl)

theorem runFrom_snoc {s : State} {objs : List Obj} {cs : List Call} {c : Call} {r : State × List Obj} :
    runFrom s objs (cs ++ [c]) = .ok r ↔ ∃ m, runFrom s objs cs = .ok m ∧ execAt m.1 m.2 c = .ok r := by
  induction cs generalizing s objs with
  | nil =>
    simp only [List.nil_append, runFrom]
    cases h : execAt s objs c with
    | error e => simp [h]
    | ok q => simp [h]
  | cons d cs ih =>
    simp only [List.cons_append, runFrom]
    cases execAt s objs d with
    | error e => simp
    | ok q => exact ih

theorem execAt_iff {s s' : State} {objs objs' : List Obj} {c : Call} : execAt s objs c = .ok (s', objs') ↔
    ∃ d, Moved (At objs) c d ∧ exec s d = (s', none) ∧ objs' = objs ++ [returned s.next d] := by
  unfold execAt
  constructor
  · intro h
    split at h
    · cases h
    · rename_i d hd
      split at h
      · cases h
      · rename_i s1 he
        injection h with h; injection h with h1 h2; subst h1; subst h2
        exact ⟨d, callAt_iff.1 hd, he, rfl⟩
  · rintro ⟨d, hd, he, rfl⟩
    simp only [callAt_iff.2 hd, he]

theorem posMoved_congr {R Q : Nat → Nat → Prop} (h : ∀ t b, R t b → Q t b) {v v' : Pos} (hv : PosMoved R v v') : PosMoved Q v v' := by
  induction hv with
  | empty => exact .empty
  | fix q => exact .fix q
  | ratio q => exact .ratio q
  | align q => exact .align q
  | ref hor hb _ ih => exact .ref hor (h _ _ hb) ih
  | map f _ ih => exact .map f ih
  | fn f hb => exact .fn f (h _ _ hb)

theorem argMoved_congr {R Q : Nat → Nat → Prop} (h : ∀ t b, R t b → Q t b) {a a' : Arg} (ha : ArgMoved R a a') : ArgMoved Q a a' := by
  cases ha with
  | dyn hv => exact .dyn (posMoved_congr h hv)
  | plain hp => exact .plain hp

theorem moved_congr {R Q : Nat → Nat → Prop} (h : ∀ t b, R t b → Q t b) {c d : Call} (hm : Moved R c d) : Moved Q c d := by
  cases hm with
  | box hb hx hy hw hh => exact .box (h _ _ hb) (argMoved_congr h hx) (argMoved_congr h hy) (argMoved_congr h hw) (argMoved_congr h hh)
  | text w g fit hp => exact .text w g fit (h _ _ hp)
  | shape hp => exact .shape (h _ _ hp)
  | image w g steps hp => exact .image w g steps (h _ _ hp)

theorem posMoved_unique {R : Nat → Nat → Prop} (h : ∀ t b b', R t b → R t b' → b = b') {v v' v'' : Pos} (h1 : PosMoved R v v') (h2 : PosMoved R v v'') :
    v' = v'' := by
  induction h1 generalizing v'' with
  | ref hor hb _ ih => cases h2 with
    | ref _ hb' hv' => rw [h _ _ _ hb hb', ih hv']
  | map f _ ih => cases h2 with
    | map _ hv' => rw [ih hv']
  | fn f hb => cases h2 with
    | fn _ hb' => rw [h _ _ _ hb hb']
  | _ => cases h2; rfl

theorem argMoved_unique {R : Nat → Nat → Prop} (h : ∀ t b b', R t b → R t b' → b = b') {a a' a'' : Arg} (h1 : ArgMoved R a a') (h2 : ArgMoved R a a'') :
    a' = a'' := by
  cases h1 with
  | dyn hv => cases h2 with
    | dyn hv' => rw [posMoved_unique h hv hv']
    | plain hp => exact absurd rfl (hp _)
  | plain hp => cases h2 with
    | dyn hv' => exact absurd rfl (hp _)
    | plain _ => rfl

theorem moved_unique {R : Nat → Nat → Prop} (h : ∀ t b b', R t b → R t b' → b = b') {c d d' : Call} (h1 : Moved R c d) (h2 : Moved R c d') : d = d' := by
  cases h1 with
  | box hb hx hy hw hh => cases h2 with
    | box hb' hx' hy' hw' hh' =>
      rw [h _ _ _ hb hb', argMoved_unique h hx hx', argMoved_unique h hy hy', argMoved_unique h hw hw', argMoved_unique h hh hh']
  | text _ _ _ hp => cases h2 with
    | text _ _ _ hp' => rw [h _ _ _ hp hp']
  | shape hp => cases h2 with
    | shape hp' => rw [h _ _ _ hp hp']
  | image _ _ _ hp => cases h2 with
    | image _ _ _ hp' => rw [h _ _ _ hp hp']

theorem onBoxes_nil : OnBoxes [] [] := ⟨rfl, fun _ _ _ h => by simp at h⟩

theorem onBoxes_snoc {cs ds : List Call} {c d : Call} : OnBoxes (cs ++ [c]) (ds ++ [d]) ↔ OnBoxes cs ds ∧ Moved (Home cs) c d := by
  constructor
  · intro h
    have hl : ds.length = cs.length := by have := h.length; simpa using this
    refine ⟨⟨hl, ?_⟩, ?_⟩
    · intro k c' d' hc hd
      have hlt := (List.getElem?_eq_some_iff.1 hc).1
      have := h.calls k c' d' (by rwa [List.getElem?_append_left hlt]) (by rwa [List.getElem?_append_left (by omega)])
      rwa [List.take_append_of_le_length (by omega)] at this
    · have := h.calls cs.length c d (by simp) (by rw [← hl]; simp)
      simpa using this
  · rintro ⟨h, hm⟩
    have hl := h.length
    refine ⟨by simp [hl], ?_⟩
    intro k c' d' hc hd
    by_cases hlt : k < cs.length
    · rw [List.getElem?_append_left hlt] at hc
      rw [List.getElem?_append_left (by omega)] at hd
      rw [List.take_append_of_le_length (by omega)]
      exact h.calls k c' d' hc hd
    · have hlen := (List.getElem?_eq_some_iff.1 hc).1
      simp at hlen
      have : k = cs.length := by omega
      subst this
      simp at hc; subst hc
      rw [← hl] at hd
      simp at hd; subst hd
      simpa using hm

theorem delegates {w h : Rat} {cs : List Call} : ∀ {s : State} {objs : List Obj}, runAt w h cs = .ok (s, objs) →
    Known cs objs ∧ ∃ ds, OnBoxes cs ds ∧ run (newSlide w h) ds = .ok s := by
  induction cs using List.reverseRecOn with
  | nil =>
    intro s objs hr
    injection hr with hr; injection hr with h1 h2; subst h1; subst h2
    exact ⟨known_nil, [], onBoxes_nil, rfl⟩
  | append_singleton cs c ih =>
    intro s objs hr
    obtain ⟨⟨s1, objs1⟩, h1, h2⟩ := runFrom_snoc.1 hr
    obtain ⟨hk, ds, hd, hs⟩ := ih h1
    obtain ⟨d, hm, he, rfl⟩ := execAt_iff.1 h2
    have hn : s1.next = cs.length + 1 := by
      have := run_next hs
      have hl := hd.length
      simp only [newSlide] at this
      omega
    simp only [hn]
    exact ⟨known_snoc hk hm, ds ++ [d], onBoxes_snoc.2 ⟨hd, moved_congr (fun t b => (hk.2.1 t b).1) hm⟩, run_then hs he⟩

theorem delegated {w h : Rat} {cs : List Call} : ∀ {ds : List Call} {s : State}, OnBoxes cs ds → run (newSlide w h) ds = .ok s →
    ∃ objs, runAt w h cs = .ok (s, objs) := by
  induction cs using List.reverseRecOn with
  | nil =>
    intro ds s hd hr
    have := List.length_eq_zero_iff.1 hd.length
    subst this
    injection hr with hr; subst hr
    exact ⟨_, rfl⟩
  | append_singleton cs c ih =>
    intro ds s hd hr
    have hne : ds ≠ [] := by
      have := hd.length
      intro e; subst e; simp at this
    obtain ⟨ds', d, rfl⟩ : ∃ ds' d, ds = ds' ++ [d] := ⟨ds.dropLast, ds.getLast hne, (List.dropLast_concat_getLast hne).symm⟩
    obtain ⟨hd', hm⟩ := onBoxes_snoc.1 hd
    obtain ⟨s1, h1, h2⟩ := run_snoc hr
    obtain ⟨objs, ho⟩ := ih hd' h1
    have hk := (delegates ho).1
    exact ⟨_, runFrom_snoc.2 ⟨(s1, objs), ho, execAt_iff.2 ⟨d, moved_congr (fun t b => (hk.2.1 t b).2) hm, h2, rfl⟩⟩⟩

/-- C146: a program whose calls are on boxes and items makes a slide if and only if the program with the same calls on the boxes, each on the
first box of its chain, makes the same slide: the same boxes, items and layouts. -/
theorem C146_delegates (w h : Rat) (cs : List Call) (s : State) : (∃ objs, runAt w h cs = .ok (s, objs)) ↔
    ∃ ds, OnBoxes cs ds ∧ run (newSlide w h) ds = .ok s :=
  ⟨fun ⟨_, hr⟩ => (delegates hr).2, fun ⟨_, hd, hr⟩ => delegated hd hr⟩

/-- C146: there is only one such program. -/
theorem C146_one {cs ds ds' : List Call} (h : OnBoxes cs ds) (h' : OnBoxes cs ds') : ds = ds' := by
  refine List.ext_getElem? fun k => ?_
  by_cases hk : k < cs.length
  · have hd : k < ds.length := by rw [h.length]; exact hk
    have hd' : k < ds'.length := by rw [h'.length]; exact hk
    rw [List.getElem?_eq_getElem hd, List.getElem?_eq_getElem hd']
    congr 1
    exact moved_unique (R := Home (cs.take k)) (fun _ _ _ => home_unique) (h.calls k _ _ (List.getElem?_eq_getElem hk) (List.getElem?_eq_getElem hd))
      (h'.calls k _ _ (List.getElem?_eq_getElem hk) (List.getElem?_eq_getElem hd'))
  · rw [List.getElem?_eq_none (by rw [h.length]; omega), List.getElem?_eq_none (by rw [h'.length]; omega)]

/-- C146: a call on a box stays on this box. -/
theorem C146_boxes {cs ds : List Call} (h : OnBoxes cs ds) (k : Nat) (c d : Call) (hc : cs[k]? = some c) (hd : ds[k]? = some d)
    (hb : target c = 0 ∨ ∃ j p a, target c = j + 1 ∧ j < k ∧ cs[j]? = some (.box p a)) : target d = target c := by
  have hm := moved_target (h.calls k c d hc hd)
  rcases hb with e | ⟨j, p, a, e, hjk, hj⟩
  · rw [e] at hm ⊢; exact home_unique hm .slide
  · rw [e] at hm ⊢
    exact home_unique hm (.box (by rw [List.getElem?_take_of_lt hjk]; exact hj))

/-- Snippet A of the user guide (docs/userguide/layout.md:100-104): both items are made on the box. -/
def snippetA : List Call := [.box 0 {}, .shape 1, .text 1 30 20 false]

/-- Snippet B (docs/userguide/layout.md:106-107): the text is made on the rectangle. -/
def snippetB : List Call := [.box 0 {}, .shape 1, .text 2 30 20 false]

theorem snippets : OnBoxes snippetB snippetA := by
  refine (onBoxes_snoc (cs := [.box 0 {}, .shape 1]) (ds := [.box 0 {}, .shape 1])).2 ⟨(onBoxes_snoc (cs := [.box 0 {}]) (ds := [.box 0 {}])).2
    ⟨(onBoxes_snoc (cs := []) (ds := [])).2 ⟨onBoxes_nil, ?_⟩, ?_⟩, ?_⟩
  · exact .box (b := {}) .slide (.plain (by simp)) (.plain (by simp)) (.plain (by simp)) (.plain (by simp))
  · exact .shape (.box (p := 0) (b := {}) rfl)
  · exact .text _ _ _ (.item (c := .shape 1) rfl (by simp) (.box (p := 0) (b := {}) rfl))

/-- C146: the two snippets of the user guide make the same slide. -/
theorem C146_snippets (w h : Rat) (s : State) : (∃ objs, runAt w h snippetB = .ok (s, objs)) ↔ run (newSlide w h) snippetA = .ok s := by
  rw [C146_delegates]
  constructor
  · rintro ⟨ds, hd, hr⟩
    rwa [C146_one hd snippets] at hr
  · exact fun hr => ⟨_, snippets, hr⟩

/-- A longer chain: a box made on a text that was made on a rectangle, and a box placed relative to that text. -/
def exChain : List Call :=
  [.box 0 {}, .shape 1, .text 2 30 20 false, .box 3 {}, .shape 4, .box 0 { layout := { x := .lazy (.ref 5 true (.ratio (1 / 2))) } }]

/-- The chain runs, and the things are where they should be: the rectangle and the text in the first box, the other rectangle in the box that was
made on the text. -/
example : (match runAt 100 80 exChain with
    | .ok (_, objs) => decide (objs = [.box 0, .box 1, .item 1, .item 1, .box 4, .item 4, .box 6])
    | .error _ => false) = true := by decide +kernel

end Verif.Slide
