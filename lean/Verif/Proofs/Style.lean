import Verif.Spec.Style
import Mathlib.Tactic.Common
import Mathlib.Data.List.Basic

/-! Helper lemmas for style containers. -/

namespace Verif.Style
open Spec

/-- All addresses are valid. -/
structure WF (h : Heap) : Prop where
  containers : ∀ (c d : Nat), h.containers[c]? = some d → d < h.dicts.length
  dicts : ∀ dict ∈ h.dicts, ∀ (n : Str) (a : Nat), (n, a) ∈ dict → a < h.styles.length
  items : ∀ it ∈ h.items, it.style < h.styles.length ∧ it.dict < h.dicts.length

/-- The address is stored in a table or is the style of an item. -/
def Referenced (h : Heap) (a : Nat) : Prop :=
  (∃ dict ∈ h.dicts, ∃ n, (n, a) ∈ dict) ∨ ∃ it ∈ h.items, it.style = a

theorem lookup_mem {n : Str} {d : Dict} {a : Nat} (h : List.lookup n d = some a) : (n, a) ∈ d := by
  induction d with
  | nil => cases h
  | cons p d ih =>
    obtain ⟨m, b⟩ := p
    rw [List.lookup_cons] at h
    split at h
    · rename_i hb
      have : n = m := by simpa using hb
      injection h with h
      subst this; subst h; simp
    · exact List.mem_cons_of_mem _ (ih h)

theorem WF.ref_lt {h : Heap} (w : WF h) {a : Nat} (hr : Referenced h a) : a < h.styles.length := by
  rcases hr with ⟨d, hd, n, hn⟩ | ⟨it, hi, rfl⟩
  · exact w.dicts d hd n a hn
  · exact (w.items it hi).1

/-- Two heaps that agree on everything referenced look the same. -/
theorem resolves_same {h h' : Heap} {c c' : Nat} {n : Str}
    (hs : ∀ a, Referenced h a → h'.styles[a]? = h.styles[a]?) {d : Nat} {dict dict' : Dict}
    (h1 : h.containers[c]? = some d) (h2 : h.dicts[d]? = some dict) {d' : Nat} (h3 : h'.containers[c']? = some d')
    (h4 : h'.dicts[d']? = some dict') (hl : List.lookup n dict' = List.lookup n dict) (s : TextStyle) :
    Resolves h' c' n s ↔ Resolves h c n s := by
  have key : ∀ a, List.lookup n dict = some a → h'.styles[a]? = h.styles[a]? := fun a ha =>
    hs a (Or.inl ⟨dict, List.mem_of_getElem? h2, n, lookup_mem ha⟩)
  constructor
  · rintro ⟨e, f, a, g1, g2, g3, g4⟩
    rw [h3] at g1; injection g1 with g1; subst g1
    rw [h4] at g2; injection g2 with g2; subst g2
    rw [hl] at g3
    exact ⟨d, dict, a, h1, h2, g3, by rw [← key a g3]; exact g4⟩
  · rintro ⟨e, f, a, g1, g2, g3, g4⟩
    rw [h1] at g1; injection g1 with g1; subst g1
    rw [h2] at g2; injection g2 with g2; subst g2
    exact ⟨d', dict', a, h3, h4, by rw [hl]; exact g3, by rw [key a g3]; exact g4⟩

theorem items_same {h h' : Heap} (w : WF h)
    (hs : ∀ a, Referenced h a → h'.styles[a]? = h.styles[a]?)
    (hd : ∀ d < h.dicts.length, h'.dicts[d]? = h.dicts[d]?)
    (hi : ∀ i < h.items.length, h'.items[i]? = h.items[i]?) :
    ∀ i < h.items.length, (∀ s, ItemStyle h' i s ↔ ItemStyle h i s) ∧
      ∀ n' s, ItemResolves h' i n' s ↔ ItemResolves h i n' s := by
  intro i hl
  have e := hi i hl
  have he : ∃ it, h.items[i]? = some it := ⟨h.items[i], List.getElem?_eq_getElem hl⟩
  obtain ⟨it, hit⟩ := he
  have hm := List.mem_of_getElem? hit
  constructor
  · intro s
    constructor
    · rintro ⟨it', g1, g2⟩
      rw [e, hit] at g1; injection g1 with g1; subst g1
      exact ⟨it, hit, by rw [← hs _ (Or.inr ⟨it, hm, rfl⟩)]; exact g2⟩
    · rintro ⟨it', g1, g2⟩
      rw [hit] at g1; injection g1 with g1; subst g1
      exact ⟨it, by rw [e, hit], by rw [hs _ (Or.inr ⟨it, hm, rfl⟩)]; exact g2⟩
  · intro n s
    have ed := hd it.dict (w.items it hm).2
    constructor
    · rintro ⟨it', dict, a, g1, g2, g3, g4⟩
      rw [e, hit] at g1; injection g1 with g1; subst g1
      rw [ed] at g2
      exact ⟨it, dict, a, hit, g2, g3, by rw [← hs a (Or.inl ⟨dict, List.mem_of_getElem? g2, n, lookup_mem g3⟩)]; exact g4⟩
    · rintro ⟨it', dict, a, g1, g2, g3, g4⟩
      rw [hit] at g1; injection g1 with g1; subst g1
      exact ⟨it, dict, a, by rw [e, hit], by rw [ed, g2], g3, by rw [hs a (Or.inl ⟨dict, List.mem_of_getElem? g2, n, lookup_mem g3⟩)]; exact g4⟩

theorem same_of {h h' : Heap} (w : WF h)
    (hs : ∀ a, Referenced h a → h'.styles[a]? = h.styles[a]?)
    (hd : ∀ d < h.dicts.length, h'.dicts[d]? = h.dicts[d]?)
    (hc : ∀ c < h.containers.length, h'.containers[c]? = h.containers[c]?)
    (hi : ∀ i < h.items.length, h'.items[i]? = h.items[i]?) (n : Str) : SameExcept h h' none n := by
  refine ⟨?_, items_same w hs hd hi⟩
  intro c' hl n' s _
  have h1 : h.containers[c']? = some h.containers[c'] := List.getElem?_eq_getElem hl
  have hdl := w.containers _ _ h1
  have h2 : h.dicts[h.containers[c']]? = some h.dicts[h.containers[c']] := List.getElem?_eq_getElem hdl
  exact resolves_same hs h1 h2 (by rw [hc c' hl, h1]) (by rw [hd _ hdl, h2]) rfl s

theorem modify_last {α : Type} (l : List α) (x : α) (f : α → α) : (l ++ [x]).modify l.length f = l ++ [f x] := by
  induction l with
  | nil => rfl
  | cons y l ih => simpa using ih

/-- Storing a style: the effect on what is resolved. -/
theorem store_same {h h1 : Heap} (w : WF h) {c : Nat} {d : Dict} (hd : h.dictOf c = .ok d) {name : Str} {a : Nat}
    (hs : ∀ x, x < h.styles.length → h1.styles[x]? = h.styles[x]?) (e1 : h1.dicts = h.dicts)
    (e2 : h1.containers = h.containers) (e3 : h1.items = h.items) :
    SameExcept h (store h1 c d name a) (some c) name ∧
    (∀ s, h1.styles[a]? = some s → Resolves (store h1 c d name a) c name s) := by
  unfold Heap.dictOf at hd
  split at hd
  · cases hd
  · rename_i dn hdn
    split at hd
    · cases hd
    · rename_i dict hdict
      injection hd with hd; subst hd
      have hcl : c < h.containers.length := by
        by_contra hcon
        rw [List.getElem?_eq_none (by omega)] at hdn; cases hdn
      have hs' : ∀ x, Referenced h x → (store h1 c dict name a).styles[x]? = h.styles[x]? := fun x hx => hs x (w.ref_lt hx)
      have hd' : ∀ x < h.dicts.length, (store h1 c dict name a).dicts[x]? = h.dicts[x]? := by
        intro x hx
        simp only [store, e1]
        exact List.getElem?_append_left hx
      have hnew : (store h1 c dict name a).dicts[h.dicts.length]? = some ((name, a) :: dict) := by
        simp [store, e1]
      have hcont : (store h1 c dict name a).containers[c]? = some h.dicts.length := by
        simp [store, e1, e2, hcl]
      refine ⟨⟨?_, items_same w hs' hd' (by intro i _; simp [store, e3])⟩, ?_⟩
      · intro c' hl n' s hne
        by_cases hc : c' = c
        · subst hc
          have hn : n' ≠ name := fun hn => hne ⟨rfl, hn⟩
          refine resolves_same hs' hdn hdict hcont hnew ?_ s
          rw [List.lookup_cons]
          have : (n' == name) = false := by simpa using hn
          rw [this]
        · have h1' : h.containers[c']? = some h.containers[c'] := List.getElem?_eq_getElem hl
          have hdl := w.containers _ _ h1'
          have h2' : h.dicts[h.containers[c']]? = some h.dicts[h.containers[c']] := List.getElem?_eq_getElem hdl
          refine resolves_same hs' h1' h2' ?_ (by rw [hd' _ hdl, h2']) rfl s
          simp only [store, e2]
          rw [List.getElem?_set_ne (Ne.symm hc), h1']
      · intro s hs
        exact ⟨_, _, a, hcont, hnew, by simp, hs⟩

theorem store_wf {h h1 : Heap} (w : WF h) {c : Nat} {d : Dict} (hd : h.dictOf c = .ok d) {name : Str} {a : Nat}
    (hs : h.styles.length ≤ h1.styles.length) (ha : a < h1.styles.length) (e1 : h1.dicts = h.dicts)
    (e2 : h1.containers = h.containers) (e3 : h1.items = h.items) : WF (store h1 c d name a) := by
  unfold Heap.dictOf at hd
  split at hd
  · cases hd
  · rename_i dn hdn
    split at hd
    · cases hd
    · rename_i dict hdict
      injection hd with hd; subst hd
      refine ⟨?_, ?_, ?_⟩
      · intro c' d' h'
        simp only [store, e1, e2] at h' ⊢
        rw [List.getElem?_set] at h'
        simp only [List.length_append, List.length_singleton]
        split at h'
        · split at h'
          · injection h' with h'; omega
          · cases h'
        · have := w.containers _ _ h'; omega
      · intro dc hdc n x hx
        simp only [store, e1, List.mem_append, List.mem_singleton] at hdc
        simp only [store]
        rcases hdc with hdc | rfl
        · have := w.dicts dc hdc n x hx; omega
        · simp only [List.mem_cons, Prod.mk.injEq] at hx
          rcases hx with ⟨-, rfl⟩ | hx
          · exact ha
          · have := w.dicts dict (List.mem_of_getElem? hdict) n x hx; omega
      · intro it hit
        simp only [store, e3, e1, List.length_append, List.length_singleton] at hit ⊢
        have := w.items it hit
        omega

/-- What `getStyle` does to the heap. -/
theorem getStyle_ok {h h' : Heap} {c : Nat} {st : Arg} {full : Bool} {a : Nat} (hg : getStyle h c st full = .ok (h', a)) :
    ∃ d v, h.dictOf c = .ok d ∧ composeValue h d st full = .ok v ∧ a = h.styles.length ∧
      h' = { h with styles := h.styles ++ [v] } := by
  unfold getStyle at hg
  split at hg
  · cases hg
  · rename_i d hd
    split at hg
    · cases hg
    · rename_i v hv
      injection hg with hg
      unfold Heap.alloc at hg
      injection hg with h1 h2
      exact ⟨d, v, hd, hv, h2.symm, h1.symm⟩

theorem getElem?_lt {α : Type} {l : List α} {i : Nat} {x : α} (h : l[i]? = some x) : i < l.length := by
  by_contra hc
  rw [List.getElem?_eq_none (by omega)] at h; cases h

theorem style_ok {h : Heap} {a : Nat} {s : TextStyle} (hs : h.style a = .ok s) : h.styles[a]? = some s := by
  unfold Heap.style at hs
  split at hs
  · cases hs
  · rename_i v hv
    injection hs with hs; rw [hv, hs]

/-- What `setStyle` does. -/
theorem setStyle_ok {h h' : Heap} {c : Nat} {name : Str} {st : Nat} {base : Arg} {a : Nat}
    (hg : setStyle h c name st base = .ok (h', a)) :
    ∃ d s, h.dictOf c = .ok d ∧ h.styles[st]? = some s ∧
      ((base = .name "default".toList ∧ a = st ∧ h' = store h c d name st) ∨
       (base ≠ .name "default".toList ∧ ∃ v, composeValue h d base false = .ok v ∧ a = h.styles.length ∧
         h' = store { h with styles := h.styles ++ [v.update s] } c d name h.styles.length)) := by
  have other : ∀ d s, h.dictOf c = .ok d → base ≠ .name "default".toList →
      (match getStyle h c base false with
        | .error e => (.error e : Except Err (Heap × Nat))
        | .ok (h1, a) => .ok (store (mutate h1 a (·.update s)) c d name a, a)) = .ok (h', a) →
      ∃ v, composeValue h d base false = .ok v ∧ a = h.styles.length ∧
         h' = store { h with styles := h.styles ++ [v.update s] } c d name h.styles.length := by
    intro d s hd _ hx
    split at hx
    · cases hx
    · rename_i h1 b hget
      obtain ⟨d', v, g1, g2, g3, g4⟩ := getStyle_ok hget
      rw [hd] at g1; injection g1 with g1; subst g1
      injection hx with hx
      injection hx with hx1 hx2
      refine ⟨v, g2, by rw [← hx2, g3], ?_⟩
      rw [← hx1, g4, g3]
      unfold mutate
      simp only [modify_last]
  unfold setStyle at hg
  split at hg
  · cases hg
  · rename_i d hd
    split at hg
    · cases hg
    · rename_i s hs
      refine ⟨d, s, hd, style_ok hs, ?_⟩
      split at hg
      · rename_i b
        split at hg
        · rename_i hb
          injection hg with hg; injection hg with h1 h2
          exact Or.inl ⟨by rw [hb], h2.symm, h1.symm⟩
        · rename_i hb
          have hne : Arg.name b ≠ .name "default".toList := fun h => hb (by injection h)
          exact Or.inr ⟨hne, other d s hd hne hg⟩
      · rename_i hb
        have hne : base ≠ .name "default".toList := fun h => hb _ h
        exact Or.inr ⟨hne, other d s hd hne hg⟩

/-- What `updateStyle` does. -/
theorem updateStyle_ok {h h' : Heap} {c : Nat} {name : Str} {st : Nat} {a : Nat}
    (hg : updateStyle h c name st = .ok (h', a)) :
    ∃ d s v, h.dictOf c = .ok d ∧ h.styles[st]? = some s ∧ composeValue h d (.name name) false = .ok v ∧
      a = h.styles.length ∧ h' = store { h with styles := h.styles ++ [v.update s] } c d name h.styles.length := by
  unfold updateStyle at hg
  split at hg
  · cases hg
  rename_i s0 hs0
  have hst := getElem?_lt (style_ok hs0)
  split at hg
  · cases hg
  · rename_i h1 old hget
    obtain ⟨d, v, g1, g2, g3, g4⟩ := getStyle_ok hget
    split at hg
    · cases hg
    · rename_i s hs
      have hs := style_ok hs
      rw [g4] at hs
      simp only at hs
      rw [List.getElem?_append_left hst] at hs
      have hdict : (mutate h1 old (·.update s)).dictOf c = .ok d := by
        rw [g4]; exact g1
      simp only at hg
      rw [hdict] at hg
      injection hg with hg; injection hg with e1 e2
      refine ⟨d, s, v, g1, hs, g2, by rw [← e2, g3], ?_⟩
      rw [← e1, g4, g3]
      unfold mutate
      simp only [modify_last]

/-- Extending the list of styles changes nothing. -/
theorem alloc_wf {h : Heap} (w : WF h) (v : TextStyle) : WF { h with styles := h.styles ++ [v] } := by
  refine ⟨w.containers, ?_, ?_⟩
  · intro d hd n a ha
    have := w.dicts d hd n a ha
    simp only [List.length_append, List.length_singleton]; omega
  · intro it hi
    have := w.items it hi
    simp only [List.length_append, List.length_singleton]; omega

theorem dictOf_lt {h : Heap} {c : Nat} {d : Dict} (hd : h.dictOf c = .ok d) : ∃ dn, h.containers[c]? = some dn ∧ h.dicts[dn]? = some d := by
  unfold Heap.dictOf at hd
  split at hd
  · cases hd
  · rename_i dn hdn
    split at hd
    · cases hd
    · rename_i dict hdict
      injection hd with hd; subst hd
      exact ⟨dn, hdn, hdict⟩

theorem exec_wf {h h' : Heap} {o : Op} (w : WF h) (he : exec h o = .ok h') : WF h' := by
  cases o with
  | newStyle s =>
    injection he with he; subst he
    exact alloc_wf w s
  | mutate a f =>
    injection he with he; subst he
    refine ⟨w.containers, ?_, ?_⟩
    · intro d hd n x hx
      simpa [Style.mutate] using w.dicts d hd n x hx
    · intro it hi
      simpa [Style.mutate] using w.items it hi
  | get c st full =>
    simp only [exec] at he
    cases hg : getStyle h c st full with
    | error e => rw [hg] at he; cases he
    | ok p =>
      obtain ⟨h1, a⟩ := p
      rw [hg] at he; injection he with he; subst he
      obtain ⟨d, v, -, -, -, e⟩ := getStyle_ok hg
      rw [e]; exact alloc_wf w v
  | set c name st base =>
    simp only [exec] at he
    cases hg : setStyle h c name st base with
    | error e => rw [hg] at he; cases he
    | ok p =>
      obtain ⟨h1, a⟩ := p
      rw [hg] at he; injection he with he; subst he
      obtain ⟨d, s, h1, h2, ⟨-, -, e⟩ | ⟨-, v, -, -, e⟩⟩ := setStyle_ok hg
      · simp only [e]; exact store_wf w h1 (le_refl _) (getElem?_lt h2) rfl rfl rfl
      · simp only [e]; exact store_wf w h1 (by simp) (by simp) rfl rfl rfl
  | update c name st =>
    simp only [exec] at he
    cases hg : updateStyle h c name st with
    | error e => rw [hg] at he; cases he
    | ok p =>
      obtain ⟨h1, a⟩ := p
      rw [hg] at he; injection he with he; subst he
      obtain ⟨d, s, v, h1, h2, -, -, e⟩ := updateStyle_ok hg
      simp only [e]; exact store_wf w h1 (by simp) (by simp) rfl rfl rfl
  | newBox p =>
    simp only [exec, Style.newBox] at he
    split at he
    · cases he
    · rename_i d hd
      injection he with he; subst he
      refine ⟨?_, w.dicts, w.items⟩
      intro c' d' h'
      simp only at h'
      rw [List.getElem?_append] at h'
      split at h'
      · exact w.containers _ _ h'
      · have : d' = d := by
          cases hx : c' - h.containers.length with
          | zero => rw [hx] at h'; simpa using h'.symm
          | succ k => rw [hx] at h'; simp at h'
        rw [this]; exact w.containers _ _ hd
  | newSlide =>
    simp only [exec, Style.newSlide] at he
    split at he
    · cases he
    · rename_i d hd
      injection he with he; subst he
      obtain ⟨dn, g1, g2⟩ := dictOf_lt hd
      refine ⟨?_, ?_, ?_⟩
      · intro c' d' h'
        simp only [List.length_append, List.length_singleton] at h' ⊢
        rw [List.getElem?_append] at h'
        split at h'
        · have := w.containers _ _ h'; omega
        · cases hx : c' - h.containers.length with
          | zero => rw [hx] at h'; simp at h'; omega
          | succ k => rw [hx] at h'; simp at h'
      · intro dc hdc n x hx
        simp only [List.mem_append, List.mem_singleton] at hdc
        rcases hdc with hdc | rfl
        · exact w.dicts dc hdc n x hx
        · exact w.dicts _ (List.mem_of_getElem? g2) n x hx
      · intro it hi
        have := w.items it hi
        simp only [List.length_append, List.length_singleton]; omega
  | newText c st =>
    simp only [exec, Style.newText] at he
    split at he
    · cases he
    · rename_i h1 a hg
      obtain ⟨d, v, -, -, ea, e⟩ := getStyle_ok hg
      split at he
      · cases he
      · rename_i dn hdn
        injection he with he; subst he
        have w1 : WF h1 := e ▸ alloc_wf w v
        refine ⟨w1.containers, w1.dicts, ?_⟩
        intro it hi
        simp only [List.mem_append, List.mem_singleton] at hi
        rcases hi with hi | rfl
        · exact w1.items it hi
        · exact ⟨by rw [ea, e]; simp, w1.containers _ _ hdn⟩

theorem run_wf {h h' : Heap} {os : List Op} (w : WF h) (he : run h os = .ok h') : WF h' := by
  induction os generalizing h with
  | nil => injection he with he; subst he; exact w
  | cons o os ih =>
    simp only [run] at he
    split at he
    · cases he
    · rename_i h1 e1
      exact ih (exec_wf w e1) he

theorem newDeck_wf (named : List (Str × TextStyle)) : WF (newDeck named) := by
  refine ⟨?_, ?_, ?_⟩
  · intro c d h
    simp only [newDeck] at h ⊢
    cases c with
    | zero => simp at h; simp; omega
    | succ k => simp at h
  · intro d hd n a ha
    simp only [newDeck, List.mem_singleton] at hd
    subst hd
    rw [List.mem_reverse] at ha
    have := List.mem_zipIdx ha
    simp only [newDeck, List.length_map] at this ⊢
    omega
  · intro it hi; cases hi

/-- An operation that does not store the object `a` leaves it unreferenced. -/
theorem exec_private {h h' : Heap} {o : Op} (w : WF h) {a : Nat} (ha : a < h.styles.length) (hp : ¬ Referenced h a)
    (hno : ∀ c name, o ≠ .set c name a (.name "default".toList)) (he : exec h o = .ok h') :
    a < h'.styles.length ∧ ¬ Referenced h' a := by
  have stored : ∀ {h1 : Heap} {c : Nat} {d : Dict} {name : Str} {b : Nat}, h.dictOf c = .ok d → b ≠ a →
      h1.dicts = h.dicts → h1.items = h.items → ¬ Referenced (store h1 c d name b) a := by
    intro h1 c d name b hd hb e1 e3 hr
    obtain ⟨dn, g1, g2⟩ := dictOf_lt hd
    rcases hr with ⟨dict, hdict, n, hn⟩ | ⟨it, hi, e⟩
    · simp only [store, e1, List.mem_append, List.mem_singleton] at hdict
      rcases hdict with hdict | rfl
      · exact hp (Or.inl ⟨dict, hdict, n, hn⟩)
      · simp only [List.mem_cons, Prod.mk.injEq] at hn
        rcases hn with ⟨-, hn⟩ | hn
        · exact hb hn.symm
        · exact hp (Or.inl ⟨d, List.mem_of_getElem? g2, n, hn⟩)
    · simp only [store, e3] at hi
      exact hp (Or.inr ⟨it, hi, e⟩)
  cases o with
  | newStyle s =>
    injection he with he; subst he
    exact ⟨by simp [Heap.alloc]; omega, hp⟩
  | mutate b f =>
    injection he with he; subst he
    exact ⟨by simpa [Style.mutate] using ha, hp⟩
  | get c st full =>
    simp only [exec] at he
    cases hg : getStyle h c st full with
    | error e => rw [hg] at he; cases he
    | ok p =>
      obtain ⟨h1, b⟩ := p
      rw [hg] at he; injection he with he; subst he
      obtain ⟨d, v, -, -, -, e⟩ := getStyle_ok hg
      simp only [e]
      exact ⟨by simp; omega, hp⟩
  | set c name st base =>
    simp only [exec] at he
    cases hg : setStyle h c name st base with
    | error e => rw [hg] at he; cases he
    | ok p =>
      obtain ⟨h1, b⟩ := p
      rw [hg] at he; injection he with he; subst he
      obtain ⟨d, s, h1, h2, ⟨hb, -, e⟩ | ⟨-, v, -, -, e⟩⟩ := setStyle_ok hg
      · simp only [e]
        refine ⟨ha, stored h1 ?_ rfl rfl⟩
        rintro rfl
        exact hno c name (by rw [hb])
      · simp only [e]
        exact ⟨by simp [store]; omega, stored h1 (by omega) rfl rfl⟩
  | update c name st =>
    simp only [exec] at he
    cases hg : updateStyle h c name st with
    | error e => rw [hg] at he; cases he
    | ok p =>
      obtain ⟨h1, b⟩ := p
      rw [hg] at he; injection he with he; subst he
      obtain ⟨d, s, v, h1, h2, -, -, e⟩ := updateStyle_ok hg
      simp only [e]
      exact ⟨by simp [store]; omega, stored h1 (by omega) rfl rfl⟩
  | newBox p =>
    simp only [exec, Style.newBox] at he
    split at he
    · cases he
    · injection he with he; subst he
      exact ⟨ha, hp⟩
  | newSlide =>
    simp only [exec, Style.newSlide] at he
    split at he
    · cases he
    · rename_i d hd
      injection he with he; subst he
      obtain ⟨dn, g1, g2⟩ := dictOf_lt hd
      refine ⟨ha, ?_⟩
      rintro (⟨dict, hdict, n, hn⟩ | hr)
      · simp only [List.mem_append, List.mem_singleton] at hdict
        rcases hdict with hdict | rfl
        · exact hp (Or.inl ⟨dict, hdict, n, hn⟩)
        · exact hp (Or.inl ⟨_, List.mem_of_getElem? g2, n, hn⟩)
      · exact hp (Or.inr hr)
  | newText c st =>
    simp only [exec, Style.newText] at he
    split at he
    · cases he
    · rename_i h1 b hg
      obtain ⟨d, v, -, -, ea, e⟩ := getStyle_ok hg
      split at he
      · cases he
      · rename_i dn hdn
        injection he with he; subst he
        subst e
        refine ⟨by simp; omega, ?_⟩
        rintro (hr | ⟨it, hi, e⟩)
        · exact hp (Or.inl hr)
        · simp only [List.mem_append, List.mem_singleton] at hi
          rcases hi with hi | rfl
          · exact hp (Or.inr ⟨it, hi, e⟩)
          · simp only at e; omega

/-- Mutating an object nothing refers to changes nothing. -/
theorem mutate_private {h : Heap} (w : WF h) {a : Nat} (hp : ¬ Referenced h a) (f : TextStyle → TextStyle) (n : Str) :
    SameExcept h (mutate h a f) none n := by
  refine same_of (h' := mutate h a f) w ?_ (fun _ _ => rfl) (fun _ _ => rfl) (fun _ _ => rfl) n
  intro x hx
  have : x ≠ a := fun e => hp (e ▸ hx)
  unfold mutate
  simp only
  rw [List.getElem?_modify]
  simp [Ne.symm this]

end Verif.Style
