import Verif.Proofs.Style

/-! # Properties C43–C47: text styles -/

namespace Verif.Style
open Spec

/-- **C43 is false** for `priority`: a style that says nothing about priority resets it to 0. -/
theorem C43_inheritance_false : ¬ ∀ (a : TextStyle) (k : Kwargs) (name : String), given k name = none →
    slot (a.compose (construct k)) name = slot a name := by
  intro h
  have := h { priority := 5 } { bold := some true } "priority" rfl
  exact absurd this (by decide +kernel)

/-- **C43, what holds.** Every attribute given is taken from the right style, every attribute not given, other than
`priority`, from the left one; the priority is always the right one's. -/
theorem C43_inheritance_partial (a : TextStyle) (k : Kwargs) (name : String) (hn : name ≠ "priority") :
    slot (a.compose (construct k)) name = ((given k name).or (slot a name)) ∧
    slot (a.compose (construct k)) "priority" = some (.num (k.priority.getD 0)) := by
  refine ⟨?_, rfl⟩
  unfold slot given
  split
  all_goals first
    | exact absurd rfl hn
    | rfl
    | skip
  all_goals
    simp only [TextStyle.compose, TextStyle.update, construct]
    have pick : ∀ {α : Type} (o q : Option α) (f : α → Value), Option.map f (if o.isSome = true then o else q) =
        (Option.map f o).or (Option.map f q) := by
      intro α o q f; cases o <;> rfl
    exact pick _ _ _

/-- A style with several attributes and one that overrides one of them. -/
example : ({ font := some "serif".toList, size := some 20 } : TextStyle).compose (construct { size := some 30, bold := some true }) =
    { font := some "serif".toList, size := some 30, bold := some true } := by decide +kernel

/-- **C44.** Composition is associative. -/
theorem C44_compose_assoc (a b c : TextStyle) : (a.compose b).compose c = a.compose (b.compose c) := by
  unfold TextStyle.compose TextStyle.update
  simp only [TextStyle.mk.injEq, and_true]
  refine ⟨?_, ?_, ?_, ?_, ?_, ?_, ?_, ?_, ?_⟩
  · cases c.font <;> rfl
  · cases c.size <;> rfl
  · cases c.align <;> rfl
  · cases c.lineSpacing <;> rfl
  · cases c.color <;> rfl
  · cases c.bold <;> rfl
  · cases c.italic <;> rfl
  · cases c.variantNumeric <;> rfl
  · cases c.opacity <;> rfl

/-- Three styles that all matter. -/
example : (({ font := some ['x'], size := some 1 } : TextStyle).compose { size := some 2, bold := some true }).compose
    { bold := some false } = { font := some ['x'], size := some 2, bold := some false } := by decide +kernel

/-- A heap that some sequence of operations on a new deck produces. -/
def Reachable (h : Heap) : Prop := ∃ named ops, run (newDeck named) ops = .ok h

theorem Reachable.wf {h : Heap} (hr : Reachable h) : WF h := by
  obtain ⟨named, ops, hr⟩ := hr
  exact run_wf (newDeck_wf named) hr

theorem composeValue_name {h : Heap} {c : Nat} {d : Dict} {n : Str} {v : TextStyle} (hd : h.dictOf c = .ok d)
    (hv : composeValue h d (.name n) false = .ok v) : Resolves h c n v := by
  obtain ⟨dn, g1, g2⟩ := dictOf_lt hd
  unfold composeValue at hv
  split at hv
  · rename_i h0; cases h0
  · rename_i h0
    injection h0 with h0; subst h0
    split at hv
    · cases hv
    · rename_i a ha
      split at hv
      · cases hv
      · rename_i s hs
        refine ⟨dn, d, a, g1, g2, ha, ?_⟩
        split at hv
        · injection hv with hv; subst hv; exact style_ok hs
        · simp only [Bool.not_false, if_true] at hv
          injection hv with hv; subst hv; exact style_ok hs
  · rename_i h0; cases h0

theorem resolves_unique {h : Heap} {c : Nat} {n : Str} {s t : TextStyle} (h1 : Resolves h c n s) (h2 : Resolves h c n t) : s = t := by
  obtain ⟨d, e, a, g1, g2, g3, g4⟩ := h1
  obtain ⟨d', e', a', k1, k2, k3, k4⟩ := h2
  rw [g1] at k1; injection k1 with k1; subst k1
  rw [g2] at k2; injection k2 with k2; subst k2
  rw [g3] at k3; injection k3 with k3; subst k3
  rw [g4] at k4; injection k4

/-- **C45, set_style.** Setting a style of one box (or the deck) changes what this box resolves for this name, and
nothing else: no other name, no other box, no text item. -/
theorem C45_set_style {h h' : Heap} (hr : Reachable h) {c : Nat} {name : Str} {st : Nat} {base : Arg} {a : Nat}
    (hs : setStyle h c name st base = .ok (h', a)) :
    SameExcept h h' (some c) name ∧ ∃ s, h.styles[st]? = some s ∧
      (base = .name "default".toList → Resolves h' c name s) ∧
      (∀ b, base = .name b → b ≠ "default".toList → ∃ v, Resolves h c b v ∧ Resolves h' c name (v.compose s)) := by
  obtain ⟨d, s, hd, hst, hx⟩ := setStyle_ok hs
  rcases hx with ⟨hb, -, e⟩ | ⟨hb, v, hv, -, e⟩
  · obtain ⟨h1, h2⟩ := store_same (h1 := h) hr.wf hd (name := name) (a := st) (fun _ _ => rfl) rfl rfl rfl
    rw [e]
    refine ⟨h1, s, hst, fun _ => h2 s hst, ?_⟩
    intro b hb' hne
    rw [hb] at hb'
    injection hb' with hb'
    exact absurd hb'.symm hne
  · obtain ⟨h1, h2⟩ := store_same (h1 := { h with styles := h.styles ++ [v.update s] }) hr.wf hd (name := name)
      (a := h.styles.length) (fun x hx => List.getElem?_append_left hx) rfl rfl rfl
    rw [e]
    refine ⟨h1, s, hst, fun hb' => absurd hb' hb, ?_⟩
    intro b hb' _
    subst hb'
    exact ⟨v, composeValue_name hd hv, h2 _ (by simp [TextStyle.compose])⟩

/-- **C45, update_style.** The same for updating: the box now resolves the name to the old style composed with the
given one, nothing else changes. -/
theorem C45_update_style {h h' : Heap} (hr : Reachable h) {c : Nat} {name : Str} {st : Nat} {a : Nat}
    (hs : updateStyle h c name st = .ok (h', a)) :
    SameExcept h h' (some c) name ∧ ∃ s v, h.styles[st]? = some s ∧ Resolves h c name v ∧ Resolves h' c name (v.compose s) := by
  obtain ⟨d, s, v, hd, hst, hv, -, e⟩ := updateStyle_ok hs
  obtain ⟨h1, h2⟩ := store_same (h1 := { h with styles := h.styles ++ [v.update s] }) hr.wf hd (name := name)
    (a := h.styles.length) (fun x hx => List.getElem?_append_left hx) rfl rfl rfl
  rw [e]
  exact ⟨h1, s, v, hst, composeValue_name hd hv, h2 _ (by simp [TextStyle.compose])⟩

/-- **C45, new boxes.** A new box resolves every name as its parent does at that moment (the root box of a new slide:
as the deck); creating it, or a text item, changes nothing. -/
theorem C45_new_box {h h' : Heap} (hr : Reachable h) :
    (∀ p n, newBox h p = .ok h' → SameExcept h h' none n ∧ ∀ s, Resolves h' h.containers.length n s ↔ Resolves h p n s) ∧
    (∀ n, newSlide h = .ok h' → SameExcept h h' none n ∧ ∀ s, Resolves h' h.containers.length n s ↔ Resolves h 0 n s) ∧
    (∀ c st n, newText h c st = .ok h' → SameExcept h h' none n ∧ ∀ s, ItemResolves h' h.items.length n s ↔ Resolves h c n s) := by
  have w := hr.wf
  refine ⟨?_, ?_, ?_⟩
  · intro p n he
    unfold newBox at he
    split at he
    · cases he
    · rename_i d hd
      injection he with he; subst he
      refine ⟨same_of (h' := { h with containers := h.containers ++ [d] }) w (fun _ _ => rfl) (fun _ _ => rfl) (fun c hc => List.getElem?_append_left hc) (fun _ _ => rfl) n, ?_⟩
      have hdl := w.containers _ _ hd
      exact resolves_same (fun _ _ => rfl) hd (List.getElem?_eq_getElem hdl) (by simp) (List.getElem?_eq_getElem hdl) rfl
  · intro n he
    unfold newSlide at he
    split at he
    · cases he
    · rename_i d hd
      injection he with he; subst he
      obtain ⟨dn, g1, g2⟩ := dictOf_lt hd
      refine ⟨same_of (h' := { h with dicts := h.dicts ++ [d], containers := h.containers ++ [h.dicts.length] }) w (fun _ _ => rfl)
        (fun c hc => List.getElem?_append_left hc) (fun c hc => List.getElem?_append_left hc) (fun _ _ => rfl) n, ?_⟩
      exact resolves_same (fun _ _ => rfl) g1 g2 (d' := h.dicts.length) (dict' := d) (by simp) (by simp) rfl
  · intro c st n he
    unfold newText at he
    split at he
    · cases he
    · rename_i h1 a hg
      obtain ⟨d, v, hd, -, ea, e⟩ := getStyle_ok hg
      split at he
      · cases he
      · rename_i dn hdn
        injection he with he; subst he
        subst e
        simp only at hdn
        have hst : ∀ x, Referenced h x → (h.styles ++ [v])[x]? = h.styles[x]? :=
          fun x hx => List.getElem?_append_left (w.ref_lt hx)
        refine ⟨same_of (h' := Heap.mk _ _ _ _) w hst (fun _ _ => rfl) (fun _ _ => rfl) (fun c hc => List.getElem?_append_left hc) n, ?_⟩
        have hdl := w.containers _ _ hdn
        intro s
        constructor
        · rintro ⟨it, dict, x, k1, k2, k3, k4⟩
          simp at k1
          subst k1
          simp only at k2 k4
          refine ⟨dn, dict, x, hdn, k2, k3, ?_⟩
          rw [← hst x (Or.inl ⟨dict, List.mem_of_getElem? k2, n, lookup_mem k3⟩)]; exact k4
        · rintro ⟨e, dict, x, k1, k2, k3, k4⟩
          rw [hdn] at k1; injection k1 with k1; subst k1
          refine ⟨⟨a, dn⟩, dict, x, by simp, k2, k3, ?_⟩
          simp only
          rw [hst x (Or.inl ⟨dict, List.mem_of_getElem? k2, n, lookup_mem k3⟩)]; exact k4

/-- The default style, then a slide, two nested boxes, a text in the inner one, a style set on the outer box. -/
def exOps : List Op :=
  [.newSlide, .newBox 1, .newText 2 (.name "default".toList), .newStyle { bold := some true },
   .set 1 "x".toList 2 (.name "default".toList), .newBox 1, .update 1 "default".toList 2]

def exDeck : Heap := newDeck [("default".toList, { size := some 28 })]

def heapOf (ops : List Op) : Heap := ((run exDeck ops).toOption).getD exDeck

/-- What a box resolves, for the examples. -/
def look (h : Heap) (c : Nat) (n : String) : Option TextStyle :=
  (h.dictOf c).toOption.bind (fun d => (Dict.get d n.toList).bind (fun a => h.styles[a]?))

/-- The operations succeed; the new style `x` is seen by the box it was set on and by the box created later, not
by the earlier one or by the deck; the update of `default` only by the box itself. -/
example : (run exDeck exOps).toOption.isSome = true ∧
    (List.range 4).map (fun c => (look (heapOf exOps) c "x").isSome) = [false, true, false, true] ∧
    (List.range 4).map (fun c => (look (heapOf exOps) c "default").map (·.bold)) =
      [some none, some (some true), some none, some none] := by decide +kernel

/-- **C46.** A style obtained with `get_style` is private: after any further operations that do not assign this very
object to a name, changing it changes nothing anybody resolves. -/
theorem C46_get_style_private {h h1 h2 : Heap} (hr : Reachable h) {c : Nat} {st : Arg} {full : Bool} {a : Nat}
    (hg : getStyle h c st full = .ok (h1, a)) (ops : List Op)
    (hno : ∀ c name, Op.set c name a (.name "default".toList) ∉ ops) (hrun : run h1 ops = .ok h2)
    (f : TextStyle → TextStyle) (n : Str) : SameExcept h2 (mutate h2 a f) none n := by
  obtain ⟨d, v, hd, hv, ea, e⟩ := getStyle_ok hg
  have w1 : WF h1 := e ▸ alloc_wf hr.wf v
  have hp : ¬ Referenced h1 a := by
    intro hx
    have : Referenced h a := by rw [e] at hx; exact hx
    have := hr.wf.ref_lt this
    omega
  have ha : a < h1.styles.length := by rw [e, ea]; simp
  clear hd hv ea e hg hr
  induction ops generalizing h1 with
  | nil =>
    injection hrun with hrun; subst hrun
    exact mutate_private w1 hp f n
  | cons o ops ih =>
    simp only [run] at hrun
    split at hrun
    · cases hrun
    · rename_i h3 e3
      obtain ⟨k1, k2⟩ := exec_private w1 ha hp (fun c name hh => hno c name (by rw [hh]; simp)) e3
      exact ih (fun c name hm => hno c name (List.mem_cons_of_mem _ hm)) hrun (exec_wf w1 e3) k2 k1

/-- The hypotheses are met: get the default style of a box, do other things, then change it. -/
example : (getStyle (heapOf exOps) 1 (.name "x".toList) true).toOption.isSome = true ∧
    ((getStyle (heapOf exOps) 1 (.name "x".toList) true).toOption.bind (fun r =>
      (run r.1 [.newBox 2, .update 1 "x".toList r.2]).toOption.bind (fun h =>
        (look (mutate h r.2 (fun s => { s with size := some 99 })) 1 "x").map (·.size)))) = some (some 28) := by decide +kernel

/-- **C47 is false**: `set_style(name, s)` with the default `base` stores the object itself, so changing `s` later
changes the named style. -/
theorem C47_fixed_false : ¬ ∀ (h h' : Heap) (c : Nat) (name : Str) (st a : Nat) (base : Arg) (f : TextStyle → TextStyle),
    Reachable h → setStyle h c name st base = .ok (h', a) →
    ∀ s, Resolves (mutate h' st f) c name s ↔ Resolves h' c name s := by
  intro hall
  let h : Heap := (exDeck.alloc { bold := some true }).1
  have h1 := hall h (store h 0 [("default".toList, 0)] "x".toList 1) 0 "x".toList 1 1 (.name "default".toList)
    (fun s => { s with bold := some false }) ⟨[("default".toList, { size := some 28 })], [.newStyle { bold := some true }], rfl⟩ rfl
    { bold := some false }
  have h2 := h1.mp ⟨1, [("x".toList, 1), ("default".toList, 0)], 1, rfl, rfl, rfl, rfl⟩
  have h3 : Resolves (store h 0 [("default".toList, 0)] "x".toList 1) 0 "x".toList { bold := some true } :=
    ⟨1, [("x".toList, 1), ("default".toList, 0)], 1, rfl, rfl, rfl, rfl⟩
  exact absurd (resolves_unique h2 h3) (by decide)

/-- **C47, what holds.** With another `base` a fresh object is stored, and `update_style` never stores its argument: later
changes of the argument have no effect, whatever happens in between (as long as the argument itself is not named). -/
theorem C47_fixed_partial {h h1 h2 : Heap} (hr : Reachable h) {c : Nat} {name : Str} {st a : Nat}
    (hst : ¬ Referenced h st)
    (hs : (∃ base, base ≠ .name "default".toList ∧ setStyle h c name st base = .ok (h1, a)) ∨ updateStyle h c name st = .ok (h1, a))
    (ops : List Op) (hno : ∀ c name, Op.set c name st (.name "default".toList) ∉ ops) (hrun : run h1 ops = .ok h2)
    (f : TextStyle → TextStyle) (n : Str) : SameExcept h2 (mutate h2 st f) none n := by
  have key : ∃ o, exec h o = .ok h1 ∧ (∀ c name, o ≠ .set c name st (.name "default".toList)) ∧ st < h.styles.length := by
    rcases hs with ⟨base, hb, hs⟩ | hs
    · refine ⟨.set c name st base, by simp [exec, hs, Except.map], ?_, ?_⟩
      · intro c' name' he
        injection he with _ _ _ he
        exact hb he
      · obtain ⟨d, s, -, k, -⟩ := setStyle_ok hs
        exact getElem?_lt k
    · refine ⟨.update c name st, by simp [exec, hs, Except.map], (by intro c' n' he; cases he), ?_⟩
      obtain ⟨d, s, v, -, k, -⟩ := updateStyle_ok hs
      exact getElem?_lt k
  obtain ⟨o, he, ho, hlt⟩ := key
  obtain ⟨k1, k2⟩ := exec_private hr.wf hlt hst ho he
  have w1 := exec_wf hr.wf he
  clear hs he ho hst hlt hr
  induction ops generalizing h1 with
  | nil =>
    injection hrun with hrun; subst hrun
    exact mutate_private w1 k2 f n
  | cons o ops ih =>
    simp only [run] at hrun
    split at hrun
    · cases hrun
    · rename_i h3 e3
      obtain ⟨k3, k4⟩ := exec_private w1 k1 k2 (fun c name hh => hno c name (by rw [hh]; simp)) e3
      exact ih (fun c name hm => hno c name (List.mem_cons_of_mem _ hm)) hrun k3 k4 (exec_wf w1 e3)

/-- Setting a style with base `x`, then changing the argument. -/
example : ((run exDeck (exOps ++ [.newStyle { italic := some true }, .set 3 "y".toList 4 (.name "x".toList),
      .mutate 4 (fun _ => {})])).toOption.bind (fun h => look h 3 "y")) = some { bold := some true, italic := some true } := by
  decide +kernel

theorem completes_self (s : TextStyle) : Completes s s s := by
  intro name
  cases slot s name <;> rfl

theorem completes_compose (s dflt : TextStyle) : Completes s dflt (dflt.compose s) := by
  intro name
  unfold slot
  split
  all_goals first
    | rfl
    | skip
  all_goals
    simp only [TextStyle.compose, TextStyle.update]
    have pick : ∀ {α : Type} (o q : Option α) (f : α → Value), Option.map f (if o.isSome = true then o else q) =
        (Option.map f o).or (Option.map f q) := by
      intro α o q f; cases o <;> rfl
    exact pick _ _ _

theorem resolves_of {h : Heap} {c : Nat} {d : Dict} (hd : h.dictOf c = .ok d) {n : Str} {a : Nat} (ha : d.get n = some a)
    {s : TextStyle} (hs : h.style a = .ok s) : Resolves h c n s := by
  obtain ⟨dn, g1, g2⟩ := dictOf_lt hd
  exact ⟨dn, d, a, g1, g2, ha, style_ok hs⟩

theorem composeValue_means {h : Heap} {c : Nat} {d : Dict} {st : Arg} {full : Bool} {v : TextStyle} (hd : h.dictOf c = .ok d)
    (hv : composeValue h d st full = .ok v) : ∃ s, Means h c st s ∧ (full = false → v = s) ∧
      (full = true → ∃ dflt, Resolves h c "default".toList dflt ∧ Completes s dflt v) := by
  unfold composeValue at hv
  split at hv
  · cases hv
  · rename_i n
    split at hv
    · cases hv
    rename_i a ha
    split at hv
    · cases hv
    rename_i s hs
    have hr := resolves_of hd ha hs
    refine ⟨s, hr, ?_⟩
    split at hv
    · rename_i hn
      injection hv with hv; subst hv
      exact ⟨fun _ => rfl, fun _ => ⟨s, hn ▸ hr, completes_self s⟩⟩
    split at hv
    · rename_i hf
      injection hv with hv; subst hv
      exact ⟨fun _ => rfl, fun h => by simp [h] at hf⟩
    · rename_i hf
      split at hv
      · cases hv
      rename_i b hb
      split at hv
      · cases hv
      rename_i t ht
      injection hv with hv; subst hv
      exact ⟨fun h => by simp [h] at hf, fun _ => ⟨t, resolves_of hd hb ht, completes_compose s t⟩⟩
  · rename_i a
    split at hv
    · cases hv
    rename_i s hs
    refine ⟨s, style_ok hs, ?_⟩
    split at hv
    · rename_i hf
      injection hv with hv; subst hv
      exact ⟨fun _ => rfl, fun h => by simp [h] at hf⟩
    · rename_i hf
      split at hv
      · cases hv
      rename_i b hb
      split at hv
      · cases hv
      rename_i t ht
      injection hv with hv; subst hv
      exact ⟨fun h => by simp [h] at hf, fun _ => ⟨t, resolves_of hd hb ht, completes_compose s t⟩⟩

theorem style_of {h : Heap} {a : Nat} {s : TextStyle} (hs : h.styles[a]? = some s) : h.style a = .ok s := by
  unfold Heap.style; rw [hs]

theorem composeValue_accepts {h : Heap} {c : Nat} {d : Dict} {st : Arg} {s : TextStyle} (hd : h.dictOf c = .ok d)
    (hm : Means h c st s) (full : Bool) (hf : full = true → ∃ dflt, Resolves h c "default".toList dflt) :
    ∃ v, composeValue h d st full = .ok v := by
  obtain ⟨dn, g1, g2⟩ := dictOf_lt hd
  have find : ∀ {n s}, Resolves h c n s → ∃ a, d.get n = some a ∧ h.style a = .ok s := by
    rintro n s ⟨d', e, a, k1, k2, k3, k4⟩
    rw [g1] at k1; injection k1 with k1; subst k1
    rw [g2] at k2; injection k2 with k2; subst k2
    exact ⟨a, k3, style_of k4⟩
  cases full with
  | false =>
    cases st with
    | name n =>
      obtain ⟨a, h1, h2⟩ := find hm
      refine ⟨s, ?_⟩
      simp only [composeValue, h1, h2]; split <;> rfl
    | obj a => exact ⟨s, by simp only [composeValue, style_of hm]; rfl⟩
    | other => exact hm.elim
  | true =>
    obtain ⟨dflt, hdf⟩ := hf rfl
    obtain ⟨b, h3, h4⟩ := find hdf
    cases st with
    | name n =>
      obtain ⟨a, h1, h2⟩ := find hm
      simp only [composeValue, h1, h2, h3, h4]
      split
      · exact ⟨_, rfl⟩
      · exact ⟨dflt.compose s, rfl⟩
    | obj a => exact ⟨dflt.compose s, by simp only [composeValue, style_of hm, h3, h4]; rfl⟩
    | other => exact hm.elim

/-- Operations other than a change of this very object leave a style object alone, and text items are never changed. -/
theorem exec_keeps {h h' : Heap} {o : Op} {a : Nat} (ha : a < h.styles.length) (ho : ∀ f, o ≠ .mutate a f)
    (he : exec h o = .ok h') : h'.styles[a]? = h.styles[a]? ∧ a < h'.styles.length ∧
      ∀ i < h.items.length, h'.items[i]? = h.items[i]? ∧ i < h'.items.length := by
  cases o with
  | newStyle s =>
    injection he with he; subst he
    simp [Heap.alloc, List.getElem?_append_left ha]; omega
  | mutate b f =>
    injection he with he; subst he
    have : b ≠ a := fun h => ho f (by rw [h])
    simp [Style.mutate, List.getElem?_modify, this, ha]
  | get c st full =>
    simp only [exec] at he
    cases hg : getStyle h c st full with
    | error e => rw [hg] at he; cases he
    | ok p =>
      obtain ⟨h1, b⟩ := p
      rw [hg] at he; injection he with he; subst he
      obtain ⟨d, v, -, -, -, e⟩ := getStyle_ok hg
      rw [e]
      simp [List.getElem?_append_left ha]; omega
  | set c name st base =>
    simp only [exec] at he
    cases hg : setStyle h c name st base with
    | error e => rw [hg] at he; cases he
    | ok p =>
      obtain ⟨h1, b⟩ := p
      rw [hg] at he; injection he with he; subst he
      obtain ⟨d, s, h1, h2, ⟨-, -, e⟩ | ⟨-, v, -, -, e⟩⟩ := setStyle_ok hg
      · simp [e, store, ha]
      · simp [e, store, List.getElem?_append_left ha]; omega
  | update c name st =>
    simp only [exec] at he
    cases hg : updateStyle h c name st with
    | error e => rw [hg] at he; cases he
    | ok p =>
      obtain ⟨h1, b⟩ := p
      rw [hg] at he; injection he with he; subst he
      obtain ⟨d, s, v, -, -, -, -, e⟩ := updateStyle_ok hg
      simp [e, store, List.getElem?_append_left ha]; omega
  | newBox p =>
    simp only [exec, Style.newBox] at he
    split at he
    · cases he
    · injection he with he; subst he
      simp [ha]
  | newSlide =>
    simp only [exec, Style.newSlide] at he
    split at he
    · cases he
    · injection he with he; subst he
      simp [ha]
  | newText c st =>
    simp only [exec, Style.newText] at he
    split at he
    · cases he
    · rename_i h1 b hg
      obtain ⟨d, v, -, -, -, e⟩ := getStyle_ok hg
      split at he
      · cases he
      · injection he with he; subst he
        rw [e]
        refine ⟨List.getElem?_append_left ha, by simp; omega, ?_⟩
        intro i hi
        exact ⟨List.getElem?_append_left hi, by simp; omega⟩

/-- **C101, get_style.** A style argument is accepted exactly if it is a known name or a style object (and, for a full style, there is a
default style); the object returned has exactly the attributes of the style it stands for, and a full style has in addition
the values of the default style of the container for the attributes that are not specified. -/
theorem C101_get_style {h : Heap} (hr : Reachable h) {c : Nat} (hc : c < h.containers.length) (st : Arg) (full : Bool) :
    ((∃ h' a, getStyle h c st full = .ok (h', a)) ↔
      (∃ s, Means h c st s) ∧ (full = true → ∃ dflt, Resolves h c "default".toList dflt)) ∧
    ∀ h' a, getStyle h c st full = .ok (h', a) → ∃ s v, Means h c st s ∧ h'.styles[a]? = some v ∧
      (full = false → v = s) ∧ (full = true → ∃ dflt, Resolves h c "default".toList dflt ∧ Completes s dflt v) := by
  have main : ∀ h' a, getStyle h c st full = .ok (h', a) → ∃ s v, Means h c st s ∧ h'.styles[a]? = some v ∧
      (full = false → v = s) ∧ (full = true → ∃ dflt, Resolves h c "default".toList dflt ∧ Completes s dflt v) := by
    intro h' a hg
    obtain ⟨d, v, hd, hv, rfl, rfl⟩ := getStyle_ok hg
    obtain ⟨s, h1, h2, h3⟩ := composeValue_means hd hv
    exact ⟨s, v, h1, by simp, h2, h3⟩
  refine ⟨⟨?_, ?_⟩, main⟩
  · rintro ⟨h', a, hg⟩
    obtain ⟨s, v, h1, -, -, h3⟩ := main h' a hg
    exact ⟨⟨s, h1⟩, fun hf => (h3 hf).imp fun _ => And.left⟩
  · rintro ⟨⟨s, hm⟩, hf⟩
    have hd : ∃ d, h.dictOf c = .ok d := by
      have hlt := hr.wf.containers c _ (List.getElem?_eq_getElem hc)
      exact ⟨h.dicts[h.containers[c]], by
        simp only [Heap.dictOf, List.getElem?_eq_getElem hc, List.getElem?_eq_getElem hlt]⟩
    obtain ⟨d, hd⟩ := hd
    obtain ⟨v, hv⟩ := composeValue_accepts hd hm full hf
    exact ⟨_, _, by simp only [getStyle, hd, hv]; rfl⟩

/-- **C101, texts.** `text(…, style)` is drawn with what the style says at that moment, completed by the default style that the box
has at that moment; nothing that happens later to styles or boxes changes it (the object belongs to the item alone). -/
theorem C101_text_style {h h1 h2 : Heap} (hr : Reachable h) {c : Nat} {st : Arg} (ht : newText h c st = .ok h1)
    (ops : List Op) (hno : ∀ f, Op.mutate h.styles.length f ∉ ops) (hrun : run h1 ops = .ok h2) :
    ∃ s dflt v, Means h c st s ∧ Resolves h c "default".toList dflt ∧ Completes s dflt v ∧
      ItemStyle h2 h.items.length v ∧ ¬ Referenced h h.styles.length := by
  have hp : ¬ Referenced h h.styles.length := fun hx => absurd (hr.wf.ref_lt hx) (lt_irrefl _)
  unfold newText at ht
  split at ht
  · cases ht
  rename_i h0 a hg
  split at ht
  · cases ht
  rename_i dn hdn
  obtain ⟨d, v, hd, hv, ea, e⟩ := getStyle_ok hg
  obtain ⟨s, k1, -, k3⟩ := composeValue_means hd hv
  obtain ⟨dflt, k3, k4⟩ := k3 rfl
  refine ⟨s, dflt, v, k1, k3, k4, ?_, hp⟩
  injection ht with ht
  have start : h1.styles[a]? = some v ∧ a < h1.styles.length ∧ h1.items[h.items.length]? = some ⟨a, dn⟩ := by
    subst ht; subst e; subst ea
    simp
  rw [← ea] at hno
  clear ht e ea hv hd hg k1 k3 k4 hdn hp
  generalize hi : h.items.length = i at start ⊢
  clear hi hr
  induction ops generalizing h1 with
  | nil =>
    injection hrun with hrun; subst hrun
    exact ⟨_, start.2.2, start.1⟩
  | cons o ops ih =>
    simp only [run] at hrun
    split at hrun
    · cases hrun
    · rename_i h3 e3
      obtain ⟨s1, s2, s3⟩ := start
      obtain ⟨q1, q2, q3⟩ := exec_keeps s2 (fun f hh => hno f (by rw [hh]; simp)) e3
      have hl := getElem?_lt s3
      exact ih hrun (fun f hm => hno f (List.mem_cons_of_mem _ hm))
        ⟨by rw [q1]; exact s1, q2, by rw [(q3 _ hl).1]; exact s3⟩

/-- A text with a named style; afterwards both the named style and the default style of its box are changed. -/
example : ((run exDeck (exOps ++ [.newText 3 (.name "x".toList), .newStyle { bold := some false, size := some 99 },
      .update 3 "x".toList 5, .update 3 "default".toList 5])).toOption.bind
        (fun h => h.items.getLast?.bind fun it => h.styles[it.style]?)) =
    some { size := some 28, bold := some true } := by
  decide +kernel

end Verif.Style
