import Verif.Props.Style

/-! # Property C135: update_style is a shortcut -/

namespace Verif.Style
open Spec

namespace Spec

/-- Assigning the given attributes one after the other (`s.color = …`): these get their values, all others keep theirs. -/
def Assigns (k : Kwargs) (f : TextStyle → TextStyle) : Prop := ∀ s name, slot (f s) name = (given k name).or (slot s name)

/-- Nobody sees a difference: all boxes resolve all names to the same styles, and all texts are drawn in the same way. -/
def Alike (h h' : Heap) : Prop :=
  (∀ c n s, Resolves h c n s ↔ Resolves h' c n s) ∧ ∀ i, (∀ s, ItemStyle h i s ↔ ItemStyle h' i s) ∧ ∀ n s, ItemResolves h i n s ↔ ItemResolves h' i n s

end Spec

/-- `box.update_style(name, TextStyle(**k))`. -/
def byUpdate (h : Heap) (c : Nat) (name : Str) (k : Kwargs) : Except Err Heap :=
  run h [.newStyle (construct k), .update c name h.styles.length]

/-- `s = box.get_style(name)`, assignments to attributes of `s`, `box.set_style(name, s)`. -/
def byHand (h : Heap) (c : Nat) (name : Str) (f : TextStyle → TextStyle) : Except Err Heap :=
  run h [.get c (.name name) false, .mutate h.styles.length f, .set c name h.styles.length (.name "default".toList)]

/-- The full claim: the two ways are the same. -/
def Shortcut (h : Heap) (c : Nat) (name : Str) (k : Kwargs) (f : TextStyle → TextStyle) : Prop :=
  (∀ h1, byUpdate h c name k = .ok h1 → ∃ h2, byHand h c name f = .ok h2 ∧ Alike h1 h2) ∧
    ∀ h2, byHand h c name f = .ok h2 → ∃ h1, byUpdate h c name k = .ok h1 ∧ Alike h1 h2

/-- Assigning the attributes that are given. -/
def assign (k : Kwargs) (s : TextStyle) : TextStyle :=
  { font := k.font.or s.font, size := k.size.or s.size, align := k.align.or s.align, lineSpacing := k.lineSpacing.or s.lineSpacing, color := k.color.or s.color,
    bold := k.bold.or s.bold, italic := k.italic.or s.italic, variantNumeric := k.variantNumeric.or s.variantNumeric, opacity := k.opacity.or s.opacity,
    priority := k.priority.getD s.priority }

theorem assigns_assign (k : Kwargs) : Assigns k (assign k) := by
  intro s name
  unfold slot given
  split <;> first | rfl | skip
  all_goals simp only [assign]
  case h_10 => cases k.priority <;> rfl
  all_goals
    have pick : ∀ {α : Type} (o q : Option α) (g : α → Value), Option.map g (o.or q) = (Option.map g o).or (Option.map g q) := by
      intro α o q g; cases o <;> rfl
    exact pick _ _ _

theorem look_resolves {h : Heap} {c : Nat} {n : String} {s : TextStyle} (hl : look h c n = some s) : Resolves h c n.toList s := by
  unfold look at hl
  cases hd : h.dictOf c with
  | error e => rw [hd] at hl; cases hl
  | ok d =>
    obtain ⟨dn, g1, g2⟩ := dictOf_lt hd
    rw [hd] at hl
    simp only [Except.toOption, Option.bind_some] at hl
    cases ha : Dict.get d n.toList with
    | none => rw [ha] at hl; cases hl
    | some a => rw [ha] at hl; exact ⟨dn, d, a, g1, g2, ha, hl⟩

theorem resolves_dict {h : Heap} {c : Nat} {n : Str} {v : TextStyle} (hv : Resolves h c n v) :
    ∃ d, h.dictOf c = .ok d ∧ composeValue h d (.name n) false = .ok v := by
  obtain ⟨dn, d, a, g1, g2, g3, g4⟩ := hv
  refine ⟨d, ?_, ?_⟩
  · unfold Heap.dictOf
    rw [g1]; simp only [g2]
  · unfold composeValue Dict.get Heap.style
    simp only [g3, g4, Bool.not_false, if_true, ite_self]

theorem slot_ext {s t : TextStyle} (hs : ∀ n, slot s n = slot t n) : s = t := by
  have inj : ∀ {α : Type} {o q : Option α} {g : α → Value}, (∀ x y, g x = g y → x = y) → Option.map g o = Option.map g q → o = q := by
    intro α o q g hg h
    cases o <;> cases q <;> simp_all
    exact hg _ _ h
  have i1 : ∀ x y, Value.str x = .str y → x = y := fun x y h => by injection h
  have i2 : ∀ x y, Value.num x = .num y → x = y := fun x y h => by injection h
  have i3 : ∀ x y, Value.bool x = .bool y → x = y := fun x y h => by injection h
  obtain ⟨a1, a2, a3, a4, a5, a6, a7, a8, a9, a10⟩ := s
  obtain ⟨b1, b2, b3, b4, b5, b6, b7, b8, b9, b10⟩ := t
  simp only [TextStyle.mk.injEq]
  refine ⟨inj i1 (hs "font"), inj i2 (hs "size"), inj i1 (hs "align"), inj i2 (hs "line_spacing"), inj i1 (hs "color"), inj i3 (hs "bold"),
    inj i3 (hs "italic"), inj i1 (hs "variant_numeric"), inj i2 (hs "opacity"), ?_⟩
  have := hs "priority"
  simp only [slot, Option.some.injEq] at this
  exact i2 _ _ this

/-- What the two ways do, in one place. -/
theorem update_hand {h : Heap} (w : WF h) {c : Nat} {name : Str} {k : Kwargs} {f : TextStyle → TextStyle} {v : TextStyle} (hv : Resolves h c name v) :
    ∃ d, h.dictOf c = .ok d ∧
      byUpdate h c name k = .ok (store { h with styles := (h.styles ++ [construct k]) ++ [v.update (construct k)] } c d name (h.styles.length + 1)) ∧
      byHand h c name f = .ok (store { h with styles := h.styles ++ [f v] } c d name h.styles.length) := by
  obtain ⟨d, hd, hc⟩ := resolves_dict hv
  refine ⟨d, hd, ?_, ?_⟩
  · have hv' : Resolves { h with styles := h.styles ++ [construct k] } c name v := by
      obtain ⟨dn, e, a, g1, g2, g3, g4⟩ := hv
      refine ⟨dn, e, a, g1, g2, g3, ?_⟩
      simp only
      rw [List.getElem?_append_left (getElem?_lt g4), g4]
    obtain ⟨d', hd', hc'⟩ := resolves_dict hv'
    have : d' = d := by
      have : h.dictOf c = .ok d' := hd'
      rw [hd] at this; injection this with this; exact this.symm
    subst this
    have hst : ({ h with styles := h.styles ++ [construct k] } : Heap).style h.styles.length = .ok (construct k) := by
      unfold Heap.style; simp
    have hst' : ({ h with styles := h.styles ++ [construct k] ++ [v] } : Heap).style h.styles.length = .ok (construct k) := by
      unfold Heap.style; simp
    have hm : (h.styles ++ [construct k] ++ [v]).modify (h.styles.length + 1) (·.update (construct k)) = h.styles ++ [construct k] ++ [v.update (construct k)] := by
      have := modify_last (h.styles ++ [construct k]) v (·.update (construct k))
      simpa using this
    unfold byUpdate run exec Heap.alloc
    simp only [run, exec, updateStyle, getStyle, hst, hd', hc', Heap.alloc, hst', Style.mutate, List.length_append, List.length_singleton, hm]
    have hd2 : ({ h with styles := h.styles ++ [construct k] ++ [v.update (construct k)] } : Heap).dictOf c = .ok d' := hd
    rw [hd2]
    rfl
  · have hst : ({ h with styles := h.styles ++ [f v] } : Heap).style h.styles.length = .ok (f v) := by
      unfold Heap.style; simp
    have hd2 : ({ h with styles := h.styles ++ [f v] } : Heap).dictOf c = .ok d := hd
    unfold byHand
    simp only [run, exec, getStyle, hd, hc, Heap.alloc, Except.map, Style.mutate, modify_last, setStyle, hd2, hst, if_true]

theorem update_needs {h : Heap} {c : Nat} {name : Str} {k : Kwargs} {h1 : Heap} (w : WF h) (hu : byUpdate h c name k = .ok h1) : ∃ v, Resolves h c name v := by
  unfold byUpdate run exec Heap.alloc at hu
  simp only [run, exec] at hu
  cases hx : updateStyle { h with styles := h.styles ++ [construct k] } c name h.styles.length with
  | error e => rw [hx] at hu; cases hu
  | ok p =>
    obtain ⟨h2, a⟩ := p
    obtain ⟨d, s, v, hd, -, hv, -, -⟩ := updateStyle_ok hx
    obtain ⟨dn, e, a, g1, g2, g3, -⟩ := composeValue_name hd hv
    have hl := w.dicts e (List.mem_of_getElem? g2) name a (lookup_mem g3)
    exact ⟨h.styles[a], dn, e, a, g1, g2, g3, List.getElem?_eq_getElem hl⟩

theorem hand_needs {h : Heap} {c : Nat} {name : Str} {f : TextStyle → TextStyle} {h2 : Heap} (hu : byHand h c name f = .ok h2) : ∃ v, Resolves h c name v := by
  unfold byHand at hu
  rw [run] at hu
  simp only [exec] at hu
  cases hx : getStyle h c (.name name) false with
  | error e => rw [hx] at hu; cases hu
  | ok p =>
    obtain ⟨h3, a⟩ := p
    obtain ⟨d, v, hd, hv, -, -⟩ := getStyle_ok hx
    exact ⟨v, composeValue_name hd hv⟩

/-- Two heaps obtained by storing a style under the same name of the same box differ at most there. -/
theorem store_twice {h h1 h2 : Heap} (w : WF h) {c : Nat} {d : Dict} (hd : h.dictOf c = .ok d) {name : Str} {a b : Nat}
    (hs1 : ∀ x, x < h.styles.length → h1.styles[x]? = h.styles[x]?) (e1 : h1.dicts = h.dicts) (f1 : h1.containers = h.containers) (g1 : h1.items = h.items)
    (hs2 : ∀ x, x < h.styles.length → h2.styles[x]? = h.styles[x]?) (e2 : h2.dicts = h.dicts) (f2 : h2.containers = h.containers) (g2 : h2.items = h.items) :
    (∀ c' n s, ¬ (c' = c ∧ n = name) → (Resolves (store h1 c d name a) c' n s ↔ Resolves (store h2 c d name b) c' n s)) ∧
    ∀ i, (∀ s, ItemStyle (store h1 c d name a) i s ↔ ItemStyle (store h2 c d name b) i s) ∧
      ∀ n s, ItemResolves (store h1 c d name a) i n s ↔ ItemResolves (store h2 c d name b) i n s := by
  obtain ⟨⟨r1, i1⟩, -⟩ := store_same w hd (name := name) (a := a) hs1 e1 f1 g1
  obtain ⟨⟨r2, i2⟩, -⟩ := store_same w hd (name := name) (a := b) hs2 e2 f2 g2
  constructor
  · intro c' n s hne
    by_cases hl : c' < h.containers.length
    · have hne' : ¬ (some c' = some c ∧ n = name) := fun hh => hne ⟨by injection hh.1, hh.2⟩
      rw [r1 c' hl n s hne', r2 c' hl n s hne']
    · have no : ∀ (g : Heap) (x : Nat), g.containers = h.containers → ¬ Resolves (store g c d name x) c' n s := by
        rintro g x hg ⟨dn, e, y, k1, -⟩
        simp only [store, hg] at k1
        have := getElem?_lt k1
        simp at this
        omega
      exact ⟨fun hh => absurd hh (no _ _ f1), fun hh => absurd hh (no _ _ f2)⟩
  · intro i
    by_cases hl : i < h.items.length
    · exact ⟨fun s => by rw [(i1 i hl).1, (i2 i hl).1], fun n s => by rw [(i1 i hl).2, (i2 i hl).2]⟩
    · have n1 : ∀ (g : Heap) (x : Nat) (it : _), g.items = h.items → (store g c d name x).items[i]? ≠ some it := by
        intro g x it hg k1
        simp only [store, hg] at k1
        exact hl (getElem?_lt k1)
      refine ⟨fun s => ⟨?_, ?_⟩, fun n s => ⟨?_, ?_⟩⟩
      · rintro ⟨it, k, -⟩; exact absurd k (n1 _ _ _ g1)
      · rintro ⟨it, k, -⟩; exact absurd k (n1 _ _ _ g2)
      · rintro ⟨it, _, _, k, -⟩; exact absurd k (n1 _ _ _ g1)
      · rintro ⟨it, _, _, k, -⟩; exact absurd k (n1 _ _ _ g2)

/-- A deck with a style of priority 1. -/
def loudDeck : Heap := newDeck [("default".toList, { size := some 28 }), ("loud".toList, { color := some "red".toList, priority := 1 })]

/-- **C135 is false of the code**: `update_style("loud", TextStyle(bold=True))` also sets the priority of the style back to 0. -/
theorem C135_shortcut_false : ¬ ∀ (h : Heap) (c : Nat) (name : Str) (k : Kwargs) (f : TextStyle → TextStyle), Reachable h → Assigns k f → Shortcut h c name k f := by
  intro hall
  obtain ⟨h1, -⟩ := hall loudDeck 0 "loud".toList { bold := some true } (assign { bold := some true }) ⟨_, [], rfl⟩ (assigns_assign _)
  have e1 : (byUpdate loudDeck 0 "loud".toList { bold := some true }).toOption.isSome = true := by decide +kernel
  have e2 : (byHand loudDeck 0 "loud".toList (assign { bold := some true })).toOption.isSome = true := by decide +kernel
  have e3 : (byUpdate loudDeck 0 "loud".toList { bold := some true }).toOption.bind (fun h => look h 0 "loud") = some { color := some "red".toList, bold := some true } := by decide +kernel
  have e4 : (byHand loudDeck 0 "loud".toList (assign { bold := some true })).toOption.bind (fun h => look h 0 "loud") =
      some { color := some "red".toList, bold := some true, priority := 1 } := by decide +kernel
  cases hu : byUpdate loudDeck 0 "loud".toList { bold := some true } with
  | error e => rw [hu] at e1; cases e1
  | ok a =>
    obtain ⟨b, hb, hab, -⟩ := h1 a hu
    rw [hu] at e3
    rw [hb] at e4
    have r1 := look_resolves e3
    have r2 := look_resolves e4
    have := resolves_unique ((hab _ _ _).mp r1) r2
    exact absurd (congrArg TextStyle.priority this) (by decide +kernel)

/-- **C135, what holds.** Both ways succeed when the box knows the name, and raise otherwise. Afterwards all boxes, names and texts other than this
name of this box are the same; the two styles agree on every attribute but the priority, which `update_style` takes from the new style alone (0 when not given)
while assignment keeps the old one. So the two ways are the same precisely when the priority is given or the old one was 0. -/
theorem C135_shortcut_partial {h : Heap} (hr : Reachable h) (c : Nat) (name : Str) (k : Kwargs) {f : TextStyle → TextStyle} (hf : Assigns k f) :
    ((∃ h1, byUpdate h c name k = .ok h1) ↔ ∃ v, Resolves h c name v) ∧ ((∃ h2, byHand h c name f = .ok h2) ↔ ∃ v, Resolves h c name v) ∧
    ∀ v h1 h2, Resolves h c name v → byUpdate h c name k = .ok h1 → byHand h c name f = .ok h2 →
      (∀ c' n s, ¬ (c' = c ∧ n = name) → (Resolves h1 c' n s ↔ Resolves h2 c' n s)) ∧
      (∃ s1 s2, Resolves h1 c name s1 ∧ Resolves h2 c name s2 ∧ (∀ a, a ≠ "priority" → slot s1 a = (given k a).or (slot v a) ∧ slot s2 a = slot s1 a) ∧
        s1.priority = k.priority.getD 0 ∧ s2.priority = k.priority.getD v.priority) ∧
      (Alike h1 h2 ↔ k.priority.isSome = true ∨ v.priority = 0) := by
  have w := hr.wf
  refine ⟨⟨fun ⟨h1, hu⟩ => update_needs w hu, fun ⟨v, hv⟩ => ?_⟩, ⟨fun ⟨h2, hu⟩ => hand_needs hu, fun ⟨v, hv⟩ => ?_⟩, ?_⟩
  · obtain ⟨d, -, e, -⟩ := update_hand (k := k) (f := f) w hv
    exact ⟨_, e⟩
  · obtain ⟨d, -, -, e⟩ := update_hand (k := k) (f := f) w hv
    exact ⟨_, e⟩
  · intro v h1 h2 hv hu hh
    obtain ⟨d, hd, eu, eh⟩ := update_hand (k := k) (f := f) w hv
    rw [hu] at eu; injection eu with eu
    rw [hh] at eh; injection eh with eh
    have hs1 : ∀ x, x < h.styles.length → ((h.styles ++ [construct k]) ++ [v.update (construct k)])[x]? = h.styles[x]? := by
      intro x hx
      rw [List.append_assoc]; exact List.getElem?_append_left hx
    have hs2 : ∀ x, x < h.styles.length → (h.styles ++ [f v])[x]? = h.styles[x]? := fun x hx => List.getElem?_append_left hx
    obtain ⟨same, items⟩ := store_twice (h1 := { h with styles := (h.styles ++ [construct k]) ++ [v.update (construct k)] }) (h2 := { h with styles := h.styles ++ [f v] })
      w hd (name := name) (a := h.styles.length + 1) (b := h.styles.length) hs1 rfl rfl rfl hs2 rfl rfl rfl
    have q1 := (store_same (h1 := { h with styles := (h.styles ++ [construct k]) ++ [v.update (construct k)] }) w hd (name := name) (a := h.styles.length + 1)
      hs1 rfl rfl rfl).2 (v.update (construct k)) (by simp)
    have q2 := (store_same (h1 := { h with styles := h.styles ++ [f v] }) w hd (name := name) (a := h.styles.length) hs2 rfl rfl rfl).2 (f v) (by simp)
    rw [← eu, ← eh] at same items
    rw [← eu] at q1
    rw [← eh] at q2
    have slots : ∀ a, a ≠ "priority" → slot (v.update (construct k)) a = (given k a).or (slot v a) ∧ slot (f v) a = slot (v.update (construct k)) a := by
      intro a ha
      have := (C43_inheritance_partial v k a ha).1
      unfold TextStyle.compose at this
      exact ⟨this, by rw [this, hf v a]⟩
    have p2 : (f v).priority = k.priority.getD v.priority := by
      have := hf v "priority"
      simp only [slot, given] at this
      cases hk : k.priority with
      | none =>
        rw [hk] at this
        simp only [Option.map_none, Option.none_or, Option.some.injEq, Value.num.injEq] at this
        exact this
      | some q =>
        rw [hk] at this
        simp only [Option.map_some, Option.some_or, Option.some.injEq, Value.num.injEq] at this
        exact this
    have p1 : (v.update (construct k)).priority = k.priority.getD 0 := rfl
    refine ⟨same, ⟨_, _, q1, q2, slots, p1, p2⟩, ?_⟩
    constructor
    · rintro ⟨ha, -⟩
      have := congrArg TextStyle.priority (resolves_unique ((ha _ _ _).mp q1) q2)
      rw [p1, p2] at this
      cases hk : k.priority with
      | none => rw [hk] at this; exact Or.inr this.symm
      | some q => exact Or.inl rfl
    · intro hp
      have hpp : (v.update (construct k)).priority = (f v).priority := by
        rw [p1, p2]
        cases hk : k.priority with
        | none =>
          rw [hk] at hp
          rcases hp with hp | hp
          · cases hp
          · exact hp.symm
        | some q => rfl
      have heq : v.update (construct k) = f v := by
        apply slot_ext
        intro n
        by_cases hn : n = "priority"
        · subst hn
          simp only [slot, hpp]
        · exact (slots n hn).2.symm
      refine ⟨?_, items⟩
      intro c' n s
      by_cases hcn : c' = c ∧ n = name
      · obtain ⟨rfl, rfl⟩ := hcn
        constructor
        · intro hx; rw [resolves_unique hx q1, heq]; exact q2
        · intro hx; rw [resolves_unique hx q2, ← heq]; exact q1
      · exact same c' n s hcn

/-- The deck of the counterexample: with a priority given, or for a style of priority 0, the ways agree, and the style really changes. -/
example : (byUpdate loudDeck 0 "loud".toList { bold := some true, priority := some 2 }).toOption.bind (fun h => look h 0 "loud") =
      some { color := some "red".toList, bold := some true, priority := 2 } ∧
    (byHand loudDeck 0 "loud".toList (assign { bold := some true, priority := some 2 })).toOption.bind (fun h => look h 0 "loud") =
      some { color := some "red".toList, bold := some true, priority := 2 } ∧
    (byUpdate loudDeck 0 "default".toList { size := some 30 }).toOption.bind (fun h => look h 0 "default") = some { size := some 30 } := by decide +kernel

/-- The hypotheses of the theorem are met by a box in a slide, reached by operations. -/
example : Reachable (heapOf exOps) ∧ Assigns { size := some 30 } (assign { size := some 30 }) ∧ look (heapOf exOps) 2 "default" = some { size := some 28 } := by
  refine ⟨⟨[("default".toList, { size := some 28 })], exOps, ?_⟩, assigns_assign _, by decide +kernel⟩
  have : (run exDeck exOps).toOption.isSome = true := by decide +kernel
  show run exDeck exOps = .ok (heapOf exOps)
  unfold heapOf
  cases hx : run exDeck exOps with
  | error e => rw [hx] at this; cases this
  | ok h => rfl

end Verif.Style
