import Verif.Spec.ExtList
import Verif.Proofs.Layout2

/-! # Properties C78, C79 and C91: lists -/

namespace Verif.ExtList

open Spec

theorem bump_append (pre : List Int) (n : Int) : bump (pre ++ [n]) = pre ++ [n + 1] := by
  simp [bump]

theorem newList_level (parent : Nat) (label : Label) (d pad : Rat) (level : List Int) (start : Int) (total : Rat) (args : Args) :
    (newList parent label d pad level start total args).level = level ++ [start - 1] := rfl

/-! ### What calls do to lists -/

theorem item_lists (f : Family) (i : Nat) (l : ListB) (label : Option Label) (padding : Option Rat) (args : Args) :
    (item f i l label padding args).2.lists = f.lists.set i { l with level := bump l.level } := by
  simp only [item, createBox]
  split <;> rfl

theorem createSublist_lists (f : Family) (l : ListB) (default : Label) (start : Option Int) (indent : Option Rat) (label : Option Label) (level : Option (List Int)) (args : Args) :
    (createSublist f l default start indent label level args).2.lists = if start.getD 1 < 1 then f.lists else
      f.lists ++ [newList (f.boxes.length + 1) (Label.orDefault default label) (indent.getD l.defaultIndent) l.labelPadding (level.getD l.level) (start.getD 1)
        (l.totalIndent + indent.getD l.defaultIndent) (update l.args args)] := by
  unfold createSublist
  by_cases h : start.getD 1 < 1
  · rw [if_pos h, if_pos h]
  · rw [if_neg h, if_neg h]
    rfl

theorem run_append : ∀ (f : Family) (a b : List Ev), run f (a ++ b) = run (run f a) b
  | _, [], _ => rfl
  | f, e :: a, b => run_append (step f e).2 a b

theorem created_snoc (h : List Ev) (e : Ev) :
    created (h ++ [e]) = match makes e with | none => created h | some (l, _, start) => if l < created h ∧ 1 ≤ start then created h + 1 else created h := by
  rw [created, List.foldl_append]
  rfl

theorem step_length (f : Family) (e : Ev) : (step f e).2.lists.length =
    match makes e with | none => f.lists.length | some (l, _, start) => if l < f.lists.length ∧ 1 ≤ start then f.lists.length + 1 else f.lists.length := by
  cases e with
  | item i label padding args =>
    simp only [step, makes]
    split
    · rfl
    · rw [item_lists, List.length_set]
  | ul i indent label args =>
    simp only [step, makes]
    split
    · rename_i h
      rw [List.getElem?_eq_none_iff] at h
      rw [if_neg (by omega)]
    · rename_i h
      obtain ⟨hi, _⟩ := List.getElem?_eq_some_iff.mp h
      rw [createSublist_lists]
      simp [hi]
  | ol i level start indent label args =>
    simp only [step, makes]
    split
    · rename_i h
      rw [List.getElem?_eq_none_iff] at h
      rw [if_neg (by omega)]
    · rename_i h
      obtain ⟨hi, _⟩ := List.getElem?_eq_some_iff.mp h
      rw [createSublist_lists]
      by_cases hs : start.getD 1 < 1
      · rw [if_pos hs, if_neg (by omega)]
      · rw [if_neg hs, if_pos ⟨hi, by omega⟩]
        simp

theorem run_length (f : Family) (hf : f.lists.length = 1) (h : List Ev) : (run f h).lists.length = created h := by
  have key : ∀ (n : Nat) (h : List Ev), h.length = n → (run f h).lists.length = created h := by
    intro n
    induction n with
    | zero =>
      intro h hl
      rw [List.length_eq_zero_iff.mp hl]
      exact hf
    | succ n ih =>
      intro h hl
      have hne : h ≠ [] := by rintro rfl; simp at hl
      rw [← List.dropLast_concat_getLast hne, run_append, created_snoc]
      change (step (run f h.dropLast) _).2.lists.length = _
      rw [step_length, ih _ (by rw [List.length_dropLast]; omega)]
  exact key _ _ rfl

/-- A list keeps all but its last number, which counts items. -/
theorem step_list {f : Family} {n : Nat} {l : ListB} (hl : f.lists[n]? = some l) {pre : List Int} {c : Int} (hv : l.level = pre ++ [c]) (e : Ev) :
    (step f e).2.lists[n]? = some { l with level := pre ++ [c + itemsOf n [e]] } := by
  have hself : { l with level := pre ++ [c] } = l := by rw [← hv]
  have happ : ∀ (x : ListB), (f.lists ++ [x])[n]? = some l := fun x => by
    rw [List.getElem?_append_left (List.getElem?_eq_some_iff.mp hl).1, hl]
  cases e with
  | item i label padding args =>
    simp only [step]
    by_cases hi : i = n
    · subst hi
      simp only [hl]
      rw [item_lists, List.getElem?_set_self (List.getElem?_eq_some_iff.mp hl).1, hv, bump_append]
      simp [itemsOf]
    · have h0 : itemsOf n [.item i label padding args] = 0 := by simp [itemsOf, hi]
      rw [h0]
      split
      · rw [hl]; simp [hself]
      · rw [item_lists, List.getElem?_set_ne hi, hl]; simp [hself]
  | ul i indent label args =>
    have h0 : itemsOf n [.ul i indent label args] = 0 := by simp [itemsOf]
    rw [h0]
    simp only [step]
    split
    · rw [hl]; simp [hself]
    · rw [createSublist_lists]
      split
      · rw [hl]; simp [hself]
      · rw [happ]; simp [hself]
  | ol i level start indent label args =>
    have h0 : itemsOf n [.ol i level start indent label args] = 0 := by simp [itemsOf]
    rw [h0]
    simp only [step]
    split
    · rw [hl]; simp [hself]
    · rw [createSublist_lists]
      split
      · rw [hl]; simp [hself]
      · rw [happ]; simp [hself]

theorem run_list : ∀ {es : List Ev} {f : Family} {n : Nat} {l : ListB}, f.lists[n]? = some l → ∀ {pre : List Int} {c : Int}, l.level = pre ++ [c] →
    (run f es).lists[n]? = some { l with level := pre ++ [c + itemsOf n es] }
  | [], f, n, l, hl, pre, c, hv => by
    rw [run, hl]
    have : { l with level := pre ++ [c] } = l := by rw [← hv]
    simp [itemsOf, this]
  | e :: es, f, n, l, hl, pre, c, hv => by
    have h1 := step_list hl hv e
    have h2 := run_list (es := es) h1 (pre := pre) (c := c + itemsOf n [e]) rfl
    rw [run, h2]
    have : itemsOf n (e :: es) = itemsOf n [e] + itemsOf n es := by
      rw [itemsOf, itemsOf, itemsOf, ← List.countP_append]; rfl
    rw [this]
    simp [Int.add_assoc]

/-- The function or text used for the items of a list: its own label if it was given one that is not empty, otherwise the one of its kind. -/
def ownLabel (ordered : Bool) (label : Option Label) : Label :=
  match label with
  | none => if ordered then .fn 0 else .text "•".toList
  | some (.text []) => if ordered then .fn 0 else .text "•".toList
  | some l => l

/-- What a call that makes a sublist does. -/
theorem made {f : Family} {e : Ev} {p : Nat} {lv : Option (List Int)} {start : Int} (hm : makes e = some (p, lv, start)) {l : ListB} (hl : f.lists[p]? = some l) (hs : 1 ≤ start) :
    (step f e).2.lists[f.lists.length]? = some (newList (f.boxes.length + 1) (ownLabel (details e).1 (details e).2.2.1) ((details e).2.1.getD l.defaultIndent) l.labelPadding
      (lv.getD l.level) start (l.totalIndent + (details e).2.1.getD l.defaultIndent) (update l.args (details e).2.2.2)) ∧
    (step f e).2.boxes = f.boxes ++ [{ parent := l.parent, x := some "[0%]".toList, pLeft := some (l.totalIndent + (details e).2.1.getD l.defaultIndent), extra := update l.args (details e).2.2.2 }] := by
  cases e with
  | item => cases hm
  | ul i indent label args =>
    simp only [makes, Option.some.injEq, Prod.mk.injEq] at hm
    obtain ⟨rfl, rfl, rfl⟩ := hm
    simp only [step, hl]
    rw [createSublist_lists]
    refine ⟨?_, rfl⟩
    rw [if_neg (by decide), List.getElem?_append_right (Nat.le_refl _), Nat.sub_self]
    have : Label.orDefault ulLabel label = ownLabel false label := by
      rcases label with _ | ⟨_ | ⟨_, _⟩⟩ | _ | _ <;> rfl
    rw [this]
    rfl
  | ol i level st indent label args =>
    simp only [makes, Option.some.injEq, Prod.mk.injEq] at hm
    obtain ⟨rfl, rfl, rfl⟩ := hm
    simp only [step, hl]
    rw [createSublist_lists, if_neg (by omega)]
    refine ⟨?_, by unfold createSublist; rw [if_neg (by omega)]; rfl⟩
    rw [List.getElem?_append_right (Nat.le_refl _), Nat.sub_self]
    have : Label.orDefault olLabel label = ownLabel true label := by
      rcases label with _ | ⟨_ | ⟨_, _⟩⟩ | _ | _ <;> rfl
    rw [this]
    rfl

/-- The counters of the specification are those of the lists. -/
theorem counters_level {first : Int} {f0 : Family} {l0 : ListB} (hf : f0.lists = [l0]) (h0 : l0.level = [first - 1]) {h : List Ev} {n : Nat} {c : List Int}
    (hc : Counters first h n c) : ∃ l, (run f0 h).lists[n]? = some l ∧ l.level = c := by
  have hlen : f0.lists.length = 1 := by rw [hf]; rfl
  induction hc with
  | root h =>
    refine ⟨_, run_list (n := 0) (l := l0) (by rw [hf]; rfl) (pre := []) h0, rfl⟩
  | explicit h1 h2 e p level start hm hp hs =>
    rw [run_append]
    obtain ⟨l, hl⟩ : ∃ l, (run f0 h1).lists[p]? = some l := by
      rw [← run_length f0 hlen] at hp
      exact ⟨_, List.getElem?_eq_getElem hp⟩
    have hn := (made hm hl hs).1
    rw [run_length f0 hlen] at hn
    exact ⟨_, run_list hn rfl, rfl⟩
  | inherited h1 h2 e p level start hm hp hs _ ih =>
    rw [run_append]
    obtain ⟨l, hl, hlev⟩ := ih
    have hn := (made hm hl hs).1
    rw [run_length f0 hlen] at hn
    rw [← hlev]
    exact ⟨_, run_list hn rfl, rfl⟩

/-- The call that made a sublist. -/
theorem find_made : ∀ (m : Nat) (h : List Ev), h.length = m → ∀ n, 0 < n → n < created h →
    ∃ h1 h2 e p lv start, h = h1 ++ e :: h2 ∧ created h1 = n ∧ makes e = some (p, lv, start) ∧ p < created h1 ∧ 1 ≤ start := by
  intro m
  induction m with
  | zero =>
    intro h hl n hn hlt
    rw [List.length_eq_zero_iff.mp hl] at hlt
    simp [created] at hlt
    omega
  | succ m ih =>
    intro h hl n hn hlt
    have hne : h ≠ [] := by rintro rfl; simp at hl
    rw [← List.dropLast_concat_getLast hne] at hlt ⊢
    by_cases hlt' : n < created h.dropLast
    · obtain ⟨h1, h2, e, p, lv, start, he, hr⟩ := ih h.dropLast (by rw [List.length_dropLast]; omega) n hn hlt'
      exact ⟨h1, h2 ++ [h.getLast hne], e, p, lv, start, by rw [he]; simp, hr⟩
    · rw [created_snoc] at hlt
      cases hm : makes (h.getLast hne) with
      | none => rw [hm] at hlt; exact absurd hlt hlt'
      | some x =>
        obtain ⟨p, lv, start⟩ := x
        rw [hm] at hlt
        dsimp only at hlt
        split at hlt
        · rename_i hc
          exact ⟨h.dropLast, [], h.getLast hne, p, lv, start, rfl, Nat.le_antisymm (Nat.le_of_not_lt hlt') (Nat.lt_succ_iff.mp hlt), hm, hc.1, hc.2⟩
        · exact absurd hlt hlt'

/-- Every list has counters. -/
theorem counters_exist (first : Int) : ∀ (m : Nat) (h : List Ev), h.length = m → ∀ n, n < created h → ∃ c, Counters first h n c := by
  intro m
  induction m using Nat.strongRecOn with
  | _ m ih =>
    intro h hl n hn
    by_cases h0 : n = 0
    · subst h0; exact ⟨_, .root h⟩
    · obtain ⟨h1, h2, e, p, lv, start, rfl, rfl, hm, hp, hs⟩ := find_made _ h rfl n (by omega) hn
      cases lv with
      | some level => exact ⟨_, .explicit h1 h2 e p level start hm hp hs⟩
      | none =>
        obtain ⟨c, hc⟩ := ih h1.length (by rw [← hl]; simp) h1 rfl p hp
        exact ⟨_, .inherited h1 h2 e p c start hm hp hs hc⟩

theorem numbered_eq : ∀ (ns : List Int), ns ≠ [] → arabic ns = numbered ns
  | [], h => absurd rfl h
  | [n], _ => by
    cases n <;> simp [arabic, dots, numbered, intStr, natStr, Int.negSucc_lt_zero, Int.natAbs_negSucc]
  | n :: m :: ns, _ => by
    have ih := numbered_eq (m :: ns) (by simp)
    rw [numbered, ← ih]
    have : intStr n = if n < 0 then '-' :: natStr n.natAbs else natStr n.natAbs := by
      cases n <;> simp [intStr, Int.negSucc_lt_zero, Int.natAbs_negSucc]
    simp [arabic, dots, this, natStr]

theorem counters_nonempty {first : Int} {h : List Ev} {n : Nat} {c : List Int} (hc : Counters first h n c) : c ≠ [] := by
  cases hc <;> simp

/-! ### C78 -/

/-- **C78**: take any history of calls on a list made by `ordered_list` (or by `unordered_list`, where `first` is 1) and its sublists, and let the next call add an item to list `n`.
The list has unique counters by the specification; if the item has a label function, the function is called with these counters including the new item; the standard label is the numbers of
the counters with full stops. -/
theorem C78_counters (f0 : Family) (first : Int) (h0 : (∃ d pad label args, f0 = orderedList d first pad label args) ∨ (first = 1 ∧ ∃ d pad label args, f0 = unorderedList d pad label args))
    (h : List Ev) (n : Nat) (hn : n < created h) (padding : Option Rat) (args : Args) :
    (∃ c, Counters first (h ++ [.item n none padding args]) n c) ∧
    ∀ c, Counters first (h ++ [.item n none padding args]) n c →
      (∀ c', Counters first (h ++ [.item n none padding args]) n c' → c' = c) ∧
      (∀ id, 0 < id → ∃ b r lb, (step (run f0 h) (.item n (some (.fn id)) padding args)).1 = .item b r lb (.call id c)) ∧
      (∃ b r lb, (step (run f0 h) (.item n (some (.fn 0)) padding args)).1 = .item b r lb (.text (numbered c))) := by
  obtain ⟨l0, hf, hlev⟩ : ∃ l0, f0.lists = [l0] ∧ l0.level = [first - 1] := by
    rcases h0 with ⟨d, pad, label, args, rfl⟩ | ⟨rfl, d, pad, label, args, rfl⟩
    · exact ⟨_, rfl, rfl⟩
    · exact ⟨_, rfl, rfl⟩
  have hn' : n < created (h ++ [.item n none padding args]) := by
    rw [created_snoc]; exact hn
  refine ⟨counters_exist first _ _ rfl n hn', ?_⟩
  intro c hc
  obtain ⟨l, hl, hlc⟩ := counters_level hf hlev hc
  have hlen : f0.lists.length = 1 := by rw [hf]; rfl
  have hn2 := hn
  rw [← run_length f0 hlen h] at hn2
  have hget : (run f0 h).lists[n]? = some (run f0 h).lists[n] := List.getElem?_eq_getElem hn2
  rw [run_append] at hl
  have hl2 : (step (run f0 h) (.item n none padding args)).2.lists[n]? = some l := hl
  simp only [step, hget] at hl2
  rw [item_lists, List.getElem?_set_self hn2] at hl2
  have hb : bump (run f0 h).lists[n].level = c := by
    rw [← hlc, ← Option.some.inj hl2]
  refine ⟨?_, ?_, ?_⟩
  · intro c' hc'
    obtain ⟨l', hl', hlc'⟩ := counters_level hf hlev hc'
    rw [run_append] at hl'
    rw [← hlc, ← hlc']
    have : some l' = some l := hl'.symm.trans hl
    rw [Option.some.inj this]
  · intro id hid
    obtain ⟨k, rfl⟩ : ∃ k, id = k + 1 := ⟨id - 1, by omega⟩
    simp only [step, hget, item, createBox, Option.getD_some, showLabel, hb]
    exact ⟨_, _, _, rfl⟩
  · simp only [step, hget, item, createBox, Option.getD_some, showLabel, hb]
    rw [numbered_eq c (counters_nonempty hc)]
    exact ⟨_, _, _, rfl⟩

/-- **C78, labels**: an item without its own label is labelled by the list's label, which is the one given when the list was made, or the bullet or the numbers if none (or an empty string) was
given; and an item of a list with another label does not change the counters of other lists. -/
theorem C78_labels (f0 : Family) (hf0 : f0.lists.length = 1) (h1 h2 : List Ev) (e : Ev) (p : Nat) (level : Option (List Int)) (start : Int) (hm : makes e = some (p, level, start))
    (hp : p < created h1) (hs : 1 ≤ start) (padding : Option Rat) (args : Args) :
    (step (run f0 (h1 ++ e :: h2)) (.item (created h1) none padding args)).1 =
      (step (run f0 (h1 ++ e :: h2)) (.item (created h1) (some (ownLabel (details e).1 (details e).2.2.1)) padding args)).1 := by
  rw [run_append]
  obtain ⟨l, hl⟩ : ∃ l, (run f0 h1).lists[p]? = some l := by
    rw [← run_length f0 hf0] at hp
    exact ⟨_, List.getElem?_eq_getElem hp⟩
  have hn := (made hm hl hs).1
  rw [run_length f0 hf0] at hn
  have hr := run_list (es := h2) hn rfl
  have hr' : (run (run f0 h1) (e :: h2)).lists[created h1]? = _ := hr
  simp only [step, hr', item, Option.getD_none, Option.getD_some, newList]

/-- An ordered list with two items, a sublist with two items in the second one, another item outside and one inside, and a sublist with its own counters. -/
def exampleCalls : List Ev :=
  [.item 0 none none [], .item 0 none none [], .ol 0 none none none none [], .item 1 none none [], .item 1 none none [], .item 0 none none [], .item 1 none none [],
    .ol 1 (some [7]) (some 5) none none []]

example : created exampleCalls = 3 ∧ (step (run (orderedList 10 1 25 none []) exampleCalls) (.item 1 none none [])).1 = .item 23 21 22 (.text "2.4.".toList) ∧
    (step (run (orderedList 10 1 25 none []) exampleCalls) (.item 2 none none [])).1 = .item 23 21 22 (.text "7.5.".toList) := by decide +kernel

/-! ### C79 -/

open Layout Layout.Spec

/-- Boxes do not change once they are made. -/
theorem step_boxes (f : Family) (e : Ev) : ∃ new, (step f e).2.boxes = f.boxes ++ new := by
  cases e with
  | item i label padding args =>
    simp only [step]
    split
    · exact ⟨[], by simp⟩
    · simp only [item, createBox]
      split
      · exact ⟨_, by simp only [List.append_assoc]; rfl⟩
      · exact ⟨_, by simp only [List.append_assoc]; rfl⟩
  | ul i indent label args =>
    simp only [step]
    split
    · exact ⟨[], by simp⟩
    · unfold createSublist
      dsimp only
      split
      · exact ⟨[], by simp⟩
      · exact ⟨_, rfl⟩
  | ol i level start indent label args =>
    simp only [step]
    split
    · exact ⟨[], by simp⟩
    · unfold createSublist
      dsimp only
      split
      · exact ⟨[], by simp⟩
      · exact ⟨_, rfl⟩

theorem run_boxes : ∀ (es : List Ev) (f : Family), ∃ new, (run f es).boxes = f.boxes ++ new
  | [], f => ⟨[], by simp [run]⟩
  | e :: es, f => by
    obtain ⟨a, ha⟩ := step_boxes f e
    obtain ⟨b, hb⟩ := run_boxes es (step f e).2
    exact ⟨a ++ b, by rw [run, hb, ha, List.append_assoc]⟩

/-- The sum of the paddings of boxes that are all at the left of each other, from box 0. -/
inductive Left (boxes : List BoxRec) : Nat → Rat → Prop where
  | root : Left boxes 0 0
  | kid (k : Nat) (r : BoxRec) (q x : Rat) : boxes[k]? = some r → r.x = some "[0%]".toList → r.pLeft = some q → Left boxes r.parent x → Left boxes (k + 1) (x + q)

theorem Left.mono {boxes new : List BoxRec} {b : Nat} {x : Rat} (h : Left boxes b x) : Left (boxes ++ new) b x := by
  induction h with
  | root => exact .root
  | kid k r q x hr hx hp _ ih =>
    refine .kid k r q x ?_ hx hp ih
    rw [List.getElem?_append_left (List.getElem?_eq_some_iff.mp hr).1, hr]

theorem staircase_snoc (ds : List Rat) (d : Rat) : staircase (ds ++ [d]) = staircase ds + (ds.sum + d) := by
  unfold staircase
  rw [List.length_append, List.length_singleton, List.range_succ, List.map_append, List.sum_append, List.map_singleton, List.sum_singleton]
  congr 1
  · congr 1
    apply List.map_congr_left
    intro j hj
    rw [List.take_append_of_le_length (by have := List.mem_range.mp hj; omega)]
  · rw [List.take_of_length_le (by simp), List.sum_append, List.sum_singleton]

theorem nested_list {d0 : Rat} {args0 : Args} {f0 : Family} {l0 : ListB} (hf : f0.lists = [l0]) (hb0 : l0.parent = 0) (hd0 : l0.defaultIndent = d0) (ht0 : l0.totalIndent = 0)
    (hlev : ∃ n, l0.level = [n]) (ha0 : ∀ key, l0.args.lookup key = (args0.lookup key).or (if key = "show".toList then some "last+".toList else none))
    {h : List Ev} {n : Nat} {ds : List Rat} {argss : List Args} (hn : Nested d0 args0 h n ds argss) :
    ∃ l, (run f0 h).lists[n]? = some l ∧ l.totalIndent = ds.sum ∧ l.defaultIndent = ds.getLast?.getD d0 ∧ Left (run f0 h).boxes l.parent (staircase ds) ∧
      ∀ key, l.args.lookup key = (firstGiven key argss).or (if key = "show".toList then some "last+".toList else none) := by
  have hlen : f0.lists.length = 1 := by rw [hf]; rfl
  induction hn with
  | root h =>
    obtain ⟨n, hlev⟩ := hlev
    refine ⟨_, run_list (n := 0) (l := l0) (by rw [hf]; rfl) (pre := []) hlev, by simpa using ht0, by simpa using hd0, ?_, ?_⟩
    · simp only [hb0]
      rw [show staircase [] = 0 by decide +kernel]
      exact .root
    · intro key
      simp [firstGiven, ha0]
  | sub h1 h2 e p level start ds argss hm hp hs _ ih =>
    rw [run_append]
    obtain ⟨l, hl, ht, hd, hleft, hargs⟩ := ih
    obtain ⟨hn, hboxes⟩ := made hm hl hs
    rw [run_length f0 hlen] at hn
    refine ⟨_, run_list (es := h2) hn rfl, ?_, ?_, ?_, ?_⟩
    · simp [newList, ht, hd]
    · simp [newList, hd]
    · obtain ⟨new, hnew⟩ := run_boxes h2 (step (run f0 h1) e).2
      rw [run, hnew, hboxes, staircase_snoc]
      refine Left.mono (.kid _ _ _ _ (by rw [List.getElem?_append_right (Nat.le_refl _), Nat.sub_self]; rfl) rfl (by rw [ht, hd]) hleft.mono)
    · intro key
      have hl' : ∀ key, (update l.args (details e).2.2.2).lookup key = (firstGiven key ((details e).2.2.2 :: argss)).or (if key = "show".toList then some "last+".toList else none) := by
        intro key
        rw [update, List.lookup_append, hargs, firstGiven, Option.or_assoc]
      simp only [newList]
      split
      · rename_i hnone
        rw [hl' "show".toList] at hnone
        simp at hnone
      · exact hl' key

/-- Where boxes are: a tree of layouts has the boxes of a family if every box is a child of its parent and has the position and the padding it was made with. -/
def Realized (f : Family) (uid : Nat → Nat) (tree : Forest) : Prop :=
  ∀ k r, f.boxes[k]? = some r → ∃ b ∈ boxes tree, ∃ c ∈ tops b.2.2, b.1 = uid r.parent ∧ c.1 = uid (k + 1) ∧
    ∃ args : BoxArgs, (∀ s, r.x = some s → args.x = .str s) ∧ args.pLeft = r.pLeft ∧ newAttrs args = .ok c.2.1

theorem parse_left : parsePos (.str "[0%]".toList) = .ok (.align 0) := by
  have h1 : chomp "[0%]".toList = "[0%]".toList := by decide +kernel
  simp only [parsePos, h1]
  rw [if_neg (by decide +kernel), if_neg (by decide +kernel)]
  change (if _ then _ else _) = _
  rw [if_pos (by decide +kernel)]
  have : (intOfDigits (List.take ("0%]".toList.length - 2) "0%]".toList) : Rat) / 100 = 0 := by decide +kernel
  exact congrArg (fun q => Except.ok (Pos.align q)) this

theorem left_position {f : Family} {uid : Nat → Nat} {u : Nat} {a : Attrs} {kids : Forest} (hr : Realized f uid (.node u a kids .nil)) (hn : (uids (.node u a kids .nil)).Nodup)
    {env env' : Env} {rect : Rect} (h : setRect env u a kids rect = .ok env') {r0 : Rect} (h0 : env' (uid 0) = some r0) {b : Nat} {x : Rat} (hl : Left f.boxes b x) :
    ∃ r, env' (uid b) = some r ∧ r.x = r0.x + x := by
  induction hl with
  | root => exact ⟨r0, h0, by simp⟩
  | kid k r q x hk hx hp _ ih =>
    obtain ⟨rp, hrp, hrx⟩ := ih
    obtain ⟨b, hb, c, hc, hbp, hck, args, hax, hap, hnew⟩ := hr k r hk
    obtain ⟨e, p, rc, fu, dd0, dd1, pre, post, _, h1, h2, h3, _⟩ := setRect_child hn h b hb c hc
    rw [hbp, hrp] at h1
    cases h1
    rw [hck] at h2
    refine ⟨_, h2, ?_⟩
    have hx' := hax _ hx
    have hattr : c.2.1.x = some (.align 0) ∧ c.2.1.pLeft = q := by
      unfold newAttrs at hnew
      have hpx : parseOptPos args.x = .ok (some (.align 0)) := by
        rw [hx']
        simp only [parseOptPos, parse_left]
      rw [hpx] at hnew
      dsimp only at hnew
      split at hnew
      · cases hnew
      · split at hnew
        · cases hnew
        · split at hnew
          · cases hnew
          · have hnew := Except.ok.inj hnew
            rw [← hnew]
            refine ⟨rfl, ?_⟩
            simp [hap, hp, setPadding]
    have hrc : rc.x = rp.x := by
      have := (childRect_ok h3).2.2.1 _ hattr.1
      simp only [Pos.compute, mul_zero, add_zero, Except.ok.injEq] at this
      exact this.symm
    change rc.x + c.2.1.pLeft = _
    rw [hattr.2, hrc, hrx]
    ring

/-- What an item does to the boxes: a row for the label and the item. -/
theorem item_row {f : Family} {n : Nat} {l : ListB} (hl : f.lists[n]? = some l) {label : Option Label} {padding : Option Rat} {args : Args} {b row lb : Nat} {shown : Shown}
    (h : (step f (.item n label padding args)).1 = .item b row lb shown) :
    ∃ r, (step f (.item n label padding args)).2.boxes[row - 1]? = some r ∧ row = f.boxes.length + 1 ∧ r.parent = l.parent ∧ r.x = some "[0%]".toList ∧ r.pLeft = some (l.totalIndent + 0) ∧
      r.horizontal = true ∧ r.extra = update l.args args := by
  simp only [step, hl, item, createBox] at h ⊢
  split at h
  · cases h
  · injection h with h1 h2 h3 h4
    subst h2
    rename_i hs
    simp only [hs]
    refine ⟨_, by rw [List.append_assoc, List.append_assoc, Nat.add_sub_cancel, List.getElem?_append_right (Nat.le_refl _), Nat.sub_self]; rfl, trivial, rfl, rfl, rfl, rfl, rfl⟩

theorem root_list {f0 : Family} {d0 : Rat} {args0 : Args} (h0 : (∃ s pad label, f0 = orderedList d0 s pad label args0) ∨ ∃ pad label, f0 = unorderedList d0 pad label args0) :
    ∃ l0, f0.lists = [l0] ∧ l0.parent = 0 ∧ l0.defaultIndent = d0 ∧ l0.totalIndent = 0 ∧ (∃ n, l0.level = [n]) ∧
      ∀ key, l0.args.lookup key = (args0.lookup key).or (if key = "show".toList then some "last+".toList else none) := by
  have key : ∀ (label : Label) (pad : Rat) (s : Int) (key : Str), (newList 0 label d0 pad [] s 0 args0).args.lookup key = (args0.lookup key).or (if key = "show".toList then some "last+".toList else none) := by
    intro label pad s key
    simp only [newList]
    split
    · rename_i hs
      rw [List.lookup_cons]
      by_cases hk : key = "show".toList
      · subst hk
        simp only [BEq.rfl, if_true]
        rw [Option.isNone_iff_eq_none.mp hs]
        rfl
      · rw [beq_eq_false_iff_ne.mpr hk, if_neg hk]
        simp
    · rename_i hs
      by_cases hk : key = "show".toList
      · rw [hk]
        cases hl : args0.lookup "show".toList with
        | none => rw [hl] at hs; exact absurd rfl hs
        | some v => rfl
      · rw [if_neg hk]; simp
  rcases h0 with ⟨s, pad, label, rfl⟩ | ⟨pad, label, rfl⟩
  · exact ⟨_, rfl, rfl, rfl, rfl, ⟨_, rfl⟩, key _ _ _⟩
  · exact ⟨_, rfl, rfl, rfl, rfl, ⟨_, rfl⟩, key _ _ _⟩

/-- **C79, what holds**: an item in a list that is nested with indents `ds` is indented by the staircase sum of the indents plus their sum (with `k` indents `d`: by `k (k + 3) / 2` times `d`) from the
outermost list, whatever else is in the tree and however large it is. (The intended indentation is the sum of the indents.) -/
theorem C79_indent_partial (f0 : Family) (d0 : Rat) (args0 : Args) (h0 : (∃ s pad label, f0 = orderedList d0 s pad label args0) ∨ ∃ pad label, f0 = unorderedList d0 pad label args0)
    (h : List Ev) (n : Nat) (ds : List Rat) (argss : List Args) (hn : Nested d0 args0 h n ds argss) (label : Option Label) (padding : Option Rat) (args : Args) (b row lb : Nat) (shown : Shown)
    (hout : (step (run f0 h) (.item n label padding args)).1 = .item b row lb shown)
    (later : List Ev) (uid : Nat → Nat) (u : Nat) (a : Attrs) (kids : Forest) (hr : Realized (run f0 (h ++ .item n label padding args :: later)) uid (.node u a kids .nil))
    (hnd : (uids (.node u a kids .nil)).Nodup) (env env' : Env) (rect : Rect) (hset : setRect env u a kids rect = .ok env') (r0 : Rect) (hr0 : env' (uid 0) = some r0) :
    ∃ r, env' (uid row) = some r ∧ r.x = r0.x + (staircase ds + ds.sum) := by
  obtain ⟨l0, hf, hb0, hd0, ht0, hlev, ha0⟩ := root_list h0
  obtain ⟨l, hl, ht, _, hleft, _⟩ := nested_list hf hb0 hd0 ht0 hlev ha0 hn
  obtain ⟨r, hrow, hrl, hp, hx, hpl, _, _⟩ := item_row hl hout
  obtain ⟨new1, hnew1⟩ := step_boxes (run f0 h) (.item n label padding args)
  obtain ⟨new2, hnew2⟩ := run_boxes later (step (run f0 h) (.item n label padding args)).2
  have hboxes : (run f0 (h ++ .item n label padding args :: later)).boxes = (step (run f0 h) (.item n label padding args)).2.boxes ++ new2 := by
    rw [run_append]; exact hnew2
  refine left_position hr hnd hset hr0 ?_
  rw [hboxes]
  refine Left.mono ?_
  have := Left.kid (boxes := (step (run f0 h) (.item n label padding args)).2.boxes) (row - 1) r (l.totalIndent + 0) (staircase ds) hrow hx hpl (by
    rw [hp, hnew1]; exact hleft.mono)
  rw [add_zero, ht, show row - 1 + 1 = row by omega] at this
  exact this

theorem staircase_const (d : Rat) : ∀ k : Nat, staircase (List.replicate k d) + (List.replicate k d).sum = d * (k * (k + 3) / 2)
  | 0 => by simp [staircase]
  | k + 1 => by
    have ih := staircase_const d k
    rw [List.replicate_succ', staircase_snoc, List.sum_append, List.sum_singleton]
    simp only [List.sum_replicate, nsmul_eq_mul] at ih ⊢
    push_cast
    linarith

theorem staircase_nonneg {ds : List Rat} (h : ∀ d ∈ ds, 0 ≤ d) : 0 ≤ staircase ds := by
  refine List.sum_nonneg ?_
  intro x hx
  obtain ⟨j, _, rfl⟩ := List.mem_map.mp hx
  exact List.sum_nonneg fun d hd => h d (List.mem_of_mem_take hd)

/-- **C79, more of what holds**: items of a sublist with a positive indent are to the right of the items of the list it is in, by at least the indent; items of the outermost list are not indented. -/
theorem C79_order_partial (ds : List Rat) (d : Rat) (hds : ∀ e ∈ ds, 0 ≤ e) (hd : 0 < d) :
    staircase ds + ds.sum + d ≤ staircase (ds ++ [d]) + (ds ++ [d]).sum ∧ staircase [] + ([] : List Rat).sum = 0 := by
  rw [staircase_snoc, List.sum_append, List.sum_singleton]
  have := List.sum_nonneg hds
  refine ⟨by linarith, by decide +kernel⟩

/-- One sublist with one item. -/
def oneSublist : List Ev := [.ol 0 none none none none []]

/-- The boxes of `oneSublist` and an item, in a box that is 100 wide. -/
def left0 (p : Rat) : Attrs := { x := some (.align 0), y := none, width := {}, height := {}, pLeft := p }
def rowAttrs : Attrs := { left0 10 with horizontal := true }
def rowKids : Forest :=
  .node 3 { x := none, y := some (.align 0), width := {}, height := {} } .nil
    (.node 4 { x := none, y := none, width := { fill := 1 }, height := {}, pLeft := 25, widthUndef := false } .nil .nil)
def oneTree : Forest := .node 1 (left0 10) (.node 2 rowAttrs rowKids .nil) .nil

def rootAttrs : Attrs := { x := none, y := none, width := {}, height := {} }

theorem oneTree_realized : Realized (run (orderedList 10 1 25 none []) (oneSublist ++ [.item 1 none none []])) id (.node 0 rootAttrs oneTree .nil) := by
  intro k r hk
  have hb : (run (orderedList 10 1 25 none []) (oneSublist ++ [.item 1 none none []])).boxes =
      [{ parent := 0, x := some "[0%]".toList, pLeft := some 10, extra := [("show".toList, "last+".toList)] },
        { parent := 1, x := some "[0%]".toList, pLeft := some 10, horizontal := true, extra := [("show".toList, "last+".toList)] },
        { parent := 2, y := some "[0%]".toList }, { parent := 2, pLeft := some 25, width := some "fill".toList }] := by decide +kernel
  rw [hb] at hk
  have hx : parseOptPos (.str "[0%]".toList) = .ok (some (.align 0)) := by simp only [parseOptPos, parse_left]
  have hz : parseSize (orZero .none) = .ok {} := rfl
  have hfill : parseSize (orZero (.str "fill".toList)) = .ok { fill := 1 } := by
    have h1 : orZero (.str "fill".toList) = .str "fill".toList := rfl
    have h2 : chomp "fill".toList = "fill".toList := by decide +kernel
    rw [h1]
    simp only [parseSize, h2]
    rw [if_neg (by decide +kernel), if_neg (by decide +kernel), if_pos trivial]
  rcases k with _ | _ | _ | _ | k
  · simp only [List.getElem?_cons_zero, Option.some.injEq] at hk
    subst hk
    refine ⟨(0, rootAttrs, oneTree), by simp [boxes], (1, left0 10, _), by rw [oneTree, tops]; exact List.mem_cons_self, rfl, rfl, { x := .str "[0%]".toList, pLeft := some 10 }, ?_, rfl, ?_⟩
    · intro s hs; cases hs; rfl
    · simp only [newAttrs, hx, hz]
      rfl
  · simp only [List.getElem?_cons_zero, List.getElem?_cons_succ, Option.some.injEq] at hk
    subst hk
    refine ⟨(1, left0 10, _), by rw [oneTree, boxes, boxes]; exact List.mem_cons_of_mem _ (List.mem_append_left _ List.mem_cons_self), (2, rowAttrs, rowKids),
      by rw [tops]; exact List.mem_cons_self, rfl, rfl, { x := .str "[0%]".toList, pLeft := some 10, horizontal := true }, ?_, rfl, ?_⟩
    · intro s hs; cases hs; rfl
    · simp only [newAttrs, hx, hz]
      rfl
  · simp only [List.getElem?_cons_zero, List.getElem?_cons_succ, Option.some.injEq] at hk
    subst hk
    refine ⟨(2, rowAttrs, rowKids), by simp [oneTree, boxes],
      (3, { x := none, y := some (.align 0), width := {}, height := {} }, _),
      by rw [rowKids, tops]; exact List.mem_cons_self, rfl, rfl, { y := .str "[0%]".toList }, ?_, rfl, ?_⟩
    · intro s hs; cases hs
    · simp only [newAttrs, hx, hz]
      rfl
  · simp only [List.getElem?_cons_zero, List.getElem?_cons_succ, Option.some.injEq] at hk
    subst hk
    refine ⟨(2, rowAttrs, rowKids), by simp [oneTree, boxes],
      (4, { x := none, y := none, width := { fill := 1 }, height := {}, pLeft := 25, widthUndef := false }, _),
      by rw [rowKids, tops, tops]; exact List.mem_cons_of_mem _ List.mem_cons_self, rfl, rfl, { width := .str "fill".toList, pLeft := some 25 }, ?_, rfl, ?_⟩
    · intro s hs; cases hs
    · simp only [newAttrs, hz, hfill]
      rfl
  · simp at hk

/-- **C79 is false of the code**: in a list with one sublist, indented by 10, the items of the sublist are indented by 20. -/
theorem C79_indent_false : ¬ ∀ (f0 : Family) (d0 : Rat) (args0 : Args), ((∃ s pad label, f0 = orderedList d0 s pad label args0) ∨ ∃ pad label, f0 = unorderedList d0 pad label args0) →
    ∀ (h : List Ev) (n : Nat) (ds : List Rat) (argss : List Args), Nested d0 args0 h n ds argss → ∀ (label : Option Label) (padding : Option Rat) (args : Args) (b row lb : Nat) (shown : Shown),
    (step (run f0 h) (.item n label padding args)).1 = .item b row lb shown →
    ∀ (later : List Ev) (uid : Nat → Nat) (u : Nat) (a : Attrs) (kids : Forest), Realized (run f0 (h ++ .item n label padding args :: later)) uid (.node u a kids .nil) →
    (uids (.node u a kids .nil)).Nodup → ∀ (env env' : Env) (rect : Rect), setRect env u a kids rect = .ok env' → ∀ (r0 : Rect), env' (uid 0) = some r0 →
    ∃ r, env' (uid row) = some r ∧ r.x = r0.x + ds.sum := by
  intro h
  have hnest : Nested 10 [] oneSublist 1 [10] [[], []] := by
    have := Nested.sub (d0 := 10) (args0 := []) [] [] (.ol 0 none none none none []) 0 none 1 [] [[]] rfl (by decide) (by decide) (.root [])
    exact this
  have hout : (step (run (orderedList 10 1 25 none []) oneSublist) (.item 1 none none [])).1 = .item 4 2 3 (.text "0.1.".toList) := by decide +kernel
  have hnd : (uids (.node 0 rootAttrs oneTree .nil)).Nodup := by decide
  obtain ⟨env', henv⟩ : ∃ env', setRect (fun _ => none) 0 rootAttrs oneTree ⟨0, 0, 100, 100⟩ = .ok env' := by
    have hok : (match setRect (fun _ => none) 0 rootAttrs oneTree ⟨0, 0, 100, 100⟩ with | .ok _ => true | .error _ => false) = true := by decide +kernel
    cases hs : setRect (fun _ => none) 0 rootAttrs oneTree ⟨0, 0, 100, 100⟩ with
    | ok env' => exact ⟨env', rfl⟩
    | error e => rw [hs] at hok; cases hok
  have h0 := setRect_self henv (by decide)
  have h1 := h _ 10 [] (.inl ⟨1, 25, none, rfl⟩) oneSublist 1 [10] _ hnest none none [] 4 2 3 _ hout [] id 0 rootAttrs oneTree oneTree_realized hnd _ env' _ henv _ h0
  have h2 := C79_indent_partial _ 10 [] (.inl ⟨1, 25, none, rfl⟩) oneSublist 1 [10] _ hnest none none [] 4 2 3 _ hout [] id 0 rootAttrs oneTree oneTree_realized hnd _ env' _ henv _ h0
  obtain ⟨r, hr, hx⟩ := h1
  obtain ⟨r', hr', hx'⟩ := h2
  rw [hr] at hr'
  cases hr'
  rw [hx] at hx'
  have := add_left_cancel hx'
  revert this
  decide +kernel

/-! ### C91 -/

/-- **C91**: the box of an item gets the arguments given for the item, then those given for its list, then those for the list around it, and so on; if nothing is said about `show`, it is
`last+`. The box is horizontal. -/
theorem C91_arguments (f0 : Family) (d0 : Rat) (args0 : Args) (h0 : (∃ s pad label, f0 = orderedList d0 s pad label args0) ∨ ∃ pad label, f0 = unorderedList d0 pad label args0)
    (h : List Ev) (n : Nat) (ds : List Rat) (argss : List Args) (hn : Nested d0 args0 h n ds argss) (label : Option Label) (padding : Option Rat) (args : Args) (b row lb : Nat) (shown : Shown)
    (hout : (step (run f0 h) (.item n label padding args)).1 = .item b row lb shown) :
    ∃ r, (step (run f0 h) (.item n label padding args)).2.boxes[row - 1]? = some r ∧ r.horizontal = true ∧
      ∀ key, r.extra.lookup key = (firstGiven key (args :: argss)).or (if key = "show".toList then some "last+".toList else none) := by
  obtain ⟨l0, hf, hb0, hd0, ht0, hlev, ha0⟩ := root_list h0
  obtain ⟨l, hl, _, _, _, hargs⟩ := nested_list hf hb0 hd0 ht0 hlev ha0 hn
  obtain ⟨r, hrow, _, _, _, _, hhor, hex⟩ := item_row hl hout
  refine ⟨r, hrow, hhor, ?_⟩
  intro key
  rw [hex, update, List.lookup_append, hargs, firstGiven, Option.or_assoc]

/-- A sublist shown in the second fragment. -/
example : firstGiven "show".toList [[], [("show".toList, "2".toList)], [("show".toList, "1".toList)]] = some "2".toList := by decide +kernel

end Verif.ExtList
