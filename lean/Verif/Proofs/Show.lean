import Verif.Model.Show
import Verif.Spec.Show
import Mathlib.Tactic.IntervalCases
import Mathlib.Tactic.Ring
import Mathlib.Data.List.TakeWhile

/-! Helper lemmas for `show` selectors. -/

namespace Verif.Show
open Spec

theorem isDigit_iff (c : Char) : isDigit c = true ↔ c ∈ "0123456789".toList := by
  constructor
  · intro h
    simp only [isDigit, Bool.and_eq_true, decide_eq_true_eq] at h
    have h1 : 48 ≤ c.toNat := h.1
    have h2 : c.toNat ≤ 57 := h.2
    have hc : c = Char.ofNat c.toNat := (Char.ofNat_toNat c).symm
    rw [hc]
    generalize c.toNat = n at h1 h2
    interval_cases n <;> decide
  · intro h
    simp only [String.toList] at h
    have : ∀ d ∈ "0123456789".toList, isDigit d = true := by decide
    exact this c h

theorem foldl_digits (ds : Str) : ∀ a : Nat,
    ds.foldl (fun n c => 10 * n + (c.toNat - '0'.toNat)) a = a * 10 ^ ds.length + numeralValue ds := by
  induction ds with
  | nil => intro a; simp [numeralValue]
  | cons c ds ih =>
    intro a
    rw [List.foldl_cons, ih]
    have : '0'.toNat = 48 := rfl
    simp only [numeralValue, List.length_cons, pow_succ, this]
    ring

theorem intOfDigits_eq (ds : Str) : intOfDigits ds = numeralValue ds := by
  unfold intOfDigits; rw [foldl_digits]; simp

theorem numeral_iff (ds : Str) : Numeral ds ↔ ds ≠ [] ∧ ds.all isDigit = true := by
  unfold Numeral
  simp only [List.all_eq_true, isDigit_iff]

/-- The groups of an item. -/
def groups : Item → Groups
  | .single b => ⟨b.source, false, none⟩
  | .opn b => ⟨b.source, true, none⟩
  | .range b ds => ⟨b.source, false, some ds⟩

theorem takeWhile_digits (ds rest : Str) (h : ds.all isDigit = true)
    (hr : ∀ c r, rest = c :: r → isDigit c = false) :
    (ds ++ rest).takeWhile isDigit = ds ∧ (ds ++ rest).dropWhile isDigit = rest := by
  induction ds with
  | nil =>
    cases rest with
    | nil => simp
    | cons c r => have := hr c r rfl; simp [this]
  | cons d ds ih =>
    simp only [List.all_cons, Bool.and_eq_true] at h
    obtain ⟨h1, h2⟩ := ih h.2
    simp [h.1, h1, h2]

/-- The suffixes of items. -/
def suffixOf : Item → Str
  | .single _ => []
  | .opn _ => ['+']
  | .range _ ds => '-' :: ds

def boundOf : Item → Bound
  | .single b => b
  | .opn b => b
  | .range b _ => b

theorem source_eq (i : Item) : i.source = (boundOf i).source ++ suffixOf i := by
  cases i <;> simp [Item.source, boundOf, suffixOf]

theorem matchSuffix_item (i : Item) (h : i.Valid) :
    matchSuffix (boundOf i).source (suffixOf i) = some (groups i) := by
  cases i with
  | single b => rfl
  | opn b => rfl
  | range b ds =>
    obtain ⟨_, h2⟩ := h
    rw [numeral_iff] at h2
    simp [matchSuffix, suffixOf, boundOf, groups, h2.1]
    simpa using h2.2

theorem matchSuffix_inv (frm rest : Str) (g : Groups) (h : matchSuffix frm rest = some g) :
    (rest = [] ∧ g = ⟨frm, false, none⟩) ∨ (rest = ['+'] ∧ g = ⟨frm, true, none⟩) ∨
    (∃ ds, rest = '-' :: ds ∧ Numeral ds ∧ g = ⟨frm, false, some ds⟩) := by
  unfold matchSuffix at h
  split at h
  · injection h with h; exact .inl ⟨rfl, h.symm⟩
  · injection h with h; exact .inr (.inl ⟨rfl, h.symm⟩)
  · split at h
    · rename_i ds hd
      injection h with h
      exact .inr (.inr ⟨ds, rfl, (numeral_iff ds).mpr hd, h.symm⟩)
    · cases h
  · cases h

theorem matchItem_source (i : Item) (h : i.Valid) : matchItem i.source = some (groups i) := by
  have hsuf : ∀ c r, suffixOf i = c :: r → isDigit c = false := by
    intro c r hc
    cases i <;> simp [suffixOf] at hc
    · rw [← hc.1]; decide
    · rw [← hc.1]; decide
  have hb : (boundOf i).Valid := by cases i <;> first | exact h | exact h.1
  rw [source_eq]
  unfold matchItem
  cases hbo : boundOf i with
  | num ds =>
    rw [hbo] at hb
    have hn := (numeral_iff ds).mp hb
    obtain ⟨h1, h2⟩ := takeWhile_digits ds (suffixOf i) hn.2 hsuf
    have : (Bound.num ds).source = ds := rfl
    simp only [this, h1, h2]
    rw [if_pos hn.1, ← matchSuffix_item i h, hbo]; rfl
  | next =>
    have h1 : List.takeWhile isDigit (Bound.next.source ++ suffixOf i) = [] := by
      simp [Bound.source, isDigit]
    simp only [h1]
    rw [if_neg (by simp)]
    rw [if_pos (by simp [Bound.source, List.isPrefixOf]), ← matchSuffix_item i h, hbo]
    rfl
  | last =>
    have h1 : List.takeWhile isDigit (Bound.last.source ++ suffixOf i) = [] := by
      simp [Bound.source, isDigit]
    simp only [h1]
    rw [if_neg (by simp), if_neg (by simp [Bound.source, List.isPrefixOf]),
      if_pos (by simp [Bound.source, List.isPrefixOf]), ← matchSuffix_item i h, hbo]
    rfl

theorem item_of_suffix (b : Bound) (hb : b.Valid) (rest : Str) (g : Groups)
    (h : matchSuffix b.source rest = some g) :
    ∃ i : Item, i.Valid ∧ b.source ++ rest = i.source ∧ g = groups i := by
  rcases matchSuffix_inv _ _ _ h with ⟨rfl, rfl⟩ | ⟨rfl, rfl⟩ | ⟨ds, rfl, hd, rfl⟩
  · exact ⟨.single b, hb, by simp [Item.source], rfl⟩
  · exact ⟨.opn b, hb, by simp [Item.source], rfl⟩
  · exact ⟨.range b ds, ⟨hb, hd⟩, by simp [Item.source], rfl⟩

theorem matchItem_inv (s : Str) (g : Groups) (h : matchItem s = some g) :
    ∃ i : Item, i.Valid ∧ s = i.source ∧ g = groups i := by
  unfold matchItem at h
  simp only at h
  split at h
  · rename_i hne
    have hn : Numeral (s.takeWhile isDigit) := by
      rw [numeral_iff]
      exact ⟨hne, by rw [List.all_eq_true]; intro c hc; exact List.mem_takeWhile_imp hc⟩
    obtain ⟨i, h1, h2, h3⟩ := item_of_suffix (.num (s.takeWhile isDigit)) hn _ g h
    refine ⟨i, h1, ?_, h3⟩
    rw [← h2]
    exact (List.takeWhile_append_dropWhile).symm
  · split at h
    · rename_i hp
      obtain ⟨t, ht⟩ := List.isPrefixOf_iff_prefix.mp hp
      obtain ⟨i, h1, h2, h3⟩ := item_of_suffix .next trivial _ g h
      refine ⟨i, h1, ?_, h3⟩
      rw [← h2, ← ht]; rfl
    · split at h
      · rename_i hp
        obtain ⟨t, ht⟩ := List.isPrefixOf_iff_prefix.mp hp
        obtain ⟨i, h1, h2, h3⟩ := item_of_suffix .last trivial _ g h
        refine ⟨i, h1, ?_, h3⟩
        rw [← h2, ← ht]; rfl
      · cases h

/-! ### strip and split -/

theorem dropWhile_all {w : Str} (h : ∀ c ∈ w, isSpace c = true) (x : Str) :
    (w ++ x).dropWhile isSpace = x.dropWhile isSpace := by
  induction w with
  | nil => rfl
  | cons c w ih =>
    have := h c (by simp)
    simp [this, ih (fun c hc => h c (by simp [hc]))]

theorem strip_pad (w1 w2 x : Str) (h : ∀ c ∈ w1 ++ w2, isSpace c = true)
    (hh : ∀ c, x.head? = some c → isSpace c = false) (hl : ∀ c, x.getLast? = some c → isSpace c = false)
    (hx : x ≠ []) : strip (w1 ++ x ++ w2) = x := by
  unfold strip
  rw [List.append_assoc, dropWhile_all (fun c hc => h c (by simp [hc]))]
  cases x with
  | nil => exact absurd rfl hx
  | cons c x =>
    have hc := hh c (by simp)
    rw [List.cons_append, List.dropWhile_cons_of_neg (by simp [hc]), ← List.cons_append, List.reverse_append,
      dropWhile_all (fun c hc => h c (by simp at hc; simp [hc]))]
    cases hr : (c :: x).reverse with
    | nil => simp at hr
    | cons d y =>
      have hd : isSpace d = false := by
        apply hl
        rw [← List.head?_reverse, hr]; rfl
      rw [List.dropWhile_cons_of_neg (by simp [hd]), ← hr]; simp

theorem strip_inv (s : Str) : ∃ w1 w2, s = w1 ++ strip s ++ w2 ∧ ∀ c ∈ w1 ++ w2, isSpace c = true := by
  refine ⟨s.takeWhile isSpace, ((s.dropWhile isSpace).reverse.takeWhile isSpace).reverse, ?_, ?_⟩
  · unfold strip
    rw [List.append_assoc, ← List.reverse_append, List.takeWhile_append_dropWhile, List.reverse_reverse,
      List.takeWhile_append_dropWhile]
  · intro c hc
    rcases List.mem_append.mp hc with hc | hc
    · exact List.mem_takeWhile_imp hc
    · exact List.mem_takeWhile_imp (List.mem_reverse.mp hc)

theorem splitOn_ne (c : Char) (s : Str) : splitOn c s ≠ [] := by
  cases s with
  | nil => simp [splitOn]
  | cons x xs =>
    simp only [splitOn]
    split
    · simp
    · split <;> simp

theorem splitOn_notin {c : Char} {a : Str} (h : c ∉ a) : splitOn c a = [a] := by
  induction a with
  | nil => rfl
  | cons x a ih =>
    have hx : x ≠ c := fun he => h (by simp [he])
    simp [splitOn, hx, ih (fun hc => h (by simp [hc]))]

theorem splitOn_append {c : Char} {a : Str} (h : c ∉ a) (b : Str) :
    splitOn c (a ++ c :: b) = a :: splitOn c b := by
  induction a with
  | nil => simp [splitOn]
  | cons x a ih =>
    have hx : x ≠ c := fun he => h (by simp [he])
    simp [splitOn, hx, ih (fun hc => h (by simp [hc]))]

theorem splitOn_inv (c : Char) (s : Str) : ∀ a rest, splitOn c s = a :: rest →
    (rest = [] ∧ s = a) ∨ (∃ t, s = a ++ c :: t ∧ splitOn c t = rest) := by
  induction s with
  | nil => intro a rest h; simp [splitOn] at h; exact .inl ⟨h.2, h.1.symm⟩
  | cons x s ih =>
    intro a rest h
    simp only [splitOn] at h
    split at h
    · rename_i hx
      injection h with h1 h2
      subst hx; subst h1
      exact .inr ⟨s, rfl, h2⟩
    · split at h
      · rename_i hs; exact absurd hs (splitOn_ne c s)
      · rename_i l ls hs
        injection h with h1 h2
        subst h1; subst h2
        rcases ih l ls hs with ⟨rfl, rfl⟩ | ⟨t, rfl, ht⟩
        · exact .inl ⟨rfl, rfl⟩
        · exact .inr ⟨t, rfl, ht⟩

/-! ### whitespace and items -/

theorem digit_not_space {c : Char} (h : isDigit c = true) : isSpace c = false := by
  have : ∀ d ∈ "0123456789".toList, isSpace d = false := by decide
  exact this c ((isDigit_iff c).mp h)

theorem digit_ne_comma {c : Char} (h : isDigit c = true) : c ≠ ',' := by
  have : ∀ d ∈ "0123456789".toList, d ≠ ',' := by decide
  exact this c ((isDigit_iff c).mp h)

theorem item_chars (i : Item) (h : i.Valid) : i.source ≠ [] ∧
    ∀ c ∈ i.source, isSpace c = false ∧ c ≠ ',' := by
  have hnum : ∀ ds, Numeral ds → ∀ c ∈ ds, isSpace c = false ∧ c ≠ ',' := by
    intro ds hd c hc
    have := List.all_eq_true.mp ((numeral_iff ds).mp hd).2 c hc
    exact ⟨digit_not_space this, digit_ne_comma this⟩
  have hbound : ∀ b : Bound, b.Valid → b.source ≠ [] ∧ ∀ c ∈ b.source, isSpace c = false ∧ c ≠ ',' := by
    intro b hb
    cases b with
    | num ds => exact ⟨hb.1, hnum ds hb⟩
    | next => exact ⟨by decide, by decide⟩
    | last => exact ⟨by decide, by decide⟩
  cases i with
  | single b => exact hbound b h
  | opn b =>
    obtain ⟨h1, h2⟩ := hbound b h
    refine ⟨by simp [Item.source], ?_⟩
    intro c hc
    rcases List.mem_append.mp hc with hc | hc
    · exact h2 c hc
    · simp at hc; subst hc; decide
  | range b ds =>
    obtain ⟨h1, h2⟩ := hbound b h.1
    refine ⟨by simp [Item.source], ?_⟩
    intro c hc
    rcases List.mem_append.mp hc with hc | hc
    · exact h2 c hc
    · rcases List.mem_cons.mp hc with rfl | hc
      · decide
      · exact hnum ds h.2 c hc

theorem strip_item (w1 w2 : Str) (i : Item) (hw : ∀ c ∈ w1 ++ w2, isSpace c = true) (h : i.Valid) :
    strip (w1 ++ i.source ++ w2) = i.source := by
  obtain ⟨h1, h2⟩ := item_chars i h
  refine strip_pad _ _ _ hw ?_ ?_ h1
  · intro c hc; exact (h2 c (List.mem_of_mem_head? hc)).1
  · intro c hc; exact (h2 c (List.mem_of_getLast? hc)).1

theorem space_ne_comma {c : Char} (h : isSpace c = true) : c ≠ ',' := by
  rintro rfl; revert h; decide

theorem writes_split {s : Str} {is : List Item} (hw : Writes isSpace s is) (hv : ∀ i ∈ is, i.Valid) :
    (splitOn ',' s).map strip = is.map Item.source := by
  have hno : ∀ (w1 w2 : Str) (i : Item), (∀ c ∈ w1 ++ w2, isSpace c = true) → i.Valid →
      ',' ∉ w1 ++ i.source ++ w2 := by
    intro w1 w2 i hw hi hc
    rcases List.mem_append.mp hc with hc | hc
    · rcases List.mem_append.mp hc with hc | hc
      · exact space_ne_comma (hw _ (by simp [hc])) rfl
      · exact ((item_chars i hi).2 _ hc).2 rfl
    · exact space_ne_comma (hw _ (by simp [hc])) rfl
  induction hw with
  | one w1 w2 i h =>
    rw [splitOn_notin (hno _ _ _ h (hv i (by simp)))]
    rw [List.map_singleton, List.map_singleton, strip_item w1 w2 i h (hv i (by simp))]
  | cons w1 w2 i s is h _ ih =>
    rw [splitOn_append (hno _ _ _ h (hv i (by simp)))]
    rw [List.map_cons, List.map_cons, strip_item w1 w2 i h (hv i (by simp)),
      ih (fun j hj => hv j (by simp [hj]))]

theorem writes_of_split (is : List Item) : ∀ s, (splitOn ',' s).map strip = is.map Item.source →
    Writes isSpace s is := by
  induction is with
  | nil => intro s h; simp at h; exact absurd h (splitOn_ne _ _)
  | cons i is ih =>
    intro s h
    cases hs : splitOn ',' s with
    | nil => exact absurd hs (splitOn_ne _ _)
    | cons a rest =>
      rw [hs, List.map_cons, List.map_cons] at h
      injection h with h1 h2
      obtain ⟨w1, w2, e, hw⟩ := strip_inv a
      rcases splitOn_inv _ _ _ _ hs with ⟨hr, hsa⟩ | ⟨t, hsa, ht⟩
      · subst hr
        cases is with
        | nil => rw [hsa, e, h1]; exact .one w1 w2 i hw
        | cons j is => simp at h2
      · rw [← ht] at h2
        have := ih t h2
        rw [hsa, e, h1]
        exact .cons w1 w2 i t is hw this

/-! ### the loop -/

theorem fromValue_bound (cur : Option Int) (b : Bound) (h : b.Valid) :
    fromValue cur b.source =
      match b.value cur with
      | some v => .ok v
      | none => .error (.user "You have to pass the current maximum fragment if you use relative values") := by
  cases b with
  | num ds =>
    have hd : ∀ c ∈ ds, isDigit c = true := List.all_eq_true.mp ((numeral_iff ds).mp h).2
    have h1 : ¬ (ds = "next".toList ∨ ds = "last".toList) := by
      rintro (rfl | rfl)
      · have := hd 'n' (by decide); revert this; decide
      · have := hd 'l' (by decide); revert this; decide
    show fromValue cur ds = _
    unfold fromValue
    rw [if_neg h1]
    simp [Bound.value, intOfDigits_eq]
  | next =>
    unfold fromValue
    rw [if_pos (.inl rfl)]
    cases cur <;> simp [Bound.value, Bound.source]
  | last =>
    unfold fromValue
    rw [if_pos (.inr rfl)]
    cases cur <;> simp [Bound.value, Bound.source]

/-- The fragments added to the closed set by an item. -/
theorem mem_range_iff (start fin s : Int) :
    s ∈ pyRange start (fin + 1) ↔ start ≤ s ∧ s ≤ fin := by
  simp only [pyRange, List.mem_map, List.mem_range]
  constructor
  · rintro ⟨k, hk, rfl⟩; omega
  · intro h; exact ⟨(s - start).toNat, by omega, by omega⟩

/-- The loop accepts legal items and collects what they select. -/
theorem parseLoop_ok (cur : Option Int) (is : List Item) : ∀ (steps : List Int) (o : Option Int),
    (∀ i ∈ is, i.Valid) → (∀ i ∈ is, i.Meaningful cur) →
    is.countP Item.isOpen + (if o.isSome then 1 else 0) ≤ 1 →
    ∃ steps' o', parseLoop cur (is.map Item.source) steps o = .ok (steps', o') ∧
      (∀ s, s ∈ steps' ↔ s ∈ steps ∨ ∃ i ∈ is, i.isOpen = false ∧ i.Selects cur s) ∧
      (∀ v, o' = some v ↔ o = some v ∨ ∃ b, Item.opn b ∈ is ∧ b.value cur = some v) := by
  induction is with
  | nil => intro steps o _ _ _; exact ⟨steps, o, rfl, by simp, by simp⟩
  | cons i is ih =>
    intro steps o hv hm hc
    have hvi := hv i (by simp)
    have hmi := hm i (by simp)
    rw [List.map_cons, parseLoop, matchItem_source i hvi]
    cases i with
    | single b =>
      obtain ⟨v, hb⟩ := hmi
      simp only [groups, fromValue_bound cur b hvi, hb, Bool.false_eq_true, if_false, le_refl, if_true]
      obtain ⟨st', o', e1, e2, e3⟩ := ih (steps ++ pyRange v (v + 1)) o
        (fun j hj => hv j (by simp [hj])) (fun j hj => hm j (by simp [hj])) (by simpa [Item.isOpen] using hc)
      refine ⟨st', o', e1, ?_, ?_⟩
      · intro s
        rw [e2, List.mem_append, mem_range_iff]
        simp only [List.mem_cons, exists_eq_or_imp, Item.isOpen, Item.Selects, hb, true_and, Option.some.injEq]
        have : (v ≤ s ∧ s ≤ v) ↔ v = s := by omega
        rw [this, or_assoc]
      · intro w; rw [e3]; simp
    | opn b =>
      obtain ⟨v, hb⟩ := hmi
      simp only [groups, fromValue_bound cur b hvi, hb, if_true]
      simp only [List.countP_cons, Item.isOpen, if_true] at hc
      have ho : o = none := by
        cases o with
        | none => rfl
        | some x => simp at hc
      subst ho
      simp only
      obtain ⟨st', o', e1, e2, e3⟩ := ih steps (some v)
        (fun j hj => hv j (by simp [hj])) (fun j hj => hm j (by simp [hj])) (by simpa using hc)
      refine ⟨st', o', e1, ?_, ?_⟩
      · intro s; rw [e2]; simp [Item.isOpen]
      · intro w
        rw [e3]
        simp only [List.mem_cons, Item.opn.injEq, reduceCtorEq, false_or, Option.some.injEq]
        constructor
        · rintro (rfl | ⟨b', h1, h2⟩)
          · exact ⟨b, .inl rfl, hb⟩
          · exact ⟨b', .inr h1, h2⟩
        · rintro ⟨b', rfl | h1, h2⟩
          · rw [hb] at h2; injection h2 with h2; exact .inl h2
          · exact .inr ⟨b', h1, h2⟩
    | range b ds =>
      obtain ⟨v, hb, hle⟩ := hmi
      simp only [groups, fromValue_bound cur b hvi.1, hb, Bool.false_eq_true, if_false, intOfDigits_eq]
      rw [if_pos hle]
      obtain ⟨st', o', e1, e2, e3⟩ := ih
        (steps ++ pyRange v ((numeralValue ds : Int) + 1)) o
        (fun j hj => hv j (by simp [hj])) (fun j hj => hm j (by simp [hj])) (by simpa [Item.isOpen] using hc)
      refine ⟨st', o', e1, ?_, ?_⟩
      · intro s
        rw [e2, List.mem_append, mem_range_iff]
        simp only [List.mem_cons, exists_eq_or_imp, Item.isOpen, Item.Selects, hb, true_and, Option.some.injEq,
          exists_eq_left']
        rw [or_assoc]
      · intro w; rw [e3]; simp

/-- What the loop accepts is a list of legal items. -/
theorem parseLoop_inv (cur : Option Int) (xs : List Str) : ∀ (steps : List Int) (o : Option Int) r,
    parseLoop cur xs steps o = .ok r →
    ∃ is : List Item, xs = is.map Item.source ∧ (∀ i ∈ is, i.Valid) ∧ (∀ i ∈ is, i.Meaningful cur) ∧
      is.countP Item.isOpen + (if o.isSome then 1 else 0) ≤ 1 := by
  induction xs with
  | nil => intro steps o r _; exact ⟨[], rfl, by simp, by simp, by cases o <;> simp⟩
  | cons x xs ih =>
    intro steps o r h
    simp only [parseLoop] at h
    split at h
    · cases h
    · rename_i g hg
      obtain ⟨i, hv, hs, rfl⟩ := matchItem_inv x g hg
      have hb : (boundOf i).Valid := by cases i <;> first | exact hv | exact hv.1
      have hf : (groups i).frm = (boundOf i).source := by cases i <;> rfl
      rw [hf, fromValue_bound cur _ hb] at h
      cases hval : (boundOf i).value cur with
      | none => rw [hval] at h; simp at h
      | some v =>
        rw [hval] at h
        simp only at h
        cases i with
        | single b =>
          simp only [groups, Bool.false_eq_true, if_false, le_refl, if_true] at h
          obtain ⟨is, e1, e2, e3, e4⟩ := ih _ _ _ h
          refine ⟨.single b :: is, by simp [hs, e1], ?_, ?_, by simpa [Item.isOpen] using e4⟩
          · intro j hj; rcases List.mem_cons.mp hj with rfl | hj; exact hv; exact e2 j hj
          · intro j hj; rcases List.mem_cons.mp hj with rfl | hj; exact ⟨v, hval⟩; exact e3 j hj
        | opn b =>
          simp only [groups, if_true] at h
          cases o with
          | some w => simp at h
          | none =>
            simp only at h
            obtain ⟨is, e1, e2, e3, e4⟩ := ih _ _ _ h
            refine ⟨.opn b :: is, by simp [hs, e1], ?_, ?_, ?_⟩
            · intro j hj; rcases List.mem_cons.mp hj with rfl | hj; exact hv; exact e2 j hj
            · intro j hj; rcases List.mem_cons.mp hj with rfl | hj; exact ⟨v, hval⟩; exact e3 j hj
            · simp only [List.countP_cons, Item.isOpen]; simpa using e4
        | range b ds =>
          simp only [groups, Bool.false_eq_true, if_false] at h
          replace h : (if v ≤ (intOfDigits ds : Int) then
              parseLoop cur xs (steps ++ pyRange v ((intOfDigits ds : Int) + 1)) o
            else Except.error Err.assertion) = Except.ok r := h
          by_cases hle : v ≤ (intOfDigits ds : Int)
          · rw [if_pos hle] at h
            obtain ⟨is, e1, e2, e3, e4⟩ := ih _ _ _ h
            rw [intOfDigits_eq] at hle
            refine ⟨.range b ds :: is, by simp [hs, e1], ?_, ?_, by simpa [Item.isOpen] using e4⟩
            · intro j hj; rcases List.mem_cons.mp hj with rfl | hj; exact hv; exact e2 j hj
            · intro j hj; rcases List.mem_cons.mp hj with rfl | hj; exact ⟨v, hval, hle⟩; exact e3 j hj
          · rw [if_neg hle] at h; cases h

end Verif.Show
