import Verif.Model.SvgUtils
import Mathlib.Data.List.Infix
import Mathlib.Algebra.Order.Field.Rat
import Mathlib.Algebra.Order.Ring.Abs
import Mathlib.Tactic.FinCases
import Mathlib.Tactic.Linarith
import Mathlib.Tactic.NormNum
import Mathlib.Tactic.FieldSimp
import Mathlib.Tactic.Ring

/-! # Properties C82, C94 and C95: ids and sizes of embedded SVG -/

namespace Verif.SvgUtils

/-! ### Specification -/

namespace Spec

/-- Characters of an id. -/
def isNameChar (c : Char) : Bool := c.isAlpha || c.isDigit || c == '_' || c == '-' || c == '.' || c == ':' || 0x80 ≤ c.toNat

/-- An id that can be referred to. -/
def Name (n : Str) : Prop := n ≠ [] ∧ ∀ c ∈ n, isNameChar c = true

instance (n : Str) : Decidable (Name n) := inferInstanceAs (Decidable (_ ∧ _))

/-- A value cut at its `#`: what is before the first one, and what follows each of them. -/
def cut : Str → Str × List Str
  | [] => ([], [])
  | c :: s => let r := cut s; if c = '#' then ([], r.1 :: r.2) else (c :: r.1, r.2)

/-- The name referred to by `#` followed by `piece`. -/
def name (piece : Str) : Str := piece.takeWhile isNameChar

/-- What should follow a `#`: if it is a reference to an id of the document, the suffix is added to the name. -/
def renamePiece (ids : List Str) (suffix piece : Str) : Str :=
  if name piece ∈ ids then name piece ++ suffix ++ piece.dropWhile isNameChar else piece

/-- What a value should become: each reference to an id of the document gets the suffix. -/
def renamed (ids : List Str) (suffix value : Str) : Str :=
  (cut value).1 ++ (cut value).2.flatMap fun p => '#' :: renamePiece ids suffix p

end Spec

open Spec

/-! ### Replacing -/

theorem cut_join (value : Str) : value = (cut value).1 ++ (cut value).2.flatMap ('#' :: ·) := by
  induction value with
  | nil => rfl
  | cons c s ih =>
    simp only [cut]
    split
    · rename_i h
      subst h
      simp only [List.nil_append, List.flatMap_cons, List.cons_append, List.cons.injEq, true_and]
      exact ih
    · simp only [List.cons_append, List.cons.injEq, true_and]
      exact ih

theorem cut_no (value : Str) : '#' ∉ (cut value).1 ∧ ∀ p ∈ (cut value).2, '#' ∉ p := by
  induction value with
  | nil => simp [cut]
  | cons c s ih =>
    simp only [cut]
    split
    · refine ⟨by simp, ?_⟩
      intro p hp
      rcases List.mem_cons.mp hp with rfl | hp
      · exact ih.1
      · exact ih.2 p hp
    · rename_i h
      refine ⟨?_, ih.2⟩
      simp only [List.mem_cons, not_or]
      exact ⟨fun e => h e.symm, ih.1⟩

theorem replaceGo_skip (pat new : Str) : ∀ (k : Nat) (a b : Str), a.length = k → replaceGo pat new k (a ++ b) = replaceGo pat new 0 b
  | 0, [], b, _ => rfl
  | k + 1, c :: a, b, h => by
    rw [List.cons_append, replaceGo]
    exact replaceGo_skip pat new k a b (by simpa using h)

/-- A `#`-free stretch is copied. -/
theorem replaceGo_plain (a new : Str) : ∀ (h b : Str), '#' ∉ h → replaceGo ('#' :: a) new 0 (h ++ b) = h ++ replaceGo ('#' :: a) new 0 b
  | [], b, _ => rfl
  | c :: h, b, hc => by
    simp only [List.mem_cons, not_or] at hc
    rw [List.cons_append, replaceGo, if_neg, replaceGo_plain a new h b hc.2]
    · rfl
    · rintro ⟨t, ht⟩
      simp only [List.cons_append, List.cons.injEq] at ht
      exact hc.1 ht.1

theorem prefix_of_noHash {a p rest : Str} (ha : '#' ∉ a) (hrest : rest = [] ∨ ∃ r, rest = '#' :: r) (h : a <+: p ++ rest) : a <+: p := by
  rcases List.prefix_or_prefix_of_prefix h (List.prefix_append p rest) with h1 | h1
  · exact h1
  · obtain ⟨t, rfl⟩ := h1
    rcases hrest with rfl | ⟨r, rfl⟩
    · rwa [List.append_nil] at h
    · have h2 := (List.prefix_append_right_inj p).mp h
      cases t with
      | nil => simp
      | cons c t =>
        obtain ⟨u, hu⟩ := h2
        simp only [List.cons_append, List.cons.injEq] at hu
        exact absurd (by simp [hu.1]) ha

theorem joined_head (ps : List Str) : ps.flatMap ('#' :: ·) = [] ∨ ∃ r, ps.flatMap ('#' :: ·) = '#' :: r := by
  cases ps with
  | nil => exact .inl rfl
  | cons p ps => exact .inr ⟨_, rfl⟩

theorem replaceGo_pieces {a : Str} (ha : '#' ∉ a) (suffix : Str) : ∀ (ps : List Str), (∀ p ∈ ps, '#' ∉ p) →
    replaceGo ('#' :: a) ('#' :: a ++ suffix) 0 (ps.flatMap ('#' :: ·)) = ps.flatMap fun p => '#' :: (if a <+: p then a ++ suffix ++ p.drop a.length else p)
  | [], _ => rfl
  | p :: ps, h => by
    have hp := h p (by simp)
    have ih := replaceGo_pieces ha suffix ps fun q hq => h q (List.mem_cons_of_mem _ hq)
    rw [List.cons_append] at ih
    simp only [List.flatMap_cons, List.cons_append]
    rw [replaceGo]
    by_cases hpre : a <+: p
    · rw [if_pos, if_pos hpre]
      · obtain ⟨t, rfl⟩ := hpre
        have ht : '#' ∉ t := fun e => hp (List.mem_append_right _ e)
        simp only [List.length_cons, Nat.add_sub_cancel]
        rw [List.append_assoc, replaceGo_skip _ _ _ _ _ rfl, replaceGo_plain _ _ _ _ ht, ih]
        simp
      · rw [List.prefix_cons_inj]
        exact hpre.trans (List.prefix_append _ _)
    · rw [if_neg, if_neg hpre, replaceGo_plain _ _ _ _ hp, ih]
      · rw [List.prefix_cons_inj]
        exact fun e => hpre (prefix_of_noHash ha (joined_head ps) e)

theorem replace_cut {a : Str} (ha : '#' ∉ a) (suffix value : Str) :
    replace ('#' :: a) ('#' :: a ++ suffix) value = (cut value).1 ++ (cut value).2.flatMap fun p => '#' :: (if a <+: p then a ++ suffix ++ p.drop a.length else p) := by
  conv_lhs => rw [cut_join value]
  rw [replace, replaceGo_plain _ _ _ _ (cut_no value).1, replaceGo_pieces ha _ _ (cut_no value).2]

theorem infix_pieces {a : Str} (ha : '#' ∉ a) : ∀ (ps : List Str), (∀ p ∈ ps, '#' ∉ p) → ∀ h : Str, '#' ∉ h → ('#' :: a <:+: h ++ ps.flatMap ('#' :: ·) ↔ ∃ p ∈ ps, a <+: p)
  | ps, hps, c :: h, hh => by
    simp only [List.mem_cons, not_or] at hh
    rw [List.cons_append, List.infix_cons_iff, infix_pieces ha ps hps h hh.2]
    constructor
    · rintro (⟨t, ht⟩ | h1)
      · simp only [List.cons_append, List.cons.injEq] at ht
        exact absurd ht.1 hh.1
      · exact h1
    · exact .inr
  | [], _, [], _ => by simp
  | p :: ps, hps, [], _ => by
    rw [List.nil_append, List.flatMap_cons, List.cons_append, List.infix_cons_iff, infix_pieces ha ps (fun q hq => hps q (List.mem_cons_of_mem _ hq)) p (hps p (by simp)), List.prefix_cons_inj]
    constructor
    · rintro (h1 | ⟨q, hq, h1⟩)
      · exact ⟨p, by simp, prefix_of_noHash ha (joined_head ps) h1⟩
      · exact ⟨q, List.mem_cons_of_mem _ hq, h1⟩
    · rintro ⟨q, hq, h1⟩
      rcases List.mem_cons.mp hq with rfl | hq
      · exact .inl (h1.trans (List.prefix_append _ _))
      · exact .inr ⟨q, hq, h1⟩

theorem infix_cut {a : Str} (ha : '#' ∉ a) (value : Str) : '#' :: a <:+: value ↔ ∃ p ∈ (cut value).2, a <+: p := by
  conv_lhs => rw [cut_join value]
  exact infix_pieces ha _ (cut_no value).2 _ (cut_no value).1

theorem name_noHash {n : Str} (h : Name n) : '#' ∉ n := by
  intro hm
  exact absurd (h.2 _ hm) (by decide)

theorem name_prefix (p : Str) : name p <+: p := List.takeWhile_prefix _

theorem drop_name (p : Str) : p.drop (name p).length = p.dropWhile isNameChar := by
  have h : p = name p ++ p.dropWhile isNameChar := (List.takeWhile_append_dropWhile (p := isNameChar) (l := p)).symm
  exact (congrArg (List.drop (name p).length) h).trans (List.drop_left ..)

theorem renameStep_none (suffix value : Str) : ∀ (after : List Str) (current : Str), (∀ j ∈ after, ¬ j <:+: value) → after.foldl (renameStep suffix value) current = current
  | [], _, _ => rfl
  | j :: after, current, h => by
    rw [List.foldl_cons]
    have : renameStep suffix value current j = current := if_neg (h j (by simp))
    rw [this, renameStep_none suffix value after _ fun k hk => h k (List.mem_cons_of_mem _ hk)]

/-- The loop over the ids keeps what the last id found in the value makes of it. -/
theorem renameValue_last {before after : List Str} {i : Str} (suffix value : Str) (hi : i <:+: value) (hafter : ∀ j ∈ after, ¬ j <:+: value) :
    renameValue (before ++ i :: after) suffix value = replace i (i ++ suffix) value := by
  rw [renameValue, List.foldl_append, List.foldl_cons, renameStep_none suffix value _ _ hafter]
  exact if_pos hi

theorem renameValue_none {ids : List Str} (suffix value : Str) (h : ∀ j ∈ ids, ¬ j <:+: value) : renameValue ids suffix value = value := renameStep_none suffix value ids value h

/-! ### C82 -/

/-- **C82, the part that holds, for a reference**: let the last id of the document that begins some of the text after a `#` be `a`. If `a` is the whole name wherever it begins the text, and no other id is
referred to, all references of the value get the suffix and nothing else changes. (Missing: values that refer to two ids, and ids that begin another name and come later in the document.) -/
theorem C82_reference_partial (before after : List Str) (a suffix value : Str) (hids : ∀ n ∈ before ++ a :: after, Name n)
    (hlast : ∀ n ∈ after, ∀ p ∈ (cut value).2, ¬ n <+: p) (ha : ∃ p ∈ (cut value).2, name p = a)
    (hwhole : ∀ p ∈ (cut value).2, a <+: p → name p = a) (hother : ∀ p ∈ (cut value).2, name p ∈ before ++ a :: after → name p = a) :
    renameValue ((before ++ a :: after).map ('#' :: ·)) suffix value = renamed (before ++ a :: after) suffix value := by
  have hna := name_noHash (hids a (by simp))
  rw [List.map_append, List.map_cons, renameValue_last]
  · rw [List.cons_append, ← List.cons_append, replace_cut hna, renamed]
    congr 1
    refine List.flatMap_congr fun p hp => ?_
    congr 1
    rw [renamePiece]
    by_cases hpre : a <+: p
    · have hn := hwhole p hp hpre
      rw [if_pos hpre, hn, if_pos (by simp), ← drop_name p, hn]
    · rw [if_neg hpre, if_neg]
      intro hm
      exact hpre (hother p hp hm ▸ name_prefix p)
  · obtain ⟨p, hp, hn⟩ := ha
    exact (infix_cut hna value).mpr ⟨p, hp, hn ▸ name_prefix p⟩
  · intro j hj hin
    obtain ⟨n, hn, rfl⟩ := List.mem_map.mp hj
    obtain ⟨p, hp, hpre⟩ := (infix_cut (name_noHash (hids n (by simp [hn]))) value).mp hin
    exact hlast n hn p hp hpre

/-- **C82, the part that holds, for everything else**: if no id of the document begins the text after a `#`, the value has no reference to one and stays as it is. -/
theorem C82_other_partial (ids : List Str) (suffix value : Str) (hids : ∀ n ∈ ids, Name n) (h : ∀ n ∈ ids, ∀ p ∈ (cut value).2, ¬ n <+: p) :
    renameValue (ids.map ('#' :: ·)) suffix value = value ∧ renamed ids suffix value = value := by
  constructor
  · apply renameValue_none
    intro j hj hin
    obtain ⟨n, hn, rfl⟩ := List.mem_map.mp hj
    obtain ⟨p, hp, hpre⟩ := (infix_cut (name_noHash (hids n hn)) value).mp hin
    exact h n hn p hp hpre
  · conv_rhs => rw [cut_join value]
    rw [renamed]
    congr 1
    refine List.flatMap_congr fun p hp => ?_
    rw [renamePiece, if_neg]
    exact fun hm => h _ hm p hp (name_prefix p)

/-- The names of glyphs in a converted formula: the id of a later glyph may begin with that of an earlier one. -/
example : renameValue (["glyph0-1", "glyph0-10", "clip"].map fun n => '#' :: n.toList) "-x".toList "#glyph0-10".toList = "#glyph0-10-x".toList := by
  have := C82_reference_partial ["glyph0-1".toList] ["clip".toList] "glyph0-10".toList "-x".toList "#glyph0-10".toList
    (by decide +kernel) (by decide +kernel) (by decide +kernel) (by decide +kernel) (by decide +kernel)
  exact this.trans (by decide +kernel)

/-- **C82 is false of the code**: of two references in one attribute only one is renamed, and the other refers to nothing. -/
theorem C82_two_false : ¬ ∀ (ids : List Str) (suffix value : Str), (∀ n ∈ ids, Name n) → renameValue (ids.map ('#' :: ·)) suffix value = renamed ids suffix value := by
  intro h
  exact absurd (h ["a".toList, "b".toList] "-x".toList "fill:url(#a);stroke:url(#b)".toList (by decide +kernel)) (by decide +kernel)

/-- And with a single reference: an id that begins another name and comes later breaks the reference. -/
theorem C82_prefix_false : ¬ ∀ (ids : List Str) (suffix value : Str), (∀ n ∈ ids, Name n) → (cut value).2.length = 1 → renameValue (ids.map ('#' :: ·)) suffix value = renamed ids suffix value := by
  intro h
  exact absurd (h ["ab".toList, "a".toList] "-x".toList "url(#ab)".toList (by decide +kernel) (by decide +kernel)) (by decide +kernel)

/-- Even a colour is changed by an id that begins it. -/
theorem C82_colour_false : ¬ ∀ (ids : List Str) (suffix value : Str), (∀ n ∈ ids, Name n) → (∀ p ∈ (cut value).2, name p ∉ ids) → renameValue (ids.map ('#' :: ·)) suffix value = value := by
  intro h
  exact absurd (h ["f".toList] "-x".toList "#ff0000".toList (by decide +kernel) (by decide +kernel)) (by decide +kernel)

/-! ### C94 -/

theorem get_set_id (e : Attrs) (v : Str) (h : (e.get "id".toList).isSome) : (e.set "id".toList v).get "id".toList = some v := by
  induction e with
  | nil => cases h
  | cons a e ih =>
    simp only [Attrs.get, Attrs.set, List.map_cons] at h ih ⊢
    by_cases ha : a.1 = "id".toList
    · rw [if_pos ha, List.find?_cons_of_pos (by simpa using ha)]
      rfl
    · rw [if_neg ha, List.find?_cons_of_neg (by simpa using ha)]
      rw [List.find?_cons_of_neg (by simpa using ha)] at h
      exact ih h

theorem get_map (e : Attrs) (f : Str → Str) (n : Str) : Attrs.get (e.map fun a => (a.1, f a.2)) n = (e.get n).map f := by
  induction e with
  | nil => rfl
  | cons a e ih =>
    simp only [Attrs.get, List.map_cons] at ih ⊢
    by_cases ha : a.1 = n
    · rw [List.find?_cons_of_pos (by simpa using ha), List.find?_cons_of_pos (by simpa using ha)]
      rfl
    · rw [List.find?_cons_of_neg (by simpa using ha), List.find?_cons_of_neg (by simpa using ha)]
      exact ih

theorem elementId_get {e : Attrs} {v : Str} (h : elementId e = some v) : e.get "id".toList = some v ∧ v ≠ [] := by
  unfold elementId at h
  split at h
  · split at h
    · cases h
    · rename_i h1 h2
      cases h
      exact ⟨h1, h2⟩
  · cases h

/-- A value without `#` stays. -/
theorem renameValue_noHash (doc : List Attrs) (suffix value : Str) (h : '#' ∉ value) : renameValue (collect doc) suffix value = value := by
  apply renameValue_none
  intro j hj hin
  unfold collect at hj
  obtain ⟨e, _, he⟩ := List.mem_filterMap.mp hj
  cases hid : elementId e with
  | none => rw [hid] at he; cases he
  | some v =>
    rw [hid] at he
    cases he
    exact h (hin.subset (by simp))

/-- The ids of a document after renaming are the ids before with the suffix. -/
theorem ids_renamed (doc : List Attrs) (suffix : Str) (hids : ∀ e ∈ doc, ∀ v, elementId e = some v → '#' ∉ v) (hs : '#' ∉ suffix) :
    (renameIds doc suffix).map elementId = doc.map fun e => (elementId e).map (· ++ suffix) := by
  unfold renameIds
  rw [List.map_map, List.map_map]
  refine List.map_congr_left fun e he => ?_
  simp only [Function.comp]
  cases hid : elementId e with
  | some v =>
    obtain ⟨h1, h2⟩ := elementId_get hid
    have h3 : setId suffix e = e.set "id".toList (v ++ suffix) := by unfold setId; rw [hid]
    unfold elementId
    rw [get_map, h3, get_set_id _ _ (by rw [h1]; rfl)]
    simp only [Option.map_some]
    rw [renameValue_noHash, if_neg (by simp [h2])]
    intro hm
    rcases List.mem_append.mp hm with hm | hm
    · exact hids e he v hid hm
    · exact hs hm
  | none =>
    have h3 : setId suffix e = e := by unfold setId; rw [hid]
    rw [h3]
    have hnone : e.get "id".toList = none ∨ e.get "id".toList = some [] := by
      unfold elementId at hid
      split at hid
      · split at hid
        · rename_i h1 h2; right; rw [h1, h2]
        · cases hid
      · rename_i h1; exact .inl h1
    unfold elementId
    rw [get_map]
    rcases hnone with h | h
    · rw [h]; rfl
    · rw [h]
      simp only [Option.map_some]
      rw [renameValue_noHash _ _ _ (by simp)]
      rfl

/-- The ids of a document. -/
def idsOf (doc : List Attrs) : List Str := doc.filterMap fun e => ((e.find? (·.1 = "id".toList)).map (·.2)).filter (· ≠ [])

theorem idsOf_eq (doc : List Attrs) : idsOf doc = doc.filterMap elementId := by
  refine List.filterMap_congr fun e _ => ?_
  unfold elementId Attrs.get
  cases (e.find? (·.1 = "id".toList)).map (·.2) with
  | none => rfl
  | some v => by_cases h : v = [] <;> simp [Option.filter, h]

theorem idsOf_renamed (doc : List Attrs) (suffix : Str) (hids : ∀ v ∈ idsOf doc, '#' ∉ v) (hs : '#' ∉ suffix) : idsOf (renameIds doc suffix) = (idsOf doc).map (· ++ suffix) := by
  have h := ids_renamed doc suffix (fun e he v hv => hids v (by rw [idsOf_eq]; exact List.mem_filterMap.mpr ⟨e, he, hv⟩)) hs
  have h1 : ∀ d : List Attrs, idsOf d = (d.map elementId).filterMap id := fun d => by rw [idsOf_eq, List.filterMap_map]; rfl
  rw [h1, h, h1, List.map_filterMap, List.filterMap_map, List.filterMap_map]
  rfl

/-- **C94**: two snippets of LaTeX with different hashes have no id in common on a slide; and ids that differ in a snippet still differ. -/
theorem C94_ids (hash : Str → Str) (hlen : ∀ t, (hash t).length = 32) (hhex : ∀ t, ∀ c ∈ hash t, c.isDigit = true ∨ c.isAlpha = true)
    (text1 text2 : Str) (doc1 doc2 : List Attrs) (h1 : ∀ v ∈ idsOf doc1, Name v) (h2 : ∀ v ∈ idsOf doc2, Name v) :
    ((idsOf doc1).Nodup → (idsOf (latexIds hash text1 doc1)).Nodup) ∧
    (hash text1 ≠ hash text2 → ∀ v ∈ idsOf (latexIds hash text1 doc1), v ∉ idsOf (latexIds hash text2 doc2)) := by
  have hs : ∀ t, '#' ∉ '-' :: hash t := by
    intro t hm
    rcases List.mem_cons.mp hm with hm | hm
    · exact absurd hm (by decide)
    · rcases hhex t _ hm with h | h <;> exact absurd h (by decide)
  unfold latexIds
  rw [idsOf_renamed _ _ (fun v hv => name_noHash (h1 v hv)) (hs _), idsOf_renamed _ _ (fun v hv => name_noHash (h2 v hv)) (hs _)]
  constructor
  · intro hn
    exact hn.map fun a b e => List.append_cancel_right e
  · intro hne v hv hv'
    obtain ⟨a, _, rfl⟩ := List.mem_map.mp hv
    obtain ⟨b, _, hb⟩ := List.mem_map.mp hv'
    have := (List.append_inj' hb (by simp [hlen])).2
    simp only [List.cons.injEq, true_and] at this
    exact hne this.symm

example : let hash : Str → Str := fun t => List.replicate 32 (if t = [] then '0' else 'f')
    hash [] ≠ hash "x".toList ∧ idsOf [[("id".toList, "surface1".toList)], [("d".toList, "M 0 0".toList)], [("id".toList, "glyph0-1".toList)]] = ["surface1".toList, "glyph0-1".toList] := by decide +kernel

/-! ### C82 for whole documents -/

/-- What an attribute should become: an id gets the suffix, and so does every reference to one. -/
def Spec.renamedAttr (ids : List Str) (suffix : Str) (a : Str × Str) : Str × Str :=
  if a.1 = "id".toList then (a.1, if a.2 = [] then [] else a.2 ++ suffix) else (a.1, renamed ids suffix a.2)

/-- The values the code treats rightly: all references are to one id, and that id is the last one found in the value. -/
def Safe (ids : List Str) (value : Str) : Prop :=
  (∀ n ∈ ids, ∀ p ∈ (cut value).2, ¬ n <+: p) ∨
  ∃ before a after, ids = before ++ a :: after ∧ (∀ n ∈ after, ∀ p ∈ (cut value).2, ¬ n <+: p) ∧ (∃ p ∈ (cut value).2, name p = a) ∧
    (∀ p ∈ (cut value).2, a <+: p → name p = a) ∧ (∀ p ∈ (cut value).2, name p ∈ ids → name p = a)

theorem collect_eq (doc : List Attrs) : collect doc = (idsOf doc).map ('#' :: ·) := by
  rw [idsOf_eq, List.map_filterMap]
  rfl

theorem get_of_mem {e : Attrs} (hn : (e.map (·.1)).Nodup) {a : Str × Str} (ha : a ∈ e) : e.get a.1 = some a.2 := by
  induction e with
  | nil => cases ha
  | cons b e ih =>
    rw [List.map_cons, List.nodup_cons] at hn
    unfold Attrs.get
    rcases List.mem_cons.mp ha with rfl | ha
    · rw [List.find?_cons_of_pos (by simp)]
      rfl
    · rw [List.find?_cons_of_neg]
      · exact ih hn.2 ha
      · simp only [decide_eq_true_eq]
        intro e'
        exact hn.1 (e' ▸ List.mem_map_of_mem ha)

/-- **C82, the part that holds, for a document**: if in every attribute all references are to one id, and no id later in the document begins what follows a `#`, then all ids get the suffix, all references
to them too, and nothing else changes. -/
theorem C82_document_partial (doc : List Attrs) (suffix : Str) (hs : '#' ∉ suffix) (hdict : ∀ e ∈ doc, (e.map (·.1)).Nodup) (hids : ∀ v ∈ idsOf doc, Name v)
    (hsafe : ∀ e ∈ doc, ∀ a ∈ e, a.1 ≠ "id".toList → Safe (idsOf doc) a.2) :
    renameIds doc suffix = doc.map fun e => e.map (renamedAttr (idsOf doc) suffix) := by
  unfold renameIds
  rw [List.map_map]
  refine List.map_congr_left fun e he => ?_
  simp only [Function.comp]
  have hother : ∀ a ∈ e, a.1 ≠ "id".toList → renameValue (collect doc) suffix a.2 = renamed (idsOf doc) suffix a.2 := by
    intro a ha hne
    rw [collect_eq]
    rcases hsafe e he a ha hne with h | ⟨before, b, after, heq, h1, h2, h3, h4⟩
    · obtain ⟨h1, h2⟩ := C82_other_partial _ suffix a.2 hids h
      rw [h1, h2]
    · rw [heq] at h4 hids ⊢
      exact C82_reference_partial before after b suffix a.2 hids h1 h2 h3 h4
  cases hid : elementId e with
  | some v =>
    obtain ⟨hget, hv⟩ := elementId_get hid
    have hset : setId suffix e = e.set "id".toList (v ++ suffix) := by unfold setId; rw [hid]
    rw [hset, Attrs.set, List.map_map]
    refine List.map_congr_left fun a ha => ?_
    simp only [Function.comp]
    unfold renamedAttr
    by_cases hname : a.1 = "id".toList
    · have h2 := get_of_mem (hdict e he) ha
      rw [hname, hget] at h2
      cases h2
      rw [if_pos hname, if_pos hname, if_neg hv]
      simp only
      rw [renameValue_noHash]
      intro hm
      rcases List.mem_append.mp hm with hm | hm
      · exact name_noHash (hids _ (by rw [idsOf_eq]; exact List.mem_filterMap.mpr ⟨e, he, hid⟩)) hm
      · exact hs hm
    · rw [if_neg hname, if_neg hname, hother a ha hname]
  | none =>
    have hset : setId suffix e = e := by unfold setId; rw [hid]
    rw [hset]
    refine List.map_congr_left fun a ha => ?_
    unfold renamedAttr
    by_cases hname : a.1 = "id".toList
    · have h2 := get_of_mem (hdict e he) ha
      rw [hname] at h2
      have h3 : a.2 = [] := by
        unfold elementId at hid
        rw [h2] at hid
        simp only at hid
        split at hid
        · assumption
        · cases hid
      rw [if_pos hname, if_pos h3, h3, renameValue_noHash _ _ _ (by simp)]
    · rw [if_neg hname, hother a ha hname]

/-- A small document as made by the conversion of a formula. -/
def sampleDoc : List Attrs :=
  [[("id".toList, "glyph0-1".toList)], [("id".toList, "glyph0-10".toList), ("style".toList, "stroke:none;".toList)], [("xlink:href".toList, "#glyph0-10".toList), ("x".toList, "3".toList)]]

example : renameIds sampleDoc "-x".toList =
    [[("id".toList, "glyph0-1-x".toList)], [("id".toList, "glyph0-10-x".toList), ("style".toList, "stroke:none;".toList)], [("xlink:href".toList, "#glyph0-10-x".toList), ("x".toList, "3".toList)]] := by
  rw [C82_document_partial sampleDoc "-x".toList (by decide) (by decide +kernel) (by decide +kernel)]
  · decide +kernel
  · intro e he a ha hne
    by_cases h : a.2 = "#glyph0-10".toList
    · right
      rw [h]
      exact ⟨["glyph0-1".toList], "glyph0-10".toList, [], by decide +kernel, by decide +kernel, by decide +kernel, by decide +kernel, by decide +kernel⟩
    · left
      have : (cut a.2).2 = [] := by
        revert h hne
        revert ha
        revert a
        revert he
        revert e
        decide +kernel
      rw [this]
      intros; simp_all

/-! ### C95 -/

/-- The pixels of a CSS unit at 96 pixels per inch; `none` if the unit does not exist. -/
def cssUnit (u : String) : Option Rat :=
  if u = "" ∨ u = "px" then some 1
  else if u = "in" then some 96
  else if u = "cm" then some (96 * 100 / 254)
  else if u = "mm" then some (96 * 10 / 254)
  else if u = "Q" then some (96 * 10 / (254 * 4))
  else if u = "pt" then some (96 / 72)
  else if u = "pc" then some 16
  else none

/-- A number does not end with a letter. -/
def NoUnit (number : Str) : Prop := ∀ c, number.getLast? = some c → c.isAlpha = false

theorem alpha_eq (c : Char) : isAlpha c = c.isAlpha := by
  simp [isAlpha, Char.isAlpha, Char.isLower, Char.isUpper, Char.le_def, UInt32.le_iff_toNat_le, ge_iff_le, Bool.or_comm]

theorem split_unit {number : Str} (h : NoUnit number) (u : Str) (hu : ∀ c ∈ u, isAlpha c = true) :
    ((number ++ u).reverse.takeWhile isAlpha).reverse = u ∧ ((number ++ u).reverse.dropWhile isAlpha).reverse = number := by
  have h0 : number.reverse.takeWhile isAlpha = [] ∧ number.reverse.dropWhile isAlpha = number.reverse := by
    cases hr : number.reverse with
    | nil => exact ⟨rfl, rfl⟩
    | cons c s =>
      have : number.getLast? = some c := by rw [← List.head?_reverse, hr]; rfl
      have hc := h c this
      exact ⟨List.takeWhile_cons_of_neg (by simp [hc, alpha_eq]), List.dropWhile_cons_of_neg (by simp [hc, alpha_eq])⟩
  have hu' : ∀ c ∈ u.reverse, isAlpha c = true := fun c hc => hu c (List.mem_reverse.mp hc)
  rw [List.reverse_append, List.takeWhile_append_of_pos hu', List.dropWhile_append_of_pos hu', h0.1, h0.2]
  simp

/-- **C95 is false of the code**: a size in inches, picas or quarter millimetres is taken as if it were in pixels. -/
theorem C95_size_false : ¬ ∀ (float : Str → Option Rat) (number : Str) (unit : String) (r f : Rat), NoUnit number → float number = some r → cssUnit unit = some f →
    ∃ size, sizeToPixels float (number ++ unit.toList) = .ok size ∧ |size - r * f| ≤ |r * f| / 100000 := by
  intro h
  obtain ⟨size, h1, h2⟩ := h (fun s => if s = "2".toList then some 2 else none) "2".toList "in" 2 96 (by intro c hc; cases hc; decide) (by decide +kernel) (by decide +kernel)
  have h3 : sizeToPixels (fun s => if s = "2".toList then some 2 else none) ("2".toList ++ "in".toList) = .ok 2 := by decide +kernel
  rw [h3] at h1
  cases h1
  exact absurd h2 (by norm_num [abs_le])

/-- **C95, the part that holds**: a size without a unit or in `px`, `pt`, `mm` or `cm` is what CSS says, to one part in 100000. -/
theorem C95_size_partial (float : Str → Option Rat) (number : Str) (unit : String) (r f : Rat) (hn : NoUnit number) (hr : float number = some r) (hf : cssUnit unit = some f)
    (hunit : unit ∈ ["", "px", "pt", "mm", "cm"]) : ∃ size, sizeToPixels float (number ++ unit.toList) = .ok size ∧ |size - r * f| ≤ |r * f| / 100000 := by
  have key : ∀ (u : String) (g : Rat), (∀ c ∈ u.toList, isAlpha c = true) →
      (if u.toList = "mm".toList then (377953 / 100000 : Rat) else if u.toList = "cm".toList then 377953 / 10000 else if u.toList = "pt".toList then 133333 / 100000 else 1) = g →
      |g - f| ≤ |f| / 100000 → ∃ size, sizeToPixels float (number ++ u.toList) = .ok size ∧ |size - r * f| ≤ |r * f| / 100000 := by
    intro u g hu hg hclose
    obtain ⟨h1, h2⟩ := split_unit hn u.toList hu
    refine ⟨r * g, ?_, ?_⟩
    · unfold sizeToPixels
      simp only [h1, h2, hr, hg]
    · rw [← mul_sub, abs_mul, abs_mul, mul_div_assoc]
      exact mul_le_mul_of_nonneg_left hclose (abs_nonneg r)
  fin_cases hunit
  · have : f = 1 := by have : cssUnit "" = some 1 := by decide +kernel
                       rw [this] at hf; cases hf; rfl
    subst this
    exact key "" 1 (by decide) (by decide +kernel) (by norm_num)
  · have : f = 1 := by have : cssUnit "px" = some 1 := by decide +kernel
                       rw [this] at hf; cases hf; rfl
    subst this
    exact key "px" 1 (by decide) (by decide +kernel) (by norm_num)
  · have : f = 96 / 72 := by have : cssUnit "pt" = some (96 / 72) := by decide +kernel
                             rw [this] at hf; cases hf; rfl
    subst this
    exact key "pt" (133333 / 100000) (by decide) (by decide +kernel) (by norm_num [abs_le])
  · have : f = 96 * 10 / 254 := by have : cssUnit "mm" = some (96 * 10 / 254) := by decide +kernel
                                   rw [this] at hf; cases hf; rfl
    subst this
    exact key "mm" (377953 / 100000) (by decide) (by decide +kernel) (by norm_num [abs_le])
  · have : f = 96 * 100 / 254 := by have : cssUnit "cm" = some (96 * 100 / 254) := by decide +kernel
                                    rw [this] at hf; cases hf; rfl
    subst this
    exact key "cm" (377953 / 10000) (by decide) (by decide +kernel) (by norm_num [abs_le])

example : NoUnit "21.5".toList ∧ sizeToPixels (fun s => if s = "21.5".toList then some (43 / 2) else none) "21.5mm".toList = .ok (43 / 2 * (377953 / 100000)) := by
  refine ⟨by intro c hc; cases hc; decide, by decide +kernel⟩

end Verif.SvgUtils
