import Verif.Proofs.Theme
import Verif.Proofs.Merge

/-! # Proofs about styles of the user in highlighted code -/

namespace Verif.Highlight
open Spec Verif.Text Verif.Text.Spec Verif.Style Verif.Xml.Spec Verif.Cairo.Spec

theorem step_opn {s s' : MState} {t : MTok} (h : Step s t s') (n : Str) :
    (Tok.opn n ∈ s'.l1 → Tok.opn n ∈ s.l1) ∧ (Tok.opn n ∈ s'.l2 → Tok.opn n ∈ s.l2) ∧
      (∀ i, t = .block i (.opn n) → Tok.opn n ∈ s.l1 ∨ Tok.opn n ∈ s.l2) ∧ t ≠ .plain (.opn n) := by
  have hnl : ∀ k l, Tok.opn n ∈ dropNl k l → Tok.opn n ∈ l := by
    intro k l; unfold dropNl; split <;> simp
  have htx : ∀ k l, Tok.opn n ∈ dropTx k l → Tok.opn n ∈ l := by
    intro k l; unfold dropTx; split <;> simp
  cases h with
  | close1 => exact ⟨fun h => List.mem_cons_of_mem _ h, id, by simp, by simp⟩
  | close2 => exact ⟨id, fun h => List.mem_cons_of_mem _ h, by simp, by simp⟩
  | opn1 =>
    refine ⟨fun h => List.mem_cons_of_mem _ h, id, ?_, by simp⟩
    intro i hi; injection hi with _ hi; injection hi with hi; subst hi; left; simp
  | opn2 =>
    refine ⟨id, fun h => List.mem_cons_of_mem _ h, ?_, by simp⟩
    intro i hi; injection hi with _ hi; injection hi with hi; subst hi; right; simp
  | nl => exact ⟨fun h => List.mem_cons_of_mem _ (hnl _ _ h), fun h => List.mem_cons_of_mem _ (hnl _ _ h), by simp, by simp⟩
  | tx => exact ⟨fun h => List.mem_cons_of_mem _ (htx _ _ h), fun h => List.mem_cons_of_mem _ (htx _ _ h), by simp, by simp⟩

theorem run_opn {s : MState} {ms : List MTok} (h : Run s ms) (n : Str) :
    (∀ i, MTok.block i (.opn n) ∈ ms → Tok.opn n ∈ s.l1 ∨ Tok.opn n ∈ s.l2) ∧ MTok.plain (.opn n) ∉ ms := by
  induction h with
  | done => simp
  | step hs _ ih =>
    obtain ⟨h1, h2, h3, h4⟩ := step_opn hs n
    refine ⟨?_, ?_⟩
    · intro i hi
      rcases List.mem_cons.mp hi with hi | hi
      · exact h3 i hi.symm
      · rcases ih.1 i hi with h | h
        · exact .inl (h1 h)
        · exact .inr (h2 h)
    · intro hi
      rcases List.mem_cons.mp hi with hi | hi
      · exact h4 hi.symm
      · exact ih.2 hi

theorem closeBlock_names {b : Bool} : ∀ {opened : List (Bool × Str)} {reopen : List Str} {opened' : List (Bool × Str)},
    closeBlock b opened = some (reopen, opened') →
    (∀ n ∈ reopen, ∃ i, (i, n) ∈ opened) ∧ (∀ p ∈ opened', p ∈ opened)
  | [], _, _, h => by cases h
  | (i2, name) :: rest, reopen, opened', h => by
    simp only [closeBlock] at h
    split at h
    · injection h with h; injection h with h1 h2; subst h1; subst h2
      exact ⟨by simp, fun p hp => List.mem_cons_of_mem _ hp⟩
    · cases hc : closeBlock b rest with
      | none => rw [hc] at h; cases h
      | some q =>
        obtain ⟨ro, op⟩ := q
        rw [hc] at h
        injection h with h; injection h with h1 h2; subst h1; subst h2
        obtain ⟨i1, i2'⟩ := closeBlock_names hc
        refine ⟨?_, ?_⟩
        · intro n hn
          rcases List.mem_cons.mp hn with rfl | hn
          · exact ⟨i2, by simp⟩
          · obtain ⟨i, hi⟩ := i1 n hn
            exact ⟨i, List.mem_cons_of_mem _ hi⟩
        · intro p hp
          rcases List.mem_cons.mp hp with rfl | hp
          · simp
          · exact List.mem_cons_of_mem _ (i2' p hp)

theorem emit_opn (n : Str) (ms : List MTok) : ∀ (opened : List (Bool × Str)) (r : List Tok), mergeEmit opened ms = .ok r →
    Tok.opn n ∈ r → (∃ i, (i, n) ∈ opened) ∨ (∃ i, MTok.block i (.opn n) ∈ ms) ∨ MTok.plain (.opn n) ∈ ms := by
  induction ms with
  | nil =>
    intro opened r h hn
    simp only [mergeEmit] at h
    split at h
    · injection h with h; subst h; cases hn
    · cases h
  | cons m ms ih =>
    intro opened r h hn
    have lift : ∀ (o : List (Bool × Str)) (q : List Tok), mergeEmit o ms = .ok q → Tok.opn n ∈ q →
        (∃ i, (i, n) ∈ o) ∨ (∃ i, MTok.block i (.opn n) ∈ m :: ms) ∨ MTok.plain (.opn n) ∈ m :: ms := by
      intro o q ho hq
      rcases ih o q ho hq with h | ⟨i, h⟩ | h
      · exact .inl h
      · exact .inr (.inl ⟨i, List.mem_cons_of_mem _ h⟩)
      · exact .inr (.inr (List.mem_cons_of_mem _ h))
    match m, h, lift with
    | .plain t, h, lift =>
      simp only [mergeEmit] at h
      split at h
      · rename_i q hq
        injection h with h; subst h
        rcases List.mem_cons.mp hn with h | h
        · exact .inr (.inr (by rw [h]; simp))
        · exact lift _ _ hq h
      · cases h
    | .block i (.opn name), h, lift =>
      simp only [mergeEmit] at h
      split at h
      · rename_i q hq
        injection h with h; subst h
        rcases List.mem_cons.mp hn with h | h
        · injection h with h; subst h
          exact .inr (.inl ⟨i, by simp⟩)
        · rcases lift _ _ hq h with ⟨j, hj⟩ | h | h
          · rcases List.mem_cons.mp hj with hj | hj
            · injection hj with _ hj; subst hj
              exact .inr (.inl ⟨i, by simp⟩)
            · exact .inl ⟨j, hj⟩
          · exact .inr (.inl h)
          · exact .inr (.inr h)
      · cases h
    | .block i .close, h, lift =>
      simp only [mergeEmit] at h
      cases hc : closeBlock i opened with
      | none => rw [hc] at h; cases h
      | some q =>
        obtain ⟨reopen, opened'⟩ := q
        rw [hc] at h
        simp only at h
        obtain ⟨k1, k2⟩ := closeBlock_names hc
        split at h
        · rename_i q hq
          injection h with h; subst h
          simp only [List.mem_append, List.mem_map, List.mem_replicate, reduceCtorEq, and_false, false_or] at hn
          rcases hn with ⟨a, ha, he⟩ | h
          · injection he with he; subst he
            exact .inl (k1 a ha)
          · rcases lift _ _ hq h with ⟨j, hj⟩ | h | h
            · exact .inl ⟨j, k2 _ hj⟩
            · exact .inr (.inl h)
            · exact .inr (.inr h)
        · cases h
    | .block i (.text s), h, _ => simp [mergeEmit] at h
    | .block i (.newline s), h, _ => simp [mergeEmit] at h

/-- Merging opens only the styles of the two streams. -/
theorem merge_opn {t1 t2 r : List Tok} (h : tokensMerge t1 t2 = .ok r) (n : Str) (hn : Tok.opn n ∈ r) :
    Tok.opn n ∈ t1 ∨ Tok.opn n ∈ t2 := by
  unfold tokensMerge at h
  split at h
  · cases h
  · rename_i ms hms
    split at h
    · cases h
    · rename_i r0 hr0
      have hn0 : Tok.opn n ∈ r0 := by
        refine Classical.byContradiction fun hno => ?_
        exact simplifies_forall (P := fun t => t ≠ Tok.opn n) (fun _ _ _ _ => by simp) (fun _ _ _ _ => by simp)
          (normalize_simplifies h) (fun t ht he => hno (he ▸ ht)) _ hn rfl
      have hrun := mergeLoop_run (by unfold mergeHelper at hms; exact hms)
      have hr := run_opn hrun n
      rcases emit_opn n ms [] r0 hr0 hn0 with ⟨i, hi⟩ | ⟨i, hi⟩ | hi
      · cases hi
      · exact hr.1 i hi
      · exact absurd hi hr.2

/-- With styles that are not nested, at most one is open anywhere. -/
theorem flat_shown (toks : List Tok) : ∀ (names : List Str) (d : Nat), names.length ≤ d → maxNesting d toks ≤ 1 →
    ∀ p ∈ shown names toks, p.2.length ≤ 1 := by
  induction toks with
  | nil => intro names d _ _ p hp; cases hp
  | cons t toks ih =>
    intro names d hd hm p hp
    have hd1 : ∀ (l : List Tok) d, d ≤ maxNesting d l := by
      intro l
      induction l with
      | nil => intro d; exact Nat.le_refl _
      | cons t l ih => intro d; cases t <;> simp only [maxNesting] <;> first | exact ih d | omega
    cases t with
    | text s =>
      simp only [maxNesting] at hm
      rcases List.mem_append.mp hp with hp | hp
      · obtain ⟨c, _, rfl⟩ := List.mem_map.mp hp
        have := hd1 toks d
        unfold mark
        split
        · simp
        · simp only; omega
      · exact ih names d hd hm p hp
    | newline n =>
      simp only [maxNesting] at hm
      rcases List.mem_append.mp hp with hp | hp
      · rw [List.eq_of_mem_replicate hp]; simp [mark]
      · exact ih names d hd hm p hp
    | opn n =>
      simp only [maxNesting] at hm
      exact ih (n :: names) (d + 1) (by simpa using hd) (by omega) p hp
    | close =>
      simp only [maxNesting] at hm
      exact ih names.tail (d - 1) (by simp; omega) (by omega) p hp

/-- Overlaid displays, of the seen characters only. -/
theorem merged_seen {a b d : List (Char × List Str)} (h : Merged a b d) : Merged (seen a) (seen b) (seen d) := by
  induction h with
  | nil => exact .nil
  | cons c σ σ1 σ2 hp _ ih =>
    simp only [seen, List.filter_cons] at *
    by_cases hv : visible c = true
    · simp only [hv, if_true]; exact .cons c σ σ1 σ2 hp ih
    · simp only [hv, Bool.false_eq_true, if_false]; exact ih

theorem seen_typed (vals : List (Str × Str)) :
    seen (vals.flatMap (fun v => v.2.map (mark ["pygments-".toList ++ v.1]))) =
      (seen (typed vals)).map (fun p => (p.1, ["pygments-".toList ++ p.2])) := by
  have h := seen_vals id (fun τ => ["pygments-".toList ++ τ]) vals
  simp only [id, List.map_id'] at h
  rw [h]
  have : ∀ vals : List (Str × Str), vals.flatMap (fun v => v.2.map (fun c => (c, ["pygments-".toList ++ v.1]))) =
      (typed vals).map (fun p => (p.1, (fun τ => ["pygments-".toList ++ τ]) p.2)) := by
    intro vals
    simp [typed, List.map_flatMap, Function.comp_def]
  rw [this, seen_map (fun τ => ["pygments-".toList ++ τ])]

theorem typed_mem {vals : List (Str × Str)} {p : Char × Str} (h : p ∈ seen (typed vals)) : ∃ v ∈ vals, v.2 ≠ ['\n'] ∧ p.2 = v.1 := by
  unfold seen at h
  rw [List.mem_filter] at h
  obtain ⟨h1, h2⟩ := h
  simp only [typed, List.mem_flatMap, List.mem_map] at h1
  obtain ⟨v, hv, c, hc, rfl⟩ := h1
  refine ⟨v, hv, ?_, rfl⟩
  intro h; rw [h, List.mem_singleton] at hc; subst hc; simp [visible] at h2

/-- The styles around a character were opened. -/
theorem shown_opened (toks : List Tok) : ∀ (names : List Str), ∀ p ∈ shown names toks, ∀ n ∈ p.2, n ∈ names ∨ Tok.opn n ∈ toks := by
  induction toks with
  | nil => intro names p hp; cases hp
  | cons t toks ih =>
    intro names p hp n hn
    have hmark : ∀ c, n ∈ (mark names c).2 → n ∈ names := by
      intro c h; unfold mark at h; simp only at h; split at h
      · cases h
      · exact h
    have lift : ∀ names', p ∈ shown names' toks → (n ∈ names' ∨ Tok.opn n ∈ t :: toks) := by
      intro names' h
      rcases ih names' p h n hn with h | h
      · exact .inl h
      · exact .inr (List.mem_cons_of_mem _ h)
    cases t with
    | text s =>
      rcases List.mem_append.mp hp with hp | hp
      · obtain ⟨c, _, rfl⟩ := List.mem_map.mp hp
        exact .inl (hmark c hn)
      · exact lift names hp
    | newline k =>
      rcases List.mem_append.mp hp with hp | hp
      · rw [List.eq_of_mem_replicate hp] at hn
        exact .inl (hmark _ hn)
      · exact lift names hp
    | opn m =>
      rcases lift (m :: names) hp with h | h
      · rcases List.mem_cons.mp h with rfl | h
        · exact .inr (by simp)
        · exact .inl h
      · exact .inr h
    | close =>
      rcases lift names.tail hp with h | h
      · exact .inl (List.mem_of_mem_tail h)
      · exact .inr h

end Verif.Highlight
