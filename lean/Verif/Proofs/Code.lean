import Verif.Model.Code
import Verif.Proofs.TextDoc
import Verif.Proofs.Merge

/-! Helper lemmas for highlighting and `code`. -/

namespace Verif.Text
open Spec

/-- The body of a formatted value that contains a line break. -/
theorem formatBody_eq (ls : List Str) : ∀ l,
    ((l :: ls).flatMap (fun t => (if t = [] then [] else [Tok.text t]) ++ [Tok.newline 1])).dropLast =
      de (.text l :: ls.flatMap (fun l => [.newline 1, .text l])) := by
  induction ls with
  | nil => intro l; by_cases hl : l = [] <;> simp [hl, de]
  | cons l2 ls ih =>
    intro l
    rw [List.flatMap_cons, List.dropLast_append_of_ne_nil (by simp), ih]
    simp only [List.flatMap_cons]
    by_cases hl : l = [] <;> simp [hl, de]

theorem formatValue_eq (tt v : Str) :
    de (formatValue tt v) = if v = ['\n'] then [.newline 1]
      else .opn ("pygments-".toList ++ tt) :: de (splitText v) ++ [.close] := by
  unfold formatValue
  split
  · simp [de]
  · by_cases hn : '\n' ∈ v
    · rw [if_pos hn]
      unfold splitText
      cases hs : splitOn '\n' v with
      | nil => exact absurd hs (splitOn_ne_nil _ _)
      | cons l ls =>
        rw [formatBody_eq]
        simp [de]
    · rw [if_neg hn, splitText_of_notin hn]
      simp only [de, List.filter_cons]
      simp
      by_cases hv : v = [] <;> simp [hv]

theorem shown_de (ts : List Tok) : ∀ st, shown st (de ts) = shown st ts := by
  induction ts with
  | nil => intro st; rfl
  | cons t ts ih =>
    intro st
    by_cases h : t = .text []
    · subst h; simpa [de, shown] using ih st
    · have : de (t :: ts) = t :: de ts := by simp [de, h]
      rw [this]; cases t <;> simp [shown, ih]

theorem depth_de (ts : List Tok) : ∀ d, depth d (de ts) = depth d ts := by
  induction ts with
  | nil => intro st; rfl
  | cons t ts ih =>
    intro d
    by_cases h : t = .text []
    · subst h; simpa [de] using ih d
    · have : de (t :: ts) = t :: de ts := by simp [de, h]
      rw [this]
      cases t with
      | close => cases d <;> simp [ih, depth]
      | _ => simp [ih]

theorem maxNesting_de (ts : List Tok) : ∀ d, maxNesting d (de ts) = maxNesting d ts := by
  induction ts with
  | nil => intro st; rfl
  | cons t ts ih =>
    intro d
    by_cases h : t = .text []
    · subst h; simpa [de, maxNesting] using ih d
    · have : de (t :: ts) = t :: de ts := by simp [de, h]
      rw [this]
      cases t <;> simp [maxNesting, ih]

theorem maxNesting_splitText (d : Nat) (s : Str) (ts : List Tok) :
    maxNesting d (splitText s ++ ts) = maxNesting d ts := by
  induction s with
  | nil => simp [splitText_nil, maxNesting]
  | cons c s ih =>
    by_cases hc : c = '\n'
    · subst hc
      simp [splitText_cons_nl, maxNesting, ih]
    · obtain ⟨l, us, h⟩ := splitText_head s
      rw [splitText_cons hc s l us h]
      rw [h] at ih
      simpa [maxNesting] using ih

/-- What the formatted stream of `vals` should display. -/
def valsShown (vals : List (Str × Str)) : List (Char × List Str) :=
  vals.flatMap (fun v => v.2.map (mark ["pygments-".toList ++ v.1]))

theorem formatStream_cons (tt v : Str) (vals : List (Str × Str)) :
    de (formatStream ((tt, v) :: vals)) = de (formatValue tt v) ++ de (formatStream vals) := by
  simp [formatStream, de_append]

theorem formatStream_shown (vals : List (Str × Str)) :
    shown [] (formatStream vals) = valsShown vals ∧ depth 0 (formatStream vals) = some 0 ∧
      maxNesting 0 (formatStream vals) ≤ 1 := by
  rw [← shown_de, ← depth_de, ← maxNesting_de]
  induction vals with
  | nil => simp [formatStream, valsShown, de, shown, maxNesting]
  | cons x vals ih =>
    obtain ⟨tt, v⟩ := x
    obtain ⟨i1, i2, i3⟩ := ih
    rw [formatStream_cons, formatValue_eq]
    have hs : ∀ (X : List Tok), shown ["pygments-".toList ++ tt] (de (splitText v) ++ .close :: X) =
        v.map (mark ["pygments-".toList ++ tt]) ++ shown [] X := by
      intro X
      have h1 := shown_splitText ["pygments-".toList ++ tt] v (.close :: X)
      rw [shown_append, ← shown_de] at h1
      have hsa : ∀ (ts : List Tok) st, stackAfter st (de ts) = stackAfter st ts := by
        intro ts
        induction ts with
        | nil => intro st; rfl
        | cons t ts ih =>
          intro st
          by_cases h : t = .text []
          · subst h; simpa [de, stackAfter] using ih st
          · have : de (t :: ts) = t :: de ts := by simp [de, h]
            rw [this]; cases t <;> simp [stackAfter, ih]
      rw [shown_append, hsa, h1]
      simp [shown]
    have hd : ∀ (X : List Tok), depth 1 (de (splitText v) ++ .close :: X) = depth 0 X := by
      intro X
      have := depth_splitText 1 v []
      rw [List.append_nil, ← depth_de] at this
      rw [depth_append, this]; simp
    have hm : ∀ (X : List Tok), maxNesting 1 (de (splitText v) ++ .close :: X) = max 1 (maxNesting 0 X) := by
      intro X
      have := maxNesting_splitText 1 v (.close :: de X)
      rw [← maxNesting_de, de_append] at this
      have hdd : de (Tok.close :: de X) = .close :: de X := by simp [de]
      rw [hdd] at this
      have h2 : maxNesting 1 (de (splitText v) ++ .close :: X) =
          maxNesting 1 (de (splitText v) ++ .close :: de X) := by
        rw [← maxNesting_de, ← maxNesting_de (de (splitText v) ++ .close :: de X), de_append, de_append]
        congr 2
        simp [de]
      rw [h2, this]
      simp [maxNesting, maxNesting_de]
    split
    · rename_i hv
      subst hv
      simp [shown, mark_nl, valsShown, i1, i2, i3, maxNesting]
    · refine ⟨?_, ?_, ?_⟩
      · simp only [List.cons_append, List.append_assoc, List.nil_append, shown, hs, i1]
        simp [valsShown]
      · simp only [List.cons_append, List.append_assoc, List.nil_append, depth_opn, Nat.zero_add, hd, i2]
      · simp only [List.cons_append, List.append_assoc, List.nil_append, maxNesting, Nat.zero_add, hm]
        omega

theorem simplify_nesting {a b : List Tok} (h : Simplify a b) (d : Nat) :
    maxNesting d b ≤ maxNesting d a := by
  have aux : ∀ (a x y : List Tok), (∀ d, maxNesting d x ≤ maxNesting d y) →
      ∀ d, maxNesting d (a ++ x) ≤ maxNesting d (a ++ y) := by
    intro a x y h
    induction a with
    | nil => exact h
    | cons t a ih =>
      intro d
      have i1 := ih d; have i2 := ih (d + 1); have i3 := ih (d - 1)
      cases t <;> simp only [List.cons_append, maxNesting] <;> omega
  cases h with
  | dropEmpty a b => exact aux a _ _ (fun d => by simp [maxNesting]) d
  | mergeBreaks a n m b => exact aux a _ _ (fun d => by simp [maxNesting]) d
  | moveOut a n b => exact aux a _ _ (fun d => by simp [maxNesting]) d
  | dropTrailing a n =>
    have := aux b [] [.newline n] (fun d => by simp [maxNesting]) d
    simpa using this
  | joinRuns a s t b => exact aux a _ _ (fun d => by simp [maxNesting]) d

theorem simplifies_nesting {a b : List Tok} (h : Simplifies a b) (d : Nat) :
    maxNesting d b ≤ maxNesting d a := by
  induction h with
  | refl => exact Nat.le_refl _
  | step s _ ih => exact Nat.le_trans ih (simplify_nesting s d)

/-- Every token of the formatted stream is proper. -/
theorem formatStream_proper (vals : List (Str × Str)) : ∀ t ∈ de (formatStream vals), t.Proper := by
  induction vals with
  | nil => simp [formatStream, de]
  | cons x vals ih =>
    obtain ⟨tt, v⟩ := x
    rw [formatStream_cons, formatValue_eq]
    intro t ht
    rcases List.mem_append.mp ht with ht | ht
    · split at ht
      · simp at ht; subst ht; simp [Tok.Proper]
      · simp only [List.cons_append, List.mem_cons, List.mem_append, List.not_mem_nil, or_false] at ht
        rcases ht with rfl | ht | rfl
        · trivial
        · have : t ∈ splitText v := List.mem_of_mem_filter ht
          rcases splitText_mem this with ⟨l, rfl, hl⟩ | rfl
          · exact hl
          · simp [Tok.Proper]
        · trivial
    · exact ih t ht

/-- The head of the loop state after a final line break (possibly followed by a closing) is a
newline token of at least that size. -/
theorem normLoop_append {res r : List Tok} (a b : List Tok) (h : normLoop res (a ++ b) = .ok r) :
    ∃ m, normLoop res a = .ok m ∧ normLoop m b = .ok r := by
  induction a generalizing res with
  | nil => exact ⟨res, rfl, h⟩
  | cons t a ih =>
    simp only [List.cons_append, normLoop] at h ⊢
    split at h
    · rename_i res' hs; exact ih h
    · cases h

theorem normalize_drops {X r : List Tok} {n : Nat} {tail : List Tok}
    (ht : tail = [.newline n] ∨ tail = [.newline n, .close])
    (h : normalizeTokens (X ++ tail) = .ok r) :
    ∃ k, n ≤ k ∧ shown [] r ++ List.replicate k ('\n', []) = shown [] (X ++ tail) := by
  unfold normalizeTokens at h
  split at h
  · rename_i res hl
    injection h with h
    have hs := normLoop_simplifies _ hl
    simp only [List.reverse_nil, List.nil_append] at hs
    obtain ⟨m, h1, h2⟩ := normLoop_append X tail hl
    have hres : ∃ k rest, n ≤ k ∧ res = .newline k :: rest := by
      have hnl : ∃ k rest, n ≤ k ∧ normStep m (.newline n) = .ok (.newline k :: rest) := by
        cases m with
        | nil => exact ⟨n, [], Nat.le_refl _, rfl⟩
        | cons u m =>
          cases u with
          | newline j => exact ⟨j + n, m, by omega, rfl⟩
          | _ => exact ⟨n, _, Nat.le_refl _, rfl⟩
      obtain ⟨k, rest, hk, hst⟩ := hnl
      rcases ht with rfl | rfl
      · simp only [normLoop, hst] at h2
        injection h2 with h2
        exact ⟨k, rest, hk, h2.symm⟩
      · rw [normLoop, hst] at h2
        simp only [normLoop, normStep] at h2
        injection h2 with h2
        exact ⟨k, _, hk, h2.symm⟩
    obtain ⟨k, rest, hk, rfl⟩ := hres
    simp only [popNewline] at h
    subst h
    -- the loop itself drops nothing
    have hexact : ∀ (ts res r : List Tok), normLoop res ts = .ok r →
        shown [] r.reverse = shown [] (res.reverse ++ ts) := by
      intro ts
      induction ts with
      | nil => intro res r h; simp [normLoop] at h; subst h; simp
      | cons t ts ih =>
        intro res r h
        simp only [normLoop] at h
        split at h
        · rename_i res' hst
          rw [ih _ _ h]
          unfold normStep at hst
          split at hst
          · injection hst with hst; subst hst; simp [shown_append, shown]
          · split at hst
            · injection hst with hst; subst hst
              simp [shown_append, shown, mark_nl, ← List.replicate_append_replicate]
            · injection hst with hst; subst hst; simp
          · split at hst
            · cases hst
            · injection hst with hst; subst hst; simp [shown_append, shown, mark_nl]
            · injection hst with hst; subst hst; simp
          · injection hst with hst; subst hst; simp
        · cases h
    have := hexact _ _ _ hl
    simp only [List.reverse_nil, List.nil_append, List.reverse_cons] at this
    refine ⟨k, hk, ?_⟩
    rw [← this, shown_append]
    simp [shown, mark_nl]
  · cases h

/-- A value ending in a line break ends the stream in a line break. -/
theorem formatStream_tail (vals : List (Str × Str)) (tt v : Str) :
    ∃ X tail, de (formatStream (vals ++ [(tt, v ++ ['\n'])])) = X ++ tail ∧
      (tail = [.newline 1] ∨ tail = [.newline 1, .close]) := by
  have : formatStream (vals ++ [(tt, v ++ ['\n'])]) = formatStream vals ++ formatValue tt (v ++ ['\n']) := by
    simp [formatStream]
  rw [this, de_append, formatValue_eq]
  split
  · exact ⟨_, _, rfl, .inl rfl⟩
  · rw [splitText_append_nl, de_append]
    have h0 : de (Tok.newline 1 :: splitText []) = [.newline 1] := by simp [splitText_nil, de]
    rw [h0]
    exact ⟨de (formatStream vals) ++ .opn ("pygments-".toList ++ tt) :: de (splitText v), _, by simp,
      .inr rfl⟩

end Verif.Text
