import Verif.Proofs.TextScan

/-! Helper lemmas for the round trip of styled documents. -/

namespace Verif.Text
open Spec

/-- Drop empty texts. -/
def de (ts : List Tok) : List Tok := ts.filter (fun t => decide (t ≠ .text []))

theorem de_append (a b : List Tok) : de (a ++ b) = de a ++ de b := by simp [de]

theorem normLoop_de (ts : List Tok) : ∀ res, normLoop res (de ts) = normLoop res ts := by
  induction ts with
  | nil => intro res; rfl
  | cons t ts ih =>
    intro res
    by_cases h : t = .text []
    · subst h
      have : de (Tok.text [] :: ts) = de ts := by simp [de]
      rw [this, ih]
      simp [normLoop, normStep]
    · have : de (t :: ts) = t :: de ts := by simp [de, h]
      rw [this]
      simp only [normLoop]
      split
      · exact ih _
      · rfl

theorem normalize_de (ts : List Tok) : normalizeTokens (de ts) = normalizeTokens ts := by
  simp [normalizeTokens, normLoop_de]

/-- Pending run as a stream. -/
def pend (cur : Str) : List Tok := if cur = [] then [] else [.text cur.reverse]

theorem de_splitText_pend {cur : Str} (h : '\n' ∉ cur) : de (splitText cur.reverse) = pend cur := by
  rw [splitText_of_notin (by simpa using h)]
  by_cases hc : cur = []
  · simp [hc, de, pend]
  · simp [hc, de, pend]

/-- A line break in the pending run can be emitted at once. -/
theorem scan_nl (esc : Option Char) (b e : Char) (pre : Str) (s : Str) : ∀ (cur : Str) (k : Nat),
    de (splitTexts (scan esc b e (cur ++ '\n' :: pre) k s).1) =
      de (splitText pre.reverse) ++ .newline 1 :: de (splitTexts (scan esc b e cur k s).1) ∧
    (scan esc b e (cur ++ '\n' :: pre) k s).2 = (scan esc b e cur k s).2 := by
  intro cur k
  have hsp : ∀ cur : Str, de (splitText (cur ++ '\n' :: pre).reverse) =
      de (splitText pre.reverse) ++ .newline 1 :: de (splitText cur.reverse) := by
    intro cur
    have : (cur ++ '\n' :: pre).reverse = pre.reverse ++ '\n' :: cur.reverse := by simp
    rw [this, splitText_append_nl, de_append]
    simp [de]
  refine scan_induct esc b e (fun cur k s =>
    de (splitTexts (scan esc b e (cur ++ '\n' :: pre) k s).1) =
      de (splitText pre.reverse) ++ .newline 1 :: de (splitTexts (scan esc b e cur k s).1) ∧
    (scan esc b e (cur ++ '\n' :: pre) k s).2 = (scan esc b e cur k s).2) ?_ ?_ ?_ ?_ s cur k
  · intro cur k
    have h0 : ¬ (cur ++ '\n' :: pre = []) := by simp
    rw [scan_nil, scan_nil, if_neg h0]
    refine ⟨?_, rfl⟩
    simp only [splitTexts, List.append_nil]
    rw [hsp]
    by_cases hc : cur = []
    · simp [hc, splitTexts, splitText_nil, de]
    · simp [hc, splitTexts]
  · intro cur k c cs h ih
    rw [scan_cons, scan_cons, if_pos h, if_pos h]
    refine ⟨?_, rfl⟩
    simp only [splitTexts]
    rw [de_append, hsp]
    simp [de]
  · intro cur k c cs h1 h2 h3 ih
    rw [scan_cons, scan_cons, if_neg h1, if_neg h1, if_pos ⟨h2, h3⟩, if_pos ⟨h2, h3⟩]
    refine ⟨?_, rfl⟩
    simp only [splitTexts]
    rw [de_append, hsp]
    simp [de]
  · intro cur k c cs h1 h2 ih
    rw [scan_cons, scan_cons, if_neg h1, if_neg h1, if_neg h2, if_neg h2]
    simpa using ih

theorem scan_run (x b e : Char) (s rest : Str) (hs : ∀ c ∈ s, c ≠ x ∧ c ≠ e ∧ c ≠ '\n') :
    ∀ cur k, scan (some x) b e cur k (s ++ rest) = scan (some x) b e (s.reverse ++ cur) k rest := by
  induction s with
  | nil => intro cur k; simp
  | cons c s ih =>
    intro cur k
    have hc := hs c (by simp)
    rw [List.cons_append, scan_cons, if_neg (by simp [hc.1]), if_neg (by simp [hc.2.1]),
      ih (fun c h => hs c (by simp [h]))]
    simp

theorem takeWhile_name {b : Char} {name : Str} (h : b ∉ name) (rest : Str) :
    (name ++ b :: rest).takeWhile (· ≠ b) = name ∧
      (name ++ b :: rest).dropWhile (· ≠ b) = b :: rest := by
  induction name with
  | nil => simp
  | cons c name ih =>
    simp at h
    have := ih h.2
    have hc : c ≠ b := fun hh => h.1 hh.symm
    simp_all

/-- Simplifications inside a context. -/
theorem join_pend (A : List Tok) (cur s : Str) (B : List Tok) :
    Simplifies (A ++ pend cur ++ .text s :: B) (A ++ pend (s.reverse ++ cur) ++ B) := by
  by_cases hc : cur = []
  · by_cases hs : s = []
    · subst hc; subst hs
      simp [pend]
      exact .step (.dropEmpty _ _) (.refl _)
    · subst hc
      simp [pend, hs]
      exact .refl _
  · simp [pend, hc]
    exact .step (.joinRuns _ _ _ _) (.refl _)

theorem doc_scan (x b e : Char) (hxe : x ≠ e) (hx : x ≠ '\n') (he : e ≠ '\n') (d : Doc) :
    d.Writable x b e → ∀ (cur : Str) (k : Nat) (rest : Str), '\n' ∉ cur →
    ∃ (pre : List Tok) (cur' : Str), '\n' ∉ cur' ∧
      de (splitTexts (scan (some x) b e cur k (d.source x b e ++ rest)).1) =
        pre ++ de (splitTexts (scan (some x) b e cur' k rest).1) ∧
      (scan (some x) b e cur k (d.source x b e ++ rest)).2 = (scan (some x) b e cur' k rest).2 ∧
      ∀ A B, Simplifies (A ++ pend cur ++ d.tokens ++ B) (A ++ pre ++ pend cur' ++ B) := by
  induction d with
  | nil =>
    intro _ cur k rest hcur
    exact ⟨[], cur, hcur, by simp [Doc.source], by simp [Doc.source],
      fun A B => by simpa [Doc.tokens] using Simplifies.refl _⟩
  | run s d ih =>
    intro ⟨hs, hw⟩ cur k rest hcur
    obtain ⟨pre, cur', h1, h2, h3, h4⟩ := ih hw (s.reverse ++ cur) k rest (by
      simp only [List.mem_append, List.mem_reverse, not_or]
      exact ⟨fun h => (hs _ h).2.2 rfl, hcur⟩)
    refine ⟨pre, cur', h1, ?_, ?_, ?_⟩
    · simp only [Doc.source, List.append_assoc]; rw [scan_run x b e s _ hs, h2]
    · simp only [Doc.source, List.append_assoc]; rw [scan_run x b e s _ hs, h3]
    · intro A B
      have := (join_pend A cur s (d.tokens ++ B)).trans (by simpa using h4 A B)
      simpa [Doc.tokens] using this
  | lineBreak d ih =>
    intro hw cur k rest hcur
    obtain ⟨pre, cur', h1, h2, h3, h4⟩ := ih hw [] k rest (by simp)
    have hsc : scan (some x) b e cur k ('\n' :: (d.source x b e ++ rest)) =
        scan (some x) b e ([] ++ '\n' :: cur) k (d.source x b e ++ rest) := by
      rw [scan_cons, if_neg (by simp [Ne.symm hx]), if_neg (by simp [Ne.symm he])]; rfl
    have hnl := scan_nl (some x) b e cur (d.source x b e ++ rest) [] k
    refine ⟨pend cur ++ .newline 1 :: pre, cur', h1, ?_, ?_, ?_⟩
    · simp only [Doc.source, List.cons_append]
      rw [hsc, hnl.1, h2, de_splitText_pend hcur]; simp
    · simp only [Doc.source, List.cons_append]
      rw [hsc, hnl.2, h3]
    · intro A B
      have := h4 (A ++ pend cur ++ [.newline 1]) B
      simpa [Doc.tokens, pend] using this
  | styled name inner d ih1 ih2 =>
    intro ⟨hn, hwi, hw⟩ cur k rest hcur
    obtain ⟨pre, cur', h1, h2, h3, h4⟩ := ih1 hwi [] (k + 1) (e :: d.source x b e ++ rest) (by simp)
    obtain ⟨pre2, cur2, g1, g2, g3, g4⟩ := ih2 hw [] k rest (by simp)
    have hsrc : (Doc.styled name inner d).source x b e ++ rest =
        x :: (name ++ b :: (inner.source x b e ++ (e :: d.source x b e ++ rest))) := by
      simp [Doc.source]
    have htw := takeWhile_name hn (inner.source x b e ++ (e :: d.source x b e ++ rest))
    have hclose : scan (some x) b e cur' (k + 1) (e :: d.source x b e ++ rest) =
        (.text cur'.reverse :: .close :: (scan (some x) b e [] k (d.source x b e ++ rest)).1,
          (scan (some x) b e [] k (d.source x b e ++ rest)).2) := by
      rw [List.cons_append, scan_cons, if_neg (by simp [Ne.symm hxe]), if_pos ⟨rfl, by omega⟩]
      rfl
    refine ⟨pend cur ++ .opn name :: pre ++ pend cur' ++ .close :: pre2, cur2, g1, ?_, ?_, ?_⟩
    · rw [hsrc, scan_cons, if_pos rfl, htw.1, htw.2]
      simp only [splitTexts, List.tail_cons]
      rw [de_append, de_splitText_pend hcur]
      have : de (Tok.opn name :: splitTexts
          (scan (some x) b e [] (k + 1) (inner.source x b e ++ (e :: d.source x b e ++ rest))).1) =
          .opn name :: de (splitTexts
          (scan (some x) b e [] (k + 1) (inner.source x b e ++ (e :: d.source x b e ++ rest))).1) := by
        simp [de]
      rw [this, h2, hclose]
      simp only [splitTexts]
      rw [de_append, de_splitText_pend h1]
      have : ∀ ts, de (Tok.close :: ts) = .close :: de ts := by intro ts; simp [de]
      rw [this, g2]
      simp
    · rw [hsrc, scan_cons, if_pos rfl, htw.1, htw.2]
      simp only [List.tail_cons]
      rw [h3, hclose]
      exact g3
    · intro A B
      have s1 := h4 (A ++ pend cur ++ [.opn name]) (.close :: d.tokens ++ B)
      have s2 := g4 (A ++ pend cur ++ .opn name :: pre ++ pend cur' ++ [.close]) B
      have s1' : Simplifies (A ++ pend cur ++ (Doc.styled name inner d).tokens ++ B)
          (A ++ pend cur ++ .opn name :: pre ++ pend cur' ++ .close :: d.tokens ++ B) := by
        simpa [Doc.tokens, pend] using s1
      refine s1'.trans ?_
      simpa [pend] using s2

end Verif.Text
