import Verif.Proofs.TextScan
import Mathlib.Tactic.Ring
import Mathlib.Data.List.Basic

/-! Helper lemmas for line numbers and line extraction. -/

namespace Verif.Text
open Spec

theorem lines_ne_nil (ts : List Tok) : lines ts ≠ [] := by
  cases ts with
  | nil => simp [lines]
  | cons t ts =>
    cases t <;> simp only [lines] <;> first | (split <;> simp) | skip
    intro h
    simp at h
    exact lines_ne_nil ts h.2

theorem lines_length (ts : List Tok) : numberOfLines ts = (lines ts).length := by
  have aux : ∀ (ts : List Tok) (a : Nat),
      ts.foldl (fun lines t => match t with | Tok.newline n => lines + n | _ => lines) a + 1 =
        a + (lines ts).length := by
    intro ts
    induction ts with
    | nil => intro a; simp [lines]
    | cons t ts ih =>
      intro a
      have hne := lines_ne_nil ts
      cases t with
      | newline n => simp [lines, ih]; omega
      | text s =>
        simp only [List.foldl_cons, ih, lines]
        cases h : lines ts with
        | nil => exact absurd h hne
        | cons l ls => simp
      | opn s =>
        simp only [List.foldl_cons, ih, lines]
        cases h : lines ts with
        | nil => exact absurd h hne
        | cons l ls => simp
      | close =>
        simp only [List.foldl_cons, ih, lines]
        cases h : lines ts with
        | nil => exact absurd h hne
        | cons l ls => simp
  have : numberOfLines ts + 1 = 1 + (lines ts).length := aux ts 1
  omega

/-- Prefix the first line. -/
theorem lines_cons {t : Tok} (ht : t.isNewline = false) {ts : List Tok} {l : List Tok}
    {ls : List (List Tok)} (h : lines ts = l :: ls) : lines (t :: ts) = (t :: l) :: ls := by
  cases t <;> simp_all [lines, Tok.isNewline]

theorem lines_append {a : List Tok} (ha : ∀ t ∈ a, t.isNewline = false) {ts : List Tok} {l : List Tok}
    {ls : List (List Tok)} (h : lines ts = l :: ls) : lines (a ++ ts) = (a ++ l) :: ls := by
  induction a with
  | nil => simpa using h
  | cons t a ih =>
    exact lines_cons (ha t (by simp)) (ih (fun t ht => ha t (by simp [ht])))

theorem lineLabel_no_newline (w k : Nat) : ∀ t ∈ lineLabel w k, t.isNewline = false := by
  simp [lineLabel, Tok.isNewline]

/-- Labels on consecutive lines. -/
def labelFrom (w : Nat) : Nat → List (List Tok) → List (List Tok)
  | _, [] => []
  | k, l :: ls => (lineLabel w k ++ l) :: labelFrom w (k + 1) ls

theorem lines_numberBreaks (w : Nat) (Y : List Tok) (l : List Tok) (ls : List (List Tok)) :
    ∀ n line, lines Y = l :: labelFrom w (line + n + 1) ls →
    lines (numberBreaks w line n ++ Y) =
      match List.replicate n [] ++ l :: ls with
      | [] => []
      | h :: t => h :: labelFrom w (line + 1) t := by
  intro n
  induction n with
  | zero => intro line h; simpa [numberBreaks] using h
  | succ n ih =>
    intro line h
    have ih := ih (line + 1) (by rw [h]; congr 2; omega)
    have hX : lines (lineLabel w (line + 1) ++ (numberBreaks w (line + 1) n ++ Y)) =
        labelFrom w (line + 1) (List.replicate n [] ++ l :: ls) := by
      cases hc : (List.replicate n ([] : List Tok) ++ l :: ls) with
      | nil => simp at hc
      | cons h' t' =>
        rw [hc] at ih
        simp only at ih
        rw [lines_append (lineLabel_no_newline _ _) ih]
        rfl
    simp only [numberBreaks, List.cons_append, List.append_assoc, lines, hX, List.replicate_succ]
    simp

theorem lines_numberLoop (w : Nat) (ts : List Tok) : ∀ line l ls, lines ts = l :: ls →
    lines (numberLoop w line ts) = l :: labelFrom w (line + 1) ls := by
  induction ts with
  | nil => intro line l ls h; simp [lines] at h; simp [numberLoop, lines, h.1, h.2, labelFrom]
  | cons t ts ih =>
    intro line l ls h
    obtain ⟨l', ls', hl⟩ : ∃ l' ls', lines ts = l' :: ls' := by
      cases hc : lines ts with
      | nil => exact absurd hc (lines_ne_nil ts)
      | cons a b => exact ⟨a, b, rfl⟩
    by_cases ht : t.isNewline = false
    · rw [lines_cons ht hl] at h
      injection h with h1 h2
      subst h1; subst h2
      have : numberLoop w line (t :: ts) = t :: numberLoop w line ts := by
        cases t <;> simp_all [numberLoop, Tok.isNewline]
      rw [this]
      exact lines_cons ht (ih line l' ls' hl)
    · cases t with
      | newline n =>
        simp only [lines, hl] at h
        simp only [numberLoop]
        rw [lines_numberBreaks w _ l' ls' n line (ih (line + n) l' ls' hl), h]
      | _ => simp [Tok.isNewline] at ht

theorem labelFrom_eq_mapIdx (w : Nat) (ls : List (List Tok)) : ∀ k,
    labelFrom w k ls = ls.mapIdx (fun i l => lineLabel w (k + i) ++ l) := by
  induction ls with
  | nil => intro k; rfl
  | cons l ls ih =>
    intro k
    simp only [labelFrom, List.mapIdx_cons, ih, Nat.add_zero]
    congr 2
    funext i l
    congr 2
    omega

theorem lines_addLineNumbers (toks : List Tok) :
    lines (addLineNumbers toks) =
      (lines toks).mapIdx (fun i l => lineLabel (natStr (lines toks).length).length (i + 1) ++ l) := by
  obtain ⟨l, ls, hl⟩ : ∃ l ls, lines toks = l :: ls := by
    cases hc : lines toks with
    | nil => exact absurd hc (lines_ne_nil toks)
    | cons a b => exact ⟨a, b, rfl⟩
  unfold addLineNumbers
  simp only [lines_length]
  rw [lines_append (lineLabel_no_newline _ _) (lines_numberLoop _ toks 1 l ls hl), hl,
    labelFrom_eq_mapIdx, List.mapIdx_cons]
  congr 2
  funext i l
  congr 2
  omega

theorem numberBreaks_depth (w : Nat) (Y : List Tok) (d : Nat) : ∀ n line,
    depth d (numberBreaks w line n ++ Y) = depth d Y := by
  intro n
  induction n with
  | zero => intro line; simp [numberBreaks]
  | succ n ih => intro line; simp [numberBreaks, lineLabel, ih]

theorem numberLoop_depth (w : Nat) (ts : List Tok) : ∀ line d,
    depth d (numberLoop w line ts) = depth d ts := by
  induction ts with
  | nil => intro line d; simp [numberLoop]
  | cons t ts ih =>
    intro line d
    cases t with
    | newline n => simp [numberLoop, numberBreaks_depth, ih]
    | text s => simp [numberLoop, ih]
    | opn s => simp [numberLoop, ih]
    | close => cases d <;> simp [numberLoop, ih]

theorem ofDigitChars_replicate_zero (n : Nat) (s : Str) :
    Nat.ofDigitChars 10 (List.replicate n '0' ++ s) 0 = Nat.ofDigitChars 10 s 0 := by
  induction n with
  | zero => simp
  | succ n ih =>
    simp only [List.replicate_succ, List.cons_append]
    rw [Nat.ofDigitChars_cons]
    simpa using ih

theorem toDigits_length_mono {a b : Nat} (h : a ≤ b) :
    (Nat.toDigits 10 a).length ≤ (Nat.toDigits 10 b).length := by
  have hpos : 0 < (Nat.toDigits 10 b).length := Nat.length_toDigits_pos
  rw [Nat.length_toDigits_le_iff (by omega) hpos]
  have := (Nat.length_toDigits_le_iff (b := 10) (n := b) (by omega) hpos).mp (le_refl _)
  omega

/-! ### extracting a line -/

theorem openBlocksRev_eq (ts : List Tok) : ∀ st d, depth st.length ts = some d →
    openBlocksRev st ts = .ok (stackAfter st ts) := by
  induction ts with
  | nil => intro st d _; simp [openBlocksRev, stackAfter]
  | cons t ts ih =>
    intro st d h
    cases t with
    | text s => simp [openBlocksRev, stackAfter] at *; exact ih _ _ h
    | newline s => simp [openBlocksRev, stackAfter] at *; exact ih _ _ h
    | opn s => simp [openBlocksRev, stackAfter] at *; exact ih _ _ (by simpa using h)
    | close =>
      cases st with
      | nil => simp at h
      | cons x st => simp [openBlocksRev, stackAfter] at *; exact ih _ _ h

theorem stackAfter_length (ts : List Tok) : ∀ st d, depth st.length ts = some d →
    (stackAfter st ts).length = d := by
  induction ts with
  | nil => intro st d h; simpa [stackAfter] using h
  | cons t ts ih =>
    intro st d h
    cases t with
    | text s => simp [stackAfter] at *; exact ih _ _ h
    | newline s => simp [stackAfter] at *; exact ih _ _ h
    | opn s => simp [stackAfter] at *; exact ih _ _ (by simpa using h)
    | close =>
      cases st with
      | nil => simp at h
      | cons x st => simp [stackAfter] at *; exact ih _ _ h

theorem openBlocksCount_eq (ts : List Tok) (d e : Nat) (h : depth d ts = some e) :
    openBlocksCount ts = (e : Int) - d := by
  have aux : ∀ (ts : List Tok) (d e : Nat) (a : Int), depth d ts = some e →
      ts.foldl (fun c t => match t with | Tok.opn _ => c + 1 | .close => c - 1 | _ => c) a =
        a + ((e : Int) - d) := by
    intro ts
    induction ts with
    | nil => intro d e a h; simp at h; simp [h]
    | cons t ts ih =>
      intro d e a h
      cases t with
      | text s => simp at h; simp [ih d e a h]
      | newline s => simp at h; simp [ih d e a h]
      | opn s => simp at h; simp [ih (d+1) e (a+1) h]; ring
      | close =>
        cases d with
        | zero => simp at h
        | succ d => simp at h; simp [ih d e (a-1) h]; ring
  have : openBlocksCount ts = 0 + ((e : Int) - d) := aux ts d e 0 h
  rw [this]; ring

theorem lineStart_spec (toks : List Tok) : ∀ i, i ≤ toks.length →
    lineStart toks i ≤ i ∧ (∀ t ∈ (toks.take i).drop (lineStart toks i), t.isNewline = false) ∧
    (lineStart toks i = 0 ∨ ∃ n, toks[lineStart toks i - 1]? = some (.newline n) ∧ 0 < lineStart toks i) := by
  intro i
  induction i with
  | zero => intro _; simp [lineStart]
  | succ i ih =>
    intro hi
    have hlt : i < toks.length := by omega
    have ⟨h1, h2, h3⟩ := ih (by omega)
    simp only [lineStart, List.getElem?_eq_getElem hlt]
    by_cases hn : toks[i].isNewline = true
    · simp only [hn, if_true]
      refine ⟨le_refl _, by simp, Or.inr ?_⟩
      cases ht : toks[i] with
      | newline n => exact ⟨n, by simp [List.getElem?_eq_getElem hlt, ht], by omega⟩
      | _ => rw [ht] at hn; simp [Tok.isNewline] at hn
    · simp only [hn, Bool.false_eq_true, if_false]
      refine ⟨by omega, ?_, h3⟩
      rw [List.take_succ_eq_append_getElem hlt, List.drop_append_of_le_length (by simp; omega)]
      intro t ht
      simp at ht
      rcases ht with ht | ht
      · exact h2 t (by simpa using ht)
      · subst ht; simpa using hn

theorem shown_opens (names : List Str) (X : List Tok) : ∀ st,
    shown st (names.map .opn ++ X) = shown (names.reverse ++ st) X := by
  induction names with
  | nil => intro st; simp
  | cons n names ih => intro st; simp [shown, ih]

theorem shown_closes (n : Nat) : ∀ st, shown st (List.replicate n .close) = [] := by
  induction n with
  | zero => intro st; simp [shown]
  | succ n ih => intro st; simp [List.replicate_succ, shown, ih]

theorem depth_opens (names : List Str) (d : Nat) :
    depth d (names.map .opn) = some (d + names.length) := by
  induction names generalizing d with
  | nil => simp
  | cons n names ih => simp [ih]; omega

theorem depth_closes (n d : Nat) : depth (d + n) (List.replicate n .close) = some d := by
  induction n with
  | zero => simp
  | succ n ih =>
    rw [List.replicate_succ, show d + (n + 1) = (d + n) + 1 by omega]
    simpa using ih

theorem shown_append_closes (X : List Tok) (n : Nat) (st : List Str) :
    shown st (X ++ List.replicate n .close) = shown st X := by
  rw [shown_append, shown_closes]; simp

end Verif.Text
