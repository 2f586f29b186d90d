import Verif.Proofs.TextBasic
import Mathlib.Tactic.Tauto

/-! Helper lemmas about `parse_text`. -/

namespace Verif.Text
open Spec

/-! ### splitting texts at line breaks -/

theorem splitOn_ne_nil (c : Char) (s : Str) : splitOn c s ≠ [] := by
  cases s with
  | nil => simp [splitOn]
  | cons x xs => simp only [splitOn]; split; · simp
                 split <;> simp

theorem splitText_nil : splitText [] = [.text []] := rfl

theorem splitText_cons_nl (s : Str) : splitText ('\n' :: s) = .text [] :: .newline 1 :: splitText s := by
  simp only [splitText, splitOn, if_true]
  cases h : splitOn '\n' s with
  | nil => exact absurd h (splitOn_ne_nil _ _)
  | cons l ls => simp

/-- First text of a split. -/
theorem splitText_head (s : Str) : ∃ l ts, splitText s = .text l :: ts := by
  unfold splitText
  cases h : splitOn '\n' s with
  | nil => exact absurd h (splitOn_ne_nil _ _)
  | cons l ls => exact ⟨l, _, rfl⟩

theorem splitText_cons {c : Char} (hc : c ≠ '\n') (s : Str) (l : Str) (ts : List Tok)
    (h : splitText s = .text l :: ts) : splitText (c :: s) = .text (c :: l) :: ts := by
  unfold splitText at *
  simp only [splitOn, hc, if_false]
  cases hs : splitOn '\n' s with
  | nil => exact absurd hs (splitOn_ne_nil _ _)
  | cons l' ls => simp_all

theorem splitText_of_notin {s : Str} (h : '\n' ∉ s) : splitText s = [.text s] := by
  induction s with
  | nil => rfl
  | cons c s ih =>
    simp at h
    exact splitText_cons (Ne.symm h.1) s s [] (ih h.2)

/-- Streams with only texts and newlines, seen through `shown`. -/
theorem shown_splitText (st : List Str) (s : Str) (ts : List Tok) :
    shown st (splitText s ++ ts) = s.map (mark st) ++ shown st ts := by
  induction s with
  | nil => simp [splitText_nil, shown]
  | cons c s ih =>
    by_cases hc : c = '\n'
    · subst hc
      simp [splitText_cons_nl, shown, ih, List.replicate]
    · obtain ⟨l, us, h⟩ := splitText_head s
      rw [splitText_cons hc s l us h]
      rw [h] at ih
      simp [shown] at ih ⊢
      exact ih

theorem depth_splitText (d : Nat) (s : Str) (ts : List Tok) :
    depth d (splitText s ++ ts) = depth d ts := by
  induction s with
  | nil => simp [splitText_nil]
  | cons c s ih =>
    by_cases hc : c = '\n'
    · subst hc
      simp [splitText_cons_nl, ih]
    · obtain ⟨l, us, h⟩ := splitText_head s
      rw [splitText_cons hc s l us h]
      rw [h] at ih
      simpa using ih

theorem splitText_append_nl (a b : Str) :
    splitText (a ++ '\n' :: b) = splitText a ++ .newline 1 :: splitText b := by
  induction a with
  | nil => simp [splitText_cons_nl, splitText_nil]
  | cons c a ih =>
    by_cases hc : c = '\n'
    · subst hc; simp [splitText_cons_nl, ih]
    · obtain ⟨l, us, h⟩ := splitText_head a
      have h' : splitText (a ++ '\n' :: b) = .text l :: (us ++ .newline 1 :: splitText b) := by
        rw [ih, h]; rfl
      rw [List.cons_append, splitText_cons hc _ _ _ h', splitText_cons hc _ _ _ h]; rfl

theorem splitTexts_append (a b : List Tok) : splitTexts (a ++ b) = splitTexts a ++ splitTexts b := by
  induction a with
  | nil => rfl
  | cons t a ih => cases t <;> simp [splitTexts, ih]

theorem splitText_mem {s : Str} {t : Tok} (h : t ∈ splitText s) :
    (∃ l, t = .text l ∧ '\n' ∉ l) ∨ t = .newline 1 := by
  induction s generalizing t with
  | nil => simp [splitText_nil] at h; left; exact ⟨[], h, by simp⟩
  | cons c s ih =>
    by_cases hc : c = '\n'
    · subst hc
      rw [splitText_cons_nl] at h
      simp at h
      rcases h with h | h | h
      · left; exact ⟨[], h, by simp⟩
      · right; exact h
      · exact ih h
    · obtain ⟨l, us, hs⟩ := splitText_head s
      rw [splitText_cons hc s l us hs] at h
      simp at h
      rcases h with h | h
      · left
        refine ⟨_, h, ?_⟩
        have := ih (t := .text l) (by rw [hs]; simp)
        simp at this
        simpa [Ne.symm hc] using this
      · exact ih (by rw [hs]; simp [h])

/-! ### the scanner against the specification -/

/-- Reading the style name. -/
theorem readSource_name (esc : Option Char) (b e : Char) (st : List Str) (acc cs : Str) :
    readSource esc b e st (some acc) cs =
      match cs.dropWhile (· ≠ b) with
      | [] => []
      | _ :: rest => readSource esc b e ((acc.reverse ++ cs.takeWhile (· ≠ b)) :: st) none rest := by
  induction cs generalizing acc with
  | nil => simp [readSource]
  | cons c cs ih =>
    by_cases hc : c = b
    · simp [readSource, hc]
    · simp [readSource, hc, ih]

theorem unclosed_name (esc : Option Char) (b e : Char) (d : Nat) (cs : Str) :
    unclosed esc b e d true cs =
      match cs.dropWhile (· ≠ b) with
      | [] => true
      | _ :: rest => unclosed esc b e (d + 1) false rest := by
  induction cs with
  | nil => simp [unclosed]
  | cons c cs ih =>
    by_cases hc : c = b
    · simp [unclosed, hc]
    · simp [unclosed, hc, ih]

theorem scan_nil (esc : Option Char) (b e : Char) (cur : Str) (k : Nat) :
    scan esc b e cur k [] = (if cur = [] then [] else [.text cur.reverse], k) := by
  unfold scan; rfl

theorem scan_cons (esc : Option Char) (b e : Char) (cur : Str) (k : Nat) (c : Char) (cs : Str) :
    scan esc b e cur k (c :: cs) =
      if some c = esc then
        (.text cur.reverse :: .opn (cs.takeWhile (· ≠ b)) ::
            (scan esc b e [] (k + 1) (cs.dropWhile (· ≠ b)).tail).1,
          (scan esc b e [] (k + 1) (cs.dropWhile (· ≠ b)).tail).2)
      else if c = e ∧ 1 ≤ k then
        (.text cur.reverse :: .close :: (scan esc b e [] (k - 1) cs).1, (scan esc b e [] (k - 1) cs).2)
      else scan esc b e (c :: cur) k cs := by
  rw [scan]

theorem scan_induct (esc : Option Char) (b e : Char) (P : Str → Nat → Str → Prop)
    (hnil : ∀ cur k, P cur k [])
    (hesc : ∀ cur k c cs, some c = esc → P [] (k + 1) (cs.dropWhile (· ≠ b)).tail → P cur k (c :: cs))
    (hend : ∀ cur k c cs, some c ≠ esc → c = e → 1 ≤ k → P [] (k - 1) cs → P cur k (c :: cs))
    (hchr : ∀ cur k c cs, some c ≠ esc → ¬ (c = e ∧ 1 ≤ k) → P (c :: cur) k cs → P cur k (c :: cs)) :
    ∀ s cur k, P cur k s := by
  intro s
  induction hn : s.length using Nat.strongRecOn generalizing s with
  | _ n ih =>
    intro cur k
    cases s with
    | nil => exact hnil _ _
    | cons c cs =>
      simp at hn
      by_cases h1 : some c = esc
      · refine hesc _ _ _ _ h1 (ih _ ?_ _ rfl _ _)
        have h := (List.dropWhile_suffix (l := cs) (fun x => decide (x ≠ b))).length_le
        simp only [List.length_tail]
        omega
      · by_cases h2 : c = e ∧ 1 ≤ k
        · exact hend _ _ _ _ h1 h2.1 h2.2 (ih _ (by omega) _ rfl _ _)
        · exact hchr _ _ _ _ h1 h2 (ih _ (by omega) _ rfl _ _)

theorem scan_shown (esc : Option Char) (b e : Char) (s : Str) : ∀ (cur : Str) (k : Nat)
    (st : List Str), st.length = k →
    shown st (splitTexts (scan esc b e cur k s).1) =
      cur.reverse.map (mark st) ++ readSource esc b e st none s := by
  intro cur k
  refine scan_induct esc b e (fun cur k s => ∀ st : List Str, st.length = k →
    shown st (splitTexts (scan esc b e cur k s).1) =
      cur.reverse.map (mark st) ++ readSource esc b e st none s) ?_ ?_ ?_ ?_ s cur k
  · intro cur k st _
    rw [scan_nil]
    by_cases h : cur = []
    · simp [h, splitTexts, shown, readSource]
    · have := shown_splitText st cur.reverse []
      simpa [h, splitTexts, shown, readSource] using this
  · intro cur k c cs h ih st hst
    rw [scan_cons, if_pos h]
    simp only [splitTexts, shown_splitText, shown, readSource, if_pos h]
    rw [readSource_name, ih (cs.takeWhile (· ≠ b) :: st) (by simp [hst])]
    congr 1
    cases hd : cs.dropWhile (· ≠ b) with
    | nil => simp [readSource]
    | cons x xs => simp
  · intro cur k c cs h1 h2 h3 ih st hst
    have hne : st ≠ [] := by intro h; subst h; simp at hst; omega
    rw [scan_cons, if_neg h1, if_pos ⟨h2, h3⟩]
    simp only [splitTexts, shown_splitText, shown, readSource, if_neg h1, if_pos (And.intro h2 hne)]
    rw [ih st.tail (by simp [hst])]
    simp
  · intro cur k c cs h1 h2 ih st hst
    have hne : ¬ (c = e ∧ st ≠ []) := by
      intro ⟨ha, hb⟩
      apply h2 ⟨ha, ?_⟩
      have := List.length_pos_iff.mpr hb
      omega
    rw [scan_cons, if_neg h1, if_neg h2, ih st hst]
    simp [readSource, if_neg h1, if_neg hne]

theorem scan_unclosed (esc : Option Char) (b e : Char) (s : Str) : ∀ (cur : Str) (k : Nat),
    (0 < (scan esc b e cur k s).2 ↔ unclosed esc b e k false s = true) := by
  intro cur k
  refine scan_induct esc b e (fun cur k s =>
    (0 < (scan esc b e cur k s).2 ↔ unclosed esc b e k false s = true)) ?_ ?_ ?_ ?_ s cur k
  · intro cur k
    simp [scan_nil, unclosed]; omega
  · intro cur k c cs h ih
    rw [scan_cons, if_pos h]
    simp only [unclosed, if_pos h]
    rw [unclosed_name, ih]
    cases hd : cs.dropWhile (· ≠ b) with
    | nil => simp [unclosed]
    | cons x xs => simp
  · intro cur k c cs h1 h2 h3 ih
    rw [scan_cons, if_neg h1, if_pos ⟨h2, h3⟩]
    simp only [unclosed, if_neg h1, if_pos (And.intro h2 (show k ≠ 0 by omega))]
    exact ih
  · intro cur k c cs h1 h2 ih
    rw [scan_cons, if_neg h1, if_neg h2]
    have : ¬ (c = e ∧ k ≠ 0) := fun ⟨a, b⟩ => h2 ⟨a, by omega⟩
    simp only [unclosed, if_neg h1, if_neg this]
    exact ih

theorem scan_depth (esc : Option Char) (b e : Char) (s : Str) : ∀ (cur : Str) (k : Nat),
    depth k (splitTexts (scan esc b e cur k s).1) = some (scan esc b e cur k s).2 := by
  intro cur k
  refine scan_induct esc b e (fun cur k s =>
    depth k (splitTexts (scan esc b e cur k s).1) = some (scan esc b e cur k s).2) ?_ ?_ ?_ ?_ s cur k
  · intro cur k
    rw [scan_nil]
    by_cases h : cur = []
    · simp [h, splitTexts]
    · have := depth_splitText k cur.reverse []
      simpa [h, splitTexts] using this
  · intro cur k c cs h ih
    rw [scan_cons, if_pos h]
    simp only [splitTexts, depth_splitText, depth_opn]
    exact ih
  · intro cur k c cs h1 h2 h3 ih
    rw [scan_cons, if_neg h1, if_pos ⟨h2, h3⟩]
    simp only [splitTexts, depth_splitText]
    obtain ⟨j, rfl⟩ : ∃ j, k = j + 1 := ⟨k - 1, by omega⟩
    simpa using ih
  · intro cur k c cs h1 h2 ih
    rw [scan_cons, if_neg h1, if_neg h2]; exact ih

/-! ### invariants of every token -/

theorem simplify_forall {P : Tok → Prop} (hnl : ∀ n m, P (.newline n) → P (.newline m) → P (.newline (n + m)))
    (htx : ∀ s t, P (.text s) → P (.text t) → P (.text (s ++ t)))
    {a b : List Tok} (h : Simplify a b) (ha : ∀ t ∈ a, P t) : ∀ t ∈ b, P t := by
  cases h with
  | dropEmpty a b => intro t ht; apply ha; simp at ht ⊢; tauto
  | mergeBreaks a n m b =>
    intro t ht
    simp at ht
    rcases ht with ht | ht | ht
    · exact ha t (by simp [ht])
    · subst ht; exact hnl _ _ (ha _ (by simp)) (ha _ (by simp))
    · exact ha t (by simp [ht])
  | moveOut a n b => intro t ht; apply ha; simp at ht ⊢; tauto
  | dropTrailing a n => intro t ht; apply ha; simp [ht]
  | joinRuns a s t' b =>
    intro t ht
    simp at ht
    rcases ht with ht | ht | ht
    · exact ha t (by simp [ht])
    · subst ht; exact htx _ _ (ha _ (by simp)) (ha _ (by simp))
    · exact ha t (by simp [ht])

theorem simplifies_forall {P : Tok → Prop} (hnl : ∀ n m, P (.newline n) → P (.newline m) → P (.newline (n + m)))
    (htx : ∀ s t, P (.text s) → P (.text t) → P (.text (s ++ t)))
    {a b : List Tok} (h : Simplifies a b) (ha : ∀ t ∈ a, P t) : ∀ t ∈ b, P t := by
  induction h with
  | refl => exact ha
  | step s _ ih => exact ih (simplify_forall hnl htx s ha)

/-- A text run has no line break and a newline token stands for at least one. -/
def Tok.Proper : Tok → Prop
  | .text s => '\n' ∉ s
  | .newline n => 1 ≤ n
  | _ => True

theorem splitTexts_proper (ts : List Tok) (h : ∀ n, Tok.newline n ∉ ts) :
    ∀ t ∈ splitTexts ts, t.Proper := by
  induction ts with
  | nil => simp [splitTexts]
  | cons u ts ih =>
    have ih := ih (fun n hn => h n (by simp [hn]))
    intro t ht
    cases u with
    | text s =>
      simp only [splitTexts, List.mem_append] at ht
      rcases ht with ht | ht
      · rcases splitText_mem ht with ⟨l, rfl, hl⟩ | rfl
        · exact hl
        · simp [Tok.Proper]
      · exact ih t ht
    | newline n => exact absurd (by simp) (h n)
    | opn s =>
      simp [splitTexts] at ht
      rcases ht with rfl | ht
      · trivial
      · exact ih t ht
    | close =>
      simp [splitTexts] at ht
      rcases ht with rfl | ht
      · trivial
      · exact ih t ht

theorem scan_no_newline (esc : Option Char) (b e : Char) (s : Str) : ∀ (cur : Str) (k : Nat) (n : Nat),
    Tok.newline n ∉ (scan esc b e cur k s).1 := by
  intro cur k n
  refine scan_induct esc b e (fun cur k s => Tok.newline n ∉ (scan esc b e cur k s).1) ?_ ?_ ?_ ?_ s cur k
  · intro cur k
    rw [scan_nil]
    by_cases h : cur = [] <;> simp [h]
  · intro cur k c cs h ih
    rw [scan_cons, if_pos h]; simpa using ih
  · intro cur k c cs h1 h2 h3 ih
    rw [scan_cons, if_neg h1, if_pos ⟨h2, h3⟩]; simpa using ih
  · intro cur k c cs h1 h2 ih
    rw [scan_cons, if_neg h1, if_neg h2]; exact ih

/-- What a successful parse is. -/
theorem parseText_ok {esc : Option Char} {b e : Char} {s : Str} {toks : List Tok}
    (h : parseText esc b e s = .ok toks) :
    (scan esc b e [] 0 s).2 = 0 ∧ normalizeTokens (splitTexts (scan esc b e [] 0 s).1) = .ok toks := by
  unfold parseText at h
  simp only at h
  split at h
  · cases h
  · exact ⟨by omega, h⟩

end Verif.Text
