import Verif.Proofs.TextDoc
import Mathlib.Data.List.Chain

/-! Parsed texts have no two adjacent text runs. -/

namespace Verif.Text
open Spec

def Tok.isText : Tok → Bool
  | .text _ => true
  | _ => false

/-- Not both tokens are texts. -/
def NT (a b : Tok) : Prop := ¬ (a.isText = true ∧ b.isText = true)

theorem nt_left {a b : Tok} (h : a.isText = false) : NT a b := by simp [NT, h]
theorem nt_right {a b : Tok} (h : b.isText = false) : NT a b := by simp [NT, h]

theorem chain_replace_text {s s' : Str} {ts : List Tok} (h : List.IsChain NT (.text s :: ts)) :
    List.IsChain NT (.text s' :: ts) := by
  cases ts with
  | nil => simp
  | cons t ts =>
    rw [List.isChain_cons_cons] at h ⊢
    exact ⟨by simpa [NT, Tok.isText] using h.1, h.2⟩

theorem splitText_chain (s : Str) (rest : List Tok) (h : List.IsChain NT (.text [] :: rest)) :
    List.IsChain NT (splitText s ++ rest) := by
  induction s with
  | nil => simpa [splitText_nil] using h
  | cons c s ih =>
    by_cases hc : c = '\n'
    · subst hc
      rw [splitText_cons_nl]
      obtain ⟨l, us, hs⟩ := splitText_head s
      rw [hs] at ih ⊢
      simp only [List.cons_append, List.isChain_cons_cons] at ih ⊢
      exact ⟨nt_right rfl, nt_left rfl, ih⟩
    · obtain ⟨l, us, hs⟩ := splitText_head s
      rw [splitText_cons hc s l us hs]
      rw [hs] at ih
      exact chain_replace_text ih

theorem scan_chain (esc : Option Char) (b e : Char) (s : Str) : ∀ (cur : Str) (k : Nat),
    List.IsChain NT (splitTexts (scan esc b e cur k s).1) := by
  intro cur k
  refine scan_induct esc b e (fun cur k s =>
    List.IsChain NT (splitTexts (scan esc b e cur k s).1)) ?_ ?_ ?_ ?_ s cur k
  · intro cur k
    rw [scan_nil]
    by_cases h : cur = []
    · simp [h, splitTexts]
    · have := splitText_chain cur.reverse [] (by simp)
      simpa [h, splitTexts] using this
  · intro cur k c cs h ih
    rw [scan_cons, if_pos h]
    simp only [splitTexts]
    apply splitText_chain
    rw [List.isChain_cons_cons]
    refine ⟨nt_right rfl, ?_⟩
    generalize splitTexts _ = l at ih
    cases l with
    | nil => simp
    | cons t l => rw [List.isChain_cons_cons]; exact ⟨nt_left rfl, ih⟩
  · intro cur k c cs h1 h2 h3 ih
    rw [scan_cons, if_neg h1, if_pos ⟨h2, h3⟩]
    simp only [splitTexts]
    apply splitText_chain
    rw [List.isChain_cons_cons]
    refine ⟨nt_right rfl, ?_⟩
    generalize splitTexts _ = l at ih
    cases l with
    | nil => simp
    | cons t l => rw [List.isChain_cons_cons]; exact ⟨nt_left rfl, ih⟩
  · intro cur k c cs h1 h2 ih
    rw [scan_cons, if_neg h1, if_neg h2]; exact ih

theorem chain_cons_of_nt {a : Tok} {l : List Tok} (ha : a.isText = false) (h : List.IsChain NT l) :
    List.IsChain NT (a :: l) := by
  cases l with
  | nil => simp
  | cons t l => rw [List.isChain_cons_cons]; exact ⟨nt_left ha, h⟩

/-- Removing or permuting non-text neighbours keeps runs apart. -/
theorem normStep_chain {res res' : List Tok} {t : Tok} (h : normStep res t = .ok res')
    (ts : List Tok) (hc : List.IsChain NT (res.reverse ++ t :: ts)) :
    List.IsChain NT (res'.reverse ++ ts) := by
  unfold normStep at h
  split at h
  · injection h with h; subst h
    rw [List.isChain_append] at hc ⊢
    obtain ⟨h1, h2, h3⟩ := hc
    cases ts with
    | nil => simpa using h1
    | cons u ts =>
      rw [List.isChain_cons_cons] at h2
      refine ⟨h1, h2.2, ?_⟩
      intro x _ y hy
      simp at hy; subst hy
      have : u.isText = false := by simpa [NT, Tok.isText] using h2.1
      exact nt_right this
  · split at h
    · injection h with h; subst h
      simp only [List.reverse_cons, List.append_assoc, List.singleton_append] at hc ⊢
      rw [List.isChain_append_cons_cons] at hc
      rw [List.isChain_split] 
      obtain ⟨h1, h2, h3⟩ := hc
      refine ⟨?_, ?_⟩
      · rw [List.isChain_append] at h1 ⊢
        refine ⟨h1.1, by simp, ?_⟩
        intro x _ y hy
        simp at hy; subst hy
        exact nt_right rfl
      · exact chain_cons_of_nt rfl h3.tail
    · injection h with h; subst h; simpa using hc
  · split at h
    · cases h
    · injection h with h; subst h
      simp only [List.reverse_cons, List.append_assoc, List.cons_append,
        List.nil_append] at hc ⊢
      rw [List.isChain_append_cons_cons] at hc ⊢
      obtain ⟨h1, h2, h3⟩ := hc
      refine ⟨?_, nt_left rfl, chain_cons_of_nt rfl h3.tail⟩
      rw [List.isChain_append] at h1 ⊢
      refine ⟨h1.1, by simp, ?_⟩
      intro x _ y hy
      simp at hy; subst hy
      exact nt_right rfl
    · injection h with h; subst h; simpa using hc
  · injection h with h; subst h; simpa using hc

theorem normLoop_chain {r : List Tok} (ts : List Tok) : ∀ res, normLoop res ts = .ok r →
    List.IsChain NT (res.reverse ++ ts) → List.IsChain NT r.reverse := by
  induction ts with
  | nil => intro res h hc; simp [normLoop] at h; subst h; simpa using hc
  | cons t ts ih =>
    intro res h hc
    simp only [normLoop] at h
    split at h
    · rename_i res' hs; exact ih _ h (normStep_chain hs ts hc)
    · cases h

theorem normalize_chain {ts r : List Tok} (h : normalizeTokens ts = .ok r)
    (hc : List.IsChain NT ts) : List.IsChain NT r := by
  unfold normalizeTokens at h
  split at h
  · rename_i res hl
    injection h with h
    have h1 := normLoop_chain ts [] hl (by simpa using hc)
    subst h
    cases res with
    | nil => exact h1
    | cons t res =>
      cases t with
      | newline n =>
        simp only [popNewline, List.reverse_cons] at h1 ⊢
        exact (List.isChain_append.mp h1).1
      | _ => exact h1
  · cases h

theorem parse_no_adjacent {esc : Option Char} {b e : Char} {s : Str} {toks : List Tok}
    (h : parseText esc b e s = .ok toks) : ∀ a s t b, toks ≠ a ++ .text s :: .text t :: b := by
  have := normalize_chain (parseText_ok h).2 (scan_chain _ _ _ _ _ _)
  intro a s t b' he
  rw [he, List.isChain_append_cons_cons] at this
  exact this.2.1 ⟨rfl, rfl⟩

end Verif.Text
