import Verif.Spec.Colors
import Mathlib.Tactic.Common
import Mathlib.Tactic.Linarith
import Mathlib.Tactic.NormNum
import Mathlib.Tactic.IntervalCases
import Mathlib.Data.List.Basic
import Mathlib.Data.Rat.Floor

/-! Helper lemmas for colours. -/

namespace Verif.Colors
open Spec

theorem digit_table : ∀ d : Fin 16, ∀ c ∈ ["0123456789abcdef".toList[d.val]?, "0123456789ABCDEF".toList[d.val]?], ∃ x, c = some x ∧ isHex x = true ∧ hexDigit (lowerHex x) = d.val ∧
    lowerHex x ≠ '\n' ∧ x ≠ '\n' ∧ "0123456789abcdef".toList[d.val]? = some (lowerHex x) ∧ x.toNat < 128 := by
  have h : ∀ d : Fin 16, ∀ c ∈ ["0123456789abcdef".toList[d.val]?, "0123456789ABCDEF".toList[d.val]?], c.isSome = true ∧ isHex (c.getD '?') = true ∧
    hexDigit (lowerHex (c.getD '?')) = d.val ∧
    lowerHex (c.getD '?') ≠ '\n' ∧ c.getD '?' ≠ '\n' ∧ "0123456789abcdef".toList[d.val]? = some (lowerHex (c.getD '?')) ∧ (c.getD '?').toNat < 128 := by decide +kernel
  intro d c hc
  obtain ⟨h1, h2⟩ := h d c hc
  cases c with
  | none => cases h1
  | some x => exact ⟨x, rfl, h2⟩

theorem digit_facts {c : Char} {d : Nat} (h : IsDigit c d) : d < 16 ∧ isHex c = true ∧ hexDigit (lowerHex c) = d ∧ lowerHex c ≠ '\n' ∧ c ≠ '\n' ∧
    IsDigit (lowerHex c) d ∧ c.toNat < 128 := by
  have hd : d < 16 := by
    have l1 : "0123456789abcdef".toList.length = 16 := by decide
    have l2 : "0123456789ABCDEF".toList.length = 16 := by decide
    by_contra hn
    rcases h with h | h
    · rw [List.getElem?_eq_none (by omega)] at h; cases h
    · rw [List.getElem?_eq_none (by omega)] at h; cases h
  have key := digit_table ⟨d, hd⟩ (some c) (by
    simp only [List.mem_cons, List.not_mem_nil, or_false]
    rcases h with h | h
    · exact Or.inl h.symm
    · exact Or.inr h.symm)
  obtain ⟨x, hx, k1, k2, k3, k4, k5, k6⟩ := key
  injection hx with hx
  subst hx
  exact ⟨hd, k1, k2, k3, k4, Or.inl k5, k6⟩

theorem hex_digit {c : Char} (h : isHex c = true) : ∃ d, IsDigit c d := by
  have key : ∀ n : Fin 103, isHex (Char.ofNat n.val) = true → ∃ d : Fin 16, "0123456789abcdef".toList[d.val]? = some (Char.ofNat n.val) ∨
      "0123456789ABCDEF".toList[d.val]? = some (Char.ofNat n.val) := by decide +kernel
  have hn : c.toNat < 103 := by
    simp only [isHex, Bool.or_eq_true, Bool.and_eq_true, decide_eq_true_eq] at h
    omega
  have e : Char.ofNat c.toNat = c := Char.ofNat_toNat c
  obtain ⟨d, hd⟩ := key ⟨c.toNat, hn⟩ (by simp only [e]; exact h)
  simp only [e] at hd
  exact ⟨d.val, hd⟩

theorem norm6 {a b c d e f : Char} {r r' g g' q q' : Nat} (ha : IsDigit a r) (hb : IsDigit b r') (hc : IsDigit c g) (hd : IsDigit d g') (he : IsDigit e q)
    (hf : IsDigit f q') : normalizeHex ['#', a, b, c, d, e, f] = .ok ['#', lowerHex a, lowerHex b, lowerHex c, lowerHex d, lowerHex e, lowerHex f] := by
  have h1 := (digit_facts ha).2.1
  have h2 := (digit_facts hb).2.1
  have h3 := (digit_facts hc).2.1
  have h4 := (digit_facts hd).2.1
  have h5 := (digit_facts he).2.1
  have h6 := (digit_facts hf).2.1
  have h7 := (digit_facts hf).2.2.2.2.1
  simp [normalizeHex, h1, h2, h3, h4, h5, h6, h7]

theorem norm3 {a b c : Char} {r g q : Nat} (ha : IsDigit a r) (hb : IsDigit b g) (hc : IsDigit c q) :
    normalizeHex ['#', a, b, c] = .ok ['#', lowerHex a, lowerHex a, lowerHex b, lowerHex b, lowerHex c, lowerHex c] := by
  have h1 := (digit_facts ha).2.1
  have h2 := (digit_facts hb).2.1
  have h3 := (digit_facts hc).2.1
  have h7 := (digit_facts hc).2.2.2.2.1
  simp [normalizeHex, h1, h2, h3, h7]

theorem rgb6 {a b c d e f : Char} {r r' g g' q q' : Nat} (ha : IsDigit a r) (hb : IsDigit b r') (hc : IsDigit c g) (hd : IsDigit d g') (he : IsDigit e q)
    (hf : IsDigit f q') : hexToRgb ['#', a, b, c, d, e, f] = .ok (16 * r + r', 16 * g + g', 16 * q + q') := by
  obtain ⟨h1, -, k1, -⟩ := digit_facts ha
  obtain ⟨h2, -, k2, -⟩ := digit_facts hb
  obtain ⟨h3, -, k3, -⟩ := digit_facts hc
  obtain ⟨h4, -, k4, -⟩ := digit_facts hd
  obtain ⟨h5, -, k5, -⟩ := digit_facts he
  obtain ⟨h6, -, k6, -⟩ := digit_facts hf
  unfold hexToRgb
  rw [norm6 ha hb hc hd he hf]
  have hm : ∀ n : Nat, n &&& 255 = n % 256 := fun n => Nat.and_two_pow_sub_one_eq_mod n 8
  simp only [List.drop_succ_cons, List.drop_zero, int16, List.foldl_cons, List.foldl_nil, k1, k2, k3, k4, k5, k6, hm, Nat.shiftRight_eq_div_pow]
  refine congrArg _ (Prod.ext ?_ (Prod.ext ?_ ?_)) <;> simp only <;> omega

/-- What hexadecimal values are read as. -/
theorem hex_rgb {s : Str} {c : Nat × Nat × Nat} (h : Hex s c) : s.head? = some '#' ∧ hexToRgb s = .ok c ∧ ∃ t, normalizeHex s = .ok t ∧ hexToRgb t = .ok c := by
  cases h with
  | short ha hb hc =>
    have ha' := (digit_facts ha).2.2.2.2.2.1
    have hb' := (digit_facts hb).2.2.2.2.2.1
    have hc' := (digit_facts hc).2.2.2.2.2.1
    have k := rgb6 ha' ha' hb' hb' hc' hc'
    have e : ∀ n, 16 * n + n = 17 * n := fun n => by omega
    rw [e, e, e] at k
    refine ⟨rfl, ?_, _, norm3 ha hb hc, k⟩
    have k2 := k
    unfold hexToRgb at k2 ⊢
    rw [norm3 ha hb hc]
    rw [norm6 ha' ha' hb' hb' hc' hc'] at k2
    have low : ∀ {c : Char} {d : Nat}, IsDigit c d → lowerHex (lowerHex c) = lowerHex c := by
      intro c d h
      obtain ⟨hd, -⟩ := digit_facts h
      have key : ∀ d : Fin 16, ∀ c ∈ ["0123456789abcdef".toList[d.val]?, "0123456789ABCDEF".toList[d.val]?], lowerHex (lowerHex (c.getD '?')) = lowerHex (c.getD '?') := by
        decide +kernel
      have := key ⟨d, hd⟩ (some c) (by
        simp only [List.mem_cons, List.not_mem_nil, or_false]
        rcases h with h | h
        · exact Or.inl h.symm
        · exact Or.inr h.symm)
      exact this
    rw [low ha, low hb, low hc] at k2
    exact k2
  | long ha hb hc hd he hf =>
    refine ⟨rfl, rgb6 ha hb hc hd he hf, _, norm6 ha hb hc hd he hf, ?_⟩
    exact rgb6 (digit_facts ha).2.2.2.2.2.1 (digit_facts hb).2.2.2.2.2.1 (digit_facts hc).2.2.2.2.2.1 (digit_facts hd).2.2.2.2.2.1 (digit_facts he).2.2.2.2.2.1
      (digit_facts hf).2.2.2.2.2.1

/-- Only hexadecimal values are read. -/
theorem norm_hex {s t : Str} (h : normalizeHex s = .ok t) (hl : s.getLast? ≠ some '\n') : ∃ c, Hex s c := by
  cases s with
  | nil => cases h
  | cons x rest =>
    rw [normalizeHex] at h
    split at h
    · cases h
    · rename_i hx
      have hx : x = '#' := by simpa using hx
      subst hx
      have hr : rest.getLast? ≠ some '\n' := by
        intro hr
        apply hl
        cases rest with
        | nil => cases hr
        | cons y ys => rw [List.getLast?_cons_cons]; exact hr
      simp only [hr, if_false] at h
      split at h
      · rename_i hc
        simp only [Bool.and_eq_true, Bool.or_eq_true, beq_iff_eq, List.all_eq_true] at hc
        obtain ⟨hall, hlen⟩ := hc
        rcases hlen with hlen | hlen
        · match rest, hlen with
          | [a, b, c], _ =>
            obtain ⟨r, hr⟩ := hex_digit (hall a (by simp))
            obtain ⟨g, hg⟩ := hex_digit (hall b (by simp))
            obtain ⟨q, hq⟩ := hex_digit (hall c (by simp))
            exact ⟨_, .short hr hg hq⟩
        · match rest, hlen with
          | [a, b, c, d, e, f], _ =>
            obtain ⟨_, h1⟩ := hex_digit (hall a (by simp))
            obtain ⟨_, h2⟩ := hex_digit (hall b (by simp))
            obtain ⟨_, h3⟩ := hex_digit (hall c (by simp))
            obtain ⟨_, h4⟩ := hex_digit (hall d (by simp))
            obtain ⟨_, h5⟩ := hex_digit (hall e (by simp))
            obtain ⟨_, h6⟩ := hex_digit (hall f (by simp))
            exact ⟨_, .long h1 h2 h3 h4 h5 h6⟩
      · cases h

theorem norm_error {s : Str} {e : Err} (h : normalizeHex s = .error e) : e = .value := by
  unfold normalizeHex at h
  split at h
  · injection h with h; exact h.symm
  · split at h
    · injection h with h; exact h.symm
    · dsimp only at h
      split at h <;> split at h <;> first | (injection h with h; exact h.symm) | cases h

theorem hex_level {s : Str} {r g b : Nat} (h : Hex s (r, g, b)) : r ≤ 255 ∧ g ≤ 255 ∧ b ≤ 255 := by
  cases h with
  | short ha hb hc =>
    have := (digit_facts ha).1
    have := (digit_facts hb).1
    have := (digit_facts hc).1
    omega
  | long ha hb hc hd he hf =>
    have := (digit_facts ha).1
    have := (digit_facts hb).1
    have := (digit_facts hc).1
    have := (digit_facts hd).1
    have := (digit_facts he).1
    have := (digit_facts hf).1
    omega

theorem pango_level (n : Nat) : truncate ((n : Rat) / 255 * 65535) = 257 * n := by
  have e : (n : Rat) / 255 * 65535 = ((257 * n : Nat) : Rat) := by push_cast; ring
  unfold truncate
  rw [e]
  rw [show (((257 * n : Nat) : Rat)) = (((257 * n : Nat) : Int) : Rat) from rfl, Rat.floor_intCast]
  rfl

end Verif.Colors
