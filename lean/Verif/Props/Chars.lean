import Verif.Spec.Chars

/-! # White space and ends of lines (used by C16, C19, C20, C62, C63, C93)

The statements of these properties speak of the white space of Python; here it is pinned to the code points. -/

namespace Verif.Chars
open Spec

theorem char_eq_iff (c d : Char) : c = d ↔ c.toNat = d.toNat :=
  ⟨fun h => by rw [h], fun h => Char.ext (UInt32.toNat_inj.mp h)⟩

/-- Which characters are white space. -/
theorem C20_white_space (c : Char) : isSpace c = true ↔ c.toNat ∈ spaceCodes := by
  simp only [isSpace, isLineSep, spaceCodes, Bool.or_eq_true, Bool.and_eq_true, beq_iff_eq, decide_eq_true_eq, char_eq_iff, Char.reduceToNat,
    List.mem_cons, List.not_mem_nil, or_false]
  omega

example : isSpace '\u2003' = true ∧ isSpace '\u200b' = false := by decide +kernel

/-- Which characters end a line. -/
theorem C16_line_ends (c : Char) : isLineSep c = true ↔ c.toNat ∈ lineCodes := by
  simp only [isLineSep, lineCodes, Bool.or_eq_true, beq_iff_eq, char_eq_iff, Char.reduceToNat, List.mem_cons, List.not_mem_nil, or_false]
  omega

example : isLineSep '\u2028' = true ∧ isLineSep '\t' = false := by decide +kernel

end Verif.Chars
