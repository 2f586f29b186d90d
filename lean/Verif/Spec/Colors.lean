import Verif.Model.Colors

/-! # What colours mean in SVG -/

namespace Verif.Colors.Spec

/-- Red, green and blue between 0 and 1. -/
abbrev Rgb := Rat × Rat × Rat

/-- The hexadecimal digits. -/
def IsDigit (c : Char) (d : Nat) : Prop := "0123456789abcdef".toList[d]? = some c ∨ "0123456789ABCDEF".toList[d]? = some c

/-- `#rgb` and `#rrggbb`, in levels from 0 to 255. -/
inductive Hex : Str → Nat × Nat × Nat → Prop
  | short {a b c : Char} {r g b' : Nat} : IsDigit a r → IsDigit b g → IsDigit c b' → Hex ['#', a, b, c] (17 * r, 17 * g, 17 * b')
  | long {a b c d e f : Char} {r r' g g' b' b'' : Nat} : IsDigit a r → IsDigit b r' → IsDigit c g → IsDigit d g' → IsDigit e b' → IsDigit f b'' →
      Hex ['#', a, b, c, d, e, f] (16 * r + r', 16 * g + g', 16 * b' + b'')

/-- Upper-case letters of the English alphabet as lower-case letters. -/
def small (c : Char) : Char := if 'A' ≤ c ∧ c ≤ 'Z' then Char.ofNat (c.toNat + 32) else c

/-- A keyword, in any case, or a hexadecimal value. -/
inductive Simple (keyword : Str → Option (Nat × Nat × Nat)) : Str → Rgb → Prop
  | name {s : Str} {r g b : Nat} : keyword (s.map small) = some (r, g, b) → Simple keyword s ((r : Rat) / 255, (g : Rat) / 255, (b : Rat) / 255)
  | hex {s : Str} {r g b : Nat} : Hex s (r, g, b) → Simple keyword s ((r : Rat) / 255, (g : Rat) / 255, (b : Rat) / 255)

/-- One component of a colour given by hue (in degrees), saturation and lightness. -/
def hslPart (h s l : Rat) (n : Rat) : Rat :=
  let k := n + h / 30 - 12 * ((n + h / 30) / 12).floor
  l - s * min l (1 - l) * max (-1) (min (k - 3) (min (9 - k) 1))

/-- The opacity at the end of a colour, if any. -/
inductive Alpha : Str → Rat → Prop
  | no : Alpha [] 1
  | some (d : Nat) : d < 10 → Alpha (", 0.".toList ++ natStr d) (d / 10)

/-- The colours of the user guide ("Colors") with their opacity. -/
inductive Denotes (keyword : Str → Option (Nat × Nat × Nat)) : Str → Rgb → Rat → Prop
  | simple {s c} : Simple keyword s c → Denotes keyword s c 1
  | rgb {r g b : Nat} {t : Str} {a : Rat} : r ≤ 255 → g ≤ 255 → b ≤ 255 → Alpha t a →
      Denotes keyword ("rgb(".toList ++ natStr r ++ ", ".toList ++ natStr g ++ ", ".toList ++ natStr b ++ t ++ ")".toList) ((r : Rat) / 255, (g : Rat) / 255, (b : Rat) / 255) a
  | hsl {h s l : Nat} {t : Str} {a : Rat} : h < 360 → s ≤ 100 → l ≤ 100 → Alpha t a →
      Denotes keyword ("hsl(".toList ++ natStr h ++ ", ".toList ++ natStr s ++ "%, ".toList ++ natStr l ++ "%".toList ++ t ++ ")".toList)
        (hslPart h (s / 100) (l / 100) 0, hslPart h (s / 100) (l / 100) 8, hslPart h (s / 100) (l / 100) 4) a

/-- The table of `webcolors` has the keywords and their colours in hexadecimal form, and nothing else; keywords consist of small letters. -/
structure Table (keyword : Str → Option (Nat × Nat × Nat)) (table : Str → Option Str) : Prop where
  has : ∀ n c, keyword n = some c → ∃ s, table n = some s ∧ Hex s c
  only : ∀ n, keyword n = none → table n = none
  names : ∀ n c, keyword n = some c → n ≠ [] ∧ ∀ x ∈ n, 'a' ≤ x ∧ x ≤ 'z'

/-- `str.lower` on ASCII. -/
def Lowers (lower : Str → Str) : Prop := ∀ s : Str, (∀ x ∈ s, x.toNat < 128) → lower s = s.map small

end Verif.Colors.Spec
