import Verif.Spec.Code

/-! # Specification: where the sections of a text begin -/

namespace Verif.Text.Spec

/-- The openings of a text in their order: how many characters are before each one, and its name (`pos` characters were before). -/
def openings (pos : Nat) : List Tok → List (Nat × Str)
  | [] => []
  | .text s :: ts => openings (pos + s.length) ts
  | .newline n :: ts => openings (pos + n) ts
  | .opn n :: ts => (pos, n) :: openings pos ts
  | .close :: ts => openings pos ts

/-- The openings with this name: what `inline_box` counts (C17). -/
def openingsOf (n : Str) (pos : Nat) (ts : List Tok) : List Nat := ((openings pos ts).filter (fun x => decide (x.2 = n))).map (·.1)

/-- None of the first sections ends in one of the second that began inside it. -/
def NoCut (first second : List (Nat × Nat)) : Prop :=
  ∀ x ∈ first, ∀ y ∈ second, x.1 < y.1 → y.1 < x.2 → y.2 ≤ x.2

end Verif.Text.Spec
