import Verif.Spec.TextItem
import Verif.Spec.Code

/-! # Specification: code shown step by step -/

namespace Verif.CodeStep.Spec
open Verif Verif.Text

/-- The rows of a string. -/
def RowsOf (s : Str) (ls : List Str) : Prop := ls ≠ [] ∧ (∀ l ∈ ls, '\n' ∉ l) ∧ List.intercalate ['\n'] ls = s

/-- What is to be seen at a place: nothing or the line with the number. -/
def Shows (lines : List Str) (v : Option Nat) (row : Str) : Prop :=
  match v with
  | none => row = []
  | some i => lines[i]? = some row

/-- A line is to be seen at the place, and it is not empty. -/
def Seen (lines : List Str) (v : Option (Option Nat)) : Prop := ∃ i l, v = some (some i) ∧ lines[i]? = some l ∧ l ≠ []

/-- The steps name lines that are there. -/
def InRange (lines : List Str) (visible : List (Option Nat)) : Prop := ∀ i, some i ∈ visible → i < lines.length

end Verif.CodeStep.Spec
