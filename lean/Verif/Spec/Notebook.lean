import Verif.Model.Notebook
import Verif.Spec.Book

/-! # Specification: running cells again -/

namespace Verif.Notebook.Spec
open Verif.Book (Sheet)
open Verif.Deck (Name)

/-- The name of the slide of a cell: the one that was given, otherwise that of the function. -/
def slideName (c : Cell) : Name := if c.name = .none then .str c.fn else c.name

/-- The runs whose slides are in the deck: the last one for each name, in the order in which they were run. (A name has to be a string.) -/
def lastRuns : List Cell → List Cell
  | [] => []
  | c :: cs => if slideName c ≠ .other ∧ ∀ d ∈ cs, slideName d ≠ slideName c then c :: lastRuns cs else lastRuns cs

/-- The documents, with the numbers of their pages. -/
def docs {δ : Type} (sheets : List (Sheet δ)) : List (Nat × δ) :=
  sheets.filterMap fun s => match s with | .page _ _ k d => some (k, d) | .pdf _ _ => none

/-- What is on the slide: all calls up to the first one that raises, and what that one did before. -/
def drawn (s : Verif.Scene.State) : List Verif.Scene.Call → Verif.Scene.State
  | [] => s
  | c :: cs =>
    match Verif.Scene.exec s c with
    | (s, some _) => s
    | (s, none) => drawn s cs

end Verif.Notebook.Spec
