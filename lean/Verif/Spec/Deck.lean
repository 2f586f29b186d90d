import Verif.Model.Deck

/-! # Specifications for decks: names, order of pages, grids -/

namespace Verif.Deck.Spec

/-- The name of an entry, if it is a slide with a name. -/
def nameOf : Entry → Option Str
  | .slide _ _ (.str n) => some n
  | _ => none

/-- All names, in order. -/
def names (l : List Entry) : List Str := l.filterMap nameOf

/-- The entry stays in the deck when a slide called `name` is added. -/
def stays (policy : Policy) (name : Name) (e : Entry) : Bool :=
  match policy, name with
  | .replace, .str n => nameOf e ≠ some n
  | _, _ => true

/-- The units on a page, in order of their position. -/
def Page.units : Page → List RUnit
  | .single u => [u]
  | .grid _ _ cells => cells.map (·.2.2)

/-- The position of each unit on the page; a unit alone is at the origin. -/
def Page.cells : Page → List (Nat × Nat × RUnit)
  | .single u => [(0, 0, u)]
  | .grid _ _ cells => cells

/-- The unit is a page of a slide (not an embedded PDF). -/
def isSlide : RUnit → Bool
  | .svg _ _ _ => true
  | .pdf _ _ => false

/-- The entry a unit belongs to. -/
def RUnit.slide : RUnit → Nat
  | .svg u _ _ => u
  | .pdf u _ => u

/-- The fragment a unit shows. -/
def RUnit.step : RUnit → Nat
  | .svg _ _ s => s
  | .pdf _ _ => 1

/-- The identity of an entry. -/
def idOf : Entry → Nat
  | .slide u _ _ => u
  | .pdf u _ => u

/-- `u` comes before `v`: its entry is earlier in the deck, or the same with an earlier fragment. -/
def Before (slides : List Entry) (u v : RUnit) : Prop :=
  (slides.map idOf).idxOf (RUnit.slide u) < (slides.map idOf).idxOf (RUnit.slide v) ∨
  (RUnit.slide u = RUnit.slide v ∧ RUnit.step u < RUnit.step v)

/-- The unit shows fragment `RUnit.step` of this entry. -/
def Shows (pages : Nat → Nat) : Entry → RUnit → Prop
  | .slide u i _, v => ∃ s, 1 ≤ s ∧ s ≤ pages u ∧ v = .svg u i s
  | .pdf u f, v => v = .pdf u f

/-- The documented place of the `j`-th unit in a grid with `cols` columns, row by row. -/
def place (cols width height j : Nat) : Nat × Nat := (j % cols * width, j / cols * height)

/-- The svg units on pages with a grid of `rows` rows and `cols` columns: as few pages as possible; the `j`-th place of page `k` holds the unit
number `k * rows * cols + j`; a page has the size of the grid (for grids of one cell pages are left as they are). -/
structure GridOf (rows cols width height : Nat) (units : List RUnit) (pages : List Page) : Prop where
  count : pages.length = (units.length + cols * rows - 1) / (cols * rows)
  cells : ∀ k j, j < cols * rows → (pages[k]?.bind fun p => (Page.cells p)[j]?) =
    (units[k * (cols * rows) + j]?).map fun u => ((place cols width height j).1, (place cols width height j).2, u)
  bound : ∀ p ∈ pages, (Page.cells p).length ≤ cols * rows
  size : cols * rows ≠ 1 → ∀ p ∈ pages, ∃ cells, p = .grid (width * cols) (height * rows) cells

end Verif.Deck.Spec
