import Verif.Model.Layout

/-! # Specifications for layout

Only the data types of `Verif.Model.Layout` (layout trees, attributes, rectangles, environments)
are used, not its functions. -/

namespace Verif.Layout.Spec

/-- Start of a rectangle along the main axis. -/
def start (hor : Bool) (r : Rect) : Rat := if hor then r.x else r.y
/-- Extent of a rectangle along the main axis. -/
def extent (hor : Bool) (r : Rect) : Rat := if hor then r.width else r.height

/-- A layout is managed by its parent if it has no explicit position on the parent's main axis. -/
def Managed (hor : Bool) (a : Attrs) : Prop := (if hor then a.x else a.y).isNone = true

instance (hor : Bool) (a : Attrs) : Decidable (Managed hor a) := by unfold Managed; infer_instance

/-- A rectangle including paddings, from the inner one. -/
def grow (a : Attrs) (r : Rect) : Rect :=
  ⟨r.x - a.pLeft, r.y - a.pTop, r.width + a.pLeft + a.pRight, r.height + a.pTop + a.pBottom⟩

/-- All identifiers in a forest, in the order in which layouts get their rectangles. -/
def uids : Forest → List Nat
  | .nil => []
  | .node u _ kids rest => u :: (uids kids ++ uids rest)

/-- The direct children: identifier, attributes, own children. -/
def tops : Forest → List (Nat × Attrs × Forest)
  | .nil => []
  | .node u a kids rest => (u, a, kids) :: tops rest

/-- The rectangles (including paddings) of the managed direct children, in order. -/
def managedRects (env : Env) (hor : Bool) (f : Forest) : List Rect :=
  (tops f).filterMap (fun c => if Managed hor c.2.1 then (env c.1).map (grow c.2.1) else none)

/-- The requested size of a layout along an axis. -/
def sizeOn (hor : Bool) (a : Attrs) : Size := if hor then a.width else a.height

/-- The fill number of a layout along an axis. -/
def fillOf (hor : Bool) (a : Attrs) : Nat := (sizeOn hor a).fill

/-- No dynamic size along the axis. -/
def Static (hor : Bool) (a : Attrs) : Prop := (sizeOn hor a).lazy = none

/-- All layouts of a forest: identifier, attributes, children. -/
def boxes : Forest → List (Nat × Attrs × Forest)
  | .nil => []
  | .node u a kids rest => (u, a, kids) :: (boxes kids ++ boxes rest)

/-- The largest element, 0 if there is none. -/
def largest : List Rat → Rat
  | [] => 0
  | q :: qs => qs.foldl max q

/-- Paddings along an axis (`true`: horizontal). -/
def pads (axis : Bool) (a : Attrs) : Rat := if axis then a.pLeft + a.pRight else a.pTop + a.pBottom

/-- The minimal sizes of the managed top-level layouts of a forest along `axis`, when arranged by a
parent of orientation `hor`: the requested size or what the managed children need with the paddings. -/
def needs (axis hor : Bool) : Forest → List Rat
  | .nil => []
  | .node _ a kids rest =>
    let inner := needs axis a.horizontal kids
    let own := max (sizeOn axis a).minSize
      ((if axis = a.horizontal then inner.sum else largest inner) + pads axis a)
    if Managed hor a then own :: needs axis hor rest else needs axis hor rest

/-- What the managed layouts need together: main axis adds up, cross axis takes the largest. -/
def content (axis hor : Bool) (f : Forest) : Rat :=
  if axis = hor then (needs axis hor f).sum else largest (needs axis hor f)

/-- One rectangle lies inside another along an axis. -/
def Within (axis : Bool) (r p : Rect) : Prop :=
  start axis p ≤ start axis r ∧ start axis r + extent axis r ≤ start axis p + extent axis p

/-- Fixed or default size, non-negative paddings. -/
def Plain (a : Attrs) : Prop :=
  (∀ axis, (sizeOn axis a).ratio = none ∧ (sizeOn axis a).fill = 0 ∧ (sizeOn axis a).lazy = none) ∧
  0 ≤ a.pLeft ∧ 0 ≤ a.pRight ∧ 0 ≤ a.pTop ∧ 0 ≤ a.pBottom

/-- The explicit position of a layout along an axis. -/
def posOn (axis : Bool) (a : Attrs) : Option Pos := if axis then a.x else a.y

/-- The layouts a position value refers to. -/
def refs : Pos → List Nat
  | .ref u _ v => u :: refs v
  | .map _ v => refs v
  | .fn u _ => [u]
  | _ => []

/-- The value denoted by a position, given the rectangles `env` of all layouts, in an area starting at
`o` of length `full` for something of size `self`. -/
inductive Denotes (env : Env) : Pos → (o full self : Rat) → Rat → Prop
  | fix {q o full self} : Denotes env (.fix q) o full self (o + q)
  | ratio {q o full self} : Denotes env (.ratio q) o full self (o + full * q)
  | align {q o full self} : Denotes env (.align q) o full self (o + (full - self) * q)
  | ref {u hor v r o full self val} (h : env u = some r) (hv : Denotes env v (start hor r) (extent hor r) 0 val) :
      Denotes env (.ref u hor v) o full self val
  | map {f v o full self val} (hv : Denotes env v o full self val) : Denotes env (.map f v) o full self (f val)
  | fn {u f r o full self} (h : env u = some r) : Denotes env (.fn u f) o full self (f r)

/-- Not a dynamic position value. -/
def Fixed : Pos → Prop
  | .ref .. => False
  | .map .. => False
  | .fn .. => False
  | _ => True

/-- No dynamic value in the attributes. -/
def NoDynamic (a : Attrs) : Prop :=
  ∀ axis, (∀ p, posOn axis a = some p → Fixed p) ∧ (sizeOn axis a).lazy = none

/-- A rectangle moved by a vector. -/
def move (dx dy : Rat) (r : Rect) : Rect := ⟨r.x + dx, r.y + dy, r.width, r.height⟩

/-- The first value that is given, or 0. -/
def mostSpecific : List (Option Rat) → Rat
  | [] => 0
  | some v :: _ => v
  | none :: vs => mostSpecific vs

/-- The forest without the layout `u` and everything inside it. -/
def without (u : Nat) : Forest → Forest
  | .nil => .nil
  | .node v a kids rest => if v = u then without u rest else .node v a (without u kids) (without u rest)

/-- The layout `u` and everything inside it. -/
def inside (u : Nat) : Forest → List Nat
  | .nil => []
  | .node v _ kids rest => if v = u then v :: (uids kids ++ inside u rest) else inside u kids ++ inside u rest

/-- The layout `u` has an explicit position on the main axis of its parent (`hor` is the orientation of the parent of the top-level
layouts). -/
def Explicit (u : Nat) : Bool → Forest → Prop
  | _, .nil => True
  | hor, .node v a kids rest => (v = u → (posOn hor a).isSome) ∧ Explicit u a.horizontal kids ∧ Explicit u hor rest

/-- No position and no size of a layout refers to one of `us`. -/
def Ignores (us : List Nat) (a : Attrs) : Prop :=
  ∀ axis, (∀ p, posOn axis a = some p → ∀ v ∈ refs p, v ∉ us) ∧ (∀ p, (sizeOn axis a).lazy = some p → ∀ v ∈ refs p, v ∉ us)

end Verif.Layout.Spec
