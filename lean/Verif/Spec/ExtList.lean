import Verif.Model.ExtList

/-! # Specification of list counters, by reading the history of calls

Only the types of calls are used. -/

namespace Verif.ExtList.Spec

/-- A call that makes a sublist: the list it is made in, the counters given explicitly, and the first number. -/
def makes : Ev → Option (Nat × Option (List Int) × Int)
  | .item .. => none
  | .ul l .. => some (l, none, 1)
  | .ol l level start .. => some (l, level, start.getD 1)

/-- The number of lists after some calls: there is one at the beginning, and calls make another one if their list exists and the first number is positive. -/
def created (h : List Ev) : Nat :=
  h.foldl (fun c e => match makes e with | none => c | some (l, _, start) => if l < c ∧ 1 ≤ start then c + 1 else c) 1

/-- Items added to a list. -/
def itemsOf (l : Nat) (h : List Ev) : Nat := h.countP fun e => match e with | .item i .. => i == l | _ => false

/-- `Counters first h l c`: after the calls `h` the last item of list `l` has the numbers `c` (or, without items, the next one will have `c` with the last number increased), in a family whose outermost list starts with `first`. -/
inductive Counters (first : Int) : List Ev → Nat → List Int → Prop where
  /-- The outermost list has one number. -/
  | root (h : List Ev) : Counters first h 0 [first - 1 + itemsOf 0 h]
  /-- A sublist with explicit counters starts with them. -/
  | explicit (h1 h2 : List Ev) (e : Ev) (p : Nat) (level : List Int) (start : Int) :
      makes e = some (p, some level, start) → p < created h1 → 1 ≤ start →
      Counters first (h1 ++ e :: h2) (created h1) (level ++ [start - 1 + itemsOf (created h1) h2])
  /-- Other sublists start with the counters of their parent when they are made. -/
  | inherited (h1 h2 : List Ev) (e : Ev) (p : Nat) (level : List Int) (start : Int) :
      makes e = some (p, none, start) → p < created h1 → 1 ≤ start → Counters first h1 p level →
      Counters first (h1 ++ e :: h2) (created h1) (level ++ [start - 1 + itemsOf (created h1) h2])

/-- Decimal numbers with full stops: each number is followed by one. -/
def numbered : List Int → Str
  | [] => []
  | n :: ns => (if n < 0 then '-' :: Nat.toDigits 10 n.natAbs else Nat.toDigits 10 n.natAbs) ++ ".".toList ++ numbered ns

/-- The rest of what a call that makes a sublist says: whether it is ordered, the indent, the label and the arguments for boxes. -/
def details : Ev → Bool × Option Rat × Option Label × Args
  | .item _ label _ args => (false, none, label, args)
  | .ul _ indent label args => (false, indent, label, args)
  | .ol _ _ _ indent label args => (true, indent, label, args)

/-- `Nested d0 args0 h l ds argss`: after the calls `h`, the list `l` and the lists around it, from the outside, were given the indents `ds` (an indent that was not given is that of the
list outside, `d0` for the outermost sublists) and, from the inside, the arguments `argss`. -/
inductive Nested (d0 : Rat) (args0 : Args) : List Ev → Nat → List Rat → List Args → Prop where
  | root (h : List Ev) : Nested d0 args0 h 0 [] [args0]
  | sub (h1 h2 : List Ev) (e : Ev) (p : Nat) (level : Option (List Int)) (start : Int) (ds : List Rat) (argss : List Args) :
      makes e = some (p, level, start) → p < created h1 → 1 ≤ start → Nested d0 args0 h1 p ds argss →
      Nested d0 args0 (h1 ++ e :: h2) (created h1) (ds ++ [(details e).2.1.getD (ds.getLast?.getD d0)]) ((details e).2.2.2 :: argss)

/-- The sum of the sums of the beginnings of a list. -/
def staircase (ds : List Rat) : Rat := ((List.range (ds.length + 1)).map fun j => (ds.take j).sum).sum

/-- The first value for a key. -/
def firstGiven (key : Str) : List Args → Option Str
  | [] => none
  | a :: as => (a.lookup key).or (firstGiven key as)

end Verif.ExtList.Spec
