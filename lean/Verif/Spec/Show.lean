import Verif.Model.Py

/-! # Specification of `show` selectors (userguide/fragments: "Fragment selectors") -/

namespace Verif.Show.Spec

/-- The first number of an item: a numeral, `next` or `last`. -/
inductive Bound where
  | num (digits : Str)
  | next
  | last
  deriving DecidableEq, Repr

/-- One comma-separated item. -/
inductive Item where
  | single (b : Bound)
  | opn (b : Bound)
  | range (b : Bound) (digits : Str)
  deriving DecidableEq, Repr

/-- A numeral: one or more decimal digits. -/
def Numeral (ds : Str) : Prop := ds ≠ [] ∧ ∀ c ∈ ds, c ∈ "0123456789".toList

/-- The number a numeral denotes. -/
def numeralValue : Str → Nat
  | [] => 0
  | c :: cs => (c.toNat - 48) * 10 ^ cs.length + numeralValue cs

def Bound.Valid : Bound → Prop
  | .num ds => Numeral ds
  | _ => True

def Item.Valid : Item → Prop
  | .single b => b.Valid
  | .opn b => b.Valid
  | .range b ds => b.Valid ∧ Numeral ds

def Bound.source : Bound → Str
  | .num ds => ds
  | .next => "next".toList
  | .last => "last".toList

/-- How an item is written. -/
def Item.source : Item → Str
  | .single b => b.source
  | .opn b => b.source ++ ['+']
  | .range b ds => b.source ++ '-' :: ds

/-- The fragment a bound denotes, if it does. -/
def Bound.value (cur : Option Int) : Bound → Option Int
  | .num ds => some (numeralValue ds)
  | .next => cur.map (· + 1)
  | .last => cur

/-- The fragments an item selects. -/
def Item.Selects (cur : Option Int) (s : Int) : Item → Prop
  | .single b => b.value cur = some s
  | .opn b => ∃ v, b.value cur = some v ∧ v ≤ s
  | .range b ds => ∃ v, b.value cur = some v ∧ v ≤ s ∧ s ≤ numeralValue ds

def Item.isOpen : Item → Bool
  | .opn _ => true
  | _ => false

/-- The item makes sense: its bounds denote fragments and a range is not reversed. -/
def Item.Meaningful (cur : Option Int) : Item → Prop
  | .single b => ∃ v, b.value cur = some v
  | .opn b => ∃ v, b.value cur = some v
  | .range b ds => ∃ v, b.value cur = some v ∧ v ≤ numeralValue ds

/-- `s` is a selector with these items: comma-separated, each surrounded by any whitespace. -/
inductive Writes (sp : Char → Bool) : Str → List Item → Prop where
  | one (w1 w2 : Str) (i : Item) : (∀ c ∈ w1 ++ w2, sp c = true) → Writes sp (w1 ++ i.source ++ w2) [i]
  | cons (w1 w2 : Str) (i : Item) (s : Str) (is : List Item) : (∀ c ∈ w1 ++ w2, sp c = true) →
      Writes sp s is → Writes sp (w1 ++ i.source ++ w2 ++ ',' :: s) (i :: is)

/-- A list of items that is a legal selector when the current fragment is `cur`. -/
structure Legal (cur : Option Int) (is : List Item) : Prop where
  valid : ∀ i ∈ is, i.Valid
  meaningful : ∀ i ∈ is, i.Meaningful cur
  oneOpen : is.countP Item.isOpen ≤ 1

end Verif.Show.Spec
