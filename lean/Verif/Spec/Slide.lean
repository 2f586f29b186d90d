import Verif.Spec.Show
import Verif.Model.Slide
import Verif.Spec.Layout

/-! # Specifications for slides: pages, visibility, order

From `Verif.Model.Slide` only the data types are used. -/

namespace Verif.Slide.Spec
open Verif.Show (ShowArg ShowInfo)
open Verif.Show.Spec

/-- `m` is the greatest number with the property. -/
def Greatest (P : Int → Prop) (m : Int) : Prop := P m ∧ ∀ n, P n → n ≤ m

/-- The fragments a `show` argument mentions when the current fragment is `cur`: everything selected by
its closed items and the start of its open item. -/
def Mentions (cur : Int) : ShowArg → Int → Prop
  | .none, n => n = 1
  | .int k, n => n = k
  | .str s, n => ∃ is, Writes isSpace s is ∧ Legal (some cur) is ∧ ∃ i ∈ is,
      (i.isOpen = false ∧ i.Selects (some cur) n) ∨ (∃ b, i = .opn b ∧ b.value (some cur) = some n)
  | .other, _ => False

/-- The fragments a call mentions. -/
def CallMentions (cur : Int) : Call → Int → Prop
  | .box _ c, n => Mentions cur c.show_ n
  | .image _ _ _ (some k), n => n = k
  | _, _ => False

/-- The number of pages after a history of calls: 1 for a new slide; each call raises it to the highest
fragment it mentions, if that is higher. -/
inductive Pages : List Call → Int → Prop
  | new : Pages [] 1
  | call {cs c p p'} : Pages cs p → Greatest (fun n => n = p ∨ CallMentions p c n) p' → Pages (cs ++ [c]) p'

/-- A child of a box. -/
inductive Child where
  | item (uid : Nat) (z : Int)
  | box (uid : Nat) (info : ShowInfo) (z : Int) (kids : Tree)

def Child.uid : Child → Nat
  | .item u _ => u
  | .box u _ _ _ => u

/-- The list of siblings. -/
def children : Tree → List Child
  | .nil => []
  | .item u z rest => .item u z :: children rest
  | .box u i z kids rest => .box u i z kids :: children rest

/-- A node of the tree, without its children. -/
inductive Node where
  | item (uid : Nat) (z : Int)
  | box (uid : Nat) (info : ShowInfo) (z : Int)

def Node.uid : Node → Nat
  | .item u _ => u
  | .box u _ _ => u

/-- All nodes, in depth-first order. -/
def nodes : Tree → List Node
  | .nil => []
  | .item u z rest => .item u z :: nodes rest
  | .box u i z kids rest => .box u i z :: (nodes kids ++ nodes rest)

/-- All items in depth-first order with the selectors of all boxes around them. -/
def items (around : List ShowInfo) : Tree → List (Nat × Int × List ShowInfo)
  | .nil => []
  | .item u z rest => (u, z, around) :: items around rest
  | .box _ i _ kids rest => items (i :: around) kids ++ items around rest

/-- The children of the box `u`, if there is one. -/
def kidsOf (u : Nat) : Tree → Option (List Child)
  | .nil => none
  | .item _ _ rest => kidsOf u rest
  | .box v _ _ kids rest => if v = u then some (children kids) else (kidsOf u kids).or (kidsOf u rest)

/-- `after` is `before` with `x` put at the place asked for. -/
inductive Placed (before after : List Child) (x : Child) (prepend : Bool) : Option Nat → Option Nat → Prop
  | first : prepend = true → after = x :: before → Placed before after x prepend none none
  | last : prepend = false → after = before ++ [x] → Placed before after x prepend none none
  | above {l r : List Child} {y : Child} : (∀ q ∈ l, q.uid ≠ y.uid) → before = l ++ y :: r →
      after = l ++ y :: x :: r → Placed before after x prepend (some y.uid) none
  | below {l r : List Child} {y : Child} : (∀ q ∈ l, q.uid ≠ y.uid) → before = l ++ y :: r →
      after = l ++ x :: y :: r → Placed before after x prepend none (some y.uid)

/-- The call is the same apart from the `show` argument. -/
inductive SameButShow : Call → Call → Prop
  | box {p : Nat} {c : BoxCall} {sh : ShowArg} : SameButShow (.box p c) (.box p { c with show_ := sh })
  | same {c : Call} : SameButShow c c

/-! ### layouts -/

/-- The layout of the box `u`: its attributes and the numbers of its children, in their order. -/
def layoutOf (u : Nat) : Verif.Layout.Forest → Option (Verif.Layout.Attrs × List Nat)
  | .nil => none
  | .node v a kids rest =>
    if v = u then some (a, (Verif.Layout.Spec.tops kids).map (·.1)) else (layoutOf u kids).or (layoutOf u rest)

/-- The boxes created in `p` by a history of calls, of which the first gets the number `n`: those with or without `prepend`. -/
def createdIn (p : Nat) (prepend : Bool) : Nat → List Call → List Nat
  | _, [] => []
  | n, .box q c :: cs => if q = p ∧ c.layout.prepend = prepend then n :: createdIn p prepend (n + 1) cs else createdIn p prepend (n + 1) cs
  | n, _ :: cs => createdIn p prepend (n + 1) cs

/-- A size given neither as `fill` nor as a dynamic value. -/
def Bounded : Verif.Layout.Arg → Prop
  | .lazy _ => False
  | .str s => ¬ "fill".toList <+: s
  | _ => True

/-- The attributes are the same, except that the minimal sizes may be larger. -/
def Raised (a b : Verif.Layout.Attrs) : Prop :=
  a.width.minSize ≤ b.width.minSize ∧ a.height.minSize ≤ b.height.minSize ∧
  b = { a with width := { a.width with minSize := b.width.minSize }, height := { a.height with minSize := b.height.minSize } }

/-- The argument for the size along an axis (`true`: the width). -/
def sizeArg (axis : Bool) (c : BoxCall) : Verif.Layout.Arg := if axis then c.layout.width else c.layout.height

/-- The room a text or an image takes in its box along an axis: a text unless it is scaled to a given size, an image if no size of
the box was given. -/
inductive Takes (c : BoxCall) : Call → Bool → Rat → Prop
  | text {p w h axis} : Takes c (.text p w h false) axis (if axis then w else h)
  | scaled {p w h axis} : sizeArg axis c = .none → Takes c (.text p w h true) axis (if axis then w else h)
  | image {p w h steps axis} : c.layout.width = .none → c.layout.height = .none → Takes c (.image p w h steps) axis (if axis then w else h)

/-- The box to which a call adds something. -/
def target : Call → Nat
  | .box p _ => p
  | .text p _ _ _ => p
  | .shape p => p
  | .image p _ _ _ => p

/-- The z-level of something painted. -/
def levelOf : Painter → Int
  | .item _ z => z
  | .debug _ z => z

end Verif.Slide.Spec
