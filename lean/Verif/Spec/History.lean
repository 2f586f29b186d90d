import Verif.Spec.Slide

/-! # Specification: what a page shows, from the calls alone

Every call creates one box or one item; they are numbered from 1 in the order of the calls, the box of the slide is 0. -/

namespace Verif.Slide.Spec
open Verif.Show (ShowArg)
open Verif.Show.Spec

/-- The pages a `show` argument selects when the slide has `cur` pages. -/
def ShownOn (cur : Int) : ShowArg → Int → Prop
  | .none, n => 1 ≤ n
  | .int k, n => n = k
  | .str s, n => ∃ is, Writes isSpace s is ∧ Legal (some cur) is ∧ ∃ i ∈ is, i.Selects (some cur) n
  | .other, _ => False

/-- A box is on a page if its `show` argument selects the page (`next` and `last` refer to the pages the slide had when the box was
created) and the box around it is on the page. -/
inductive OnPage (cs : List Call) (n : Int) : Nat → Prop
  | slide : 1 ≤ n → OnPage cs n 0
  | box {k p : Nat} {c : BoxCall} {cur : Int} : cs[k]? = some (.box p c) → Pages (cs.take k) cur → ShownOn cur c.show_ n →
      OnPage cs n p → OnPage cs n (k + 1)

/-- The z-level of a box: the one given for it, otherwise that of the box around it; 0 for the slide. -/
inductive Level (cs : List Call) : Nat → Int → Prop
  | slide : Level cs 0 0
  | given {k p : Nat} {c : BoxCall} {z : Int} : cs[k]? = some (.box p c) → c.z = some z → Level cs (k + 1) z
  | inherited {k p : Nat} {c : BoxCall} {z : Int} : cs[k]? = some (.box p c) → c.z = none → Level cs p z → Level cs (k + 1) z

/-- A call that creates a box. -/
def isBox : Call → Bool
  | .box _ _ => true
  | _ => false

/-- The item `u` was created in the box `p`. -/
inductive ItemOf (cs : List Call) (p : Nat) : Nat → Prop
  | mk {k : Nat} {c : Call} : cs[k]? = some c → isBox c = false → target c = p → ItemOf cs p (k + 1)

/-- `after` is `before` with `x` put at the place asked for. -/
inductive PutAt (before after : List Nat) (x : Nat) (prepend : Bool) : Option Nat → Option Nat → Prop
  | first : prepend = true → after = x :: before → PutAt before after x prepend none none
  | last : prepend = false → after = before ++ [x] → PutAt before after x prepend none none
  | above {l r : List Nat} {y : Nat} : y ∉ l → before = l ++ y :: r → after = l ++ y :: x :: r → PutAt before after x prepend (some y) none
  | below {l r : List Nat} {y : Nat} : y ∉ l → before = l ++ y :: r → after = l ++ x :: y :: r → PutAt before after x prepend none (some y)

/-- The things created in `p`, from the bottom to the top: items are put on top, boxes where they were asked for. -/
inductive Kids (p : Nat) : List Call → List Nat → Prop
  | new : Kids p [] []
  | elsewhere {cs : List Call} {c : Call} {l : List Nat} : Kids p cs l → target c ≠ p → Kids p (cs ++ [c]) l
  | item {cs : List Call} {c : Call} {l : List Nat} : Kids p cs l → isBox c = false → target c = p → Kids p (cs ++ [c]) (l ++ [cs.length + 1])
  | box {cs : List Call} {c : BoxCall} {l l' : List Nat} : Kids p cs l →
      PutAt l l' (cs.length + 1) c.layout.prepend c.above c.below → Kids p (cs ++ [.box p c]) l'

/-- The given things, each followed by everything in it. -/
inductive Walk (cs : List Call) : List Nat → List Nat → Prop
  | nil : Walk cs [] []
  | cons {u : Nat} {us ks a b : List Nat} : Kids u cs ks → Walk cs ks a → Walk cs us b → Walk cs (u :: us) (u :: (a ++ b))

/-- `a` is below `b`: on a smaller z-level, or on the same and earlier in the walk through the boxes. -/
def Under (order : List Nat) (a b : Nat × Int) : Prop := a.2 < b.2 ∨ (a.2 = b.2 ∧ List.Sublist [a.1, b.1] order)

end Verif.Slide.Spec
