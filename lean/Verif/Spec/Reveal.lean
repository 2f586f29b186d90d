import Verif.Spec.History

/-! # Specification: revealing in the order of the source -/

namespace Verif.Slide.Spec
open Verif.Show (ShowArg)
open Verif.Show.Spec

/-- The ways to show boxes in the order of the source (docs/userguide/revealing.md). -/
inductive Reveal where
  | always
  | next
  | nextOn
  | last
  | lastOn

/-- The argument `show`. -/
def Reveal.arg : Reveal → ShowArg
  | .always => .none
  | .next => .str "next".toList
  | .nextOn => .str "next+".toList
  | .last => .str "last".toList
  | .lastOn => .str "last+".toList

/-- On which pages a box is shown that belongs to the fragment `f`. -/
def Reveal.Shows (f n : Int) : Reveal → Prop
  | .always => 1 ≤ n
  | .next => n = f
  | .last => n = f
  | .nextOn => f ≤ n
  | .lastOn => f ≤ n

/-- All boxes are shown in one of these ways, and no picture has fragments of its own. -/
structure Revealing (cs : List Call) (ways : List Reveal) : Prop where
  boxes : ∀ p c, Call.box p c ∈ cs → ∃ r ∈ ways, c.show_ = r.arg
  pictures : ∀ p w h n, Call.image p w h (some n) ∉ cs

/-- A call with `next` or `next+`. -/
def isNext : Call → Bool
  | .box _ c => match c.show_ with
    | .str s => s == "next".toList || s == "next+".toList
    | _ => false
  | _ => false

/-- The fragment of the call `k`, counted from 0: the first one, and one more for each `next` up to this call. -/
def fragment (cs : List Call) (k : Nat) : Int := 1 + ((cs.take (k + 1)).countP isNext : Nat)

/-- The page on which a box appears: boxes with a selector on the one of their call, the others with the box they are in. -/
inductive Since (cs : List Call) : Nat → Int → Prop
  | slide : Since cs 0 1
  | box {k p : Nat} {c : BoxCall} {f : Int} : cs[k]? = some (.box p c) → c.show_ = .none → Since cs p f → Since cs (k + 1) f
  | selected {k p : Nat} {c : BoxCall} : cs[k]? = some (.box p c) → c.show_ ≠ .none → Since cs (k + 1) (fragment cs k)

/-- The selector has no end: nothing, or one item with `+`. -/
def Open : ShowArg → Prop
  | .none => True
  | .str s => ∃ b : Bound, b.Valid ∧ Writes isSpace s [.opn b]
  | _ => False

end Verif.Slide.Spec
