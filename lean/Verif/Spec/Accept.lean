import Verif.Spec.Calls
import Verif.Spec.History

/-! # Specification: which calls are accepted, and which slides can be laid out -/

namespace Verif.Slide.Spec
open Verif.Show (ShowArg)
open Verif.Show.Spec
open Verif.Layout (Arg Pos BoxArgs)
open Verif.Layout.Spec (PosText SizeText refs)

/-- A position is nothing, a number, a dynamic value or a documented string, after which a line break may follow. -/
def PosOk : Arg → Prop
  | .none => True
  | .num _ => True
  | .lazy _ => True
  | .other => False
  | .str s => ∃ v t nl, s = t ++ nl ∧ PosText t v ∧ (nl = [] ∨ nl = ['\n'])

/-- A size is nothing, a number, a dynamic value, the empty string or a documented string, after which further closing parentheses (if it ends with one) and a line break may follow. -/
def SizeOk : Arg → Prop
  | .none => True
  | .num _ => True
  | .lazy _ => True
  | .other => False
  | .str s => s = [] ∨ ∃ v t k nl, s = t ++ List.replicate k ')' ++ nl ∧ SizeText t v ∧ (k = 0 ∨ t.getLast? = some ')') ∧ (nl = [] ∨ nl = ['\n'])

/-- A `show` argument is nothing, a number or a legal selector on a slide with `cur` pages. -/
def ShowOk (cur : Int) : ShowArg → Prop
  | .none => True
  | .int _ => True
  | .str s => ∃ is, Writes isSpace s is ∧ Legal (some cur) is
  | .other => False

/-- The box exists: it is the slide or was made by a call. -/
def IsBox (cs : List Call) (p : Nat) : Prop := p = 0 ∨ ∃ b, madeBy cs p = some b

/-- Something that was put into the box `p`. -/
def PutInto (cs : List Call) (p u : Nat) : Prop := ∃ (k : Nat) (c : Call), u = k + 1 ∧ cs[k]? = some c ∧ target c = p

/-- At most one of `above` and `below` is given, and it is something in the box. -/
def PlaceOk (cs : List Call) (p : Nat) : Option Nat → Option Nat → Prop
  | none, none => True
  | some a, none => PutInto cs p a
  | none, some b => PutInto cs p b
  | some _, some _ => False

/-- The arguments of a call of `box` are right, after the calls `cs`. -/
structure ArgsOk (cs : List Call) (p : Nat) (b : BoxCall) : Prop where
  x : PosOk b.layout.x
  y : PosOk b.layout.y
  width : SizeOk b.layout.width
  height : SizeOk b.layout.height
  show_ : ∃ cur, Pages cs cur ∧ ShowOk cur b.show_
  place : PlaceOk cs p b.above b.below

/-- Every call is on a box that exists, and the arguments for new boxes are right. -/
inductive Accepted : List Call → Prop
  | nothing : Accepted []
  | call {cs : List Call} {c : Call} : Accepted cs → IsBox cs (target c) → (∀ p b, c = .box p b → ArgsOk cs p b) → Accepted (cs ++ [c])

/-- The given boxes, each followed by all boxes in it, in the order in which they are laid out. -/
inductive LayoutWalk (cs : List Call) : List Nat → List Nat → Prop
  | nil : LayoutWalk cs [] []
  | cons {u : Nat} {us a b : List Nat} : LayoutWalk cs (inOrder cs u) a → LayoutWalk cs us b → LayoutWalk cs (u :: us) (u :: (a ++ b))

/-- The value says something, i.e. `None` was not given for it. -/
def Says : Pos → Prop
  | .empty => False
  | .ref _ _ v => Says v
  | .map _ v => Says v
  | _ => True

/-- A dynamic value among the arguments. -/
def DynamicArg (b : BoxArgs) (v : Pos) : Prop := b.x = .lazy v ∨ b.y = .lazy v ∨ b.width = .lazy v ∨ b.height = .lazy v

end Verif.Slide.Spec
