import Verif.Spec.Slide

/-! # Specification: in which box a call on an item works

Things are numbered as the calls that return them: 0 is the slide, `k + 1` what the call number `k` returns. -/

namespace Verif.Slide.Spec
open Verif.Layout (Pos Arg)

/-- In the chain of calls that starts at the thing `t`, the box `b` is the first box: `t` itself, or the box of the thing on which the item
`t` was made. -/
inductive Home (cs : List Call) : Nat → Nat → Prop
  | slide : Home cs 0 0
  | box {k p b} : cs[k]? = some (.box p b) → Home cs (k + 1) (k + 1)
  | item {k c b} : cs[k]? = some c → (∀ p a, c ≠ .box p a) → Home cs (target c) b → Home cs (k + 1) b

/-- The same value with other boxes in place of the things it mentions. -/
inductive PosMoved (R : Nat → Nat → Prop) : Pos → Pos → Prop
  | empty : PosMoved R .empty .empty
  | fix (q) : PosMoved R (.fix q) (.fix q)
  | ratio (q) : PosMoved R (.ratio q) (.ratio q)
  | align (q) : PosMoved R (.align q) (.align q)
  | ref {u b v v'} (hor) : R u b → PosMoved R v v' → PosMoved R (.ref u hor v) (.ref b hor v')
  | map {v v'} (f) : PosMoved R v v' → PosMoved R (.map f v) (.map f v')
  | fn {u b} (f) : R u b → PosMoved R (.fn u f) (.fn b f)

/-- The same argument with other boxes in place of the things it mentions. -/
inductive ArgMoved (R : Nat → Nat → Prop) : Arg → Arg → Prop
  | dyn {v v'} : PosMoved R v v' → ArgMoved R (.lazy v) (.lazy v')
  | plain {a} : (∀ v, a ≠ .lazy v) → ArgMoved R a a

/-- The same call on other boxes in place of the things it mentions. -/
inductive Moved (R : Nat → Nat → Prop) : Call → Call → Prop
  | box {t p} {b : BoxCall} {x y w h} : R t p → ArgMoved R b.layout.x x → ArgMoved R b.layout.y y → ArgMoved R b.layout.width w →
      ArgMoved R b.layout.height h →
      Moved R (.box t b) (.box p { b with layout := { b.layout with x := x, y := y, width := w, height := h } })
  | text {t p} (w h fit) : R t p → Moved R (.text t w h fit) (.text p w h fit)
  | shape {t p} : R t p → Moved R (.shape t) (.shape p)
  | image {t p} (w h steps) : R t p → Moved R (.image t w h steps) (.image p w h steps)

/-- The program `ds` is `cs` with everything called on the first box of the chain, among the things that were there before the call. -/
structure OnBoxes (cs ds : List Call) : Prop where
  length : ds.length = cs.length
  calls : ∀ k c d, cs[k]? = some c → ds[k]? = some d → Moved (Home (cs.take k)) c d

end Verif.Slide.Spec
