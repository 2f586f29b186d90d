import Verif.Model.Slide
import Verif.Model.Code

/-! # Model: placeholders (elsie/ext/todo.py) -/

namespace Verif.Todo
open Verif.Text (Tok)
open Verif.Layout (fboxArgs)

/-- What the function is called on: a box with or without a name, or an item, which has no attribute `name` (elsie/boxtree/boxitem.py:12-14). -/
inductive On where
  | box (name : Option Str)
  | item

/-- elsie/ext/todo.py:2-3: the name that is used. -/
def nameFor : On → Option Str → Except Err (Option Str)
  | _, some n => .ok (some n)
  | .box n, none => .ok n
  | .item, none => .error .attribute

/-- elsie/ext/todo.py:6-9: the text; the empty name counts as none. -/
def todoText : Option Str → Str
  | some (c :: s) => "TODO\n".toList ++ c :: s
  | _ => "TODO".toList

/-- elsie/ext/todo.py:4-5, 10-12: the calls on the box `p` when the next one gets the number `next`; the text has the measured size `w × h`. -/
def todoCalls (p next : Nat) (w h : Rat) : List Verif.Slide.Call :=
  [.box p { layout := fboxArgs { padding := some 3 } }, .shape next,
   .box next { layout := fboxArgs { padding := some 20 } }, .shape (next + 2), .text (next + 2) w h false]

/-- elsie/ext/todo.py:1-13 `todo_placeholder` on (an item in) the box `p`, when the next call gets the number `next`: the parsed text and the calls, of which the first makes the box that is returned.
`tw` and `th` are the measured sizes of the text. If an exception is raised, the calls made before it are left out. -/
def todo (on : On) (p next : Nat) (name : Option Str) (tw th : List Tok → Rat) : Except Err (List Tok × List Verif.Slide.Call) :=
  match nameFor on name with
  | .error e => .error e
  | .ok n =>
    match Verif.Text.boxText ['~'] (todoText n) with
    | .error e => .error e
    | .ok toks => .ok (toks, todoCalls p next (tw toks) (th toks))

end Verif.Todo
