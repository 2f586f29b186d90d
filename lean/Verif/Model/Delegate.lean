import Verif.Model.Slide

/-! # Model: calls on items (elsie/boxtree/boxitem.py)

In `Verif.Model.Slide` every call is on a box. Here it may also be on an item, as in `box.rect().text("...")`. The things that a program
gets are numbered as the calls that return them: 0 is the box of the slide, `k + 1` is what the call number `k` returned. -/

namespace Verif.Slide
open Verif.Layout (Pos Arg BoxArgs)

/-- What a call returns: a box (elsie/boxtree/box.py:14-49), or an item, which keeps the box it is in (elsie/boxtree/boxitem.py:4-14). -/
inductive Obj where
  | box (uid : Nat)
  | item (box : Nat)
  deriving DecidableEq

/-- elsie/boxtree/box.py:51-52 and elsie/boxtree/boxitem.py:16-17 `_get_box`. -/
def Obj.getBox : Obj → Nat
  | .box u => u
  | .item b => b

/-- The box on which a call on the thing number `t` works. A thing that is not there cannot be written in a program; it counts as a
`KeyError`. -/
def boxAt (objs : List Obj) (t : Nat) : Except Err Nat :=
  match objs[t]? with
  | none => .error .key
  | some o => .ok o.getBox

/-- elsie/boxtree/boxmixin.py:801-815: dynamic values made with `x`, `y`, `p` and `mid_point` are made by the layout of the box. -/
def posAt (objs : List Obj) : Pos → Except Err Pos
  | .ref u hor v =>
    match boxAt objs u with
    | .error e => .error e
    | .ok b =>
      match posAt objs v with
      | .error e => .error e
      | .ok v => .ok (.ref b hor v)
  | .map f v =>
    match posAt objs v with
    | .error e => .error e
    | .ok v => .ok (.map f v)
  | .fn u f =>
    match boxAt objs u with
    | .error e => .error e
    | .ok b => .ok (.fn b f)
  | .empty => .ok .empty
  | .fix q => .ok (.fix q)
  | .ratio q => .ok (.ratio q)
  | .align q => .ok (.align q)

/-- An argument of `box`; only a dynamic value mentions another thing. -/
def argAt (objs : List Obj) : Arg → Except Err Arg
  | .lazy v =>
    match posAt objs v with
    | .error e => .error e
    | .ok v => .ok (.lazy v)
  | .none => .ok .none
  | .num q => .ok (.num q)
  | .str s => .ok (.str s)
  | .other => .ok .other

/-- The four arguments of `box` that may be dynamic. -/
def argsAt (objs : List Obj) (a : BoxArgs) : Except Err BoxArgs :=
  match argAt objs a.x with
  | .error e => .error e
  | .ok x =>
    match argAt objs a.y with
    | .error e => .error e
    | .ok y =>
      match argAt objs a.width with
      | .error e => .error e
      | .ok w =>
        match argAt objs a.height with
        | .error e => .error e
        | .ok h => .ok { a with x := x, y := y, width := w, height := h }

/-- elsie/boxtree/boxmixin.py:136 (`box`), 433 (`rect`, `line`, ...), 540 and 603 (`image`), 796 (`text`, `code`): the call on the box
that `_get_box` returns. `above` and `below` name the things themselves. -/
def callAt (objs : List Obj) : Call → Except Err Call
  | .box t b =>
    match boxAt objs t with
    | .error e => .error e
    | .ok p =>
      match argsAt objs b.layout with
      | .error e => .error e
      | .ok a => .ok (.box p { b with layout := a })
  | .text t w h fit =>
    match boxAt objs t with
    | .error e => .error e
    | .ok p => .ok (.text p w h fit)
  | .shape t =>
    match boxAt objs t with
    | .error e => .error e
    | .ok p => .ok (.shape p)
  | .image t w h steps =>
    match boxAt objs t with
    | .error e => .error e
    | .ok p => .ok (.image p w h steps)

/-- What the call returns: the new box (boxmixin.py:159-161), or an item made with the box (boxmixin.py:434-436, 797-799; boxitem.py:12-13). -/
def returned (uid : Nat) : Call → Obj
  | .box _ _ => .box uid
  | .text p _ _ _ => .item p
  | .shape p => .item p
  | .image p _ _ _ => .item p

/-- One call on a thing. -/
def execAt (s : State) (objs : List Obj) (c : Call) : Except Err (State × List Obj) :=
  match callAt objs c with
  | .error e => .error e
  | .ok d =>
    match exec s d with
    | (_, some e) => .error e
    | (s', none) => .ok (s', objs ++ [returned s.next d])

/-- A sequence of calls on things, stopping at the first exception. -/
def runFrom (s : State) (objs : List Obj) : List Call → Except Err (State × List Obj)
  | [] => .ok (s, objs)
  | c :: cs =>
    match execAt s objs c with
    | .error e => .error e
    | .ok (s, objs) => runFrom s objs cs

/-- The calls on a new slide; there is its box at first. -/
def runAt (width height : Rat) (cs : List Call) : Except Err (State × List Obj) := runFrom (newSlide width height) [.box 0] cs

end Verif.Slide
