import Verif.Model.Scene
import Verif.Model.TextQuery

/-! # Model of the boxes of a text

elsie/text/textboxitem.py:83-173: `line_box` and `inline_box` create ordinary boxes in the box of the text; their positions and sizes are
lazy values computed from the rectangle of this box. -/

namespace Verif.Scene
open Verif.Text Verif.Layout
open Verif.Slide (BoxCall)

/-- elsie/text/textboxitem.py:97-111: the arguments of the box of some lines. The size of the text is the one after the callback
(lines 38-45). -/
def lineArgs (p : Nat) (t : Verif.TextItem.Item) (index n : Int) (b : BoxArgs) : BoxArgs :=
  { b with
    width := setDefault b.width (.str "fill".toList)
    x := setDefault b.x (.num 0)
    y := setDefault b.y (.lazy (.fn p fun r => (lineBox r (t.state.onRect r).height t.toks index n).1))
    height := setDefault b.height (.lazy (.fn p fun r => (lineBox r (t.state.onRect r).height t.toks index n).2)) }

/-- elsie/text/textboxitem.py:83-112 `line_box` of a text in the box `p`. -/
def lineBoxCall (p : Nat) (t : Verif.TextItem.Item) (index n : Int) (c : BoxCall) : Call := .box p { c with layout := lineArgs p t index n c.layout }

/-- elsie/text/textboxitem.py:162-171: the arguments of the box of a section; `qx`, `qw` are the answers of the backend (lines 154-160). -/
def inlineArgs (p : Nat) (t : Verif.TextItem.Item) (index : Nat) (qx qw : Rat) (b : BoxArgs) : BoxArgs :=
  { b with
    x := setDefault b.x (.lazy (.fn p fun r => (Verif.TextItem.textX r t.style.align).toOption.getD 0 + qx * (t.state.onRect r).scale))
    y := setDefault b.y (.lazy (.fn p fun r => (inlineBoxY r (t.state.onRect r).height t.toks index).1))
    width := setDefault b.width (.lazy (.fn p fun r => qw * (t.state.onRect r).scale))
    height := setDefault b.height (.lazy (.fn p fun r => (inlineBoxY r (t.state.onRect r).height t.toks index).2)) }

/-- elsie/text/textboxitem.py:114-137 `inline_box` and 139-173 `_text_box_helper` of a text in the box `p`. Simplified: an invalid alignment is found here, not when
the position is computed (line 165). -/
def inlineBoxCall (p : Nat) (t : Verif.TextItem.Item) (name : Str) (nth : Nat) (qx qw : Rat) (c : BoxCall) : Except Err Call :=
  match inlineBoxIndex t.toks name nth with
  | .error e => .error e
  | .ok index =>
    match extractLine t.toks index with
    | .error e => .error e
    | .ok _ =>
      match Verif.TextItem.textX ⟨0, 0, 0, 0⟩ t.style.align with
      | .error e => .error e
      | .ok _ => .ok (.box p { c with layout := inlineArgs p t index qx qw c.layout })

/-- Calls on a box of the slide, or on the text with the number `item`. -/
inductive TextCall where
  | plain (c : Call)
  | lineBox (item : Nat) (index n : Int) (c : BoxCall)
  | inlineBox (item : Nat) (name : Str) (nth : Nat) (qx qw : Rat) (c : BoxCall)

/-- The call on a box that it becomes. Only a text has these methods. -/
def resolve (s : State) : TextCall → Except Err Call
  | .plain c => .ok c
  | .lineBox u index n c =>
    match s.contents.lookup u with
    | some (p, .text t) => .ok (lineBoxCall p t index n c)
    | _ => .error .attribute
  | .inlineBox u name nth qx qw c =>
    match s.contents.lookup u with
    | some (p, .text t) => inlineBoxCall p t name nth qx qw c
    | _ => .error .attribute

/-- One call. -/
def execText (s : State) (t : TextCall) : State × Option Err :=
  match resolve s t with
  | .error e => (s, some e)
  | .ok c => exec s c

/-- A sequence of calls, stopping at the first exception. -/
def runText (s : State) : List TextCall → Except Err State
  | [] => .ok s
  | t :: ts =>
    match execText s t with
    | (_, some e) => .error e
    | (s, none) => runText s ts

end Verif.Scene
