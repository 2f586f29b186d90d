import Verif.Model.Layout

/-! # Model of elsie/ext/list.py

A family of lists is the list made by `unordered_list` or `ordered_list` and all its sublists. Lists and boxes are numbered in the order in which they are made; box 0 is the box made by
`parent.sbox()`, list 0 is the outermost list. Arguments that are only passed on to `box()` are uninterpreted strings. -/

namespace Verif.ExtList

/-- Keyword arguments; the first pair for a key counts. -/
abbrev Args := List (Str × Str)

/-- `args = dict(a); args.update(b)`. -/
def update (a b : Args) : Args := b ++ a

/-- What can be given as a label: a string, a function (identified by a number) or something else. Function 0 is `arabic_digit_render_fn`. -/
inductive Label where
  | text (s : Str)
  | fn (id : Nat)
  | other
  deriving DecidableEq, Repr

/-- `label or default`: the empty string is false. -/
def Label.orDefault (default : Label) : Option Label → Label
  | none => default
  | some (.text []) => default
  | some l => l

/-- elsie/ext/list.py:270-271. -/
def ulLabel : Label := .text "•".toList
def olLabel : Label := .fn 0

/-- A box made by a list, with its arguments. -/
structure BoxRec where
  parent : Nat
  x : Option Str := none
  y : Option Str := none
  pLeft : Option Rat := none
  width : Option Str := none
  horizontal : Bool := false
  extra : Args := []
  deriving DecidableEq, Repr

/-- elsie/ext/list.py:10-39 `ListBuilder`. `parent` is a box. -/
structure ListB where
  parent : Nat
  label : Label
  defaultIndent : Rat
  labelPadding : Rat
  level : List Int
  totalIndent : Rat
  args : Args
  deriving DecidableEq, Repr

/-- elsie/ext/list.py:18-39 `ListBuilder.__init__`. -/
def newList (parent : Nat) (label : Label) (defaultIndent labelPadding : Rat) (level : List Int) (start : Int) (totalIndent : Rat) (args : Args) : ListB :=
  { parent, label, defaultIndent, labelPadding, totalIndent, level := level ++ [start - 1],
    args := if (args.lookup "show".toList).isNone then ("show".toList, "last+".toList) :: args else args }

/-- All lists of a family and the boxes made so far (box 0 is not in the list). -/
structure Family where
  lists : List ListB
  boxes : List BoxRec := []
  deriving DecidableEq, Repr

/-- elsie/ext/list.py:189-222 `unordered_list` and 225-262 `ordered_list`. -/
def unorderedList (indent labelPadding : Rat) (label : Option Label) (args : Args) : Family :=
  { lists := [newList 0 (Label.orDefault ulLabel label) indent labelPadding [] 1 0 args] }

def orderedList (indent : Rat) (start : Int) (labelPadding : Rat) (label : Option Label) (args : Args) : Family :=
  { lists := [newList 0 (Label.orDefault olLabel label) indent labelPadding [] start 0 args] }

/-- elsie/ext/list.py:180-186 `_create_box`; the number of the new box, its `total_indent`, and the family. -/
def createBox (f : Family) (l : ListB) (indent : Rat) (horizontal : Bool) (args : Args) : Nat × Rat × Family :=
  let total := l.totalIndent + indent
  (f.boxes.length + 1, total,
    { f with boxes := f.boxes ++ [{ parent := l.parent, x := some "[0%]".toList, pLeft := some total, horizontal, extra := update l.args args }] })

/-- What a list can be asked to do. -/
inductive Ev where
  /-- `item(label, label_padding, **box_args)` on a list -/
  | item (l : Nat) (label : Option Label) (padding : Option Rat) (args : Args)
  /-- `ul(indent, label, **box_args)` -/
  | ul (l : Nat) (indent : Option Rat) (label : Option Label) (args : Args)
  /-- `ol(level, start, indent, label, **box_args)` -/
  | ol (l : Nat) (level : Option (List Int)) (start : Option Int) (indent : Option Rat) (label : Option Label) (args : Args)
  deriving DecidableEq, Repr

/-- What is put into the label box: a text, or what a function puts there for the counters. -/
inductive Shown where
  | text (s : Str)
  | call (id : Nat) (counters : List Int)
  deriving DecidableEq, Repr

/-- `str` of an integer. -/
def intStr : Int → Str
  | .ofNat n => natStr n
  | .negSucc n => '-' :: natStr (n + 1)

/-- `".".join(…)`. -/
def dots : List Str → Str
  | [] => []
  | [s] => s
  | s :: t => s ++ '.' :: dots t

/-- elsie/ext/list.py:265-267 `arabic_digit_render_fn`. -/
def arabic (level : List Int) : Str := dots (level.map intStr) ++ ".".toList

/-- elsie/ext/list.py:146-154. Function 0 writes a text. -/
def showLabel (label : Label) (level : List Int) : Except Err Shown :=
  match label with
  | .text s => .ok (.text s)
  | .fn 0 => .ok (.text (arabic level))
  | .fn id => .ok (.call id level)
  | .other => .error (.user "Label must be either a string or a function")

/-- What a call gives: the new item box (with the item box itself, the label box and what is in it), or a new list. -/
inductive Out where
  | item (box : Nat) (row labelBox : Nat) (shown : Shown)
  | list (id : Nat)
  | raised (e : Err)
  deriving DecidableEq, Repr

/-- `self.level[-1] += 1`. -/
def bump (level : List Int) : List Int :=
  match level.reverse with
  | [] => []
  | n :: r => (r.reverse) ++ [n + 1]

/-- elsie/ext/list.py:115-155 `item`. The label is never `None`. -/
def item (f : Family) (i : Nat) (l : ListB) (label : Option Label) (padding : Option Rat) (args : Args) : Out × Family :=
  let l := { l with level := bump l.level }
  let f := { f with lists := f.lists.set i l }
  let padding := padding.getD l.labelPadding
  let (row, _, f) := createBox f l 0 true args
  let actual := label.getD l.label
  let labelBox := f.boxes.length + 1
  let f := { f with boxes := f.boxes ++ [{ parent := row, y := some "[0%]".toList }] }
  match showLabel actual l.level with
  | .error e => (.raised e, f)
  | .ok shown =>
    (.item (f.boxes.length + 1) row labelBox shown, { f with boxes := f.boxes ++ [{ parent := row, pLeft := some padding, width := some "fill".toList }] })

/-- elsie/ext/list.py:157-178 `_create_sublist`. -/
def createSublist (f : Family) (l : ListB) (default : Label) (start : Option Int) (indent : Option Rat) (label : Option Label) (level : Option (List Int)) (args : Args) :
    Out × Family :=
  let start := start.getD 1
  if start < 1 then (.raised .assertion, f)
  else
    let indent := indent.getD l.defaultIndent
    let level := level.getD l.level
    let (box, total, f) := createBox f l indent false args
    (.list f.lists.length,
      { f with lists := f.lists ++ [newList box (Label.orDefault default label) indent l.labelPadding level start total (update l.args args)] })

/-- One call. A list that does not exist cannot be asked. -/
def step (f : Family) : Ev → Out × Family
  | .item i label padding args =>
    match f.lists[i]? with
    | none => (.raised .index, f)
    | some l => item f i l label padding args
  | .ul i indent label args =>
    match f.lists[i]? with
    | none => (.raised .index, f)
    | some l => createSublist f l ulLabel none indent label none args
  | .ol i level start indent label args =>
    match f.lists[i]? with
    | none => (.raised .index, f)
    | some l => createSublist f l olLabel start indent label level args

/-- The family after calls. -/
def run (f : Family) : List Ev → Family
  | [] => f
  | e :: es => run (step f e).2 es

end Verif.ExtList
