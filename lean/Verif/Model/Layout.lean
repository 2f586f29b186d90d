import Verif.Model.Py
import Verif.Model.Geom

/-! # Model of elsie/boxtree/value.py, elsie/boxtree/lazy.py and elsie/boxtree/layout.py

A layout object is identified by a number (`uid`); a layout tree is a forest in
first-child/next-sibling form.  Numbers are exact rationals. -/

namespace Verif.Layout

/-! ### value.py -/

/-- A position value (elsie/boxtree/value.py:74-82 `PosValue`), or a lazy value
(elsie/boxtree/lazy.py:4-22 `LazyValue`): `ref uid hor v` is `layout.x(v)` (`hor`) or `layout.y(v)`
of the layout `uid` (elsie/boxtree/layout.py:203-211), `map f v` is `v.map(f)` (lazy.py:12-14), and `fn uid f` is a value
computed from the whole rectangle of the layout `uid`, as in elsie/text/textboxitem.py:97-111 and 162-171.
`empty` is `PosValue()`. -/
inductive Pos where
  | empty
  | fix (q : Rat)
  | ratio (q : Rat)
  | align (q : Rat)
  | ref (uid : Nat) (hor : Bool) (v : Pos)
  | map (f : Rat → Rat) (v : Pos)
  | fn (uid : Nat) (f : Rect → Rat)

/-- A size value (elsie/boxtree/value.py:7-16 `SizeValue`). -/
structure Size where
  minSize : Rat := 0
  ratio : Option Rat := none
  fill : Nat := 0
  lazy : Option Pos := none

/-- An argument for a position or size: `None`, a number, a string, a lazy value or something else. -/
inductive Arg where
  | none
  | num (q : Rat)
  | str (s : Str)
  | lazy (v : Pos)
  | other

/-- What `$` allows at the end of a match: one final line break may follow. -/
def chomp (s : Str) : Str := if s.getLast? = some '\n' then s.dropLast else s

/-- A nonempty string of digits. -/
def allDigits (s : Str) : Bool := !s.isEmpty && s.all isDigit

/-- `^fill[(](?P<fill>\d+)[)]+$` on the part after `fill(`. -/
def fillNumber (s : Str) : Option Nat :=
  let ds := s.takeWhile isDigit
  let rest := s.dropWhile isDigit
  if ds ≠ [] ∧ rest ≠ [] ∧ rest.all (· == ')') then some (intOfDigits ds) else none

/-- elsie/boxtree/value.py:18-47 `SizeValue.parse`. -/
def parseSize (a : Arg) : Except Err Size :=
  match a with
  | .num q => .ok { minSize := q }
  | .lazy v => .ok { lazy := some v }
  | .none | .other => .error (.user "cannot be used as as size value")
  | .str s =>
    let s := chomp s
    if allDigits s then .ok { minSize := (intOfDigits s : Rat) }
    else if s.getLast? = some '%' ∧ allDigits s.dropLast then
      .ok { ratio := some ((intOfDigits s.dropLast : Rat) / 100) }
    else if s = "fill".toList then .ok { fill := 1 }
    else if "fill(".toList.isPrefixOf s then
      match fillNumber (s.drop 5) with
      | some n => .ok { fill := n }
      | none => .error (.user "Invalid format of size string")
    else .error (.user "Invalid format of size string")

/-- elsie/boxtree/value.py:83-113 `PosValue.parse`. -/
def parsePos (a : Arg) : Except Err Pos :=
  match a with
  | .none => .ok .empty
  | .num q => .ok (.fix q)
  | .lazy v => .ok v
  | .other => .error (.user "cannot be used as as size value")
  | .str s =>
    let s := chomp s
    if allDigits s then .ok (.fix (intOfDigits s : Rat))
    else if s.getLast? = some '%' ∧ allDigits s.dropLast then
      .ok (.ratio ((intOfDigits s.dropLast : Rat) / 100))
    else
      match s with
      | '[' :: t =>
        if t.drop (t.length - 2) = ['%', ']'] ∧ allDigits (t.take (t.length - 2)) then
          .ok (.align ((intOfDigits (t.take (t.length - 2)) : Rat) / 100))
        else .error (.user "Invalid format of position string")
      | _ => .error (.user "Invalid format of position string")

/-- elsie/boxtree/value.py:49-54 `SizeValue.ensure`. -/
def Size.ensure (s : Size) (size : Rat) : Size :=
  if size ≤ s.minSize then s else { s with minSize := size }

/-- The rectangles set so far (`Layout.rect`, `None` before layout). -/
abbrev Env := Nat → Option Rect

/-- elsie/boxtree/value.py:115-124 `PosValue.compute` and lazy.py:20-22 `LazyValue.eval`.
A reference to a layout without rectangle raises `AttributeError`. -/
def Pos.compute (env : Env) (origin full self : Rat) : Pos → Except Err Rat
  | .empty => .error (.user "Invalid pos")
  | .fix q => .ok (origin + q)
  | .ratio q => .ok (origin + full * q)
  | .align q => .ok (origin + (full - self) * q)
  | .ref uid hor v =>
    match env uid with
    | none => .error .attribute
    | some r => if hor then v.compute env r.x r.width 0 else v.compute env r.y r.height 0
  | .map f v =>
    match v.compute env origin full self with
    | .ok q => .ok (f q)
    | .error e => .error e
  | .fn uid f =>
    match env uid with
    | none => .error .attribute
    | some r => .ok (f r)

/-- elsie/boxtree/value.py:56-66 `SizeValue.compute`. -/
def Size.compute (env : Env) (s : Size) (full : Rat) (fillUnit : Option Rat) : Except Err Rat :=
  match s.lazy with
  | some v => v.compute env 0 0 0
  | none =>
    if s.fill ≠ 0 then
      match fillUnit with
      | none => .ok full
      | some u => .ok (u * s.fill)
    else
      match s.ratio with
      | some q => if q ≠ 0 then .ok (max (full * q) s.minSize) else .ok s.minSize
      | none => .ok s.minSize

/-! ### layout.py -/

/-- elsie/boxtree/layout.py:15-52: the attributes of a `Layout` set by its constructor. -/
structure Attrs where
  x : Option Pos
  y : Option Pos
  width : Size
  height : Size
  pLeft : Rat := 0
  pRight : Rat := 0
  pTop : Rat := 0
  pBottom : Rat := 0
  horizontal : Bool := false
  /-- `width_definition is None` -/
  widthUndef : Bool := true
  /-- `height_definition is None` -/
  heightUndef : Bool := true

/-- Layouts with their children, in first-child/next-sibling form: `node uid attrs kids rest` is a
layout followed by its later siblings. -/
inductive Forest where
  | nil
  | node (uid : Nat) (a : Attrs) (kids rest : Forest)

/-- elsie/boxtree/layout.py:6-11 `_set_padding`. -/
def setPadding (a b c : Option Rat) : Rat :=
  match a with
  | some v => v
  | none =>
    match b with
    | some v => v
    | none => c.getD 0

/-- The layout arguments of `box()`. -/
structure BoxArgs where
  x : Arg := .none
  y : Arg := .none
  width : Arg := .none
  height : Arg := .none
  pLeft : Option Rat := none
  pRight : Option Rat := none
  pTop : Option Rat := none
  pBottom : Option Rat := none
  pX : Option Rat := none
  pY : Option Rat := none
  padding : Option Rat := none
  horizontal : Bool := false
  prepend : Bool := false

/-- `x or 0` for a size argument (layout.py:40-41): `None`, `0` and `""` are false. -/
def orZero : Arg → Arg
  | .none => .num 0
  | .str [] => .num 0
  | a => a

/-- `None` or a parsed position (layout.py:28-36). -/
def parseOptPos : Arg → Except Err (Option Pos)
  | .none => .ok none
  | a =>
    match parsePos a with
    | .ok p => .ok (some p)
    | .error e => .error e

def isNoneArg : Arg → Bool
  | .none => true
  | _ => false

/-- `kwargs.setdefault`. Simplified: an argument given as `None` counts as not given. -/
def setDefault (a d : Arg) : Arg := if isNoneArg a then d else a

/-- elsie/boxtree/boxmixin.py:163-172 `overlay`: the arguments passed on to `box`. -/
def overlayArgs (b : BoxArgs) : BoxArgs :=
  { b with
    x := setDefault b.x (.num 0)
    y := setDefault b.y (.num 0)
    width := setDefault b.width (.str "100%".toList)
    height := setDefault b.height (.str "100%".toList) }

/-- elsie/boxtree/boxmixin.py:174-181 `fbox`: the arguments passed on to `box`. -/
def fboxArgs (b : BoxArgs) : BoxArgs :=
  { b with width := setDefault b.width (.str "fill".toList), height := setDefault b.height (.str "fill".toList) }

/-- elsie/boxtree/boxmixin.py:183-193 `sbox` in a box that is `horizontal` or not. -/
def sboxArgs (horizontal : Bool) (b : BoxArgs) : BoxArgs :=
  if horizontal then { b with height := setDefault b.height (.str "fill".toList) }
  else { b with width := setDefault b.width (.str "fill".toList) }

/-- elsie/boxtree/layout.py:15-52 `Layout.__init__` as called from `Layout.add`, with the paddings of
layout.py:71-74. -/
def newAttrs (b : BoxArgs) : Except Err Attrs :=
  match parseOptPos b.x with
  | .error e => .error e
  | .ok x =>
    match parseOptPos b.y with
    | .error e => .error e
    | .ok y =>
      match parseSize (orZero b.width) with
      | .error e => .error e
      | .ok w =>
        match parseSize (orZero b.height) with
        | .error e => .error e
        | .ok h => .ok {
            x := x, y := y, width := w, height := h
            pLeft := setPadding b.pLeft b.pX b.padding
            pRight := setPadding b.pRight b.pX b.padding
            pTop := setPadding b.pTop b.pY b.padding
            pBottom := setPadding b.pBottom b.pY b.padding
            horizontal := b.horizontal
            widthUndef := isNoneArg b.width
            heightUndef := isNoneArg b.height }

/-- elsie/boxtree/layout.py:100-104 `Layout.is_managed`. -/
def Attrs.managed (a : Attrs) (horizontal : Bool) : Bool :=
  if horizontal then a.x.isNone else a.y.isNone

/-- `max` of a list that Python computes only when the list is not empty. -/
def listMax (l : List Rat) : Rat := l.max?.getD 0

/-- elsie/boxtree/layout.py:181-195 `Layout.min_children_size`; `rqs` are the size requests of all
children together with their attributes. -/
def minChildrenSize (horizontal : Bool) (rqs : List (Attrs × Size × Size)) : Rat × Rat :=
  let rqs := rqs.filter (fun r => r.1.managed horizontal)
  if rqs.isEmpty then (0, 0)
  else if !horizontal then
    (listMax (rqs.map (·.2.1.minSize)), (rqs.map (·.2.2.minSize)).sum)
  else
    ((rqs.map (·.2.1.minSize)).sum, listMax (rqs.map (·.2.2.minSize)))

/-- elsie/boxtree/layout.py:175-179 `Layout.compute_size_request` of a layout whose children have the
requests `rqs`. -/
def sizeRequest (a : Attrs) (rqs : List (Attrs × Size × Size)) : Size × Size :=
  let m := minChildrenSize a.horizontal rqs
  (a.width.ensure (m.1 + (a.pLeft + a.pRight)), a.height.ensure (m.2 + (a.pTop + a.pBottom)))

/-- The size requests of the layouts of a forest (one per top-level layout). -/
def requests : Forest → List (Attrs × Size × Size)
  | .nil => []
  | .node _ a kids rest => (a, sizeRequest a (requests kids)) :: requests rest

/-- elsie/boxtree/layout.py:127-137: fill numbers and space taken by the managed children. -/
def fillsAndFree (horizontal : Bool) (rectSize : Rat) (rqs : List (Attrs × Size × Size)) : Nat × Rat :=
  (rqs.filter (fun r => r.1.managed horizontal)).foldl (fun (acc : Nat × Rat) r =>
    let rq := if horizontal then r.2.1 else r.2.2
    if rq.fill ≠ 0 then (acc.1 + rq.fill, acc.2)
    else
      match rq.ratio with
      | some q => if q ≠ 0 then (acc.1, acc.2 - max rq.minSize (q * rectSize)) else (acc.1, acc.2 - rq.minSize)
      | none => (acc.1, acc.2 - rq.minSize)) (0, rectSize)

/-- elsie/boxtree/layout.py:139-145: `(fill_unit, dd)`. -/
def fillUnitAndStart (horizontal : Bool) (rect : Rect) (rqs : List (Attrs × Size × Size)) : Rat × Rat :=
  let rectSize := if horizontal then rect.width else rect.height
  let rectStart := if horizontal then rect.x else rect.y
  let ff := fillsAndFree horizontal rectSize rqs
  if ff.1 ≠ 0 then (ff.2 / ff.1, rectStart + 0 / 2) else (0, rectStart + ff.2 / 2)

/-- elsie/boxtree/layout.py:148-173: the rectangle given to one child, and `dd` afterwards. -/
def childRect (env : Env) (horizontal : Bool) (rect : Rect) (fillUnit dd : Rat) (a : Attrs)
    (rq : Size × Size) : Except Err (Rect × Rat) :=
  if !horizontal then
    match rq.1.compute env rect.width none with
    | .error e => .error e
    | .ok w =>
      match rq.2.compute env rect.height (some fillUnit) with
      | .error e => .error e
      | .ok h =>
        match (match a.x with
            | some p => p.compute env rect.x rect.width w
            | none => .ok (rect.x + (rect.width - w) / 2)) with
        | .error e => .error e
        | .ok x =>
          match a.y with
          | none => .ok (⟨x, dd, w, h⟩, dd + h)
          | some p =>
            match p.compute env rect.y rect.height h with
            | .error e => .error e
            | .ok y => .ok (⟨x, y, w, h⟩, dd)
  else
    match rq.1.compute env rect.width (some fillUnit) with
    | .error e => .error e
    | .ok w =>
      match rq.2.compute env rect.height none with
      | .error e => .error e
      | .ok h =>
        -- line 165: the reference length is `rect.width`, not `rect.height`
        match (match a.y with
            | some p => p.compute env rect.y rect.width h
            | none => .ok (rect.y + (rect.height - h) / 2)) with
        | .error e => .error e
        | .ok y =>
          match a.x with
          | none => .ok (⟨dd, y, w, h⟩, dd + w)
          | some p =>
            match p.compute env rect.x rect.width w with
            | .error e => .error e
            | .ok x => .ok (⟨x, y, w, h⟩, dd)

/-- `layout.rect = rect`. -/
def Env.set (env : Env) (uid : Nat) (r : Rect) : Env := fun u => if u = uid then some r else env u

/-- The rectangle a layout records for the rectangle it is given (layout.py:111-112). -/
def Attrs.inner (a : Attrs) (r : Rect) : Rect := r.shrink a.pLeft a.pRight a.pTop a.pBottom

/-- elsie/boxtree/layout.py:147-173: the loop over the children, with the recursive calls of
`set_rect` on them (layout.py:109-145 is repeated for the child: record the rectangle, then place its
children).  Callbacks do not touch the layout and are modelled in `Verif.Model.Draw`. -/
def setKids (env : Env) (horizontal : Bool) (rect : Rect) (fillUnit dd : Rat) : Forest → Except Err Env
  | .nil => .ok env
  | .node uid a kids rest =>
    match childRect env horizontal rect fillUnit dd a (sizeRequest a (requests kids)) with
    | .error e => .error e
    | .ok (r, dd') =>
      let ri := a.inner r
      let fu := fillUnitAndStart a.horizontal ri (requests kids)
      match setKids (env.set uid ri) a.horizontal ri fu.1 fu.2 kids with
      | .error e => .error e
      | .ok env' => setKids env' horizontal rect fillUnit dd' rest

/-- elsie/boxtree/layout.py:109-173 `Layout.set_rect`. -/
def setRect (env : Env) (uid : Nat) (a : Attrs) (kids : Forest) (rect : Rect) : Except Err Env :=
  let ri := a.inner rect
  let fu := fillUnitAndStart a.horizontal ri (requests kids)
  setKids (env.set uid ri) a.horizontal ri fu.1 fu.2 kids

end Verif.Layout
