import Verif.Model.Show

/-! # Model of image fragments

elsie/slides/show.py:34-39, elsie/render/image.py and the scheduling part of
elsie/boxtree/boxmixin.py:585-668. Reading and writing SVG files, and placing the image in its box, are not modelled
here (for the placement see `Model/Draw`). -/

namespace Verif.Image
open Verif.Show

/-- The text before and after the first `**`. -/
def cut : Str → Option (Str × Str)
  | [] => none
  | '*' :: '*' :: r => some ([], r)
  | c :: r =>
    match cut r with
    | some (a, b) => some (c :: a, b)
    | none => none

/-- `label.split("**", 2)[1]` for a label that contains `**`, given the text after the first `**`. -/
def secondPart (r : Str) : Str :=
  match cut r with
  | some (s, _) => s
  | none => r

/-- elsie/slides/show.py:34-39 `ShowInfo.from_label`. -/
def fromLabel (label : Option Str) : Except Err (Option ShowInfo) :=
  match label with
  | none => .ok none
  | some l =>
    match cut l with
    | none => .ok none
    | some (_, r) =>
      match parse (.str (secondPart r)) none with
      | .error e => .error e
      | .ok info => .ok (some info)

/-- An element of an lxml tree without its children: `id` is the identity of the object, `tag` stands for the tag
and the attributes nobody looks at, `label` is the attribute `inkscape:label`, `tail` is the text between the end of the element and the next
element. Comments are elements without a label. -/
structure Elem where
  id : Nat
  tag : Str
  label : Option Str
  text : Str
  tail : Str
  deriving DecidableEq, Repr

/-- A list of elements with their children. -/
inductive Forest where
  | nil
  | node (e : Elem) (kids rest : Forest)
  deriving DecidableEq, Repr

/-- A document: the root element and its children. -/
structure Root where
  e : Elem
  kids : Forest
  deriving DecidableEq, Repr

/-- elsie/render/image.py:8-10 `parse_show_info_from_label`. -/
def labelInfo (e : Elem) : Except Err (Option ShowInfo) := fromLabel e.label

/-- The loop of `get_image_steps` over a list of elements and everything below. -/
def stepsLoop (steps : Int) : Forest → Except Err Int
  | .nil => .ok steps
  | .node e kids rest =>
    match labelInfo e with
    | .error er => .error er
    | .ok info =>
      match stepsLoop (match info with | some i => max steps i.getMinSteps | none => steps) kids with
      | .error er => .error er
      | .ok n => stepsLoop n rest

/-- elsie/render/image.py:13-19 `get_image_steps` (`root.iter()` includes the root). -/
def getImageSteps (r : Root) : Except Err Int := stepsLoop 1 (.node r.e r.kids .nil)

/-- elsie/render/image.py:25-31 `find_hidden_elements`: pairs of the parent and the child to remove. -/
def findHidden (step : Int) (parent : Nat) : Forest → Except Err (List (Nat × Nat))
  | .nil => .ok []
  | .node e kids rest =>
    match labelInfo e with
    | .error er => .error er
    | .ok info =>
      if (match info with | some i => !i.isVisible step | none => false) then
        match findHidden step parent rest with
        | .error er => .error er
        | .ok l => .ok ((parent, e.id) :: l)
      else
        match findHidden step e.id kids with
        | .error er => .error er
        | .ok k =>
          match findHidden step parent rest with
          | .error er => .error er
          | .ok l => .ok (k ++ l)

/-- Removing the child `c` from a list of children. lxml removes the tail of the child with it; the text before stays. -/
def dropChild (c : Nat) : Forest → Option Forest
  | .nil => none
  | .node e kids rest =>
    if e.id = c then some rest
    else match dropChild c rest with
      | some r => some (.node e kids r)
      | none => none

/-- `element.remove(child)` for elements given by their identity, somewhere in a list of elements. -/
def removeIn (p c : Nat) : Forest → Option Forest
  | .nil => none
  | .node e kids rest =>
    if e.id = p then
      match dropChild c kids with
      | some k => some (.node e k rest)
      | none => none
    else
      match removeIn p c kids with
      | some k => some (.node e k rest)
      | none =>
        match removeIn p c rest with
        | some r => some (.node e kids r)
        | none => none

/-- `element.remove(child)`: the documents in memory after it. `ValueError` if the child is not a child of the
element. -/
def remove (p c : Nat) : List Root → Except Err (List Root)
  | [] => .error .value
  | r :: rs =>
    match removeIn p c (.node r.e r.kids .nil) with
    | some (.node e k _) => .ok (⟨e, k⟩ :: rs)
    | _ =>
      match remove p c rs with
      | .error er => .error er
      | .ok rs' => .ok (r :: rs')

/-- elsie/render/image.py:35-36: the loop over the hidden elements. -/
def removeAll (mem : List Root) : List (Nat × Nat) → Except Err (List Root)
  | [] => .ok mem
  | (p, c) :: l =>
    match remove p c mem with
    | .error er => .error er
    | .ok mem => removeAll mem l

/-- The identities used in a list of elements. -/
def Forest.ids : Forest → List Nat
  | .nil => []
  | .node e kids rest => e.id :: (kids.ids ++ rest.ids)

/-- The identities used in a document. -/
def Root.ids (r : Root) : List Nat := r.e.id :: r.kids.ids

/-- A number above all identities in use. -/
def fresh (mem : List Root) : Nat := ((mem.flatMap Root.ids).max?.getD 0) + 1

/-- The same list of elements with new identities. -/
def Forest.shift (d : Nat) : Forest → Forest
  | .nil => .nil
  | .node e kids rest => .node { e with id := e.id + d } (kids.shift d) (rest.shift d)

/-- `deepcopy`: the same document with identities not in use. -/
def Root.copy (d : Nat) (r : Root) : Root := ⟨{ r.e with id := r.e.id + d }, r.kids.shift d⟩

/-- elsie/render/image.py:22-36 `create_image_data`; `mem` are the documents in memory, `root` is one of them. The
documents in memory afterwards, the last one is the one written out (`et.tostring`). -/
def createImageData (mem : List Root) (root : Root) (step : Int) : Except Err (List Root) :=
  let copy := root.copy (fresh mem)
  match findHidden step copy.e.id copy.kids with
  | .error er => .error er
  | .ok hidden => removeAll (mem ++ [copy]) hidden

/-- The arguments of `image` that schedule it. -/
structure Sched where
  fragments : Bool := true
  showBegin : Int := 1
  select : Option (List (Option Int)) := none

/-- elsie/boxtree/boxmixin.py:607-613: `image_steps`. -/
def imageSteps (r : Root) (c : Sched) : Except Err Int :=
  match c.select with
  | some l => .ok l.length
  | none => if c.fragments then getImageSteps r else .ok 1

/-- elsie/boxtree/boxmixin.py:615: the argument of `_ensure_steps` (`Model/Slide` models what it does, in the call
`image`). -/
def ensured (r : Root) (c : Sched) : Except Err Int :=
  match imageSteps r c with
  | .error e => .error e
  | .ok n => .ok (c.showBegin - 1 + n)

/-- What `draw` gives to `ctx.draw_svg`: nothing, the unfiltered document, or `create_image_data(root, step)`. -/
inductive Drawn where
  | nothing
  | whole
  | fragment (step : Int)
  deriving DecidableEq, Repr

/-- elsie/boxtree/boxmixin.py:617-640: what is drawn in the fragment `page` of the slide. -/
def drawn (r : Root) (c : Sched) (page : Int) : Except Err Drawn :=
  match imageSteps r c with
  | .error e => .error e
  | .ok n =>
    if n = 1 ∧ (c.select = none ∨ c.select = some []) then
      if page < c.showBegin then .ok .nothing else .ok .whole
    else
      let step := page - c.showBegin + 1
      match c.select with
      | some l =>
        if 0 < step ∧ step ≤ l.length then
          match l[(step - 1).toNat]? with
          | none => .error .index
          | some none => .ok .nothing
          | some (some f) => if f < 1 then .ok .nothing else .ok (.fragment f)
        else .ok .nothing
      | none => if step < 1 then .ok .nothing else .ok (.fragment step)

/-- The document that is drawn, if any, and the documents in memory afterwards. -/
def drawData (mem : List Root) (r : Root) (c : Sched) (page : Int) : Except Err (List Root × Option Root) :=
  match drawn r c page with
  | .error e => .error e
  | .ok .nothing => .ok (mem, none)
  | .ok .whole => .ok (mem, some r)
  | .ok (.fragment f) =>
    match createImageData mem r f with
    | .error e => .error e
    | .ok mem' => .ok (mem', mem'.getLast?)

end Verif.Image
