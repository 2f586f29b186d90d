import Verif.Model.Show
import Verif.Model.Layout

/-! # Model of the box tree of a slide

elsie/boxtree/box.py, the creating methods of elsie/boxtree/boxmixin.py and elsie/slides/slide.py.

A box and its layout carry the same number (`uid`), given in order of creation; items (texts, shapes,
images) have numbers of their own.  The box tree and the layout tree are separate structures, as in
the code. -/

namespace Verif.Slide
open Verif.Show (ShowInfo ShowArg)
open Verif.Layout (Attrs Forest BoxArgs)

/-- Children of a box (elsie/boxtree/box.py:19-49), in first-child/next-sibling form: an item
(elsie/boxtree/boxitem.py:12-14) or a box, followed by the later siblings. -/
inductive Tree where
  | nil
  | item (uid : Nat) (z : Int) (rest : Tree)
  | box (uid : Nat) (info : ShowInfo) (z : Int) (kids rest : Tree)

/-- Is there a box with this number? -/
def Tree.has (u : Nat) : Tree → Bool
  | .nil => false
  | .item _ _ rest => rest.has u
  | .box v _ _ kids rest => v == u || kids.has u || rest.has u

/-- The `z_level` of a box. -/
def Tree.zOf (u : Nat) : Tree → Option Int
  | .nil => none
  | .item _ _ rest => rest.zOf u
  | .box v _ z kids rest => if v = u then some z else (kids.zOf u).or (rest.zOf u)

/-- An assignment to the attributes of the box `u`. -/
def Tree.modify (u : Nat) (g : ShowInfo → Tree → Except Err (ShowInfo × Tree)) : Tree → Except Err Tree
  | .nil => .error .key
  | .item v z rest =>
    match rest.modify u g with
    | .error e => .error e
    | .ok rest => .ok (.item v z rest)
  | .box v i z kids rest =>
    if v = u then
      match g i kids with
      | .error e => .error e
      | .ok (i, kids) => .ok (.box v i z kids rest)
    else if kids.has u then
      match kids.modify u g with
      | .error e => .error e
      | .ok kids => .ok (.box v i z kids rest)
    else
      match rest.modify u g with
      | .error e => .error e
      | .ok rest => .ok (.box v i z kids rest)

/-- `children.append(obj)`; `obj` is given as the function that puts it in front of its siblings. -/
def Tree.append (obj : Tree → Tree) : Tree → Tree
  | .nil => obj .nil
  | .item v z rest => .item v z (rest.append obj)
  | .box v i z kids rest => .box v i z kids (rest.append obj)

/-- `children.insert(children.index(c), obj)`. -/
def Tree.insertBefore (c : Nat) (obj : Tree → Tree) : Tree → Except Err Tree
  | .nil => .error .value
  | .item v z rest =>
    if v = c then .ok (obj (.item v z rest))
    else
      match rest.insertBefore c obj with
      | .error e => .error e
      | .ok rest => .ok (.item v z rest)
  | .box v i z kids rest =>
    if v = c then .ok (obj (.box v i z kids rest))
    else
      match rest.insertBefore c obj with
      | .error e => .error e
      | .ok rest => .ok (.box v i z kids rest)

/-- `children.insert(children.index(c) + 1, obj)`. -/
def Tree.insertAfter (c : Nat) (obj : Tree → Tree) : Tree → Except Err Tree
  | .nil => .error .value
  | .item v z rest =>
    if v = c then .ok (.item v z (obj rest))
    else
      match rest.insertAfter c obj with
      | .error e => .error e
      | .ok rest => .ok (.item v z rest)
  | .box v i z kids rest =>
    if v = c then .ok (.box v i z kids (obj rest))
    else
      match rest.insertAfter c obj with
      | .error e => .error e
      | .ok rest => .ok (.box v i z kids rest)

/-- elsie/boxtree/box.py:58-71 `Box.add_child`. -/
def addChild (children : Tree) (obj : Tree → Tree) (prepend : Bool) (above below : Option Nat) : Except Err Tree :=
  match above, below with
  | some _, some _ => .error (.user "'above' and 'below' cannot be both set")
  | _, some b => children.insertBefore b obj
  | some a, none => children.insertAfter a obj
  | none, none => .ok (if prepend then obj children else children.append obj)

/-! ### layouts -/

/-- `children.append(layout)` -/
def appendLayout (uid : Nat) (a : Attrs) : Forest → Forest
  | .nil => .node uid a .nil .nil
  | .node v b kids rest => .node v b kids (appendLayout uid a rest)

/-- An assignment to the attributes of the layout `u`. -/
def modifyLayout (u : Nat) (g : Attrs → Forest → Attrs × Forest) : Forest → Forest
  | .nil => .nil
  | .node v a kids rest =>
    if v = u then .node v (g a kids).1 (g a kids).2 rest
    else .node v a (modifyLayout u g kids) (modifyLayout u g rest)

/-- elsie/boxtree/layout.py:88-91: inserting the new layout. -/
def addLayout (parent uid : Nat) (a : Attrs) (prepend : Bool) : Forest → Forest :=
  modifyLayout parent (fun b kids =>
    (b, if prepend then .node uid a .nil kids else appendLayout uid a kids))

/-- elsie/boxtree/layout.py:197-198 `ensure_width`. -/
def ensureWidth (w : Rat) (a : Attrs) : Attrs := { a with width := a.width.ensure (w + a.pLeft + a.pRight) }

/-- elsie/boxtree/layout.py:200-201 `ensure_height`. -/
def ensureHeight (h : Rat) (a : Attrs) : Attrs := { a with height := a.height.ensure (h + a.pTop + a.pBottom) }

/-- Both, one after the other. -/
def ensureSize (w h : Rat) (a : Attrs) : Attrs := ensureHeight h (ensureWidth w a)

/-- elsie/boxtree/layout.py:217-226 `set_image_size_request`, for images of nonzero size. -/
def imageSize (iw ih : Rat) (a : Attrs) (kids : Forest) : Attrs :=
  if a.widthUndef && a.heightUndef then ensureSize iw ih a
  else
    let m := Verif.Layout.minChildrenSize a.horizontal (Verif.Layout.requests kids)
    let sx := max a.width.minSize m.1
    let sy := max a.height.minSize m.2
    ensureSize (sy * iw / ih) (sx * ih / iw) a

/-- elsie/text/textboxitem.py:66-80: the size request of a text. -/
def textSize (w h : Rat) (scaleToFit : Bool) (a : Attrs) : Attrs :=
  if !scaleToFit then ensureSize w h a
  else
    let a := if a.widthUndef then ensureWidth w a else a
    if a.heightUndef then ensureHeight h a else a

/-! ### the slide -/

/-- elsie/slides/slide.py:15-45 `Slide`: the box tree (one root box), the layout tree (one root), the
next free number, `max_step`. -/
structure State where
  tree : Tree
  layouts : Forest
  next : Nat
  maxStep : Int

/-- elsie/slides/slide.py:36-43: a new slide. -/
def newSlide (width height : Rat) : State :=
  let root : Attrs := {
    x := some (.fix 0), y := some (.fix 0), width := { minSize := width }, height := { minSize := height }
    widthUndef := false, heightUndef := false }
  { tree := .box 0 (Verif.Show.newInfo none none none) 0 .nil .nil
    layouts := .node 0 root .nil .nil
    next := 1
    maxStep := 1 }

/-- The arguments of `box()` (elsie/boxtree/boxmixin.py:56-77) other than `name`. -/
structure BoxCall where
  layout : BoxArgs := {}
  show_ : ShowArg := .none
  z : Option Int := none
  above : Option Nat := none
  below : Option Nat := none

/-- Calls on a box of the slide that add something to it. -/
inductive Call where
  | box (parent : Nat) (c : BoxCall)
  /-- text/code; width and height as measured -/
  | text (parent : Nat) (w h : Rat) (scaleToFit : Bool)
  /-- rect, line, polygon, path, ... -/
  | shape (parent : Nat)
  /-- image of (scaled) size `w × h`; `steps` is `show_begin - 1 + image_steps` for an svg/ora image -/
  | image (parent : Nat) (w h : Rat) (steps : Option Int)

/-- elsie/boxtree/boxmixin.py:135-162 `BoxMixin.box`: the new state, and the exception if one is
raised. -/
def boxCall (s : State) (parent : Nat) (c : BoxCall) : State × Option Err :=
  match Verif.Layout.newAttrs c.layout with
  | .error e => (s, some e)
  | .ok a =>
    let s1 := { s with layouts := addLayout parent s.next a c.layout.prepend s.layouts, next := s.next + 1 }
    match Verif.Show.parse c.show_ (some s.maxStep) with
    | .error e => (s1, some e)
    | .ok info =>
      let s2 := { s1 with maxStep := max s1.maxStep info.maxStep }
      let z := c.z.getD ((s.tree.zOf parent).getD 0)
      match s.tree.modify parent (fun i kids =>
          match addChild kids (.box s.next info z .nil) c.layout.prepend c.above c.below with
          | .error e => .error e
          | .ok kids => .ok (i, kids)) with
      | .error e => (s2, some e)
      | .ok t => ({ s2 with tree := t }, none)

/-- elsie/boxtree/boxmixin.py:432-436 `_create_simple_box_item`, and the end of `text`: a new item of
the box is appended, with the z-level of the box. -/
def addItem (s : State) (parent : Nat) : State × Option Err :=
  let z := (s.tree.zOf parent).getD 0
  match s.tree.modify parent (fun i kids => .ok (i, kids.append (.item s.next z))) with
  | .error e => (s, some e)
  | .ok t => ({ s with tree := t, next := s.next + 1 }, none)

/-- elsie/boxtree/box.py:143-145 `Box._ensure_steps`. -/
def ensureSteps (s : State) (parent : Nat) (n : Int) : State × Option Err :=
  match s.tree.modify parent (fun i kids => .ok (i.ensureSteps n, kids)) with
  | .error e => (s, some e)
  | .ok t => ({ s with tree := t, maxStep := max s.maxStep n }, none)

/-- One call. A call on a number that is not a box of the slide (impossible in Python, where one calls
a method of the box itself) is an error. -/
def exec (s : State) (c : Call) : State × Option Err :=
  match c with
  | .box p b => if s.tree.has p then boxCall s p b else (s, some .key)
  | .text p w h fit =>
    if s.tree.has p then
      addItem { s with layouts := modifyLayout p (fun a kids => (textSize w h fit a, kids)) s.layouts } p
    else (s, some .key)
  | .shape p => if s.tree.has p then addItem s p else (s, some .key)
  | .image p w h steps =>
    if s.tree.has p then
      let s1 := { s with layouts := modifyLayout p (fun a kids => (imageSize w h a kids, kids)) s.layouts }
      match steps with
      | none => addItem s1 p
      | some n =>
        match ensureSteps s1 p n with
        | (s2, some e) => (s2, some e)
        | (s2, none) => addItem s2 p
    else (s, some .key)

/-- A sequence of calls, stopping at the first exception. -/
def run (s : State) : List Call → Except Err State
  | [] => .ok s
  | c :: cs =>
    match exec s c with
    | (_, some e) => .error e
    | (s, none) => run s cs

/-- elsie/boxtree/box.py:138-141 `_traverse` collecting `_min_steps()`. -/
def Tree.minSteps : Tree → List Int
  | .nil => []
  | .item _ _ rest => rest.minSteps
  | .box _ i _ kids rest => i.getMinSteps :: (kids.minSteps ++ rest.minSteps)

/-- elsie/slides/slide.py:58-61 `Slide.steps`: the number of pages (0 is never in the maximum, 1 is). -/
def State.steps (s : State) : Int := ((1 :: s.tree.minSteps).filter (· ≠ 0)).max?.getD 0

/-- elsie/slides/slide.py:54-56 `Slide.prepare` for the first time: the rectangles of all boxes. -/
def State.rects (s : State) (width height : Rat) : Except Err Verif.Layout.Env :=
  match s.layouts with
  | .nil => .error .attribute
  | .node u a kids _ => Verif.Layout.setRect (fun _ => none) u a kids ⟨0, 0, width, height⟩

/-- Something painted: an item, or (with `debug_boxes`) the frame of a box. -/
inductive Painter where
  | item (uid : Nat) (z : Int)
  | debug (uid : Nat) (z : Int)
  deriving DecidableEq, Repr

def Painter.z : Painter → Int
  | .item _ z => z
  | .debug _ z => z

/-- elsie/boxtree/box.py:80-96 `Box.get_painters`, for a list of siblings. -/
def Tree.painters (step : Int) (debug : Bool) : Tree → List Painter
  | .nil => []
  | .item u z rest => .item u z :: rest.painters step debug
  | .box u i z kids rest =>
    (if i.isVisible step then
      kids.painters step debug ++ (if debug then [.debug u z] else [])
    else []) ++ rest.painters step debug

/-- Stable sort by z-level (Python's `list.sort` with a key). -/
def zSort (ps : List Painter) : List Painter := ps.insertionSort (fun p q => p.z ≤ q.z)

/-- elsie/render/backends/svg/backend.py:75-80 and elsie/render/backends/cairo/backend.py:29-32: what is
painted for a page, in order. -/
def page (s : State) (step : Int) (debug : Bool) : List Painter := zSort (s.tree.painters step debug)

end Verif.Slide
