import Verif.Model.Layout

/-! # Model of scaling of text and images to their box

elsie/text/textboxitem.py (the layout callback) and elsie/boxtree/boxmixin.py (`scaler`, drawing of
images). -/

namespace Verif.Layout

/-- The mutable part of a `TextBoxItem` (elsie/text/textboxitem.py:27-29). -/
structure TextState where
  width : Rat
  height : Rat
  scale : Rat := 1
  scaleToFit : Bool
  deriving DecidableEq

/-- elsie/text/textboxitem.py:38-43: the callback run by `Layout.set_rect` (layout.py:114-116) when
`scale_to_fit` is set. -/
def TextState.onRect (t : TextState) (rect : Rect) : TextState :=
  if t.scaleToFit then
    if t.width > 1 / 100000 ∧ t.height > 1 / 100000 then
      let scale := min (rect.width / t.width) (rect.height / t.height)
      { t with width := t.width * scale, height := t.height * scale, scale := scale }
    else t
  else t

/-- What `Slide.prepare` (elsie/slides/slide.py:54-56) works on: the tree is fixed; rectangles and
texts (by the layout they belong to) change. -/
structure RenderState where
  env : Env
  texts : Nat → Option TextState

/-- elsie/boxtree/layout.py:114-116: the callbacks of all boxes. -/
def runCallbacks (texts : Nat → Option TextState) (env : Env) : Nat → Option TextState := fun u =>
  match texts u, env u with
  | some t, some r => some (t.onRect r)
  | t, _ => t

/-- elsie/slides/slide.py:54-56 `Slide.prepare` of a slide with layout tree `(uid, a, kids)`.  The
callbacks run while the rectangles are set; they depend only on the rectangle of their own box, so
they are applied at the end here.  A box has at most one text in this model. -/
def prepare (uid : Nat) (a : Attrs) (kids : Forest) (width height : Rat) (s : RenderState) : Except Err RenderState :=
  match setRect s.env uid a kids ⟨0, 0, width, height⟩ with
  | .error e => .error e
  | .ok env => .ok ⟨env, runCallbacks s.texts env⟩

/-- elsie/boxtree/boxmixin.py:35-45 `scaler`; the outer `Except` is the division by zero, the inner
`Option` is `None`. -/
def scaler (rect : Rect) (iw ih : Rat) : Except Err (Option Rat) :=
  if iw = 0 ∨ ih = 0 then .error .zeroDivision
  else
    let sx := rect.width / iw
    let sy := rect.height / ih
    if rect.width ≠ 0 ∧ rect.height ≠ 0 then .ok (some (min sx sy))
    else if rect.width ≠ 0 then .ok (some sx)
    else if rect.height ≠ 0 then .ok (some sy)
    else .ok none

/-- elsie/boxtree/boxmixin.py:544-554 and 642-651: the factor by which a bitmap or svg image is scaled. -/
def imageScale (rect : Rect) (iw ih : Rat) (scale : Option Rat) : Except Err Rat :=
  match scale with
  | some s => .ok s
  | none =>
    match scaler rect iw ih with
    | .error e => .error e
    | .ok none => .ok 0
    | .ok (some s) => .ok s

/-- elsie/boxtree/boxmixin.py:544-563 and 641-665: the rectangle in which a bitmap or svg image is
drawn. -/
def imageRect (rect : Rect) (iw ih : Rat) (scale : Option Rat) : Except Err Rect :=
  match imageScale rect iw ih scale with
  | .error e => .error e
  | .ok s =>
    let w := iw * s
    let h := ih * s
    .ok ⟨rect.x + (rect.width - w) / 2, rect.y + (rect.height - h) / 2, w, h⟩

end Verif.Layout
