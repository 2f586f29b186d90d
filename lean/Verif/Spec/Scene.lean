import Verif.Model.Scene
import Verif.Spec.Layout
import Verif.Spec.LayoutStrings
import Verif.Spec.History
import Verif.Spec.SvgDraw
import Verif.Spec.TextItem

/-! # Specification: what the drawing methods of a box put on a page

Given are the calls and the rectangles `env` of the boxes. -/

namespace Verif.Scene.Spec
open Verif.Layout (Arg Pos Env)
open Verif.Layout.Spec (start extent Denotes PosText)
open Verif.SvgDraw (Paint Item)
open Verif.SvgDraw.Spec (ItemOk outlineWidth EvenRadii HasCenter readShape meant num readTransform)
open Verif.Style (TextStyle)
open Verif.Text (Tok)
open Verif.Text.Spec (Balanced)
open Verif.Xml.Spec (Attrs StyleOk Plain SafeBreaks lineTexts breaks linesForest nbsp readXml)
open Verif.TextItem.Spec (placement turn anchors rows Side)
open Verif.CairoDraw (Pt)

/-! ### points -/

/-- A lazy value has this value wherever it is used. -/
def Value (env : Env) (v : Pos) (q : Rat) : Prop := ∀ o full self, Denotes env v o full self q

/-- The coordinate that an argument gives in the box `p`: a number counts from the left (upper) edge, a position string is relative to
the box (one line break at its end is ignored, see C39), and a lazy value is what it is. -/
inductive CoordAt (env : Env) (p : Nat) (hor : Bool) : Arg → Rat → Prop
  | num {r : Rect} {q : Rat} : env p = some r → CoordAt env p hor (.num q) (start hor r + q)
  | str {r : Rect} {s nl : Str} {v : Pos} {q : Rat} : env p = some r → PosText s v → (nl = [] ∨ nl = ['\n']) →
      Denotes env v (start hor r) (extent hor r) 0 q → CoordAt env p hor (.str (s ++ nl)) q
  | lazy {r : Rect} {v : Pos} {q : Rat} : env p = some r → Value env v q → CoordAt env p hor (.lazy v) q

/-- The point that an argument gives in the box `p`. -/
inductive PointAt (env : Env) (p : Nat) : PointArg → Pt → Prop
  | pair {x y : Arg} {a b : Rat} : CoordAt env p true x a → CoordAt env p false y b → PointAt env p (.pair x y) (a, b)
  | lazy {x y : Pos} {a b : Rat} : Value env x a → Value env y b → PointAt env p (.lazy x y) (a, b)

/-- What is accepted as a coordinate. (`None` too, but then the point has no meaning: `CoordAt`.) -/
def Coordinate : Arg → Prop
  | .none => True
  | .num _ => True
  | .lazy _ => True
  | .str s => ∃ t v nl, s = t ++ nl ∧ PosText t v ∧ (nl = [] ∨ nl = ['\n'])
  | .other => False

/-- What is accepted as a point. -/
def IsPoint : PointArg → Prop
  | .pair x y => Coordinate x ∧ Coordinate y
  | .lazy _ _ => True
  | .other => False

/-- The commands of a path, with the number of points each of them takes at a time. -/
def commands : List (Char × Nat) := [('M', 1), ('L', 1), ('T', 1), ('S', 2), ('Q', 2), ('C', 3)]

/-- What is accepted as a command of a path. -/
def IsCommand (c : Char × List PointArg) : Prop := (∃ n m, (c.1, n) ∈ commands ∧ c.2.length = n * m) ∧ ∀ a ∈ c.2, IsPoint a

/-- The drawing calls with points that are accepted. -/
def Acceptable : Draw → Prop
  | .polygon ps _ _ => ∀ a ∈ ps, IsPoint a
  | .line ps _ _ _ => 2 ≤ ps.length ∧ ∀ a ∈ ps, IsPoint a
  | .path cmds _ => ∀ c ∈ cmds, IsCommand c
  | _ => True

/-- A lazy value refers to a box. -/
def Lazy (v : Pos) : Prop := Verif.Layout.Spec.refs v ≠ []

/-- If a coordinate is a lazy value, then it is one. -/
def ArgOk : Arg → Prop
  | .lazy v => Lazy v
  | _ => True

def PointOk : PointArg → Prop
  | .pair x y => ArgOk x ∧ ArgOk y
  | .lazy x y => Lazy x ∧ Lazy y
  | .other => True

/-- The points given to a drawing method. -/
def pointsOf : Draw → List PointArg
  | .polygon ps _ _ => ps
  | .line ps _ _ _ => ps
  | .path cmds _ => cmds.flatMap (·.2)
  | _ => []

/-! ### shapes and pictures -/

/-- By what a picture is scaled: as asked for, otherwise so that it fits in its box; a side of the box that is 0 does not count. -/
def factor (r : Rect) (w h : Rat) : Option Rat → Rat
  | some s => s
  | none =>
    if r.width = 0 then (if r.height = 0 then 0 else r.height / h)
    else if r.height = 0 then r.width / w
    else min (r.width / w) (r.height / h)

/-- A rectangle of the given size in the middle of another one. -/
def centered (r : Rect) (w h : Rat) : Rect := ⟨r.x + (r.width - w) / 2, r.y + (r.height - h) / 2, w, h⟩

/-- What a drawing method called on the box `p` draws, if it draws a shape or a picture. -/
inductive Depicts (env : Env) (p : Nat) : Draw → Item → Prop
  | rect {r : Rect} {rx ry rot : Option Rat} {pt : Paint} : env p = some r → Depicts env p (.rect rx ry rot pt) (.rect r rx ry rot pt)
  | ellipse {r : Rect} {rot : Option Rat} {pt : Paint} : env p = some r → Depicts env p (.ellipse rot pt) (.ellipse r rot pt)
  | polygon {ps : List PointArg} {qs : List Pt} {rot : Option Rat} {pt : Paint} : List.Forall₂ (PointAt env p) ps qs →
      Depicts env p (.polygon ps rot pt) (.polygon qs rot pt)
  | line {ps : List PointArg} {qs : List Pt} {color : Option Str} {sw : Option Rat} {dash : Option Str} : List.Forall₂ (PointAt env p) ps qs →
      Depicts env p (.line ps color sw dash) (.polyline qs { color := color, strokeWidth := sw, dash := dash })
  | path {cmds : List (Char × List PointArg)} {cs : List (Char × List Pt)} {pt : Paint} :
      List.Forall₂ (fun a b => a.1 = b.1 ∧ List.Forall₂ (PointAt env p) a.2 b.2) cmds cs → Depicts env p (.path cmds pt) (.path cs pt)
  | bitmap {r : Rect} {b : Bitmap} {scale rot : Option Rat} : env p = some r → (scale = none → b.width ≠ 0 ∧ b.height ≠ 0) →
      Depicts env p (.bitmap b scale rot) (.bitmap (centered r (b.width * factor r b.width b.height scale) (b.height * factor r b.width b.height scale)) b.mime b.data rot)

/-- A transformation puts a picture of size `w` × `h` into the middle of a rectangle, scaled, and turns it around its middle. -/
def Places (ang : Rat → Rat × Rat) (r : Rect) (w h : Rat) (scale rotation : Option Rat) (m : Verif.CairoDraw.Mat) : Prop :=
  ∃ f q, f = factor r w h scale ∧ q = centered r (w * f) (h * f) ∧
    ∀ u v, m.apply (u, v) = (turn ang rotation (q.x + q.width / 2, q.y + q.height / 2)).apply (q.x + u * f, q.y + v * f)

/-! ### texts -/

/-- By what a text of the given size is scaled in its box. -/
def textScale (r : Rect) (w h : Rat) (fit : Bool) : Rat :=
  if fit = true ∧ w > 1 / 100000 ∧ h > 1 / 100000 then min (r.width / w) (r.height / h) else 1

/-- The number of rows of a text. -/
def rowCount (toks : List Tok) : Nat := (Verif.Text.Spec.lines toks).length

/-- An SVG element `text` that shows the lines of a text in a rectangle: on the page, the base line of row `i` is `size` below the upper
edge of the row; the rows, of height `lh`, are in the middle of the rectangle; the lines are anchored at the side given by the alignment; all this
is turned by `rotation` around the middle of the rectangle. -/
def TextOn (read : Str → Option Rat) (ang : Rat → Rat × Rat) (r : Rect) (toks : List Tok) (align : Option Str) (rotation : Option Rat)
    (size lh : Rat) (attrs : Attrs) (K : Verif.Xml.Spec.Forest) : Prop :=
  ∃ first lines p tr m ps ax, K = linesForest (first :: lines) ∧
    (first :: lines).map (fun l => l.2.textOf) = (lineTexts toks).map nbsp ∧
    num read attrs "x" = some p.1 ∧ num read attrs "y" = some p.2 ∧ anchors read p (lines.map (·.1)) = some ps ∧
    readTransform read (attrs.lookup "transform".toList) = some tr ∧ placement ang {} tr = some m ∧
    Side r align ax (attrs.lookup "text-anchor".toList) ∧
    ps.map m.apply = (rows 0 (breaks toks)).map (fun i : Nat => (turn ang rotation (r.x + r.width / 2, r.y + r.height / 2)).apply
      (ax, r.y + (r.height - rowCount toks * lh) / 2 + lh * i + size))

/-- A text whose drawing does not depend on the situations left open in C58. -/
structure TextOk (toks : List Tok) (style : TextStyle) (styles : Str → Option TextStyle) : Prop where
  main : StyleOk style
  others : ∀ n s, styles n = some s → StyleOk s
  balanced : Balanced toks
  names : ∀ n, Tok.opn n ∈ toks → styles n = none → n.head? = some '#'
  plain : ∀ s, Tok.text s ∈ toks → Plain s
  side : style.align = some "left".toList ∨ style.align = some "middle".toList ∨ style.align = some "right".toList
  safe : SafeBreaks styles [style.priority] [true] toks

/-! ### the page -/

/-- A part of a page shows what a drawing method called on the box `p` draws. A text that is scaled to (almost) nothing is left
out. A picture in SVG is the document of this page, put in its place by a transformation. -/
def Shown (read : Str → Option Rat) (ang : Rat → Rat × Rat) (env : Env) (step : Int) (p : Nat) (d : Draw) (F : Verif.Xml.Spec.Forest) : Prop :=
  match d with
  | .text toks style _ rot fit w => ∃ r a b s, env p = some r ∧ style.size = some a ∧ style.lineSpacing = some b ∧
      s = textScale r w (rowCount toks * (a * b)) fit ∧
      (s > 1 / 100000 → ∃ as K, F = .elem "text".toList as K .nil ∧ TextOn read ang r toks style.align rot (a * s) (a * b * s) as K) ∧
      (s ≤ 1 / 100000 → F = .nil)
  | .svg b scale rot => (b.doc step = .ok none ∧ F = .nil) ∨ ∃ doc G r as tr m, b.doc step = .ok (some doc) ∧ readXml doc = some G ∧ env p = some r ∧
      F = .elem "g".toList as G .nil ∧ readTransform read (as.lookup "transform".toList) = some tr ∧ placement ang {} tr = some m ∧
      Places ang r b.width b.height scale rot m
  | d => ∃ n as i, F = .elem n as .nil .nil ∧ Depicts env p d i ∧ readShape read n as = some (meant i)

/-- The document of a picture is one element; it has no carriage returns (lxml writes them as references). -/
def DocOk (doc : Str) : Prop := '\r' ∉ doc ∧ ∃ n as K, readXml doc = some (.elem n as K .nil)

/-- The arguments of a drawing method have a meaning and are within the part of C96 and C58 that holds. -/
def Drawable (env : Env) (step : Int) (p : Nat) (d : Draw) : Prop :=
  match d with
  | .svg b scale _ => (scale = none → b.width ≠ 0 ∧ b.height ≠ 0) ∧ (b.doc step = .ok none ∨ ∃ doc, b.doc step = .ok (some doc) ∧ DocOk doc)
  | .text toks style styles _ _ _ => TextOk toks style styles
  | d => (∀ a ∈ pointsOf d, PointOk a) ∧ ∃ i, Depicts env p d i ∧ ItemOk i ∧ outlineWidth i ≠ some 0 ∧ EvenRadii i ∧ HasCenter i

/-- Parts of a page, one after the other. -/
def concat : List Verif.Xml.Spec.Forest → Verif.Xml.Spec.Forest
  | [] => .nil
  | F :: Fs => F ++ concat Fs

/-- A path without commands creates nothing. -/
def creates : Call → Bool
  | .draw _ (.path cmds _) => !cmds.isEmpty
  | _ => true

/-- The calls that create something. What they create is numbered from 1 in this order. -/
def things (cs : List Call) : List Call := cs.filter creates

/-- A call without what is drawn: the room that is asked for in the box. -/
def outline : Call → Verif.Slide.Call
  | .box p c => .box p c
  | .draw p (.bitmap b scale _) =>
    .image p (b.width * (if scale.getD 0 = 0 then 1 else scale.getD 0)) (b.height * (if scale.getD 0 = 0 then 1 else scale.getD 0)) none
  | .draw p (.svg b scale _) =>
    .image p (b.width * (if scale.getD 0 = 0 then 1 else scale.getD 0)) (b.height * (if scale.getD 0 = 0 then 1 else scale.getD 0)) (some b.steps)
  | .draw p (.text toks style _ _ fit w) => .text p w (rowCount toks * (style.size.getD 0 * style.lineSpacing.getD 0)) fit
  | .draw p _ => .shape p

end Verif.Scene.Spec
