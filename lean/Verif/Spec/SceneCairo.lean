import Verif.Model.SceneCairo
import Verif.Spec.Scene
import Verif.Spec.Backends
import Verif.Spec.CairoText

/-! # Specification: what is on a page made with Cairo -/

namespace Verif.Scene.Spec
open Verif.Layout (Env)
open Verif.CairoDraw (Pt Mat Layout Paint)
open Verif.CairoDraw.Spec (Paint.seen)
open Verif.Style (TextStyle)
open Verif.Text (Tok)
open Verif.Text.Spec (Balanced)
open Verif.SvgDraw.Spec (outlineWidth EvenRadii meant wanted)
open Verif.Backends.Spec (Paints Common closes)
open Verif.Cairo.Spec (over styledChars noMarkers Covers utf8Length bytesOf bytesOfRanges)
open Verif.TextItem.Spec (turn)
open Verif.Slide.Spec (OnPage ItemOf Level Walk Under)

/-- The point of the page (in points of 1/72 inch for PDF, in pixels for PNG) at which a point of the slide (in pixels of 1/96 inch) is. A view box is shown as large as possible, in the
middle of the page. -/
def onPaper (png : Bool) (w h : Rat) (viewBox : Option Rect) (p : Pt) : Pt :=
  let k : Rat := if png then 1 else 3 / 4
  match viewBox with
  | none => (k * p.1, k * p.2)
  | some v =>
    let s := min (w / v.width) (h / v.height)
    (k * (w / 2 + s * (p.1 - (v.x + v.width / 2))), k * (h / 2 + s * (p.2 - (v.y + v.height / 2))))

/-- How much larger things are on the page than on the slide because of the view box. -/
def zoomOf (w h : Rat) : Option Rect → Rat
  | none => 1
  | some v => min (w / v.width) (h / v.height)

/-- A layout that shows a text in a rectangle: its characters with their styles on top of the style of the text, which is on top of the default style; as wide as the
rectangle, and aligned and scaled as asked for. The space between its rows is what the code puts there (too much of it with a view box, see C132 and C133): what is left of
`line_spacing * size` above the height of the font, multiplied by the factor `k` of the view box. -/
def LaidOut (x : Ext) (k : Rat) (r : Rect) (toks : List Tok) (style : TextStyle) (styles : Str → Option TextStyle) (scale : Option Rat) (l : Layout) : Prop :=
  ∃ default, styles "default".toList = some default ∧
    l.text = (styledChars (noMarkers styles) (over style default) [] true toks).map (·.1) ∧ Covers 0 l.ranges (utf8Length l.text) ∧
    bytesOfRanges l.ranges = bytesOf (styledChars (noMarkers styles) (over style default) [] true toks) ∧
    l.align = style.align ∧ l.scale = scale ∧ l.width = r.width ∧
    ∀ a b, style.size = some a → style.lineSpacing = some b → l.spacing = (b * a - x.fontHeight (over style default)) * k

/-- What is painted by a drawing method called on the box `p`. A text is placed with its first base line where it is on an SVG page, and from the left edge of its box on.
An SVG picture fills a rectangle in the middle of the box. All this is turned around the middle. -/
def Painted (x : Ext) (M : Pt → Pt) (k : Rat) (env : Env) (step : Int) (p : Nat) (d : Draw) (ps : List Paint) : Prop :=
  match d with
  | .text toks style styles rot fit w => ∃ r a b s, env p = some r ∧ style.size = some a ∧ style.lineSpacing = some b ∧
      s = textScale r w (rowCount toks * (a * b)) fit ∧
      (s > 1 / 100000 → ∃ m l, ps = [.text m l] ∧ LaidOut x k r toks style styles (if fit then some s else none) l ∧
        ∀ u v, m.apply (u, x.baseline l + v) = M ((turn x.ang rot (r.x + r.width / 2, r.y + r.height / 2)).apply
          (r.x + u, r.y + (r.height - rowCount toks * (a * b * s)) / 2 + a * s + v))) ∧
      (s ≤ 1 / 100000 → ps = [])
  | .svg b scale rot => (b.doc step = .ok none ∧ ps = []) ∨ ∃ doc doc' r f q m, b.doc step = .ok (some doc) ∧ x.normalize doc = .ok doc' ∧ env p = some r ∧
      f = factor r b.width b.height scale ∧ q = centered r (b.width * f) (b.height * f) ∧ ps = [.svg m q.width q.height doc'] ∧
      ∀ u v, m.apply (u, v) = M ((turn x.ang rot (q.x + q.width / 2, q.y + q.height / 2)).apply (q.x + u, q.y + v))
  | d => ∃ i m, Depicts env p d i ∧ (∀ q, m.apply q = M q) ∧ Paints (closes i) x.read x.ang m (meant i) ps

/-- The arguments are within the part that works with Cairo. -/
def Paintable (x : Ext) (viewBox : Option Rect) (env : Env) (step : Int) (p : Nat) (d : Draw) : Prop :=
  match d with
  | .text toks style styles _ _ _ => Balanced toks ∧ (∀ n, Tok.opn n ∈ toks → n.head? = some '#' ∨ styles n ≠ none) ∧
      (style.align = some "left".toList ∨ style.align = some "middle".toList ∨ style.align = some "right".toList) ∧
      (∀ b, style.lineSpacing = some b → 1 ≤ b) ∧
      (∃ default, styles "default".toList = some default ∧ (over style default).font ≠ none ∧ ∃ c, (over style default).color = some c ∧ x.known c = true) ∧
      ∀ n s c, Tok.opn n ∈ toks → styles n = some s → s.color = some c → x.known c = true
  | .svg b scale _ => viewBox = none ∧ (scale = none → b.width ≠ 0 ∧ b.height ≠ 0) ∧
      (b.doc step = .ok none ∨ ∃ doc doc', b.doc step = .ok (some doc) ∧ x.normalize doc = .ok doc') ∧
      ∀ r, env p = some r → b.width * factor r b.width b.height scale ≠ 0 ∧ b.height * factor r b.width b.height scale ≠ 0
  | d => (∀ a ∈ pointsOf d, PointOk a) ∧ ∃ i, Depicts env p d i ∧ outlineWidth i ≠ some 0 ∧ EvenRadii i ∧ Common x.read x.known i

/-- An ellipse with a dashed outline. -/
def DashedEllipse : Draw → Prop
  | .ellipse _ p => (∃ c, p.color = some c ∧ c ≠ []) ∧ ∃ d, p.dash = some d ∧ d ≠ []
  | _ => False

def IsEllipse : Draw → Prop
  | .ellipse _ _ => True
  | _ => False

/-- Texts and bitmaps leave a point behind. -/
def LeavesPoint : Draw → Prop
  | .text _ _ _ _ _ _ => True
  | .bitmap _ _ _ => True
  | _ => False

/-- The order is within the part that works with Cairo (see C84): nothing after an ellipse with a dashed outline, and no ellipse after a text or a bitmap. -/
def Smooth (ts : List Call) (l : List (Nat × Int)) : Prop :=
  l.Pairwise (fun a b => ∀ (i j p q : Nat) (d e : Draw), a.1 = i + 1 → ts[i]? = some (.draw p d) → b.1 = j + 1 → ts[j]? = some (.draw q e) →
    ¬ DashedEllipse d ∧ (LeavesPoint d → ¬ IsEllipse e))

/-- The order of a page (C106). -/
def InOrder (ts : List Call) (step : Int) (l : List (Nat × Int)) : Prop :=
  (l.map (·.1)).Nodup ∧
  (∀ u z, (u, z) ∈ l ↔ ∃ p, ItemOf (ts.map outline) p u ∧ Level (ts.map outline) p z ∧ OnPage (ts.map outline) step p) ∧
  ∃ order, Walk (ts.map outline) [0] order ∧ order.Nodup ∧ l.Pairwise (Under order)

/-- A page made with Cairo: everything drawn on it is painted, in the given order, and nothing else. (A `move_to` before a shape is not seen.) -/
def PageOf (x : Ext) (M : Pt → Pt) (z : Rat) (env : Env) (step : Int) (ts : List Call) (l : List (Nat × Int)) (ps : List Paint) : Prop :=
  ∃ parts : List (List Paint), ps = parts.flatten ∧ List.Forall₂ (fun a part => ∃ (k p : Nat) (d : Draw) (qs : List Paint), a.1 = k + 1 ∧ ts[k]? = some (.draw p d) ∧
    Painted x M z env step p d qs ∧ part.map Paint.seen = qs.map Paint.seen) l parts

end Verif.Scene.Spec
