import Verif.Model.CairoDraw

/-! # Specifications for shapes drawn with Cairo -/

namespace Verif.CairoDraw.Spec

/-! ### Bézier curves (componentwise definitions) -/

def bez2 (p0 c p t : Rat) : Rat := (1 - t) ^ 2 * p0 + 2 * (1 - t) * t * c + t ^ 2 * p
def bez3 (p0 a b p t : Rat) : Rat := (1 - t) ^ 3 * p0 + 3 * (1 - t) ^ 2 * t * a + 3 * (1 - t) * t ^ 2 * b + t ^ 3 * p

def quadAt (p0 c p : Pt) (t : Rat) : Pt := (bez2 p0.1 c.1 p.1 t, bez2 p0.2 c.2 p.2 t)
def cubicAt (p0 a b p : Pt) (t : Rat) : Pt := (bez3 p0.1 a.1 b.1 p.1 t, bez3 p0.2 a.2 b.2 p.2 t)
def lineAt (p0 p : Pt) (t : Rat) : Pt := ((1 - t) * p0.1 + t * p.1, (1 - t) * p0.2 + t * p.2)

/-! ### path data of SVG 1.1, §8.3 (absolute commands M L C S Q T) -/

inductive USeg where
  | move (p : Pt)
  | line (p : Pt)
  | cubic (a b p : Pt)
  | quad (c p : Pt)
  deriving DecidableEq, Repr

/-- The point `2*anchor - cp`. -/
def mirror (cp anchor : Pt) : Pt := (2 * anchor.1 - cp.1, 2 * anchor.2 - cp.2)

/-- The current point, and the last control point if the previous segment was a cubic or a quadratic curve. -/
structure SvgSt where
  cur : Pt
  cubic : Option Pt := none
  quad : Option Pt := none
  deriving DecidableEq

/-- The first control point of a smooth curve: the reflection of the last one, or the current point if there is none. -/
def smooth (last : Option Pt) (cur : Pt) : Pt :=
  match last with
  | some c => mirror c cur
  | none => cur

/-- One group of arguments; `first` says whether it is the first one of its command. -/
def svgGroup (st : SvgSt) (first : Bool) : Char → List Pt → Option (USeg × SvgSt)
  | 'M', [p] => some (if first then .move p else .line p, { cur := p })
  | 'L', [p] => some (.line p, { cur := p })
  | 'C', [a, b, p] => some (.cubic a b p, { cur := p, cubic := some b })
  | 'S', [b, p] =>
    some (.cubic (smooth st.cubic st.cur) b p, { cur := p, cubic := some b })
  | 'Q', [c, p] => some (.quad c p, { cur := p, quad := some c })
  | 'T', [p] =>
    some (.quad (smooth st.quad st.cur) p, { cur := p, quad := some (smooth st.quad st.cur) })
  | _, _ => none

/-- Groups of `n` arguments. -/
inductive Groups (n : Nat) : List Pt → List (List Pt) → Prop where
  | nil : Groups n [] []
  | cons (g rest gs) : g.length = n → Groups n rest gs → Groups n (g ++ rest) (g :: gs)

/-- Number of arguments per group. -/
def arity : Char → Option Nat
  | 'M' => some 1
  | 'L' => some 1
  | 'C' => some 3
  | 'S' => some 2
  | 'Q' => some 2
  | 'T' => some 1
  | _ => none

/-- The segments of the groups of one command. -/
inductive SvgGroups (name : Char) : Bool → SvgSt → List (List Pt) → List USeg → SvgSt → Prop where
  | nil (first st) : SvgGroups name first st [] [] st
  | cons {first st g gs seg st' segs st''} : svgGroup st first name g = some (seg, st') →
      SvgGroups name false st' gs segs st'' → SvgGroups name first st (g :: gs) (seg :: segs) st''

/-- The segments of commands. Every command has at least one group. -/
inductive SvgCommands : SvgSt → List (Char × List Pt) → List USeg → Prop where
  | nil (st) : SvgCommands st [] []
  | cons {st name n args gs segs st' cmds segs'} : arity name = some n → Groups n args gs → gs ≠ [] →
      SvgGroups name true st gs segs st' → SvgCommands st' cmds segs' → SvgCommands st ((name, args) :: cmds) (segs ++ segs')

/-- A path: it starts with `M`. -/
def SvgPath (cmds : List (Char × List Pt)) (segs : List USeg) : Prop :=
  cmds.head?.map (·.1) = some 'M' ∧ SvgCommands { cur := (0, 0) } cmds segs

/-- The segments in device space are the same curves, point by point, as the segments in user space seen through the
transformation. -/
inductive Same (m : Mat) : Pt → List USeg → List Seg → Prop where
  | nil (p0) : Same m p0 [] []
  | move {p0 us ds} (p) : Same m p us ds → Same m p0 (.move p :: us) (.move (m.apply p) :: ds)
  | line {p0 us ds} (p) : Same m p us ds → Same m p0 (.line p :: us) (.line (m.apply p) :: ds)
  | cubic {p0 us ds a b p a' b'} : (∀ t, cubicAt (m.apply p0) a' b' (m.apply p) t = m.apply (cubicAt p0 a b p t)) →
      Same m p us ds → Same m p0 (.cubic a b p :: us) (.curve a' b' (m.apply p) :: ds)
  | quad {p0 us ds c p a' b'} : (∀ t, cubicAt (m.apply p0) a' b' (m.apply p) t = m.apply (quadAt p0 c p t)) →
      Same m p us ds → Same m p0 (.quad c p :: us) (.curve a' b' (m.apply p) :: ds)

/-! ### outlines -/

/-- A segment of user space seen through a transformation. -/
def Seg.through (m : Mat) : Seg → Seg
  | .move p => .move (m.apply p)
  | .line p => .line (m.apply p)
  | .curve a b p => .curve (m.apply a) (m.apply b) (m.apply p)
  | .circle m' k r => .circle m' k r
  | .close => .close

/-- All points of the segments, starting from a point, satisfy the predicate; lines and curves only. -/
def AllPoints (P : Pt → Prop) : Pt → List Seg → Prop
  | _, [] => True
  | _, .move p :: ss => P p ∧ AllPoints P p ss
  | p0, .line p :: ss => (∀ t, 0 ≤ t → t ≤ 1 → P (lineAt p0 p t)) ∧ AllPoints P p ss
  | p0, .curve a b p :: ss => (∀ t, 0 ≤ t → t ≤ 1 → P (cubicAt p0 a b p t)) ∧ AllPoints P p ss
  | _, .circle _ _ _ :: _ => False
  | p0, .close :: ss => AllPoints P p0 ss

/-- The end of the segments. -/
def endPoint : Pt → List Seg → Pt
  | p0, [] => p0
  | _, .move p :: ss => endPoint p ss
  | _, .line p :: ss => endPoint p ss
  | _, .curve _ _ p :: ss => endPoint p ss
  | p0, .circle _ _ _ :: ss => endPoint p0 ss
  | p0, .close :: ss => endPoint p0 ss

def InRect (x y w h : Rat) (p : Pt) : Prop := x ≤ p.1 ∧ p.1 ≤ x + w ∧ y ≤ p.2 ∧ p.2 ≤ y + h

/-! ### pages -/

/-- A `move_to` directly followed by another one, or at the end, has no effect. -/
def dropMoves : List Seg → List Seg
  | [] => []
  | [.move _] => []
  | .move _ :: .move q :: ss => dropMoves (.move q :: ss)
  | s :: ss => s :: dropMoves ss

/-- What is seen of something painted. -/
def Paint.seen : Paint → Paint
  | .fill path c => .fill (dropMoves path) c
  | .stroke path c w d m => .stroke (dropMoves path) c w d m
  | .text m l => .text m l
  | .picture m d => .picture m d
  | .svg m w h d => .svg m w h d

end Verif.CairoDraw.Spec
