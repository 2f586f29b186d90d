import Verif.Model.SvgDraw
import Verif.Spec.DrawText

/-! # Specification: reading the shapes of an SVG page

A reader for the elements of SVG 1.1 that describe basic shapes, paths and pictures (§8, §9, §5.7), for `transform` (§7.6), for
style sheets in a `style` attribute, and what the drawing methods are meant to draw. Independent of the code that draws. -/

namespace Verif.SvgDraw.Spec
open Verif.Xml.Spec (Attrs Forest OkStr isWs)
open Verif.CairoDraw (Pt)

/-! ### numbers and words -/

/-- Characters of numbers. -/
def numChar (c : Char) : Bool := c.isDigit || c = '.' || c = '-' || c = '+' || c = 'e'

/-- A way of writing numbers and one of reading them belong together. -/
structure Numbers (fmt : Rat → Str) (read : Str → Option Rat) : Prop where
  back : ∀ q, read (fmt q) = some q
  chars : ∀ q, ∀ c ∈ fmt q, numChar c = true
  empty : read [] = none

/-- A word that is complete. -/
def flush : Str → List Str
  | [] => []
  | w => [w]

/-- The words between separators; `cur` is the word being read. -/
def wordsFrom (sep : Char → Bool) (cur : Str) : Str → List Str
  | [] => flush cur
  | c :: s => if sep c then flush cur ++ wordsFrom sep [] s else wordsFrom sep (cur ++ [c]) s

def words (sep : Char → Bool) (s : Str) : List Str := wordsFrom sep [] s

/-- Commas and white space separate numbers. -/
def commaWs (c : Char) : Bool := c = ',' || isWs c

/-- All results, if there are all. -/
def all? {α β : Type} (f : α → Option β) : List α → Option (List β)
  | [] => some []
  | a :: as =>
    match f a, all? f as with
    | some b, some bs => some (b :: bs)
    | _, _ => none

/-- Numbers. -/
def readNumbers (read : Str → Option Rat) (s : Str) : Option (List Rat) := all? read (words commaWs s)

/-- Coordinates in pairs. -/
def pairUp : List Rat → Option (List Pt)
  | [] => some []
  | [_] => none
  | x :: y :: rest => (pairUp rest).map ((x, y) :: ·)

def readPoints (read : Str → Option Rat) (s : Str) : Option (List Pt) := (readNumbers read s).bind pairUp

/-! ### path data -/

/-- A letter is a command, except in the exponent of a number. -/
def isCommand (c : Char) : Bool := c.isAlpha && !(c = 'e') && !(c = 'E')

/-- What is before the first command, and the commands with their arguments. -/
def splitCommands : Str → Str × List (Char × Str)
  | [] => ([], [])
  | c :: s => if isCommand c then ([], (c, (splitCommands s).1) :: (splitCommands s).2) else (c :: (splitCommands s).1, (splitCommands s).2)

def readCommand (read : Str → Option Rat) (c : Char × Str) : Option (Char × List Pt) := (readPoints read c.2).map (c.1, ·)

def readPath (read : Str → Option Rat) (s : Str) : Option (List (Char × List Pt)) :=
  if words isWs (splitCommands s).1 = [] then all? (readCommand read) (splitCommands s).2 else none

/-! ### transformations and styles -/

/-- Without white space at both ends. -/
def trim (s : Str) : Str := ((s.dropWhile isWs).reverse.dropWhile isWs).reverse

/-- The part before and the part after a character. -/
def cut (c : Char) (s : Str) : Str × Str := (s.takeWhile (· ≠ c), (s.dropWhile (· ≠ c)).drop 1)

/-- One transformation: the name and its numbers. -/
def readFunction (read : Str → Option Rat) (s : Str) : Option (Str × List Rat) :=
  (readNumbers read (cut '(' s).2).map (trim (cut '(' s).1, ·)

/-- A list of transformations. -/
def readTransform (read : Str → Option Rat) : Option Str → Option (List (Str × List Rat))
  | none => some []
  | some s => all? (readFunction read) (words (· = ')') s)

/-- Declarations of a style sheet: property and value. -/
def readStyle : Option Str → List (Str × Str)
  | none => []
  | some s => (words (· = ';') s).map (fun d => (trim (cut ':' d).1, trim (cut ':' d).2))

/-- A paint; `none` is not painted. -/
def paintOf (v : Str) : Option Str := if v = "none".toList then none else some v

/-- The interior is black if nothing is said. -/
def fillOf (ds : List (Str × Str)) : Option Str := paintOf ((ds.lookup "fill".toList).getD "black".toList)

/-- The outline: colour, width and dash pattern. Not painted if nothing is said; the width is 1 if nothing is said. -/
structure Stroke where
  color : Str
  width : Rat
  dash : Option Str
  deriving DecidableEq, Repr

def widthOf (read : Str → Option Rat) : Option Str → Option Rat
  | none => some 1
  | some w => read w

def strokeOf (read : Str → Option Rat) (ds : List (Str × Str)) : Option (Option Stroke) :=
  match paintOf ((ds.lookup "stroke".toList).getD "none".toList) with
  | none => some none
  | some c => (widthOf read (ds.lookup "stroke-width".toList)).map fun w =>
      some ⟨c, w, (ds.lookup "stroke-dasharray".toList).bind paintOf⟩

/-! ### shapes -/

inductive Geometry where
  /-- with the radii of the corners -/
  | rect (x y w h rx ry : Rat)
  | ellipse (cx cy rx ry : Rat)
  | polygon (ps : List Pt)
  | polyline (ps : List Pt)
  | path (cmds : List (Char × List Pt))
  | image (x y w h : Rat) (href : Str)
  deriving DecidableEq, Repr

/-- Something seen on a page. -/
structure Drawn where
  geometry : Geometry
  transform : List (Str × List Rat)
  fill : Option Str
  stroke : Option Stroke
  deriving DecidableEq, Repr

/-- At most half of the side. -/
def clamp (side r : Rat) : Rat := max 0 (min r (side / 2))

/-- The radii of corners: one that is not given is the other one; none is larger than half of the side. -/
def radii (w h : Rat) : Option Rat → Option Rat → Rat × Rat
  | none, none => (0, 0)
  | some a, none => (clamp w a, clamp h a)
  | none, some b => (clamp w b, clamp h b)
  | some a, some b => (clamp w a, clamp h b)

/-- A number given as an attribute. -/
def num (read : Str → Option Rat) (as : Attrs) (k : String) : Option Rat := (as.lookup k.toList).bind read

/-- An attribute that may be missing. -/
def optNum (read : Str → Option Rat) (as : Attrs) (k : String) : Option (Option Rat) :=
  match as.lookup k.toList with
  | none => some none
  | some v => (read v).map some

def readGeometry (read : Str → Option Rat) (name : Str) (as : Attrs) : Option Geometry :=
  if name = "rect".toList then do
    let x ← num read as "x"
    let y ← num read as "y"
    let w ← num read as "width"
    let h ← num read as "height"
    let rx ← optNum read as "rx"
    let ry ← optNum read as "ry"
    some (.rect x y w h (radii w h rx ry).1 (radii w h rx ry).2)
  else if name = "ellipse".toList then do
    let cx ← num read as "cx"
    let cy ← num read as "cy"
    let rx ← num read as "rx"
    let ry ← num read as "ry"
    some (.ellipse cx cy rx ry)
  else if name = "polygon".toList then do
    let s ← as.lookup "points".toList
    let ps ← readPoints read s
    some (.polygon ps)
  else if name = "polyline".toList then do
    let s ← as.lookup "points".toList
    let ps ← readPoints read s
    some (.polyline ps)
  else if name = "path".toList then do
    let s ← as.lookup "d".toList
    let cmds ← readPath read s
    some (.path cmds)
  else if name = "image".toList then do
    let x ← num read as "x"
    let y ← num read as "y"
    let w ← num read as "width"
    let h ← num read as "height"
    let href ← as.lookup "xlink:href".toList
    some (.image x y w h href)
  else none

/-- A picture has no paint of its own. -/
def Geometry.painted : Geometry → Bool
  | .image _ _ _ _ _ => false
  | _ => true

def readShape (read : Str → Option Rat) (name : Str) (as : Attrs) : Option Drawn := do
  let g ← readGeometry read name as
  let t ← readTransform read (as.lookup "transform".toList)
  let stroke ← strokeOf read (readStyle (as.lookup "style".toList))
  if g.painted then some ⟨g, t, fillOf (readStyle (as.lookup "style".toList)), stroke⟩ else some ⟨g, t, none, none⟩

/-- The shapes of a page in painting order; nothing else is on the page. -/
def readShapes (read : Str → Option Rat) : Forest → Option (List Drawn)
  | .nil => some []
  | .text _ _ => none
  | .elem n as .nil rest =>
    match readShape read n as, readShapes read rest with
    | some d, some ds => some (d :: ds)
    | _, _ => none
  | .elem _ _ _ _ => none

/-! ### what is meant to be drawn -/

/-- A rotation by an angle (in degrees) around a point. -/
def turn (rotation : Option Rat) (center : Pt) : List (Str × List Rat) :=
  match rotation with
  | none => []
  | some a => if a = 0 then [] else [("rotate".toList, [a, center.1, center.2])]

def middle (r : Rect) : Pt := (r.x + r.width / 2, r.y + r.height / 2)

def average (ps : List Pt) : Pt := ((ps.map (·.1)).sum / ps.length, (ps.map (·.2)).sum / ps.length)

/-- A colour argument: missing, empty and `none` paint nothing. -/
def wanted : Option Str → Option Str
  | none => none
  | some c => if c = [] then none else paintOf c

/-- The outline that is asked for: of width 1 if no width is given. -/
def wantedStroke (p : Paint) : Option Stroke := (wanted p.color).map fun c => ⟨c, p.strokeWidth.getD 1, wanted p.dash⟩

/-- What an item is meant to draw. -/
def meant : Item → Drawn
  | .rect r rx ry rot p =>
    ⟨.rect r.x r.y r.width r.height (radii r.width r.height rx ry).1 (radii r.width r.height rx ry).2, turn rot (middle r), wanted p.bgColor, wantedStroke p⟩
  | .ellipse r rot p => ⟨.ellipse (middle r).1 (middle r).2 (r.width / 2) (r.height / 2), turn rot (middle r), wanted p.bgColor, wantedStroke p⟩
  | .polygon ps rot p => ⟨.polygon ps, turn rot (average ps), wanted p.bgColor, wantedStroke p⟩
  | .polyline ps p => ⟨.polyline ps, [], wanted p.bgColor, wantedStroke p⟩
  | .path cmds p => ⟨.path cmds, [], wanted p.bgColor, wantedStroke p⟩
  | .bitmap r mime data rot => ⟨.image r.x r.y r.width r.height ("data:".toList ++ mime ++ ";base64,".toList ++ data), turn rot (middle r), none, none⟩

/-! ### arguments -/

/-- A value that can be written in a style sheet inside an attribute. -/
structure CssOk (s : Str) : Prop where
  ok : OkStr s
  semi : ';' ∉ s
  ws : ∀ c ∈ s, isWs c = true → c = ' '
  trim : trim s = s

/-- The strings can be written. -/
structure PaintOk (p : Paint) : Prop where
  color : ∀ c, p.color = some c → CssOk c
  bgColor : ∀ c, p.bgColor = some c → CssOk c
  dash : ∀ c, p.dash = some c → CssOk c

/-- No white space, and can be written in an attribute. -/
def Dense (s : Str) : Prop := OkStr s ∧ ∀ c ∈ s, isWs c = false

/-- The arguments can be written; the commands of a path are letters. -/
def ItemOk : Item → Prop
  | .rect _ _ _ _ p => PaintOk p
  | .ellipse _ _ p => PaintOk p
  | .polygon _ _ p => PaintOk p
  | .polyline _ p => PaintOk p
  | .path cmds p => PaintOk p ∧ ∀ c ∈ cmds, isCommand c.1 = true
  | .bitmap _ mime data _ => Dense mime ∧ Dense data

/-- The width of the outline that is given. -/
def outlineWidth : Item → Option Rat
  | .rect _ _ _ _ p => p.strokeWidth
  | .ellipse _ _ p => p.strokeWidth
  | .polygon _ _ p => p.strokeWidth
  | .polyline _ p => p.strokeWidth
  | .path _ p => p.strokeWidth
  | .bitmap _ _ _ _ => none

/-- Radii are not negative; if both are given, both are zero or none is. -/
def EvenRadii : Item → Prop
  | .rect _ rx ry _ _ => (∀ a, rx = some a → 0 ≤ a) ∧ (∀ b, ry = some b → 0 ≤ b) ∧ ∀ a b, rx = some a → ry = some b → (a = 0 ↔ b = 0)
  | _ => True

/-- A polygon without points is not turned. -/
def HasCenter : Item → Prop
  | .polygon ps rot _ => ps ≠ [] ∨ turn rot (0, 0) = []
  | _ => True

end Verif.SvgDraw.Spec
