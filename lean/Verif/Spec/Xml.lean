import Verif.Model.Xml

/-! # Specification: an XML reader

A reader for the fragment of XML 1.0 without declarations, comments, CDATA and processing instructions, written
after the XML recommendation and independent of the writer: line ends are normalised (§2.11), only legal characters
are accepted (§2.2), references are decoded (§4.1), white space in attribute values becomes a space (§3.3.3),
attribute names are unique (§3.1), elements are nested properly (§3). Names are restricted to ASCII. -/

namespace Verif.Xml.Spec

/-- A sequence of nodes: texts and elements. -/
inductive Forest where
  | nil
  | text (s : Str) (rest : Forest)
  | elem (name : Str) (attrs : List (Str × Str)) (kids rest : Forest)
  deriving DecidableEq, Repr

def Forest.append : Forest → Forest → Forest
  | .nil, g => g
  | .text s r, g => .text s (r.append g)
  | .elem n a k r, g => .elem n a k (r.append g)

instance : Append Forest := ⟨Forest.append⟩

/-- A text node, if there is any text. -/
def textNode : Str → Forest
  | [] => .nil
  | s => .text s .nil

/-- Legal characters of XML 1.0. -/
def xmlChar (c : Char) : Bool :=
  c = '\t' || c = '\n' || c = '\r' || (0x20 ≤ c.toNat && c.toNat ≤ 0xD7FF) ||
    (0xE000 ≤ c.toNat && c.toNat ≤ 0xFFFD) || (0x10000 ≤ c.toNat)

def nameStart (c : Char) : Bool := c.isAlpha || c = '_' || c = ':'
def nameChar (c : Char) : Bool := nameStart c || c.isDigit || c = '-' || c = '.'
def isWs (c : Char) : Bool := c = ' ' || c = '\t' || c = '\n' || c = '\r'

/-- Line ends. -/
def eol : Str → Str
  | '\r' :: '\n' :: s => '\n' :: eol s
  | '\r' :: s => '\n' :: eol s
  | c :: s => c :: eol s
  | [] => []

/-- The character a reference stands for. -/
def decode (e : Str) : Option Char :=
  if e = "amp".toList then some '&'
  else if e = "lt".toList then some '<'
  else if e = "gt".toList then some '>'
  else if e = "quot".toList then some '"'
  else if e = "apos".toList then some '\''
  else
    match e with
    | '#' :: d :: ds => if (d :: ds).all Char.isDigit then some (Char.ofNat ((d :: ds).foldl (fun n c => 10 * n + (c.toNat - 48)) 0)) else none
    | _ => none

abbrev Attrs := List (Str × Str)

/-- What has been read: the nodes before this point, and for each open element the nodes before it, its name and
attributes. -/
structure Ctx where
  cur : Forest := .nil
  up : List (Forest × Str × Attrs) := []

/-- What the reader is in the middle of. -/
inductive Mode where
  | content (txt : Str)
  | ref (txt e : Str)
  | lt
  | name (n : Str)
  | space (n : Str) (as : Attrs)
  | attrName (n : Str) (as : Attrs) (a : Str)
  | attrEq (n : Str) (as : Attrs) (a : Str)
  | attrVal (n : Str) (as : Attrs) (a : Str) (q : Char) (v : Str)
  | attrRef (n : Str) (as : Attrs) (a : Str) (q : Char) (v e : Str)
  | attrEnd (n : Str) (as : Attrs)
  | slash (n : Str) (as : Attrs)
  | endName (n : Str)

abbrev RState := Ctx × Mode

/-- `>` of a start tag. -/
def openElem (z : Ctx) (n : Str) (as : Attrs) : RState := ({ cur := .nil, up := (z.cur, n, as) :: z.up }, .content [])

/-- Reading one character. -/
def step (st : RState) (c : Char) : Option RState :=
  if !xmlChar c then none
  else
    let z := st.1
    match st.2 with
    | .content txt =>
      if c = '<' then some ({ z with cur := z.cur ++ textNode txt }, .lt)
      else if c = '&' then some (z, .ref txt [])
      else some (z, .content (txt ++ [c]))
    | .ref txt e =>
      if c = ';' then
        match decode e with
        | some d => some (z, .content (txt ++ [d]))
        | none => none
      else some (z, .ref txt (e ++ [c]))
    | .lt => if c = '/' then some (z, .endName []) else if nameStart c then some (z, .name [c]) else none
    | .name n =>
      if nameChar c then some (z, .name (n ++ [c]))
      else if isWs c then some (z, .space n [])
      else if c = '>' then some (openElem z n [])
      else if c = '/' then some (z, .slash n [])
      else none
    | .space n as =>
      if nameStart c then some (z, .attrName n as [c])
      else if isWs c then some (z, .space n as)
      else if c = '>' then some (openElem z n as)
      else if c = '/' then some (z, .slash n as)
      else none
    | .attrName n as a =>
      if nameChar c then some (z, .attrName n as (a ++ [c]))
      else if c = '=' then some (z, .attrEq n as a)
      else none
    | .attrEq n as a => if c = '\'' ∨ c = '"' then some (z, .attrVal n as a c []) else none
    | .attrVal n as a q v =>
      if c = q then if a ∈ as.map (·.1) then none else some (z, .attrEnd n (as ++ [(a, v)]))
      else if c = '<' then none
      else if c = '&' then some (z, .attrRef n as a q v [])
      else if isWs c then some (z, .attrVal n as a q (v ++ [' ']))
      else some (z, .attrVal n as a q (v ++ [c]))
    | .attrRef n as a q v e =>
      if c = ';' then
        match decode e with
        | some d => some (z, .attrVal n as a q (v ++ [d]))
        | none => none
      else some (z, .attrRef n as a q v (e ++ [c]))
    | .attrEnd n as =>
      if isWs c then some (z, .space n as)
      else if c = '>' then some (openElem z n as)
      else if c = '/' then some (z, .slash n as)
      else none
    | .slash n as => if c = '>' then some ({ z with cur := z.cur ++ .elem n as .nil .nil }, .content []) else none
    | .endName n =>
      if c = '>' then
        match z.up with
        | (outer, m, as) :: up => if m = n then some ({ cur := outer ++ .elem m as z.cur .nil, up := up }, .content []) else none
        | [] => none
      else if nameChar c then some (z, .endName (n ++ [c]))
      else none

/-- Reading a string. -/
def steps (st : RState) : Str → Option RState
  | [] => some st
  | c :: s =>
    match step st c with
    | none => none
    | some st => steps st s

/-- At the end there is no open element and nothing is half read. -/
def final : RState → Option Forest
  | (z, .content txt) => if z.up = [] then some (z.cur ++ textNode txt) else none
  | _ => none

/-- The reader: `none` if the string is not well-formed. -/
def readXml (s : Str) : Option Forest :=
  match steps ({}, .content []) (eol s) with
  | none => none
  | some st => final st

/-! ### what the calls of the writer mean -/

/-- The calls are nested like the forest. -/
inductive Nested : List Op → Forest → Prop where
  | nil : Nested [] .nil
  | text (t ops F) : Nested ops F → Nested (.text t :: ops) (.text t F)
  | elem (n : Str) (sets : List (Str × Str × Bool)) (arg : Option Str) (body ops K F) : Nested body K → Nested ops F →
      (arg = none ∨ arg = some n) →
      Nested (.element n :: (sets.map (fun s => .set s.1 s.2.1 s.2.2) ++ (body ++ .close arg :: ops)))
        (.elem n (sets.map (fun s => (s.1, s.2.1))) K F)

/-- Spaces become non-breaking spaces. -/
def nbsp (s : Str) : Str := s.map (fun c => if c = ' ' then '\xa0' else c)

/-- White space in an attribute. -/
def attrText (s : Str) : Str := s.map (fun c => if isWs c then ' ' else c)

/-- The forest as a reader sees it: adjacent texts are one, spaces in texts are non-breaking; `p` is text directly
before. -/
def norm (p : Str) : Forest → Forest
  | .nil => textNode p
  | .text s r => norm (p ++ nbsp s) r
  | .elem n a k r => textNode p ++ .elem n (a.map (fun x => (x.1, attrText x.2))) (norm [] k) (norm [] r)

/-- A name in the sense of the reader. -/
def ValidName : Str → Prop
  | [] => False
  | c :: s => nameStart c = true ∧ ∀ d ∈ s, nameChar d = true

/-- Characters that reach the reader unchanged. -/
def Plain (s : Str) : Prop := ∀ c ∈ s, xmlChar c = true ∧ c ≠ '\r'

/-- A call whose strings XML can express. -/
def Valid : Op → Prop
  | .raw _ => False
  | .element n => ValidName n
  | .set n v _ => ValidName n ∧ Plain v ∧ '\'' ∉ v
  | .text t => Plain t
  | .close _ => True

/-- No attribute is set twice on the same element; `seen` are those set since the last element was opened. -/
def SetsDistinct (seen : List Str) : List Op → Prop
  | [] => True
  | .element _ :: ops => SetsDistinct [] ops
  | .set n _ _ :: ops => n ∉ seen ∧ SetsDistinct (seen ++ [n]) ops
  | _ :: ops => SetsDistinct seen ops

/-- The text of a forest. -/
def Forest.textOf : Forest → Str
  | .nil => []
  | .text s r => s ++ r.textOf
  | .elem _ _ k r => k.textOf ++ r.textOf

end Verif.Xml.Spec
