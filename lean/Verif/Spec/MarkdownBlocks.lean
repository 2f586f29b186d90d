import Verif.Model.MarkdownBlocks
import Verif.Props.Markdown
import Verif.Spec.Code

/-! # Specification: what a Markdown document shows, in which order -/

namespace Verif.Markdown.Spec
open Verif.ExtList (BoxRec)
open Verif.Text (Tok Lexer)
open Verif.Text.Spec (shown chars)

/-! ### the source -/

/-- A piece of a document: a heading or paragraph with the name of its style, an empty line, code, the label of a list item. -/
inductive Piece where
  | text (style : Str) (t : Inlines)
  | blank
  | code (lang text : Str)
  | label (s : Str)

/-- The label of item number `k` (from 0) of a list. -/
def labelOf (ordered : Bool) (start : Nat) (bullet : Str) (k : Nat) : Str := if ordered then Nat.toDigits 10 (start + k) ++ ".".toList else bullet

mutual
/-- The pieces of a document in their order, with the number of quotations around each. -/
def pieces (d : Nat) : Blocks → List (Nat × Piece)
  | .nil => []
  | .heading n t rest => (d, .text ("md-h".toList ++ Nat.toDigits 10 n) t) :: pieces d rest
  | .paragraph t rest => (d, .text "md-paragraph".toList t) :: pieces d rest
  | .blank rest => (d, .blank) :: pieces d rest
  | .quote kids rest => pieces (d + 1) kids ++ pieces d rest
  | .code lang text rest => (d, .code lang text) :: pieces d rest
  | .list ordered start bullet items rest => itemPieces d ordered start bullet 0 items ++ pieces d rest
  | .other rest => pieces d rest
def itemPieces (d : Nat) (ordered : Bool) (start : Nat) (bullet : Str) (k : Nat) : Items → List (Nat × Piece)
  | .nil => []
  | .cons kids rest => (d, .label (labelOf ordered start bullet k)) :: pieces d kids ++ itemPieces d ordered start bullet (k + 1) rest
end

/-! ### the boxes -/

/-- The way from box 0 to a box. -/
inductive Path (boxes : List BoxRec) : Nat → List Nat → Prop
  | root : Path boxes 0 []
  | child {k : Nat} {b : BoxRec} {p : List Nat} : boxes[k]? = some b → Path boxes b.parent p → Path boxes (k + 1) (p ++ [k + 1])

/-- One box comes before another one: they are in two children of the same box, or in children of it, and the child for the first one was added before the child for
the second one. (Boxes are columns from top to bottom, those of list items rows from left to right; children are in the order in which they were added, C27, C29.) -/
def Before (p q : List Nat) : Prop := ∃ common i j p' q', p = common ++ i :: p' ∧ q = common ++ j :: q' ∧ i < j

/-- A text shows a piece: its characters with their styles, up to line breaks at the end. -/
def Shows (t : TextRec) : Piece → Prop
  | .text style i => t.style = style ∧ ∃ k, shown [] t.toks ++ List.replicate k ('\n', []) = display [] i
  | .blank => t.style = "md-paragraph".toList ∧ shown [] t.toks = []
  | .code lang text => t.style = "code".toList ∧
      if lang = [] then ∃ k, chars t.toks ++ List.replicate k '\n' = Verif.Text.Spec.untab 4 text
      else chars t.toks = Verif.Text.Spec.stripNl (Verif.Text.Spec.untab 4 text)
  | .label s => t.style = "default".toList ∧ shown [] t.toks = s.map fun c => (c, [])

/-- Documents in the order of the source: every piece has a text that shows it, in as many quotations as in the source, and each text comes before the next. -/
def InOrder (s : St) (ps : List (Nat × Piece)) : Prop :=
  ∃ paths, List.Forall₂ (fun t p => Path s.fam.boxes t.box p) s.texts paths ∧ paths.Pairwise Before ∧
    List.Forall₂ (fun x p => Shows x.1 p.2 ∧ (x.2.filter (· ∈ s.quotes)).length = p.1) (s.texts.zip paths) ps

/-! ### documents -/

mutual
/-- What the texts have to be: headings of the six levels, texts as in C80, known languages with a proper lexer, lists with one of the bullets of Markdown; the number of an ordered
list inside of an item is not 0. -/
def Proper (escape : Char) (lexers : Str → Option Lexer) (inItem : Bool) : Blocks → Prop
  | .nil => True
  | .heading n t rest => (1 ≤ n ∧ n ≤ 6) ∧ Fine escape t ∧ Proper escape lexers inItem rest
  | .paragraph t rest => Fine escape t ∧ Proper escape lexers inItem rest
  | .blank rest => Proper escape lexers inItem rest
  | .quote kids rest => Proper escape lexers inItem kids ∧ Proper escape lexers inItem rest
  | .code lang text rest => (lang ≠ [] → (∃ lx, lexers lang = some lx ∧ Verif.Text.Spec.Honours lx) ∧ '\r' ∉ Verif.Text.Spec.untab 4 text ∧ (Verif.Text.Spec.untab 4 text).head? ≠ some '\uFEFF') ∧
      Proper escape lexers inItem rest
  | .list ordered start bullet items rest => (if ordered then inItem = true → 1 ≤ start else bullet ∈ ["-".toList, "*".toList, "+".toList]) ∧
      ProperItems escape lexers items ∧ Proper escape lexers inItem rest
  | .other rest => Proper escape lexers inItem rest
def ProperItems (escape : Char) (lexers : Str → Option Lexer) : Items → Prop
  | .nil => True
  | .cons kids rest => Proper escape lexers true kids ∧ ProperItems escape lexers rest
/-- A text as in C80. -/
def Fine (escape : Char) (t : Inlines) : Prop := Supported t ∧ ∀ s ∈ texts t, ∀ c ∈ s, c ≠ escape ∧ c ≠ '}'
end

mutual
/-- Only lists. -/
def OnlyLists : Blocks → Prop
  | .nil => True
  | .list _ _ _ _ rest => OnlyLists rest
  | .other rest => OnlyLists rest
  | _ => False
/-- No lists, also in quotations. -/
def NoLists : Blocks → Prop
  | .nil => True
  | .list _ _ _ _ _ => False
  | .quote kids rest => NoLists kids ∧ NoLists rest
  | .heading _ _ rest | .paragraph _ rest | .blank rest | .code _ _ rest | .other rest => NoLists rest
/-- The blocks of an item: lists come at the end and are not in quotations. -/
def ListsLast : Blocks → Prop
  | .nil => True
  | .list _ _ _ items rest => ItemsOk items ∧ OnlyLists rest ∧ ListsLast rest
  | .quote kids rest => NoLists kids ∧ ListsLast rest
  | .heading _ _ rest | .paragraph _ rest | .blank rest | .code _ _ rest | .other rest => ListsLast rest
def ItemsOk : Items → Prop
  | .nil => True
  | .cons kids rest => ListsLast kids ∧ ItemsOk rest
/-- In all items of a document, lists come last. -/
def Placed : Blocks → Prop
  | .nil => True
  | .list _ _ _ items rest => ItemsOk items ∧ Placed rest
  | .quote kids rest => Placed kids ∧ Placed rest
  | .heading _ _ rest | .paragraph _ rest | .blank rest | .code _ _ rest | .other rest => Placed rest
end

end Verif.Markdown.Spec
