import Verif.Model.Markdown
import Verif.Model.Code
import Verif.Model.ExtList

/-! # Model of the blocks of elsie/ext/markdown.py

The Markdown parser (marko) is not modelled; its result is a tree of blocks. Lists and boxes are numbered as in Model/ExtList.lean (all lists of a
document are one family); box 0 is the box made by `create_root_md_box`. What the styles are is left out (the boxes whose style is that of a quotation are recorded). -/

namespace Verif.Markdown
open Verif.ExtList (Family ListB BoxRec Label newList ulLabel olLabel)
open Verif.Text (Tok Lexer boxText boxCode)

mutual
/-- Blocks in first-child/next-sibling form. `other` is any block for which there is no function in `MD_BUILD_FNS`. Of an inline element in a fenced code only the
text remains. -/
inductive Blocks where
  | nil
  | heading (level : Nat) (t : Inlines) (rest : Blocks)
  | paragraph (t : Inlines) (rest : Blocks)
  | blank (rest : Blocks)
  | quote (kids rest : Blocks)
  | code (lang text : Str) (rest : Blocks)
  | list (ordered : Bool) (start : Nat) (bullet : Str) (items : Items) (rest : Blocks)
  | other (rest : Blocks)
/-- The items of a list. -/
inductive Items where
  | nil
  | cons (kids : Blocks) (rest : Items)
end

/-- A text in a box, with the name of its style. -/
structure TextRec where
  box : Nat
  toks : List Tok
  style : Str
  deriving DecidableEq

/-- What has been made: the boxes and lists, the boxes of quotations, the texts. -/
structure St where
  fam : Family := { lists := [] }
  quotes : List Nat := []
  texts : List TextRec := []

/-- elsie/ext/markdown.py:30-42 `MarkdownContext`, without the escape character. -/
structure Ctx where
  box : Nat
  list : Option Nat := none

/-- `box.sbox()` for a box that is a column (elsie/boxtree/boxmixin.py:183-193); all boxes in question are. -/
def sbox (s : St) (p : Nat) : Nat × St :=
  (s.fam.boxes.length + 1, { s with fam := { s.fam with boxes := s.fam.boxes ++ [{ parent := p, width := some "fill".toList }] } })

def St.put (s : St) (box : Nat) (toks : List Tok) (style : Str) : St := { s with texts := s.texts ++ [⟨box, toks, style⟩] }

/-- elsie/ext/markdown.py:11-14 `md_heading_style_name`. -/
def headingStyle (level : Nat) : Except Err Str :=
  if 1 ≤ level ∧ level ≤ 6 then .ok ("md-h".toList ++ natStr level) else .error .assertion

/-- elsie/ext/markdown.py:17. -/
def paragraphStyle : Str := "md-paragraph".toList

/-- elsie/ext/markdown.py:84-86 `build_text`. -/
def addText (escape : Char) (s : St) (ctx : Ctx) (text style : Str) : Except Err St :=
  match boxText [escape] text with
  | .error e => .error e
  | .ok toks => .ok ((sbox s ctx.box).2.put (sbox s ctx.box).1 toks style)

/-- elsie/boxtree/boxmixin.py:718-733: no language is the same as the empty one; pygments raises for an unknown language. -/
def lexerFor (lexers : Str → Option Lexer) (lang : Str) : Except Err (Option Lexer) :=
  if lang = [] then .ok none
  else
    match lexers lang with
    | none => .error .value
    | some lx => .ok (some lx)

/-- elsie/ext/markdown.py:109-111 `build_fenced_code`, with the default arguments of `code`. -/
def addCode (lexers : Str → Option Lexer) (s : St) (ctx : Ctx) (lang text : Str) : Except Err St :=
  match lexerFor lexers lang with
  | .error e => .error e
  | .ok lx =>
    match boxCode lx false false 4 "~".toList text with
    | .error e => .error e
    | .ok toks => .ok ((sbox s ctx.box).2.put (sbox s ctx.box).1 toks "code".toList)

/-- elsie/ext/markdown.py:115-125: the box for the list and the list; a sublist is not put into the box. -/
def openList (s : St) (ctx : Ctx) (ordered : Bool) (start : Nat) (bullet : Str) : Except Err (Nat × St) :=
  match ctx.list with
  | some l =>
    match Verif.ExtList.step (sbox s ctx.box).2.fam (if ordered then .ol l (some []) (some start) none none [] else .ul l none (some (.text bullet)) []) with
    | (.list i, f) => .ok (i, { (sbox s ctx.box).2 with fam := f })
    | (.raised e, _) => .error e
    | (.item .., _) => .error .assertion
  | none =>
    let t := (sbox (sbox s ctx.box).2 (sbox s ctx.box).1).2
    let b := (sbox (sbox s ctx.box).2 (sbox s ctx.box).1).1
    .ok (t.fam.lists.length, { t with fam := { t.fam with lists := t.fam.lists ++
      [if ordered then newList b olLabel 10 25 [] start 0 [] else newList b (Label.orDefault ulLabel (some (.text bullet))) 10 25 [] 1 0 []] } })

/-- elsie/ext/markdown.py:128 `new_list.item()`; the text of the label is put into its box (elsie/ext/list.py:150-152). The label is a text
(Model/ExtList.lean `showLabel`) for all lists of a document. -/
def openItem (s : St) (l : Nat) : Except Err (Nat × St) :=
  match Verif.ExtList.step s.fam (.item l none none []) with
  | (.item box _ labelBox (.text label), f) =>
    match boxText "~".toList label with
    | .error e => .error e
    | .ok toks => .ok (box, { s with fam := f }.put labelBox toks "default".toList)
  | (.raised e, _) => .error e
  | _ => .error .assertion

mutual
/-- elsie/ext/markdown.py:89-111, 114-125 and 142-152: `build_children`, with the functions for the kinds of blocks. -/
def buildBlocks (escape : Char) (lexers : Str → Option Lexer) : Blocks → Ctx → St → Except Err St
  | .nil, _, s => .ok s
  | .heading level t rest, ctx, s =>
    match headingStyle level with
    | .error e => .error e
    | .ok style =>
      match addText escape s ctx (getRawText escape t) style with
      | .error e => .error e
      | .ok s => buildBlocks escape lexers rest ctx s
  | .paragraph t rest, ctx, s =>
    match addText escape s ctx (getRawText escape t) paragraphStyle with
    | .error e => .error e
    | .ok s => buildBlocks escape lexers rest ctx s
  | .blank rest, ctx, s =>
    match addText escape s ctx "\n".toList paragraphStyle with
    | .error e => .error e
    | .ok s => buildBlocks escape lexers rest ctx s
  | .quote kids rest, ctx, s =>
    match buildBlocks escape lexers kids { ctx with box := (sbox s ctx.box).1 } { (sbox s ctx.box).2 with quotes := s.quotes ++ [(sbox s ctx.box).1] } with
    | .error e => .error e
    | .ok s => buildBlocks escape lexers rest ctx s
  | .code lang text rest, ctx, s =>
    match addCode lexers s ctx lang text with
    | .error e => .error e
    | .ok s => buildBlocks escape lexers rest ctx s
  | .list ordered start bullet items rest, ctx, s =>
    match openList s ctx ordered start bullet with
    | .error e => .error e
    | .ok (l, s) =>
      match buildItems escape lexers items l s with
      | .error e => .error e
      | .ok s => buildBlocks escape lexers rest ctx s
  | .other rest, ctx, s => buildBlocks escape lexers rest ctx s
/-- elsie/ext/markdown.py:126-129: the loop over the items. -/
def buildItems (escape : Char) (lexers : Str → Option Lexer) : Items → Nat → St → Except Err St
  | .nil, _, s => .ok s
  | .cons kids rest, l, s =>
    match openItem s l with
    | .error e => .error e
    | .ok (box, s) =>
      match buildBlocks escape lexers kids { box := box, list := some l } s with
      | .error e => .error e
      | .ok s => buildItems escape lexers rest l s
end

/-- elsie/ext/markdown.py:174-177: the document in the box made by `create_root_md_box`. -/
def markdown (escape : Char) (lexers : Str → Option Lexer) (doc : Blocks) : Except Err St := buildBlocks escape lexers doc { box := 0 } {}

end Verif.Markdown
