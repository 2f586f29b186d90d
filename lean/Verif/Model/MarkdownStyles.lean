import Verif.Model.MarkdownBlocks
import Verif.Model.Style

/-! # Model of the styles of elsie/ext/markdown.py

The boxes and texts of a document (Model/MarkdownBlocks.lean) get their styles. A new box has the styles that its parent has when it is made. In the code boxes, quotations and texts are made in turn;
here first all boxes with their quotations and then all texts, which is the same because the styles of a box do not change once something is in it. -/

namespace Verif.Markdown
open Verif.Style (TextStyle Heap getStyle setStyle updateStyle newBox newText construct)
open Verif.ExtList (BoxRec)

/-- elsie/ext/markdown.py:66-75: the table, `default.compose(s(…))` for `default = s(align="left")`. -/
def mdStyles : List (Str × TextStyle) :=
  let default := construct { align := some "left".toList }
  [("md-paragraph".toList, default.compose (construct {})),
   ("md-bold".toList, default.compose (construct { bold := some true })),
   ("md-italic".toList, default.compose (construct { italic := some true })),
   ("md-link".toList, default.compose (construct { color := some "#0EBFE9".toList })),
   ("md-blockquote".toList, default.compose (construct { color := some "#A9A9A9".toList }))] ++
  (List.range 6).map (fun i => ("md-h".toList ++ natStr (i + 1), default.compose (construct { size := some (40 - i * 2) })))

/-- elsie/ext/markdown.py:77-79: styles that are not there are set. -/
def fillStyles (h : Heap) (c : Nat) : List (Str × TextStyle) → Except Err Heap
  | [] => .ok h
  | (n, s) :: rest =>
    match h.dictOf c with
    | .error e => .error e
    | .ok d =>
      if (d.get n).isSome then fillStyles h c rest
      else
        match setStyle (h.alloc s).1 c n (h.alloc s).2 (.name "default".toList) with
        | .error e => .error e
        | .ok (h, _) => fillStyles h c rest

/-- elsie/ext/markdown.py:64-81 `create_root_md_box`; the new box is the last one. -/
def rootBox (h : Heap) (c : Nat) : Except Err Heap :=
  match newBox h c with
  | .error e => .error e
  | .ok h1 => fillStyles h1 h.containers.length mdStyles

/-- elsie/ext/markdown.py:103: the styles of a quotation. -/
def quoteStyle (h : Heap) (c : Nat) : Except Err Heap :=
  match getStyle h c (.name "md-blockquote".toList) false with
  | .error e => .error e
  | .ok (h, a) => (updateStyle h c "default".toList a).map (·.1)

/-- The boxes of the document from number `k` + 1 on; box 0 is container `base`. -/
def dressBoxes (base : Nat) (quotes : List Nat) : Nat → List BoxRec → Heap → Except Err Heap
  | _, [], h => .ok h
  | k, b :: bs, h =>
    match newBox h (base + b.parent) with
    | .error e => .error e
    | .ok h =>
      if k + 1 ∈ quotes then
        match quoteStyle h (base + (k + 1)) with
        | .error e => .error e
        | .ok h => dressBoxes base quotes (k + 1) bs h
      else dressBoxes base quotes (k + 1) bs h

/-- The texts of the document (elsie/ext/markdown.py:86, 111 and elsie/ext/list.py:151). -/
def dressTexts (base : Nat) : List TextRec → Heap → Except Err Heap
  | [], h => .ok h
  | t :: ts, h =>
    match newText h (base + t.box) (.name t.style) with
    | .error e => .error e
    | .ok h => dressTexts base ts h

/-- elsie/ext/markdown.py:155-178 `markdown` in the box `c`. -/
def markdownStyled (escape : Char) (lexers : Str → Option Verif.Text.Lexer) (doc : Blocks) (h : Heap) (c : Nat) : Except Err (Heap × St) :=
  match rootBox h c with
  | .error e => .error e
  | .ok h1 =>
    match markdown escape lexers doc with
    | .error e => .error e
    | .ok s =>
      match dressBoxes h.containers.length s.quotes 0 s.fam.boxes h1 with
      | .error e => .error e
      | .ok h2 => (dressTexts h.containers.length s.texts h2).map (fun h => (h, s))

end Verif.Markdown
