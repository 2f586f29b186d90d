import Verif.Model.TextParser
import Verif.Model.Geom

/-!
# Model of the index and geometry computations of elsie/text/textboxitem.py
-/

namespace Verif.Text

/-- elsie/text/textboxitem.py:129-137, the loop of `TextBoxItem.inline_box`: `i` is the loop
index, `count` the variable of line 129. -/
def inlineLoop (name : Str) : Nat → Nat → List Tok → Except Err Nat
  | _, _, [] => .error (.user "Style occurence not found")
  | i, count, t :: ts =>
    if t = .opn name then
      if count - 1 = 0 then .ok i else inlineLoop name (i + 1) (count - 1) ts
    else inlineLoop name (i + 1) count ts

/-- elsie/text/textboxitem.py:114-137 `TextBoxItem.inline_box` up to the choice of the token
index (line 134).  Line 128 asserts `n_th > 0`. -/
def inlineBoxIndex (toks : List Tok) (name : Str) (nth : Nat) : Except Err Nat :=
  if nth = 0 then .error .assertion else inlineLoop name 0 nth toks

/-- elsie/text/textboxitem.py:97-106: `(compute_y(), compute_height())` of
`line_box(index, n_lines)`.  `textHeight` is `self._text_size[1]`; `number_of_lines` is at
least 1, so there is no division by zero. -/
def lineBox (rect : Rect) (textHeight : Rat) (toks : List Tok) (index nLines : Int) : Rat × Rat :=
  let textLines : Rat := numberOfLines toks
  let lineHeight := textHeight / textLines
  let y := rect.y + (rect.height - textHeight) / 2
  (y + lineHeight * index, nLines * textHeight / textLines + 1)

/-- elsie/text/textboxitem.py:140-150: `(compute_y(), compute_height())` of an inline box at
token `index`. -/
def inlineBoxY (rect : Rect) (textHeight : Rat) (toks : List Tok) (index : Nat) : Rat × Rat :=
  let lineNumber : Rat := (numberOfLines (toks.take index) : Rat) - 1
  let textLines : Rat := numberOfLines toks
  let lineHeight := textHeight / textLines
  let y := rect.y + (rect.height - textHeight) / 2
  (y + lineHeight * lineNumber, textHeight / textLines + 1)

end Verif.Text
