import Verif.Model.TextParser

/-! # Model of the inline part of elsie/ext/markdown.py

The Markdown parser (marko) is not modelled; its result is a tree of inline elements. -/

namespace Verif.Markdown

/-- Inline elements in first-child/next-sibling form. `other` is any element that is none of the others (for instance code in backquotes, an image, an automatic link
or an escaped character), with its text. -/
inductive Inlines where
  | nil
  | raw (s : Str) (rest : Inlines)
  | emphasis (kids rest : Inlines)
  | strong (kids rest : Inlines)
  | link (kids rest : Inlines)
  | lineBreak (rest : Inlines)
  | other (s : Str) (rest : Inlines)
  deriving DecidableEq, Repr

/-- elsie/ext/markdown.py:44-45 `wrap_text_with_style`. -/
def wrap (escape : Char) (text style : Str) : Str := escape :: style ++ '{' :: text ++ ['}']

/-- elsie/ext/markdown.py:18-20. -/
def boldStyle : Str := "md-bold".toList
def italicStyle : Str := "md-italic".toList
def linkStyle : Str := "md-link".toList

/-- elsie/ext/markdown.py:48-61 `get_raw_text`. There is no branch for other elements. -/
def getRawText (escape : Char) : Inlines → Str
  | .nil => []
  | .raw s rest => s ++ getRawText escape rest
  | .emphasis kids rest => wrap escape (getRawText escape kids) italicStyle ++ getRawText escape rest
  | .strong kids rest => wrap escape (getRawText escape kids) boldStyle ++ getRawText escape rest
  | .link kids rest => wrap escape (getRawText escape kids) linkStyle ++ getRawText escape rest
  | .lineBreak rest => "\n".toList ++ getRawText escape rest
  | .other _ rest => getRawText escape rest

/-- elsie/ext/markdown.py:84-94: the text given to `box.text` for a paragraph or heading, as parsed there. -/
def buildText (escape : Char) (t : Inlines) : Except Err (List Text.Tok) := Text.parseText (some escape) '{' '}' (getRawText escape t)

end Verif.Markdown
