import Verif.Model.TextParser

/-!
# Model of elsie/text/highlight.py, of `BoxMixin.text`/`BoxMixin.code` up to the token stream
(elsie/boxtree/boxmixin.py) and of `trim_indent` (elsie/text/textparser.py)
-/

namespace Verif.Text

/-- A lexer: source code to (token type, value) pairs.  Stands for
`get_lexer_by_name(language).get_tokens` of pygments (external library), called through
`pygments.highlight` in elsie/text/highlight.py:36.  A token type is given as `str(ttype)`. -/
abbrev Lexer := Str → List (Str × Str)

/-- elsie/text/highlight.py:17-30, one iteration of the loop of `MyFormatter.format`. -/
def formatValue (ttype value : Str) : List Tok :=
  if value = ['\n'] then [.newline 1]
  else
    .opn ("pygments-".toList ++ ttype) ::
      ((if '\n' ∈ value then
          ((splitOn '\n' value).flatMap
            (fun t => (if t = [] then [] else [Tok.text t]) ++ [Tok.newline 1])).dropLast
        else [.text value]) ++ [.close])

/-- elsie/text/highlight.py:15-30 `MyFormatter.format`. -/
def formatStream (vals : List (Str × Str)) : List Tok :=
  vals.flatMap (fun v => formatValue v.1 v.2)

/-- elsie/text/highlight.py:33-37 `highlight_code`. -/
def highlightCode (lexer : Lexer) (code : Str) : Except Err (List Tok) :=
  normalizeTokens (formatStream (lexer code))

/-- elsie/boxtree/boxmixin.py:710-716 and 781-787: the `escape_char` argument as the triple
(escape, begin, end). -/
def delimiters (escapeChar : Str) : Except Err (Char × Char × Char) :=
  match escapeChar with
  | [x, b, e] => .ok (x, b, e)
  | [x] => .ok (x, '{', '}')
  | _ => .error (.user "Length of escape char has to be 1 or 3")

/-- elsie/boxtree/boxmixin.py:781-792: the token stream of `BoxMixin.text`. -/
def boxText (escapeChar text : Str) : Except Err (List Tok) :=
  match delimiters escapeChar with
  | .error err => .error err
  | .ok (x, b, e) => parseText (some x) b e text

/-- elsie/boxtree/boxmixin.py:708: `text.replace("\t", " " * tabsize)`. -/
def expandTabs (tabsize : Nat) (text : Str) : Str :=
  text.flatMap (fun c => if c = '\t' then List.replicate tabsize ' ' else [c])

/-- elsie/boxtree/boxmixin.py:708-748: the token stream of `BoxMixin.code`.  `lexer = none`
stands for a false `language` argument.  (An unknown language makes pygments raise; not
modelled, the lexer is given.) -/
def boxCode (lexer : Option Lexer) (useStyles lineNumbers : Bool) (tabsize : Nat)
    (escapeChar text : Str) : Except Err (List Tok) :=
  let text := expandTabs tabsize text
  match delimiters escapeChar with
  | .error err => .error err
  | .ok (x, b, e) =>
    let parsed : Except Err (List Tok) :=
      match lexer with
      | some lx =>
        if useStyles then
          let startNewlines := (text.takeWhile (· == '\n')).length
          let text := text.dropWhile (· == '\n')
          match parseText (some x) b e text with
          | .error err => .error err
          | .ok ptext =>
            match highlightCode lx (plainText ptext) with
            | .error err => .error err
            | .ok htext =>
              match tokensMerge htext ptext with
              | .error err => .error err
              | .ok merged =>
                .ok (if startNewlines = 0 then merged else .newline startNewlines :: merged)
        else highlightCode lx text
      | none => parseText (if useStyles then some x else none) b e text
    match parsed with
    | .error err => .error err
    | .ok toks => .ok (if lineNumbers then addLineNumbers toks else toks)

/-! ### `trim_indent` -/

/-- `s.splitlines(keepends=False)`; `cur` is the current line, reversed. -/
def splitlinesAux (cur : Str) : Str → List Str
  | [] => if cur = [] then [] else [cur.reverse]
  | '\r' :: '\n' :: cs => cur.reverse :: splitlinesAux [] cs
  | c :: cs => if isLineSep c then cur.reverse :: splitlinesAux [] cs else splitlinesAux (c :: cur) cs

/-- `s.splitlines(keepends=False)`. -/
def splitlines (s : Str) : List Str := splitlinesAux [] s

/-- `len(line) - len(line.lstrip())`. -/
def indentOf (line : Str) : Nat := line.length - (line.dropWhile isSpace).length

/-- `bool(line.strip())`: some character is not whitespace. -/
def nonBlank (line : Str) : Bool := line.any (fun c => !isSpace c)

/-- `"\n".join(lines)`. -/
def joinLines : List Str → Str
  | [] => []
  | [l] => l
  | l :: ls => l ++ '\n' :: joinLines ls

/-- elsie/text/textparser.py:292-296 `trim_indent`; `min` of an empty sequence raises ValueError. -/
def trimIndent (text : Str) : Except Err Str :=
  let lines := splitlines text
  match ((lines.filter nonBlank).map indentOf).min? with
  | none => .error .value
  | some m => .ok (joinLines (lines.map (·.drop m)))

end Verif.Text
