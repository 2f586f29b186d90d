import Verif.Model.Py

/-!
# Model of elsie/text/textparser.py

A token `(name, value)` of the Python code is a value of `Tok`.
-/

namespace Verif.Text

/-- A token of a parsed text, elsie/text/textparser.py:1-2 and the tuples built in
`parse_text` (lines 65-83).  `("end", None)` is `close`, `("begin", s)` is `opn s`. -/
inductive Tok where
  | text (s : Str)
  | newline (n : Nat)
  | opn (style : Str)
  | close
  deriving DecidableEq, Repr

/-- elsie/text/textparser.py:5-10 `number_of_lines`. -/
def numberOfLines (toks : List Tok) : Nat :=
  toks.foldl (fun lines t => match t with | .newline n => lines + n | _ => lines) 1

/-- The loop body of `normalize_tokens`, elsie/text/textparser.py:16-31.  `res` is the
Python list `result` reversed (its head is `result[-1]`). `result[-1]` on an empty list
(line 25) raises IndexError. -/
def normStep (res : List Tok) (t : Tok) : Except Err (List Tok) :=
  match t with
  | .text [] => .ok res
  | .newline n =>
    match res with
    | .newline m :: rest => .ok (.newline (m + n) :: rest)
    | _ => .ok (t :: res)
  | .close =>
    match res with
    | [] => .error .index
    | .newline m :: rest => .ok (.newline m :: .close :: rest)
    | _ => .ok (t :: res)
  | _ => .ok (t :: res)

/-- elsie/text/textparser.py:16-31, the `for` loop of `normalize_tokens`. -/
def normLoop : List Tok → List Tok → Except Err (List Tok)
  | res, [] => .ok res
  | res, t :: ts =>
    match normStep res t with
    | .ok res' => normLoop res' ts
    | .error e => .error e

/-- elsie/text/textparser.py:33-34: drop a newline token at the end (`res` is reversed). -/
def popNewline : List Tok → List Tok
  | .newline _ :: rest => rest
  | res => res

/-- elsie/text/textparser.py:13-36 `normalize_tokens`. -/
def normalizeTokens (toks : List Tok) : Except Err (List Tok) :=
  match normLoop [] toks with
  | .ok res => .ok (popNewline res).reverse
  | .error e => .error e

/-- The three tokens that number a line, elsie/text/textparser.py:42 and 51-53. -/
def lineLabel (w line : Nat) : List Tok :=
  [.opn "code_lineno".toList, .text (zfill w (natStr line) ++ [' ']), .close]

/-- elsie/text/textparser.py:48-53, the inner loop (`n` iterations left). -/
def numberBreaks (w : Nat) : Nat → Nat → List Tok
  | _, 0 => []
  | line, n + 1 => .newline 1 :: lineLabel w (line + 1) ++ numberBreaks w (line + 1) n

/-- elsie/text/textparser.py:44-53, the outer loop. -/
def numberLoop (w : Nat) : Nat → List Tok → List Tok
  | _, [] => []
  | line, .newline n :: ts => numberBreaks w line n ++ numberLoop w (line + n) ts
  | line, t :: ts => t :: numberLoop w line ts

/-- elsie/text/textparser.py:39-54 `add_line_numbers`. -/
def addLineNumbers (toks : List Tok) : List Tok :=
  let w := (natStr (numberOfLines toks)).length
  lineLabel w 1 ++ numberLoop w 1 toks

/-- elsie/text/textparser.py:57-83, the scanning loop of `parse_text`.  `cur` is the pending
`text[start:i]` (reversed), `k` the variable `counter`; the last argument is `text[i:]`.
The result is the list `result` and the final `counter`.  `esc = none` models
`escape_char=None`.  Lines 66-72 consume the style name up to `begin_char`, and the
begin character itself, or everything when there is no begin character. -/
def scan (esc : Option Char) (b e : Char) (cur : Str) (k : Nat) : Str → List Tok × Nat
  | [] => (if cur = [] then [] else [.text cur.reverse], k)
  | c :: cs =>
    if some c = esc then
      let name := cs.takeWhile (· ≠ b)
      let rest := (cs.dropWhile (· ≠ b)).tail
      let r := scan esc b e [] (k + 1) rest
      (.text cur.reverse :: .opn name :: r.1, r.2)
    else if c = e ∧ 1 ≤ k then
      let r := scan esc b e [] (k - 1) cs
      (.text cur.reverse :: .close :: r.1, r.2)
    else scan esc b e (c :: cur) k cs
termination_by s => s.length
decreasing_by
  · have h := (List.dropWhile_suffix (l := cs) (fun x => decide (x ≠ b))).length_le
    simp only [List.length_tail, List.length_cons]
    omega
  · simp
  · simp

/-- elsie/text/textparser.py:90-94: split a text token at line breaks. -/
def splitText (s : Str) : List Tok :=
  match splitOn '\n' s with
  | [] => []
  | l :: ls => .text l :: ls.flatMap (fun l => [.newline 1, .text l])

/-- elsie/text/textparser.py:85-94, the second loop of `parse_text`. -/
def splitTexts : List Tok → List Tok
  | [] => []
  | .text s :: ts => splitText s ++ splitTexts ts
  | t :: ts => t :: splitTexts ts

/-- elsie/text/textparser.py:57-98 `parse_text`. -/
def parseText (esc : Option Char) (b e : Char) (s : Str) : Except Err (List Tok) :=
  let r := scan esc b e [] 0 s
  if r.2 > 0 then .error (.user "Invalid format, unclosed command")
  else normalizeTokens (splitTexts r.1)

/-- elsie/text/textparser.py:101-108 `_open_blocks`; the list `blocks` is kept reversed
(head = innermost).  `blocks.pop()` on an empty list raises IndexError. -/
def openBlocksRev : List Str → List Tok → Except Err (List Str)
  | st, [] => .ok st
  | st, .opn n :: ts => openBlocksRev (n :: st) ts
  | [], .close :: _ => .error .index
  | _ :: st, .close :: ts => openBlocksRev st ts
  | st, _ :: ts => openBlocksRev st ts

/-- elsie/text/textparser.py:101-108 `_open_blocks`, outermost first. -/
def openBlocks (toks : List Tok) : Except Err (List Tok) :=
  match openBlocksRev [] toks with
  | .ok st => .ok (st.reverse.map .opn)
  | .error e => .error e

/-- elsie/text/textparser.py:111-118 `_open_blocks_count`. -/
def openBlocksCount (toks : List Tok) : Int :=
  toks.foldl (fun c t => match t with | .opn _ => c + 1 | .close => c - 1 | _ => c) 0

/-- Is the token a newline token (the test of elsie/text/textparser.py:139,144). -/
def Tok.isNewline : Tok → Bool
  | .newline _ => true
  | _ => false

/-- elsie/text/textparser.py:138-141: one past the last newline token at or before `index`
(0 if there is none).  The Python loop walks `b` downwards; here it is recursion on `b + 1`. -/
def lineStart (toks : List Tok) : Nat → Nat
  | 0 => 0
  | b + 1 =>
    match toks[b]? with
    | some t => if t.isNewline then b + 1 else lineStart toks b
    | none => lineStart toks b

/-- elsie/text/textparser.py:143-145: the first newline token at or after `index` (the length
if there is none). -/
def lineEnd (toks : List Tok) (index : Nat) : Nat :=
  index + ((toks.drop index).takeWhile (fun t => !t.isNewline)).length

/-- elsie/text/textparser.py:137-150 `extract_line`.  An index out of range raises IndexError
(line 139).  `[END_MARKER] * n` is empty for negative `n`; `index - b` may be negative only
if the token at `index` is a newline. -/
def extractLine (toks : List Tok) (index : Nat) : Except Err (List Tok × Int) :=
  if index < toks.length then
    let b := lineStart toks (index + 1)
    let e := lineEnd toks index
    match openBlocks (toks.take b) with
    | .error err => .error err
    | .ok opened =>
      let result := opened ++ (toks.take e).drop b
      .ok (result ++ List.replicate (openBlocksCount result).toNat .close,
           (index : Int) - b + opened.length)
  else .error .index

/-- elsie/text/textparser.py:153-160 `tokens_to_text_without_style`. -/
def plainText (toks : List Tok) : Str :=
  (toks.map (fun t => match t with
    | .text s => s
    | .newline n => List.replicate n '\n'
    | _ => [])).flatten

/-- elsie/text/textparser.py:121-134 `_get_block_end_index`, relative to the position after the
opening token: how many tokens precede the matching `end`, `none` if there is no such token. -/
def blockEnd : Nat → List Tok → Option Nat
  | _, [] => none
  | d, .opn _ :: ts => (blockEnd (d + 1) ts).map (· + 1)
  | 0, .close :: _ => some 0
  | d + 1, .close :: ts => (blockEnd d ts).map (· + 1)
  | d, _ :: ts => (blockEnd d ts).map (· + 1)

/-- elsie/text/textparser.py:234-239: the text of the block opened by the head of `ts`
(`tokens[i][index : _get_block_end_index(...)]`, the slice to the end of the list when the
block is not closed). -/
def blockText (ts : List Tok) : Str :=
  match ts with
  | [] => []
  | t :: rest =>
    match blockEnd 0 rest with
    | some n => plainText (t :: rest.take n)
    | none => plainText (t :: rest)

/-- An element of the list built by `_tokens_merge_helper`: a plain token or
`("_block", i, token)`. -/
inductive MTok where
  | plain (t : Tok)
  | block (second : Bool) (t : Tok)
  deriving DecidableEq, Repr

/-- Python's `>` on lists of integers (elsie/text/textparser.py:219). -/
def listGt : List Nat → List Nat → Bool
  | [], _ => false
  | _ :: _, [] => true
  | x :: xs, y :: ys => if x = y then listGt xs ys else decide (x > y)

/-- State of the loop of `_tokens_merge_helper`, elsie/text/textparser.py:193-216.
`l1`/`l2` are the tokens not yet consumed: the head is `last[i]` (possibly the remainder of a
split text or newline token), and an exhausted list stands for `("<END>", None)`.
`i1`/`i2` are `indices[i] - 1`; the stacks are `stacks[0]`, `stacks[1]` (last element last). -/
structure MState where
  l1 : List Tok
  l2 : List Tok
  i1 : Nat
  i2 : Nat
  s1 : List Nat
  s2 : List Nat
  deriving DecidableEq, Repr

/-- One iteration of the `while True` loop of `_tokens_merge_helper`,
elsie/text/textparser.py:216-288: `none` is the `break` of line 256, otherwise the emitted
token and the next state.  Popping an empty stack raises IndexError, a failing `assert`
raises AssertionError.  The block texts of lines 234-239 are read off the unconsumed tokens:
the head is an (unsplit) `begin` token there, so they are a suffix of the original list. -/
def mergeStep (s : MState) : Except Err (Option (MTok × MState)) :=
  let end1 : Except Err (Option (MTok × MState)) :=
    match s.l1 with
    | t :: ts =>
      if s.s1 = [] then .error .index
      else .ok (some (.block false t, { s with l1 := ts, i1 := s.i1 + 1, s1 := s.s1.dropLast }))
    | [] => .error .index
  let end2 : Except Err (Option (MTok × MState)) :=
    match s.l2 with
    | t :: ts =>
      if s.s2 = [] then .error .index
      else .ok (some (.block true t, { s with l2 := ts, i2 := s.i2 + 1, s2 := s.s2.dropLast }))
    | [] => .error .index
  let begin1 : Except Err (Option (MTok × MState)) :=
    match s.l1 with
    | t :: ts => .ok (some (.block false t,
        { s with l1 := ts, i1 := s.i1 + 1, s1 := s.s1 ++ [s.i1] }))
    | [] => .error .index
  let begin2 : Except Err (Option (MTok × MState)) :=
    match s.l2 with
    | t :: ts => .ok (some (.block true t,
        { s with l2 := ts, i2 := s.i2 + 1, s2 := s.s2 ++ [s.i1] }))
    | [] => .error .index
  match s.l1, s.l2 with
  | .close :: _, .close :: _ => if listGt s.s1 s.s2 then end1 else end2
  | .close :: _, _ => end1
  | _, .close :: _ => end2
  | .opn _ :: _, .opn _ :: _ =>
    if (blockText s.l1).length > (blockText s.l2).length then begin1 else begin2
  | .opn _ :: _, _ => begin1
  | _, .opn _ :: _ => begin2
  | [], [] => .ok none
  | [], _ => .error .assertion
  | _, [] => .error .assertion
  | .newline v1 :: t1, .newline v2 :: t2 =>
    if v1 = v2 then
      .ok (some (.plain (.newline v1), { s with l1 := t1, l2 := t2, i1 := s.i1 + 1, i2 := s.i2 + 1 }))
    else if v1 < v2 then
      .ok (some (.plain (.newline v1), { s with l1 := t1, l2 := .newline (v2 - v1) :: t2, i1 := s.i1 + 1 }))
    else
      .ok (some (.plain (.newline v2), { s with l1 := .newline (v1 - v2) :: t1, l2 := t2, i2 := s.i2 + 1 }))
  | .newline _ :: _, _ => .error .assertion
  | _, .newline _ :: _ => .error .assertion
  | .text v1 :: t1, .text v2 :: t2 =>
    if v1.length = v2.length then
      .ok (some (.plain (.text v1), { s with l1 := t1, l2 := t2, i1 := s.i1 + 1, i2 := s.i2 + 1 }))
    else if v1.length < v2.length then
      .ok (some (.plain (.text v1), { s with l1 := t1, l2 := .text (v2.drop v1.length) :: t2, i1 := s.i1 + 1 }))
    else
      .ok (some (.plain (.text v2), { s with l1 := .text (v1.drop v2.length) :: t1, l2 := t2, i2 := s.i2 + 1 }))

/-- elsie/text/textparser.py:216-289: run the loop.  Every iteration consumes a token, so
`fuel = len(tokens1) + len(tokens2) + 1` iterations suffice (proved in
`Verif.Proofs.Merge`: the fuel is never exhausted). -/
def mergeLoop : Nat → MState → Except Err (List MTok)
  | 0, _ => .error (.user "out of fuel")
  | fuel + 1, s =>
    match mergeStep s with
    | .error e => .error e
    | .ok none => .ok []
    | .ok (some (t, s')) =>
      match mergeLoop fuel s' with
      | .ok r => .ok (t :: r)
      | .error e => .error e

/-- elsie/text/textparser.py:193-289 `_tokens_merge_helper`. -/
def mergeHelper (t1 t2 : List Tok) : Except Err (List MTok) :=
  mergeLoop (t1.length + t2.length + 1) ⟨t1, t2, 0, 0, [], []⟩

/-- elsie/text/textparser.py:180-186: walk the opened blocks from the innermost; returns the
blocks to reopen in the order they are re-opened, and the opened blocks without the closed
one.  `none`: no opened block of that stream (line 187 raises IndexError). -/
def closeBlock (second : Bool) : List (Bool × Str) → Option (List Str × List (Bool × Str))
  | [] => none
  | (i2, name) :: rest =>
    if i2 = second then some ([], rest)
    else match closeBlock second rest with
      | none => none
      | some (reopen, opened) => some (name :: reopen, (i2, name) :: opened)

/-- elsie/text/textparser.py:165-189: the loop of `tokens_merge`; `opened` is reversed (head
is the innermost block).  Text or newline tokens never occur under `_block` (line 177). -/
def mergeEmit : List (Bool × Str) → List MTok → Except Err (List Tok)
  | opened, [] => if opened = [] then .ok [] else .error .assertion
  | opened, .plain t :: ts =>
    match mergeEmit opened ts with
    | .ok r => .ok (t :: r)
    | .error e => .error e
  | opened, .block i (.opn name) :: ts =>
    match mergeEmit ((i, name) :: opened) ts with
    | .ok r => .ok (.opn name :: r)
    | .error e => .error e
  | opened, .block i .close :: ts =>
    match closeBlock i opened with
    | none => .error .index
    | some (reopen, opened') =>
      match mergeEmit opened' ts with
      | .ok r => .ok (List.replicate (reopen.length + 1) .close ++ reopen.map .opn ++ r)
      | .error e => .error e
  | _, .block _ _ :: _ => .error .assertion

/-- elsie/text/textparser.py:163-190 `tokens_merge`. -/
def tokensMerge (t1 t2 : List Tok) : Except Err (List Tok) :=
  match mergeHelper t1 t2 with
  | .error e => .error e
  | .ok ms =>
    match mergeEmit [] ms with
    | .error e => .error e
    | .ok r => normalizeTokens r

end Verif.Text
