import Verif.Model.TextParser

/-!
# Specifications for inline markup

Nothing here uses the functions of `Verif.Model.TextParser`; only the type `Tok` of tokens
(the data a parsed text consists of) is shared.
-/

namespace Verif.Text.Spec

/-- A displayed character with the styles in force there, innermost first.  A line break has
no visible style. -/
def mark (st : List Str) (c : Char) : Char × List Str := (c, if c = '\n' then [] else st)

/-- What a token stream displays, character by character, when the styles `st` are open. -/
def shown (st : List Str) : List Tok → List (Char × List Str)
  | [] => []
  | .text s :: ts => s.map (mark st) ++ shown st ts
  | .newline n :: ts => List.replicate n (mark st '\n') ++ shown st ts
  | .opn s :: ts => shown (s :: st) ts
  | .close :: ts => shown st.tail ts

/-- The characters displayed by a token stream. -/
def chars : List Tok → Str
  | [] => []
  | .text s :: ts => s ++ chars ts
  | .newline n :: ts => List.replicate n '\n' ++ chars ts
  | .opn _ :: ts => chars ts
  | .close :: ts => chars ts

/-- Styles are opened and closed like brackets. -/
inductive Balanced : List Tok → Prop where
  | nil : Balanced []
  | text (s ts) : Balanced ts → Balanced (.text s :: ts)
  | newline (n ts) : Balanced ts → Balanced (.newline n :: ts)
  | block (s inner ts) : Balanced inner → Balanced ts →
      Balanced (.opn s :: inner ++ .close :: ts)

/-- Reading marked-up source one character at a time.  `name = some acc` while a style name is
being read (`acc` reversed), `st` are the open styles, innermost first.
A closing bracket closes a style only if one is open. -/
def readSource (esc : Option Char) (b e : Char) :
    (st : List Str) → (name : Option Str) → Str → List (Char × List Str)
  | _, _, [] => []
  | st, some acc, c :: cs =>
    if c = b then readSource esc b e (acc.reverse :: st) none cs
    else readSource esc b e st (some (c :: acc)) cs
  | st, none, c :: cs =>
    if some c = esc then readSource esc b e st (some []) cs
    else if c = e ∧ st ≠ [] then readSource esc b e st.tail none cs
    else mark st c :: readSource esc b e st none cs

/-- Is some style still open (or its name still being read) at the end of the source? -/
def unclosed (esc : Option Char) (b e : Char) : (depth : Nat) → (inName : Bool) → Str → Bool
  | d, n, [] => n || d != 0
  | d, true, c :: cs => if c = b then unclosed esc b e (d + 1) false cs else unclosed esc b e d true cs
  | d, false, c :: cs =>
    if some c = esc then unclosed esc b e d true cs
    else if c = e ∧ d ≠ 0 then unclosed esc b e (d - 1) false cs
    else unclosed esc b e d false cs

/-- The normal form of parsed text. -/
structure NormalForm (toks : List Tok) : Prop where
  /-- no empty run -/
  noEmpty : Tok.text [] ∉ toks
  /-- no two adjacent line-break tokens -/
  noAdjacent : ∀ a n m b, toks ≠ a ++ .newline n :: .newline m :: b
  /-- no line break directly before a closing -/
  noBeforeClose : ∀ a n b, toks ≠ a ++ .newline n :: .close :: b
  /-- no line break at the end -/
  noTrailing : ∀ a n, toks ≠ a ++ [.newline n]

/-- One simplification of a token stream. -/
inductive Simplify : List Tok → List Tok → Prop where
  | dropEmpty (a b) : Simplify (a ++ .text [] :: b) (a ++ b)
  | mergeBreaks (a n m b) : Simplify (a ++ .newline n :: .newline m :: b) (a ++ .newline (n + m) :: b)
  | moveOut (a n b) : Simplify (a ++ .newline n :: .close :: b) (a ++ .close :: .newline n :: b)
  | dropTrailing (a n) : Simplify (a ++ [.newline n]) a
  | joinRuns (a s t b) : Simplify (a ++ .text s :: .text t :: b) (a ++ .text (s ++ t) :: b)

/-- Any number of simplifications. -/
inductive Simplifies : List Tok → List Tok → Prop where
  | refl (a) : Simplifies a a
  | step {a b c} : Simplify a b → Simplifies b c → Simplifies a c

/-- A text document with inline styles: a text run, a line break, or a styled sub-document,
followed by the rest. -/
inductive Doc where
  | nil
  | run (s : Str) (rest : Doc)
  | lineBreak (rest : Doc)
  | styled (name : Str) (inner : Doc) (rest : Doc)
  deriving DecidableEq, Repr

/-- How a user writes the document with escape `x`, and brackets `b` and `e`. -/
def Doc.source (x b e : Char) : Doc → Str
  | .nil => []
  | .run s rest => s ++ rest.source x b e
  | .lineBreak rest => '\n' :: rest.source x b e
  | .styled name inner rest => x :: name ++ b :: inner.source x b e ++ e :: rest.source x b e

/-- The document as a token stream. -/
def Doc.tokens : Doc → List Tok
  | .nil => []
  | .run s rest => .text s :: rest.tokens
  | .lineBreak rest => .newline 1 :: rest.tokens
  | .styled name inner rest => .opn name :: inner.tokens ++ .close :: rest.tokens

/-- The document can be written unambiguously: text runs avoid the escape and closing
characters and line breaks, style names avoid the opening bracket. -/
def Doc.Writable (x b e : Char) : Doc → Prop
  | .nil => True
  | .run s rest => (∀ c ∈ s, c ≠ x ∧ c ≠ e ∧ c ≠ '\n') ∧ rest.Writable x b e
  | .lineBreak rest => rest.Writable x b e
  | .styled name inner rest => b ∉ name ∧ inner.Writable x b e ∧ rest.Writable x b e

/-- The lines of a token stream: split at every line break. -/
def lines : List Tok → List (List Tok)
  | [] => [[]]
  | .newline n :: ts => List.replicate n [] ++ lines ts
  | t :: ts =>
    match lines ts with
    | [] => [[t]]
    | l :: ls => (t :: l) :: ls

/-- The deepest nesting of styles reached in a stream, starting at nesting `d`. -/
def maxNesting : Nat → List Tok → Nat
  | d, [] => d
  | d, .opn _ :: ts => max d (maxNesting (d + 1) ts)
  | d, .close :: ts => max d (maxNesting (d - 1) ts)
  | d, .text _ :: ts => maxNesting d ts
  | d, .newline _ :: ts => maxNesting d ts

/-- Where the styled sections of a stream begin and end (`pos` characters were before, `starts` are the beginnings of the sections that are
open, innermost first). -/
def sections (pos : Nat) (starts : List Nat) : List Tok → List (Nat × Nat)
  | [] => []
  | .text s :: ts => sections (pos + s.length) starts ts
  | .newline n :: ts => sections (pos + n) starts ts
  | .opn _ :: ts => sections pos (pos :: starts) ts
  | .close :: ts =>
    match starts with
    | [] => sections pos [] ts
    | a :: starts => (a, pos) :: sections pos starts ts

/-- A section that begins inside the other one and reaches to its end or beyond. -/
def Crosses (inner outer : Nat × Nat) : Prop := outer.1 < inner.1 ∧ inner.1 < outer.2 ∧ outer.2 ≤ inner.2

instance (x y : Nat × Nat) : Decidable (Crosses x y) := by unfold Crosses; infer_instance

/-- The first display is the overlay of the other two: the same characters, each with the styles
of both (in any order). -/
inductive Merged : List (Char × List Str) → List (Char × List Str) → List (Char × List Str) → Prop where
  | nil : Merged [] [] []
  | cons {a b d} (c : Char) (σ σ1 σ2 : List Str) : σ.Perm (σ1 ++ σ2) → Merged a b d →
      Merged ((c, σ) :: a) ((c, σ1) :: b) ((c, σ2) :: d)

/-- A text stream as produced by the parser: text runs nonempty and without line breaks, newline
tokens positive. -/
def Clean (ts : List Tok) : Prop :=
  (∀ s, Tok.text s ∈ ts → s ≠ [] ∧ '\n' ∉ s) ∧ (∀ n, Tok.newline n ∈ ts → 1 ≤ n)

/-- Only the positions of the line breaks of a text. -/
def outline (s : Str) : List Bool := s.map (· == '\n')

/-- What an `escape_char` argument means: the escape character and the brackets. -/
inductive Delims : Str → Char → Char → Char → Prop where
  | three (x b e : Char) : Delims [x, b, e] x b e
  | one (x : Char) : Delims [x] x '{' '}'

end Verif.Text.Spec
