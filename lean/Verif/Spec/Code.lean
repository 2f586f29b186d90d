import Verif.Spec.Text
import Mathlib.Data.List.DropRight

/-! Specifications for code highlighting and indentation. -/

namespace Verif.Text.Spec

/-- Text without its leading and trailing line breaks. -/
def stripNl (s : Str) : Str := (s.dropWhile (· == '\n')).rdropWhile (· == '\n')

/-- Text whose tabs have been replaced by `n` spaces each. -/
def untab (n : Nat) : Str → Str
  | [] => []
  | '\t' :: cs => List.replicate n ' ' ++ untab n cs
  | c :: cs => c :: untab n cs

/-- What pygments promises about the tokens of a code without carriage returns and byte order mark
(defaults stripnl and ensurenl of `Lexer.get_tokens`): their values concatenate to the code stripped
of leading and trailing line breaks, followed by one line break; no value is empty. -/
structure Honours (lexer : Str → List (Str × Str)) : Prop where
  text : ∀ code, '\r' ∉ code → code.head? ≠ some '﻿' →
    (lexer code).flatMap Prod.snd = stripNl code ++ ['\n']
  nonempty : ∀ code, ∀ v ∈ lexer code, v.2 ≠ []

/-- Where the tokens of a lexer begin and end. -/
def pieces (pos : Nat) : List (Str × Str) → List (Nat × Nat)
  | [] => []
  | v :: vals => (pos, pos + v.2.length) :: pieces (pos + v.2.length) vals

/-- Styles that `code` can combine with tokens of a lexer: they are not nested, or none is empty and no two styles that begin inside the
same token (after its first character) share a character of this token. -/
def Compatible (vals : List (Str × Str)) (p : List Tok) : Prop :=
  maxNesting 0 p ≤ 1 ∨
  ((∀ x ∈ sections 0 [] p, x.1 < x.2) ∧
    ∀ x ∈ pieces 0 vals, ∀ c ≤ x.2, ((sections 0 [] p).filter (fun y => decide (Crosses y (x.1, c)))).length ≤ 1)

/-- A line consisting of whitespace only. -/
def Blank (sp : Char → Bool) (l : Str) : Prop := ∀ c ∈ l, sp c = true

end Verif.Text.Spec
