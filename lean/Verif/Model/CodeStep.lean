import Verif.Model.Code

/-! # Model of the recipe `code_step` in docs/cookbook/codestepping.md -/

namespace Verif.CodeStep
open Verif Verif.Text

/-- docs/cookbook/codestepping.md:16-20 `get_line`. Negative numbers are not modelled. -/
def getLine (lines : List Str) : Option Nat → Except Err Str
  | none => .ok []
  | some i => match lines[i]? with
    | some l => .ok l
    | none => .error .index

/-- docs/cookbook/codestepping.md:26: the lines of a step. -/
def getLines (lines : List Str) : List (Option Nat) → Except Err (List Str)
  | [] => .ok []
  | v :: vs => match getLine lines v with
    | .error e => .error e
    | .ok l => match getLines lines vs with
      | .error e => .error e
      | .ok ls => .ok (l :: ls)

/-- docs/cookbook/codestepping.md:22-27: the texts of the steps, as `code` makes them with the default arguments; `code` is without the white space around it (line 12). -/
def codeSteps (lexer : Lexer) (tabsize : Nat) (escapeChar code : Str) : List (List (Option Nat)) → Except Err (List (List Tok))
  | [] => .ok []
  | visible :: rest => match getLines (splitOn '\n' code) visible with
    | .error e => .error e
    | .ok ls => match boxCode (some lexer) false false tabsize escapeChar (List.intercalate ['\n'] ls) with
      | .error e => .error e
      | .ok toks => match codeSteps lexer tabsize escapeChar code rest with
        | .error e => .error e
        | .ok ts => .ok (toks :: ts)

end Verif.CodeStep
