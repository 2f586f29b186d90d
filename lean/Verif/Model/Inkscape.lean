import Verif.Model.Py

/-! # Model of elsie/render/inkscape.py: talking to Inkscape

The characters Inkscape writes are a list; its end is the end of the stream. -/

namespace Verif.Inkscape

/-- elsie/render/inkscape.py:38-49, the loop of `wait_for_prompt`; `chars` is reversed. The result is the reply and the rest of the stream. At the end of the stream `read(1)` returns the empty
string for ever, and the loop goes on for ever: `none`. -/
def waitLoop (chars : Str) : Str → Option (Str × Str)
  | [] => none
  | c :: rest =>
    match chars with
    | '>' :: before =>
      if c = ' ' ∧ (before = [] ∨ before.head? = some '\n') then some ((before.drop 1).reverse, rest)
      else waitLoop (c :: chars) rest
    | _ => waitLoop (c :: chars) rest

/-- elsie/render/inkscape.py:35-49 `wait_for_prompt`. -/
def waitForPrompt (stream : Str) : Option (Str × Str) := waitLoop [] stream

/-- `splitlines(keepends=False)[-1]` of a string that is not empty. -/
def lastLine (s : Str) : Str :=
  let s := if s.getLast?.any isLineSep then s.dropLast else s
  (s.reverse.takeWhile fun c => !isLineSep c).reverse

/-- elsie/render/inkscape.py:84-91 `run_command`: what it makes of a reply. -/
def answer (reply : Str) : Str :=
  let out := strip reply
  if out = [] then out else lastLine out

/-- Commands one after the other: the answers and the rest of the stream. -/
def runCommands : Nat → Str → Option (List Str × Str)
  | 0, stream => some ([], stream)
  | n + 1, stream =>
    match waitForPrompt stream with
    | none => none
    | some (reply, rest) =>
      match runCommands n rest with
      | none => none
      | some (answers, rest) => some (answer reply :: answers, rest)

end Verif.Inkscape
