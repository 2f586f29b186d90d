import Verif.Model.TextParser
import Verif.Model.Style

/-! # Model of the text handling of the Cairo backend

elsie/render/backends/cairo/text.py: `get_text_and_attributes` and `get_byte_range`. Pango itself is not modelled. -/

namespace Verif.Cairo
open Verif.Text Verif.Style

/-- elsie/render/backends/cairo/text.py:59 `INVISIBLE_SPACE`. -/
def invisibleSpace : Char := '⠀'

/-- elsie/render/backends/cairo/text.py:62-63 `byte_length`: length in UTF-8. -/
def byteLength : Str → Nat
  | [] => 0
  | c :: s => c.utf8Size + byteLength s

/-- The state of the loop; `base` has the innermost style first. -/
structure St where
  ranges : List (TextStyle × Nat × Nat) := []
  base : List (Option TextStyle)
  start : Nat := 0
  text : Str := []
  line : Str := []

/-- elsie/render/backends/cairo/text.py:78-79 `active_style`. -/
def activeStyle : List (Option TextStyle) → Except Err TextStyle
  | [] => .error .index
  | some s :: _ => .ok s
  | none :: rest => activeStyle rest

/-- elsie/render/backends/cairo/text.py:74-76 `push_attrs`. The attributes of a range are those of its style
(`style_to_attributes`, lines 36-56, is a function of the style); the range is recorded with the style. -/
def St.push (st : St) (s : TextStyle) : St :=
  { st with ranges := st.ranges ++ [(s, st.start, byteLength st.text)], start := byteLength st.text }

/-- elsie/render/backends/cairo/text.py:87-92: a line break. -/
def newlines : Nat → St → St
  | 0, st => st
  | n + 1, st =>
    newlines n { st with text := st.text ++ (if st.line = [] then [invisibleSpace] else []) ++ ['\n'], line := [] }

/-- elsie/render/backends/cairo/text.py:82-107: one token. A style that is not in the table has no priority:
`AttributeError`. -/
def stepTok (styles : Str → Option TextStyle) (st : St) : Tok → Except Err St
  | .text s => .ok { st with line := st.line ++ s, text := st.text ++ s }
  | .newline n => .ok (newlines n st)
  | .opn name =>
    match activeStyle st.base with
    | .error e => .error e
    | .ok cur =>
      let st := st.push cur
      if name.head? = some '#' then .ok { st with base := none :: st.base }
      else
        match styles name with
        | none => .error .attribute
        | some this =>
          if cur.priority > this.priority then .ok { st with base := none :: st.base }
          else .ok { st with base := some (cur.compose this) :: st.base }
  | .close =>
    match activeStyle st.base with
    | .error e => .error e
    | .ok cur =>
      let st := st.push cur
      match st.base with
      | [] => .error .index
      | _ :: rest => .ok { st with base := rest }

def loop (styles : Str → Option TextStyle) (st : St) : List Tok → Except Err St
  | [] => .ok st
  | t :: ts =>
    match stepTok styles st t with
    | .error e => .error e
    | .ok st => loop styles st ts

/-- elsie/render/backends/cairo/text.py:66-113 `get_text_and_attributes`; `default` is `styles["default"]`. The last
range has `base_style[0]`; that is the outermost style. -/
def getTextAndAttributes (styles : Str → Option TextStyle) (default style : TextStyle) (toks : List Tok) :
    Except Err (Str × List (TextStyle × Nat × Nat)) :=
  match loop styles { base := [some (default.compose style)] } toks with
  | .error e => .error e
  | .ok st =>
    match st.base.getLast? with
    | none => .error .index
    | some outer =>
      let ranges : Except Err (List (TextStyle × Nat × Nat)) :=
        if st.start < byteLength st.text then
          match outer with
          | some s => .ok (st.ranges ++ [(s, st.start, byteLength st.text)])
          | none => .error .attribute
        else .ok st.ranges
      match ranges with
      | .error e => .error e
      | .ok r =>
        if st.base.length ≠ 1 then .error .assertion
        else if outer = none then .error .assertion
        else .ok (st.text, r)

/-- elsie/render/backends/cairo/text.py:173-191 `get_byte_range`: the loop; `depth` is the length of the stack. -/
def byteRange (idIndex : Nat) : Nat → Nat → Nat → Option Nat → List Tok → Except Err (Nat × Nat)
  | _, _, _, _, [] => .error .assertion
  | i, depth, count, start, t :: ts =>
    match t with
    | .text s => byteRange idIndex (i + 1) depth (count + byteLength s) start ts
    | .newline _ => .error .assertion
    | .opn _ => byteRange idIndex (i + 1) (depth + 1) count (if i = idIndex then some count else start) ts
    | .close =>
      match depth with
      | 0 => .error .index
      | d + 1 =>
        match start with
        | some s => if d = 0 then .ok (s, count) else byteRange idIndex (i + 1) d count start ts
        | none => byteRange idIndex (i + 1) d count start ts

def getByteRange (toks : List Tok) (idIndex : Nat) : Except Err (Nat × Nat) := byteRange idIndex 0 0 0 none toks

end Verif.Cairo
