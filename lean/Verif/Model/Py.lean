/-!
# Python primitives used by several modules

Exceptions are values of `Err`; a Python function that may raise returns `Except Err α`.
-/

namespace Verif

/-- A Python string: a sequence of code points. -/
abbrev Str := List Char

/-- The exceptions the modelled code can raise. `user` carries the name of the explicit
`raise Exception(...)`, the others are raised by the interpreter. -/
inductive Err where
  | user (msg : String)
  | assertion
  | index
  | key
  | attribute
  | value
  | type
  | zeroDivision
  | fileNotFound
  deriving DecidableEq, Repr

instance {ε α : Type} [DecidableEq ε] [DecidableEq α] : DecidableEq (Except ε α)
  | .ok a, .ok b => if h : a = b then isTrue (by rw [h]) else isFalse (by intro h'; cases h'; exact h rfl)
  | .error a, .error b =>
      if h : a = b then isTrue (by rw [h]) else isFalse (by intro h'; cases h'; exact h rfl)
  | .ok _, .error _ => isFalse (by intro h; cases h)
  | .error _, .ok _ => isFalse (by intro h; cases h)

/-- `str(n)` for a natural number. -/
def natStr (n : Nat) : Str := Nat.toDigits 10 n

/-- `s.zfill(w)` for a string that does not start with a sign (`str.zfill` pads with `'0'`
on the left up to width `w`; the sign handling is not modelled, it is only applied to
`str` of positive integers in elsie/text/textparser.py:42,52). -/
def zfill (w : Nat) (s : Str) : Str := List.replicate (w - s.length) '0' ++ s

/-- `s.split(c)` for a one-character separator: never empty. -/
def splitOn (c : Char) : Str → List Str
  | [] => [[]]
  | x :: xs =>
    if x = c then [] :: splitOn c xs
    else match splitOn c xs with
      | [] => [[x]]
      | l :: ls => (x :: l) :: ls

/-- Characters at which `str.splitlines` splits. -/
def isLineSep (c : Char) : Bool :=
  c == '\n' || c == '\r' || c == '\x0b' || c == '\x0c' || c == '\x1c' || c == '\x1d' || c == '\x1e' ||
    c == '\x85' || c == ' ' || c == ' '

/-- `str.isspace` for one character (the Unicode characters Python strips by default). -/
def isSpace (c : Char) : Bool :=
  isLineSep c || c == '\t' || c == ' ' || c == '\x1f' || c == '\xa0' || c == ' ' ||
    (0x2000 ≤ c.toNat && c.toNat ≤ 0x200a) || c == ' ' || c == ' ' || c == '　'

/-- `s.strip()`. -/
def strip (s : Str) : Str := ((s.dropWhile isSpace).reverse.dropWhile isSpace).reverse

/-- A decimal digit as matched by `\d` (ASCII only: Python also accepts the decimal digits of
other scripts, which are not modelled). -/
def isDigit (c : Char) : Bool := '0' ≤ c && c ≤ '9'

/-- `int(ds)` for a string of digits. -/
def intOfDigits (ds : Str) : Nat := ds.foldl (fun n c => 10 * n + (c.toNat - '0'.toNat)) 0

/-- `range(a, b)`. -/
def pyRange (a b : Int) : List Int := (List.range (b - a).toNat).map (fun k : Nat => a + (k : Int))

end Verif
