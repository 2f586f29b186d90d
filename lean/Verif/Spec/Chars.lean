import Verif.Model.Py

/-! # Specification: characters

The code points Python's string methods treat as white space and as ends of lines (documentation of `str.isspace` and
`str.splitlines`). -/

namespace Verif.Chars.Spec

/-- White space: the characters of bidirectional type WS, B or S, or of category Zs. -/
def spaceCodes : List Nat :=
  [9, 10, 11, 12, 13, 28, 29, 30, 31, 32, 133, 160, 5760, 8192, 8193, 8194, 8195, 8196, 8197, 8198, 8199, 8200, 8201, 8202, 8232, 8233, 8239,
    8287, 12288]

/-- Ends of lines: line feed, line tabulation, form feed, carriage return, file, group and record separators, next
line, line and paragraph separators. -/
def lineCodes : List Nat := [10, 11, 12, 13, 28, 29, 30, 133, 8232, 8233]

end Verif.Chars.Spec
