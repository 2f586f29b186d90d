import Verif.Model.Py

/-! # Colours in the Cairo backend

The functions of `webcolors` 1.11.1 that are used are modelled too; its table of names is a parameter, and so is `str.lower`. -/

namespace Verif.Colors

/-- A colour as given by the user; the components of a tuple are floats or (`none`) something else. -/
inductive Color where
  | str (s : Str)
  | tuple (l : List (Option Rat))

/-- `[a-fA-F0-9]` in `HEX_COLOR_RE` of `webcolors`. -/
def isHex (c : Char) : Bool :=
  (48 ≤ c.toNat && c.toNat ≤ 57) || (97 ≤ c.toNat && c.toNat ≤ 102) || (65 ≤ c.toNat && c.toNat ≤ 70)

/-- `lower` of a hexadecimal digit. -/
def lowerHex (c : Char) : Char := if 65 ≤ c.toNat && c.toNat ≤ 70 then Char.ofNat (c.toNat + 32) else c

/-- The value of a lower-case hexadecimal digit, as `int(·, 16)` reads it. -/
def hexDigit (c : Char) : Nat := if c.toNat ≤ 57 then c.toNat - 48 else c.toNat - 87

/-- `int(ds, 16)`. -/
def int16 (ds : Str) : Nat := ds.foldl (fun n c => n * 16 + hexDigit c) 0

/-- `webcolors.normalize_hex`, called in elsie/render/backends/cairo/utils.py:10 (and once more by `hex_to_rgb`). The pattern
`^#([a-fA-F0-9]{3}|[a-fA-F0-9]{6})$` also matches before a newline at the end. -/
def normalizeHex : Str → Except Err Str
  | [] => .error .value
  | c :: rest =>
    if c ≠ '#' then .error .value
    else
      let ds := if rest.getLast? = some '\n' then rest.dropLast else rest
      if ds.all isHex && (ds.length == 3 || ds.length == 6) then
        .ok ('#' :: (if ds.length = 3 then ds.flatMap (fun d => [d, d]) else ds).map lowerHex)
      else .error .value

/-- `webcolors.hex_to_rgb`, called in elsie/render/backends/cairo/utils.py:11. -/
def hexToRgb (s : Str) : Except Err (Nat × Nat × Nat) :=
  match normalizeHex s with
  | .error e => .error e
  | .ok t =>
    let n := int16 (t.drop 1)
    .ok (n >>> 16, (n >>> 8) &&& 255, n &&& 255)

/-- `webcolors.name_to_rgb`, called in elsie/render/backends/cairo/utils.py:13. -/
def nameToRgb (lower : Str → Str) (table : Str → Option Str) (s : Str) : Except Err (Nat × Nat × Nat) :=
  match table (lower s) with
  | none => .error .value
  | some h => hexToRgb h

/-- elsie/render/backends/cairo/utils.py:21-22 `normalize_color`. -/
def normalizeColor (c : Nat × Nat × Nat) : Rat × Rat × Rat := ((c.1 : Rat) / 255, (c.2.1 : Rat) / 255, (c.2.2 : Rat) / 255)

/-- elsie/render/backends/cairo/utils.py:7-18 `get_rgb_color`. -/
def getRgb (lower : Str → Str) (table : Str → Option Str) : Color → Except Err (Rat × Rat × Rat)
  | .str s =>
    if s.head? = some '#' then
      match normalizeHex s with
      | .error e => .error e
      | .ok t =>
        match hexToRgb t with
        | .error e => .error e
        | .ok c => .ok (normalizeColor c)
    else
      match nameToRgb lower table s with
      | .error e => .error e
      | .ok c => .ok (normalizeColor c)
  | .tuple [some r, some g, some b] => .ok (r, g, b)
  | .tuple _ => .error .assertion

/-- `int(q)` for a number that is not negative. -/
def truncate (q : Rat) : Nat := q.floor.toNat

/-- elsie/render/backends/cairo/text.py:21-24 `to_pango_color`, in exact arithmetic. -/
def toPango (c : Rat × Rat × Rat) : Nat × Nat × Nat := (truncate (c.1 * 65535), truncate (c.2.1 * 65535), truncate (c.2.2 * 65535))

/-- elsie/render/backends/cairo/text.py:44-46: the colour of a text. -/
def textColor (lower : Str → Str) (table : Str → Option Str) (c : Color) : Except Err (Nat × Nat × Nat) :=
  match getRgb lower table c with
  | .error e => .error e
  | .ok q => .ok (toPango q)

end Verif.Colors
