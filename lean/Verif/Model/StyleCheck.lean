import Verif.Model.Style

/-! # Model of the checks of `TextStyle`

elsie/text/textstyle.py:4-227: the properties of a style with their checks, on Python values of any
type. `Verif.Model.Style` has the same styles with typed values. -/

namespace Verif.Style

/-- Python values, as far as the checks tell them apart. (`nan` and the infinities are left out.) -/
inductive PyVal where
  | none
  | bool (b : Bool)
  | int (n : Int)
  | float (q : Rat)
  | str (s : Str)
  /-- anything else: a list, a style, …; the number tells different values apart -/
  | other (k : Nat)
  deriving DecidableEq, Repr

/-- `isinstance(value, str)` -/
def PyVal.isStr : PyVal → Bool
  | .str _ => true
  | _ => false

/-- `isinstance(value, bool)` -/
def PyVal.isBool : PyVal → Bool
  | .bool _ => true
  | _ => false

/-- `isinstance(value, int)`: `bool` is a subclass of `int`. -/
def PyVal.isInt : PyVal → Bool
  | .int _ => true
  | .bool _ => true
  | _ => false

/-- `isinstance(value, float)` -/
def PyVal.isFloat : PyVal → Bool
  | .float _ => true
  | _ => false

/-- elsie/text/textstyle.py:4-11 `_check_string` -/
def checkString (v : PyVal) : Except Err PyVal :=
  if v ≠ .none ∧ !v.isStr then .error (.user "has to be a string or None") else .ok v

/-- elsie/text/textstyle.py:14-25 `_check_number` -/
def checkNumber (v : PyVal) : Except Err PyVal :=
  if v ≠ .none ∧ !v.isInt ∧ !v.isFloat then .error (.user "has to be a number or None") else .ok v

/-- elsie/text/textstyle.py:28-35 `_check_bool` -/
def checkBool (v : PyVal) : Except Err PyVal :=
  if v ≠ .none ∧ !v.isBool then .error (.user "has to be a bool or None") else .ok v

/-- elsie/text/textstyle.py:38-45 `_check_choice` -/
def checkChoice (v : PyVal) (choices : List PyVal) : Except Err PyVal :=
  if v ∉ choices then .error (.user "has to be one of") else .ok v

/-- elsie/text/textstyle.py:53 `ALIGN_VALUES` -/
def alignValues : List PyVal :=
  [.none, .str "left".toList, .str "middle".toList, .str "right".toList]

/-- elsie/text/textstyle.py:54-65 `VARIANT_NUMERIC_VALUES` -/
def variantNumericValues : List PyVal :=
  [.none, .str "normal".toList, .str "ordinal".toList, .str "slashed-zero".toList, .str "lining-nums".toList,
    .str "oldstyle-nums".toList, .str "proportinal-nums".toList, .str "tabular-nums".toList,
    .str "diagonal-fractions".toList, .str "stacked-fractions".toList]

/-- elsie/text/textstyle.py:67-78 `__slots__` -/
inductive Slot where
  | font | size | align | lineSpacing | color | bold | italic | variantNumeric | opacity | priority
  deriving DecidableEq, Repr

/-- The properties by name (elsie/text/textstyle.py:127-209). -/
def slotOf (name : Str) : Option Slot :=
  if name = "font".toList then some .font
  else if name = "size".toList then some .size
  else if name = "align".toList then some .align
  else if name = "line_spacing".toList then some .lineSpacing
  else if name = "color".toList then some .color
  else if name = "bold".toList then some .bold
  else if name = "italic".toList then some .italic
  else if name = "variant_numeric".toList then some .variantNumeric
  else if name = "opacity".toList then some .opacity
  else if name = "priority".toList then some .priority
  else none

/-- The order of the assignments of `__init__` (elsie/text/textstyle.py:116-125), also that of `__slots__`. -/
def slots : List Slot :=
  [.font, .size, .align, .lineSpacing, .color, .bold, .italic, .variantNumeric, .opacity, .priority]

/-- A style object: what the slots hold. -/
abbrev Raw := Slot → PyVal

/-- What the setter of a property does with the value before it is stored. elsie/text/textstyle.py:131-133,
139-141, 147-149, 155-157, 163-165, 171-173, 179-181, 187-191, 197-199, 205-209. -/
def checkSlot (s : Slot) (v : PyVal) : Except Err PyVal :=
  match s with
  | .font => checkString v
  | .size => checkNumber v
  | .align => checkChoice v alignValues
  | .lineSpacing => checkNumber v
  | .color => checkString v
  | .bold => checkBool v
  | .italic => checkBool v
  | .variantNumeric => checkChoice v variantNumericValues
  | .opacity => checkNumber v
  | .priority => if v = .none then .error (.user "Priority cannot be None") else checkNumber v

/-- A store into a slot. -/
def Raw.put (r : Raw) (s : Slot) (v : PyVal) : Raw := fun t => if t = s then v else r t

/-- An assignment to a property. -/
def Raw.assign (r : Raw) (s : Slot) (v : PyVal) : Except Err Raw :=
  match checkSlot s v with
  | .error e => .error e
  | .ok w => .ok (r.put s w)

/-- `style.name = value`. A class with `__slots__` takes no other attributes: AttributeError. (Names
that begin with `_`, i.e. the slots themselves, are not for users.) -/
def Raw.setAttr (r : Raw) (name : Str) (v : PyVal) : Except Err Raw :=
  match slotOf name with
  | none => .error .attribute
  | some s => r.assign s v

/-- `style.name` (elsie/text/textstyle.py:127-129, 135-137, 143-145, 151-153, 159-161, 167-169, 175-177,
183-185, 193-195, 201-203). -/
def Raw.getAttr (r : Raw) (name : Str) : Except Err PyVal :=
  match slotOf name with
  | none => .error .attribute
  | some s => .ok (r s)

/-- The defaults of the parameters (elsie/text/textstyle.py:80-93). -/
def slotDefault : Slot → PyVal
  | .priority => .int 0
  | _ => .none

/-- The value of a parameter. -/
def argOf (kw : List (Str × PyVal)) (s : Slot) : PyVal :=
  match kw.find? (fun p => slotOf p.1 = some s) with
  | some p => p.2
  | none => slotDefault s

/-- A keyword that is a parameter. -/
def isParam (p : Str × PyVal) : Bool := (slotOf p.1).isSome

/-- The assignments of `__init__`. -/
def assignAll (kw : List (Str × PyVal)) : List Slot → Raw → Except Err Raw
  | [], r => .ok r
  | s :: ss, r =>
    match r.assign s (argOf kw s) with
    | .error e => .error e
    | .ok r => assignAll kw ss r

/-- elsie/text/textstyle.py:80-125 `TextStyle(**kw)`. An unknown keyword is a TypeError; Python rules out
that a keyword is given twice. -/
def newRaw (kw : List (Str × PyVal)) : Except Err Raw :=
  if !kw.all isParam then .error .type else assignAll kw slots (fun _ => .none)

/-- elsie/text/textstyle.py:215-221 `update`, slot by slot: `setattr` on the slots, without the checks. -/
def updateSlots (style : Raw) : List Slot → Raw → Raw
  | [], r => r
  | s :: ss, r => updateSlots style ss (if style s ≠ .none then r.put s (style s) else r)

/-- elsie/text/textstyle.py:215-221 `update` -/
def Raw.update (r style : Raw) : Raw := updateSlots style slots r

/-- What a user can do with styles; styles are numbered in the order of their creation. -/
inductive StyleOp where
  | new (kw : List (Str × PyVal))
  | set (i : Nat) (name : Str) (v : PyVal)
  | update (i j : Nat)
  /-- elsie/text/textstyle.py:211-213 -/
  | copy (i : Nat)
  /-- elsie/text/textstyle.py:223-227 -/
  | compose (i j : Nat)

/-- One operation. -/
def StyleOp.exec (h : List Raw) : StyleOp → Except Err (List Raw)
  | .new kw =>
    match newRaw kw with
    | .error e => .error e
    | .ok r => .ok (h ++ [r])
  | .set i name v =>
    match h[i]? with
    | none => .error .index
    | some r =>
      match r.setAttr name v with
      | .error e => .error e
      | .ok r => .ok (h.set i r)
  | .update i j =>
    match h[i]?, h[j]? with
    | some r, some s => .ok (h.set i (r.update s))
    | _, _ => .error .index
  | .copy i =>
    match h[i]? with
    | some r => .ok (h ++ [r])
    | none => .error .index
  | .compose i j =>
    match h[i]?, h[j]? with
    | some r, some s => .ok (h ++ [r.update s])
    | _, _ => .error .index

/-- A session: after an exception the program goes on with the objects as they are. -/
def session : List Raw → List StyleOp → List Raw
  | h, [] => h
  | h, op :: ops =>
    match op.exec h with
    | .ok h => session h ops
    | .error _ => session h ops

end Verif.Style
