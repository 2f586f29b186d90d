import Verif.Model.Py
import Mathlib.Data.List.Sort

/-! # Model of elsie/slides/show.py -/

namespace Verif.Show

/-- elsie/slides/show.py:18-32 `ShowInfo` (fields `steps`, `open_step`, `_min_steps`). -/
structure ShowInfo where
  steps : List Int
  openStep : Option Int
  minSteps : Int
  deriving DecidableEq, Repr

/-- elsie/slides/show.py:83-84 `ShowInfo.max_step`, on the fields it reads. -/
def maxStepOf (steps : List Int) (openStep : Option Int) : Int :=
  max (steps.max?.getD 1)
    (match openStep with
      | none => 1
      | some o => if o = 0 then 1 else o)

/-- elsie/slides/show.py:83-84 `ShowInfo.max_step`. -/
def ShowInfo.maxStep (s : ShowInfo) : Int := maxStepOf s.steps s.openStep

/-- elsie/slides/show.py:21-32 `ShowInfo.__init__`. -/
def newInfo (steps : Option (List Int)) (openStep : Option Int) (minSteps : Option Int) : ShowInfo :=
  let openStep :=
    match steps with
    | none => (match openStep with | none => some 1 | some o => some o)
    | some _ => openStep
  let steps := steps.getD []
  { steps := steps
    openStep := openStep
    minSteps :=
      match minSteps with
      | some m => if m ≠ 0 then m else maxStepOf steps openStep
      | none => maxStepOf steps openStep }

/-- The `show` argument: `None`, an `int`, a `str`, or anything else. -/
inductive ShowArg where
  | none
  | int (n : Int)
  | str (s : Str)
  | other
  deriving DecidableEq, Repr

/-- `match.groupdict()` of `ShowInfo.parser`. -/
structure Groups where
  frm : Str
  opn : Bool
  fin : Option Str
  deriving DecidableEq, Repr

/-- The part `(?:(?P<open>\+)|-(?P<end>\d+))?$` of elsie/slides/show.py:19. (`$` would also accept a
final line break; the interval has been stripped, so there is none.) -/
def matchSuffix (frm rest : Str) : Option Groups :=
  match rest with
  | [] => some ⟨frm, false, none⟩
  | ['+'] => some ⟨frm, true, none⟩
  | '-' :: ds => if ds ≠ [] ∧ ds.all isDigit then some ⟨frm, false, some ds⟩ else none
  | _ => none

/-- elsie/slides/show.py:19 `ShowInfo.parser.match`. -/
def matchItem (s : Str) : Option Groups :=
  let ds := s.takeWhile isDigit
  if ds ≠ [] then matchSuffix ds (s.dropWhile isDigit)
  else if "next".toList.isPrefixOf s then matchSuffix "next".toList (s.drop 4)
  else if "last".toList.isPrefixOf s then matchSuffix "last".toList (s.drop 4)
  else none

/-- elsie/slides/show.py:4-15 `replace_relative_steps` followed by `int(m["from"])` (lines 67, 70);
`str` and `int` are inverse on integers. -/
def fromValue (cur : Option Int) (frm : Str) : Except Err Int :=
  if frm = "next".toList ∨ frm = "last".toList then
    match cur with
    | none => .error (.user "You have to pass the current maximum fragment if you use relative values")
    | some c => .ok (if frm = "next".toList then c + 1 else c)
  else .ok (intOfDigits frm)

/-- elsie/slides/show.py:54-75: the loop over the intervals; `steps` is the set built so far. -/
def parseLoop (cur : Option Int) : List Str → List Int → Option Int → Except Err (List Int × Option Int)
  | [], steps, openStep => .ok (steps, openStep)
  | interval :: rest, steps, openStep =>
    match matchItem interval with
    | none => .error (.user "Invalid format of 'show' string")
    | some m =>
      match fromValue cur m.frm with
      | .error e => .error e
      | .ok start =>
        if m.opn then
          match openStep with
          | some _ => .error (.user "Multiple open steps")
          | none => parseLoop cur rest steps (some start)
        else
          let fin : Int := match m.fin with | some ds => (intOfDigits ds : Int) | none => start
          if start ≤ fin then
            parseLoop cur rest (steps ++ pyRange start (fin + 1)) openStep
          else .error .assertion

/-- elsie/slides/show.py:41-76 `ShowInfo.parse`. (`intervals` is never empty: `"".split(",") == [""]`.) -/
def parse (obj : ShowArg) (cur : Option Int) : Except Err ShowInfo :=
  match obj with
  | .none => .ok (newInfo none none none)
  | .int n => .ok (newInfo (some [n]) none none)
  | .str s =>
    match parseLoop cur ((splitOn ',' s).map strip) [] none with
    | .error e => .error e
    | .ok (steps, openStep) =>
      .ok (newInfo (some ((steps.dedup).insertionSort (· ≤ ·))) openStep none)
  | .other => .error (.user "Invalid show argument")

/-- elsie/slides/show.py:80-81 `ShowInfo.min_steps`. -/
def ShowInfo.getMinSteps (s : ShowInfo) : Int := s.minSteps

/-- elsie/slides/show.py:86-88 `ShowInfo.ensure_steps`. -/
def ShowInfo.ensureSteps (s : ShowInfo) (steps : Int) : ShowInfo :=
  newInfo (some s.steps) s.openStep (some (max s.minSteps steps))

/-- elsie/slides/show.py:90-93 `ShowInfo.is_visible`. -/
def ShowInfo.isVisible (s : ShowInfo) (step : Int) : Bool :=
  s.steps.contains step || (match s.openStep with | some o => decide (o ≤ step) | none => false)

end Verif.Show
