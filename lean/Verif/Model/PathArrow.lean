import Verif.Model.CairoDraw

/-! # Model of path commands and of their end arrows

elsie/shapes/path.py. -/

namespace Verif.CairoDraw

/-- `COMMAND_NARGS`, elsie/shapes/path.py:3. Names of more than one letter are not there either. -/
def nargs : Char → Option Nat
  | 'M' => some 1
  | 'L' => some 1
  | 'C' => some 3
  | 'S' => some 2
  | 'Q' => some 2
  | 'T' => some 1
  | _ => none

/-- elsie/shapes/path.py:6-25 `check_and_unpack_path_commands` for tuples of a name and points. -/
def checkCommands : List (Char × List Pt) → Except Err (List (Char × List Pt))
  | [] => .ok []
  | (name, args) :: rest =>
    match nargs name with
    | none => .error (.user "Invalid command name")
    | some n =>
      if args.length % n ≠ 0 then .error (.user "Invalid number of arguments for command")
      else
        match checkCommands rest with
        | .error e => .error e
        | .ok r => .ok ((name, args) :: r)

/-- elsie/shapes/path.py:35-48 `path_points_for_end_arrow`. -/
def endArrowPoints (commands : List (Char × List Pt)) : Except Err (Pt × Pt) :=
  match commands.getLast? with
  | none => .error .index
  | some (name, pairs) =>
    if ¬ (name ∈ ['C', 'S', 'Q', 'T']) then .error (.user "Current version supports path when last command is 'C', 'S', 'Q' ot 'T'")
    else if pairs.length ≥ 2 then
      match pairs[pairs.length - 2]?, pairs[pairs.length - 1]? with
      | some a, some b => .ok (a, b)
      | _, _ => .error .index
    else if commands.length ≥ 2 then
      match commands[commands.length - 2]? with
      | none => .error .index
      | some (_, before) =>
        match before.getLast?, pairs.getLast? with
        | some a, some b => .ok (a, b)
        | _, _ => .error .index
    else .error (.user "Unsuported commands for end errow")

end Verif.CairoDraw
