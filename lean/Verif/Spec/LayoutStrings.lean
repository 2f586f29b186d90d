import Verif.Spec.Show
import Verif.Model.Layout

/-! # Specification of size and position strings -/

namespace Verif.Layout.Spec
open Verif.Show.Spec (Numeral numeralValue)

/-- The documented size strings and what they denote. -/
inductive SizeText : Str → Size → Prop
  | number {ds : Str} : Numeral ds → SizeText ds { minSize := (numeralValue ds : Rat) }
  | percent {ds : Str} : Numeral ds → SizeText (ds ++ ['%']) { ratio := some ((numeralValue ds : Rat) / 100) }
  | fill : SizeText ['f', 'i', 'l', 'l'] { fill := 1 }
  | fillN {ds : Str} : Numeral ds → SizeText (['f', 'i', 'l', 'l', '('] ++ ds ++ [')']) { fill := numeralValue ds }

/-- The documented position strings and what they denote. -/
inductive PosText : Str → Pos → Prop
  | number {ds : Str} : Numeral ds → PosText ds (.fix (numeralValue ds : Rat))
  | percent {ds : Str} : Numeral ds → PosText (ds ++ ['%']) (.ratio ((numeralValue ds : Rat) / 100))
  | align {ds : Str} : Numeral ds → PosText (['['] ++ ds ++ ['%', ']']) (.align ((numeralValue ds : Rat) / 100))

end Verif.Layout.Spec
