import Verif.Model.Session

/-! # Specification: the slide does not remember that it was shown -/

namespace Verif.Session.Spec
open Verif.Scene (Call Draw)

/-- The calls on the boxes, without the times when the slide was shown. -/
def callsOf (ops : List Op) : List Op := ops.filter (fun o => match o with | .call _ => true | .prepare => false)

/-- The call makes a text with `scale_to_fit`. -/
def Fits : Op → Prop
  | .call (.draw _ (.text _ _ _ _ fit _)) => fit = true
  | _ => False

/-- Texts with `scale_to_fit` are made only after the slide was shown for the last time. -/
def LateFits (ops : List Op) : Prop := ∀ before after, ops = before ++ .prepare :: after → ∀ o ∈ before, ¬ Fits o

end Verif.Session.Spec
