import Verif.Model.Image
import Verif.Spec.Show

/-! # Specification: fragments of images -/

namespace Verif.Image.Spec
open Verif.Show Verif.Show.Spec

/-- The show string of a label: what is between the first `**` and the next `**` or the end. -/
inductive LabelShow : Str → Str → Prop where
  | toEnd (a s : Str) : ¬ "**".toList <:+: a ++ ['*'] → ¬ "**".toList <:+: s → LabelShow (a ++ "**".toList ++ s) s
  | closed (a s b : Str) : ¬ "**".toList <:+: a ++ ['*'] → ¬ "**".toList <:+: s ++ ['*'] →
      LabelShow (a ++ "**".toList ++ s ++ "**".toList ++ b) s

/-- The label says that the element is not visible in fragment `f`. -/
def HiddenIn (f : Int) (label : Option Str) : Prop :=
  ∃ l s is, label = some l ∧ LabelShow l s ∧ Writes isSpace s is ∧ Legal none is ∧ ∀ i ∈ is, ¬ i.Selects none f

/-- The label is a correct one (or none): if there is a show string, it is a legal selector. -/
def GoodLabel (label : Option Str) : Prop :=
  ∀ l s, label = some l → LabelShow l s → ∃ is, Writes isSpace s is ∧ Legal none is

/-- The content of an element as the DOM sees it: characters and elements. (Identities do not matter.) -/
inductive Dom where
  | nil
  | chr (c : Char) (rest : Dom)
  | elem (tag : Str) (label : Option Str) (kids rest : Dom)
  deriving DecidableEq, Repr

def chars (s : Str) (d : Dom) : Dom := s.foldr Dom.chr d

/-- The content of an lxml element, given the text before the first element. -/
def dom (text : Str) : Forest → Dom
  | .nil => chars text .nil
  | .node e kids rest => chars text (.elem e.tag e.label (dom e.text kids) (dom e.tail rest))

/-- A document as the DOM sees it. -/
def Root.dom (r : Root) : Str × Option Str × Dom := (r.e.tag, r.e.label, Spec.dom r.e.text r.kids)

/-- Removing the elements whose label is hidden, with everything inside; nothing else. -/
def Dom.prune (hid : Option Str → Bool) : Dom → Dom
  | .nil => .nil
  | .chr c rest => .chr c (rest.prune hid)
  | .elem t l k rest => if hid l then rest.prune hid else .elem t l (k.prune hid) (rest.prune hid)

/-- The elements (without those inside hidden ones) whose label is hidden have no tail. -/
def TailFree (hid : Option Str → Bool) : Forest → Prop
  | .nil => True
  | .node e kids rest =>
    if hid e.label then e.tail = [] ∧ TailFree hid rest else TailFree hid kids ∧ TailFree hid rest

/-- What lxml leaves: hidden elements are removed together with the text after them. -/
def pruneTails (hid : Option Str → Bool) : Forest → Forest
  | .nil => .nil
  | .node e kids rest =>
    if hid e.label then pruneTails hid rest else .node e (pruneTails hid kids) (pruneTails hid rest)

/-- All labels below the root that are looked at (not inside hidden elements) are correct. -/
def GoodLabels (hid : Option Str → Bool) : Forest → Prop
  | .nil => True
  | .node e kids rest => GoodLabel e.label ∧ (hid e.label = false → GoodLabels hid kids) ∧ GoodLabels hid rest

end Verif.Image.Spec
