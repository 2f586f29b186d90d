import Verif.Model.CacheThreads

/-! # What is expected of `ensure` in several threads, in terms of what can be observed -/

namespace Verif.Cache.Spec

/-- The event is the start of a constructor for a file. -/
def isBegan (f : Str) : Event → Bool
  | .began g _ => g == f
  | _ => false

/-- How many times a constructor was started for a file. -/
def runs (f : Str) (log : List Event) : Nat := (log.filter (isBegan f)).length

/-- A constructor is writing the file. -/
def BeingWritten (f : Str) (log : List Event) : Prop :=
  ∃ d, Event.began f d ∈ log ∧ Event.finished f d ∉ log ∧ Event.failed f d ∉ log

/-- Something that holds when something happens: `p before e` for every event and what was observed before it. -/
def Always (p : List Event → Event → Prop) (log : List Event) : Prop := ∀ pre e post, log = pre ++ e :: post → p pre e

/-- No call will ever end. -/
def Ended (c : Nat) (f : Str) (log : List Event) : Prop := Event.returned f c ∈ log ∨ ∃ e, Event.raised f c e ∈ log

end Verif.Cache.Spec
