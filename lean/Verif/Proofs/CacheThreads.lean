import Verif.Spec.CacheThreads

/-! # Invariants of concurrent calls of `ensure` -/

namespace Verif.Cache
open Spec

/-- The call holds the lock. -/
def Pc.holds : Pc → Bool
  | .touch | .look | .collided _ | .check | .files | .add | .del | .notify => true
  | _ => false

/-- The call found nothing and is on its way to make the file. -/
def Pc.active : Pc → Bool
  | .gap | .construct | .building | .built | .add | .del | .notify => true
  | _ => false

/-- Its condition is registered. -/
def Pc.own : Pc → Bool
  | .construct | .building | .built | .add | .del => true
  | _ => false

/-- The file is not known yet. -/
def Pc.early : Pc → Bool
  | .gap | .construct | .building | .built | .add => true
  | _ => false

/-- The file is known. -/
def Pc.late : Pc → Bool
  | .notified | .check | .del | .notify => true
  | _ => false

/-- The constructor has finished. -/
def Pc.done : Pc → Bool
  | .built | .add | .del | .notify => true
  | _ => false

/-- What holds for every schedule. -/
structure Inv0 (calls : Nat → Call) (files0 : List Str) (s : St) : Prop where
  lock : ∀ c, (s.pc c).holds = true ↔ s.lock = some c
  prog : ∀ f o, s.inProgress f = some o → (calls o).file = f
  coll : ∀ c o, s.pc c = .collided o → (calls o).file = (calls c).file
  wait : ∀ c o, s.pc c = .waiting o → (calls o).file = (calls c).file
  late : ∀ c, (s.pc c).late = true → (calls c).file ∈ s.cacheFiles
  done : ∀ c, (s.pc c).done = true → Event.finished (calls c).file c ∈ s.log
  known : ∀ f ∈ s.cacheFiles, f ∈ files0 ∨ ∃ d, Event.finished f d ∈ s.log
  initial : ∀ f ∈ files0, f ∈ s.cacheFiles

theorem inv0_opened (calls : Nat → Call) (files0 : List Str) : Inv0 calls files0 (opened files0) := by
  constructor <;> simp_all [opened, Pc.holds, Pc.late, Pc.done]

theorem inv0_step {calls : Nat → Call} {files0 : List Str} {s s' : St} {c : Nat} {ok : Bool} (h : Inv0 calls files0 s)
    (hs : step calls s c ok = some s') : Inv0 calls files0 s' := by
  obtain ⟨h1, h2, h3, h4, h5, h6, h7, h8⟩ := h
  have hh := h1 c
  have hl := h5 c
  have hd := h6 c
  unfold step at hs
  dsimp only at hs
  split at hs <;> (try split at hs) <;> (try split at hs) <;> first
    | (cases hs; done)
    | (injection hs with hs
       subst hs
       rename_i hpc _
       constructor <;> simp only [St.goto, St.acquire, St.release, St.say, upd, wake] <;> grind [Pc.holds, Pc.late, Pc.done])
    | (injection hs with hs
       subst hs
       rename_i hpc
       constructor <;> simp only [St.goto, St.acquire, St.release, St.say, upd, wake] <;> grind [Pc.holds, Pc.late, Pc.done])

/-- A step does not look up `in_progress` for a file while another call, which has decided to make the same file, has not registered
itself yet. -/
def Calm (calls : Nat → Call) (f : Str) (s : St) (c : Nat) : Prop :=
  s.pc c = .look → (calls c).file = f → ∀ d, (calls d).file = f → s.pc d ≠ .gap

/-- What holds for a file if all steps are calm. -/
structure Inv1 (calls : Nat → Call) (files0 : List Str) (f : Str) (s : St) : Prop where
  one : ∀ c d, (calls c).file = f → (calls d).file = f → (s.pc c).active = true → (s.pc d).active = true → c = d
  own : ∀ c, (calls c).file = f → (s.pc c).own = true → s.inProgress f = some c
  gap : ∀ c, (calls c).file = f → s.pc c = .gap → s.inProgress f = none
  early : ∀ c, (calls c).file = f → (s.pc c).early = true → f ∉ s.cacheFiles
  prog : ∀ o, s.inProgress f = some o → (s.pc o).own = true ∨ (s.pc o = .raised ∧ Event.failed f o ∈ s.log)
  files : ∀ c, (calls c).file = f → s.pc c = .files → s.inProgress f = none ∧ ∀ d, (calls d).file = f → (s.pc d).active = false
  coll : ∀ c o, (calls c).file = f → s.pc c = .collided o → s.inProgress f = some o
  wait : ∀ c o, (calls c).file = f → s.pc c = .waiting o → s.inProgress f = some o ∨ s.pc o = .notify
  began : ∀ d, Event.began f d ∈ s.log → f ∈ s.cacheFiles ∨ (s.inProgress f = some d ∧ s.pc d ≠ .construct)
  writing : ∀ d, Event.began f d ∈ s.log → Event.finished f d ∈ s.log ∨ Event.failed f d ∈ s.log ∨ s.pc d = .building
  writes : ∀ d, Event.began f d ∈ s.log → (calls d).file = f
  failed : ∀ d, Event.failed f d ∈ s.log → f ∉ s.cacheFiles ∧ s.inProgress f = some d ∧ s.pc d = .raised
  raised : ∀ d e, Event.raised f d e ∈ s.log → Event.failed f d ∈ s.log
  once : runs f s.log ≤ 1
  none0 : f ∈ files0 → ∀ d, Event.began f d ∉ s.log

theorem runs_append (f : Str) (a b : List Event) : runs f (a ++ b) = runs f a + runs f b := by simp [runs]

theorem runs_other {f : Str} {e : Event} (h : isBegan f e = false) : runs f [e] = 0 := by simp [runs, h]

theorem runs_zero {f : Str} {log : List Event} (h : ∀ d, Event.began f d ∉ log) : runs f log = 0 := by
  unfold runs
  rw [List.length_eq_zero_iff, List.filter_eq_nil_iff]
  intro e he hb
  cases e <;> simp_all [isBegan]

theorem runs_began (f g : Str) (d : Nat) : runs f [.began g d] = if g = f then 1 else 0 := by
  unfold runs isBegan
  by_cases h : g = f <;> simp [h]

theorem runs_finished (f g : Str) (d : Nat) : runs f [.finished g d] = 0 := rfl
theorem runs_failed (f g : Str) (d : Nat) : runs f [.failed g d] = 0 := rfl
theorem runs_returned (f g : Str) (d : Nat) : runs f [.returned g d] = 0 := rfl
theorem runs_raised (f g : Str) (d : Nat) (e : Err) : runs f [.raised g d e] = 0 := rfl

theorem inv1_opened (calls : Nat → Call) (files0 : List Str) (f : Str) : Inv1 calls files0 f (opened files0) := by
  constructor <;> simp_all [opened, Pc.active, Pc.own, Pc.early, runs]

theorem active_cases (p : Pc) : p.active = true ↔ p = .gap ∨ p.own = true ∨ p = .notify := by
  cases p <;> simp [Pc.active, Pc.own]

theorem early_active (p : Pc) (h : p.early = true) : p.active = true := by
  cases p <;> simp_all [Pc.active, Pc.early]

set_option linter.unusedSimpArgs false in
set_option maxHeartbeats 4000000 in
theorem inv1_step {calls : Nat → Call} {files0 : List Str} {f : Str} {s s' : St} {c : Nat} {ok : Bool} (h0 : Inv0 calls files0 s)
    (h : Inv1 calls files0 f s) (hcalm : Calm calls f s c) (hs : step calls s c ok = some s') : Inv1 calls files0 f s' := by
  obtain ⟨i1, i2, i3, i4, i5, i6, i7, i8⟩ := h0
  obtain ⟨h1, h2, h3, h4, h5, h6, h7, h8, h9, h10, h11, h12, h13, h14, h15⟩ := h
  have hz : (∀ d, Event.began f d ∉ s.log) → runs f s.log = 0 := runs_zero
  unfold Calm at hcalm
  unfold step at hs
  dsimp only at hs
  split at hs <;> (try split at hs) <;> (try split at hs) <;> first
    | (cases hs; done)
    | (injection hs with hs
       subst hs
       constructor <;> simp only [St.goto, St.acquire, St.release, St.say, upd, wake, runs_append, runs_began, runs_finished, runs_failed, runs_returned, runs_raised] <;>
         grind [Pc.holds, Pc.late, Pc.done, Pc.active, Pc.own, Pc.early, active_cases, early_active])

end Verif.Cache
