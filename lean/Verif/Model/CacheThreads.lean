import Verif.Model.Py

/-! # Model of `FsCache.ensure` called from several threads

elsie/utils/cache.py:39-60. Every call of `ensure` is a small program with a program counter; a step of a call is one access to
something shared (the lock, `touched_files`, `cache_files`, `in_progress`, a file), steps of different calls can be interleaved in any
way. A thread that makes several calls one after the other is a special case of several calls. The constructor is a black box
that begins to write the file and then either finishes or raises. A condition (`threading.Condition`) is identified by the call that
created it; there are no spurious wake-ups in Python's implementation (every waiter blocks on a lock of its own). Exceptions that
arise asynchronously (KeyboardInterrupt) are not modelled. -/

namespace Verif.Cache

/-- The arguments of a call: `cache_file` (elsie/utils/cache.py:40) and `wait_on_collision`. -/
structure Call where
  file : Str
  wait : Bool := true
  deriving DecidableEq, Repr

/-- Where a call is; line numbers of elsie/utils/cache.py. -/
inductive Pc where
  /-- 42, waiting for the lock -/
  | start
  /-- 43 -/
  | touch
  /-- 44 -/
  | look
  /-- 45-46, a condition was found -/
  | collided (owner : Nat)
  /-- 47, in `wait`, lock released -/
  | waiting (owner : Nat)
  /-- 47, notified, waiting for the lock -/
  | notified
  /-- 48 -/
  | check
  /-- 50 -/
  | files
  /-- 53-54, lock released -/
  | gap
  /-- 55, about to run the constructor -/
  | construct
  /-- 55, constructor running -/
  | building
  /-- 56, waiting for the lock -/
  | built
  /-- 57 -/
  | add
  /-- 58 -/
  | del
  /-- 59 -/
  | notify
  | returned
  | raised
  deriving DecidableEq, Repr

/-- What can be observed from outside. -/
inductive Event where
  | began (f : Str) (c : Nat)
  | finished (f : Str) (c : Nat)
  | failed (f : Str) (c : Nat)
  | returned (f : Str) (c : Nat)
  | raised (f : Str) (c : Nat) (e : Err)
  deriving DecidableEq, Repr

/-- The shared state (fields of `FsCache`, elsie/utils/cache.py:8-21), the program counters and what was observed so far. -/
structure St where
  lock : Option Nat := none
  touched : List Str := []
  cacheFiles : List Str := []
  inProgress : Str → Option Nat := fun _ => none
  pc : Nat → Pc := fun _ => .start
  log : List Event := []

def upd {α β : Type} [DecidableEq α] (m : α → β) (k : α) (v : β) : α → β := fun x => if x = k then v else m x

/-- `condition.notify_all()`. -/
def wake (pc : Nat → Pc) (c : Nat) : Nat → Pc := fun d => if pc d = .waiting c then .notified else pc d

def St.goto (s : St) (c : Nat) (p : Pc) : St := { s with pc := upd s.pc c p }

def St.acquire (s : St) (c : Nat) : St := { s with lock := some c }

def St.release (s : St) : St := { s with lock := none }

def St.say (s : St) (e : Event) : St := { s with log := s.log ++ [e] }

/-- One step of call `c`; `ok` is whether a running constructor succeeds. `none`: the call is finished or has to wait. -/
def step (calls : Nat → Call) (s : St) (c : Nat) (ok : Bool) : Option St :=
  let f := (calls c).file
  match s.pc c with
  | .start => if s.lock = none then some ((s.acquire c).goto c .touch) else none
  | .touch => some ({ s with touched := f :: s.touched }.goto c .look)
  | .look =>
    match s.inProgress f with
    | some o => some (s.goto c (.collided o))
    | none => some (s.goto c .files)
  | .collided o =>
    if (calls c).wait then some (s.release.goto c (.waiting o))
    else some ((s.release.goto c .returned).say (.returned f c))
  | .waiting _ => none
  | .notified => if s.lock = none then some ((s.acquire c).goto c .check) else none
  | .check =>
    if f ∈ s.cacheFiles then some ((s.release.goto c .returned).say (.returned f c))
    else some ((s.release.goto c .raised).say (.raised f c .assertion))
  | .files =>
    if f ∈ s.cacheFiles then some ((s.release.goto c .returned).say (.returned f c))
    else some (s.release.goto c .gap)
  | .gap => some ({ s with inProgress := upd s.inProgress f (some c) }.goto c .construct)
  | .construct => some ((s.goto c .building).say (.began f c))
  | .building =>
    if ok then some ((s.goto c .built).say (.finished f c))
    else some (((s.goto c .raised).say (.failed f c)).say (.raised f c (.user "constructor")))
  | .built => if s.lock = none then some ((s.acquire c).goto c .add) else none
  | .add => some ({ s with cacheFiles := f :: s.cacheFiles }.goto c .del)
  | .del =>
    match s.inProgress f with
    | none => some ((s.release.goto c .raised).say (.raised f c .key))
    | some _ => some ({ s with inProgress := upd s.inProgress f none }.goto c .notify)
  | .notify => some (({ s with pc := wake s.pc c }.release.goto c .returned).say (.returned f c))
  | .returned => none
  | .raised => none

/-- elsie/utils/cache.py:8-21 `FsCache.__init__`, with the names found in the directory. -/
def opened (files0 : List Str) : St := { cacheFiles := files0 }

/-- A schedule is a list of steps. -/
def runSteps (calls : Nat → Call) (s : St) : List (Nat × Bool) → Option St
  | [] => some s
  | (c, ok) :: rest =>
    match step calls s c ok with
    | none => none
    | some s' => runSteps calls s' rest

end Verif.Cache
