import Verif.Proofs.CacheLive

/-! # Properties C70, C71, C72: `ensure` in several threads -/

namespace Verif.Cache
open Spec

variable {calls : Nat → Call} {files0 : List Str} {f : Str}

theorem runSteps_append (s : St) (a b : List (Nat × Bool)) :
    runSteps calls s (a ++ b) = (runSteps calls s a).bind fun s' => runSteps calls s' b := by
  induction a generalizing s with
  | nil => rfl
  | cons x a ih =>
    obtain ⟨c, ok⟩ := x
    simp only [List.cons_append, runSteps]
    cases step calls s c ok with
    | none => rfl
    | some s' => exact ih s'

theorem always_append {p : List Event → Event → Prop} {log : List Event} {e : Event} (h : Always p log) (he : p log e) : Always p (log ++ [e]) := by
  intro pre x post hx
  rcases List.eq_nil_or_concat post with rfl | ⟨post', y, rfl⟩
  · have := List.append_inj' hx rfl
    obtain ⟨rfl, h2⟩ := this
    injection h2 with h2
    exact h2 ▸ he
  · have hx' : log ++ [e] = (pre ++ x :: post') ++ [y] := by rw [hx]; simp
    obtain ⟨h1, _⟩ := List.append_inj' hx' rfl
    exact h pre x post' h1

theorem always_nil (p : List Event → Event → Prop) : Always p [] := by
  intro pre e post h
  simp at h

/-- What a step adds to what is observed. -/
theorem step_log {s s' : St} {c : Nat} {ok : Bool} (h : Inv0 calls files0 s) (hs : step calls s c ok = some s') :
    s'.log = s.log ∨ (∃ e, s'.log = s.log ++ [e] ∧ ∀ g d, e = .returned g d → d = c ∧ g = (calls c).file ∧ ((calls c).wait = true → g ∈ s.cacheFiles)) ∨
      s'.log = s.log ++ [.failed (calls c).file c] ++ [.raised (calls c).file c (.user "constructor")] := by
  have hl := h.late c
  unfold step at hs
  dsimp only at hs
  split at hs <;> rename_i hpc <;> rw [hpc] at hl <;> (try split at hs) <;> first
    | (cases hs; done)
    | (injection hs with hs
       subst hs
       dsimp only [St.goto, St.acquire, St.release, St.say]
       first
         | (left; rfl)
         | (right; right; rfl)
         | (right; left; refine ⟨_, rfl, ?_⟩; intro g d hgd; cases hgd; done)
         | (right; left; refine ⟨_, rfl, ?_⟩; intro g d hgd; cases hgd; exact ⟨rfl, rfl, fun _ => by assumption⟩)
         | (right; left; refine ⟨_, rfl, ?_⟩; intro g d hgd; cases hgd; exact ⟨rfl, rfl, fun _ => hl rfl⟩)
         | (right; left; refine ⟨_, rfl, ?_⟩; intro g d hgd; cases hgd; exact ⟨rfl, rfl, fun hw => absurd hw (by assumption)⟩))

/-- The end of a call is observed. -/
structure InvE (calls : Nat → Call) (s : St) : Prop where
  ret : ∀ c, s.pc c = .returned → Event.returned (calls c).file c ∈ s.log
  rai : ∀ c, s.pc c = .raised → ∃ e, Event.raised (calls c).file c e ∈ s.log
  fail : ∀ g c, Event.failed g c ∈ s.log → ∃ e, Event.raised g c e ∈ s.log
  sub : ∀ g c, Event.failed g c ∈ s.log → g = (calls c).file

theorem invE_opened (calls : Nat → Call) (files0 : List Str) : InvE calls (opened files0) := by
  constructor <;> simp [opened]

theorem invE_step {s s' : St} {c : Nat} {ok : Bool} (h : InvE calls s) (hs : step calls s c ok = some s') : InvE calls s' := by
  obtain ⟨h1, h2, h3, h4⟩ := h
  unfold step at hs
  dsimp only at hs
  split at hs <;> (try split at hs) <;> (try split at hs) <;> first
    | (cases hs; done)
    | (injection hs with hs
       subst hs
       constructor <;> simp only [St.goto, St.acquire, St.release, St.say, upd, wake] <;> grind)

theorem run_inv {I : St → Prop} (hstep : ∀ s c ok s', I s → step calls s c ok = some s' → I s') {s s' : St} {sched : List (Nat × Bool)}
    (h : I s) (hr : runSteps calls s sched = some s') : I s' := by
  induction sched generalizing s with
  | nil => cases hr; exact h
  | cons x sched ih =>
    obtain ⟨c, ok⟩ := x
    unfold runSteps at hr
    cases hs : step calls s c ok with
    | none => rw [hs] at hr; cases hr
    | some s1 =>
      rw [hs] at hr
      exact ih (hstep s c ok s1 h hs) hr

/-! ### C70 -/

/-- **C70**: in every schedule of any number of calls, for any calls and any initial contents of the directory: whenever a call that waits on
collisions returns, it returns the file it was asked for, and a constructor for that file has finished before or the file was
there when the cache was opened. -/
theorem C70_finished (calls : Nat → Call) (files0 : List Str) (sched : List (Nat × Bool)) (s : St)
    (h : runSteps calls (opened files0) sched = some s) (pre : List Event) (f : Str) (c : Nat) (post : List Event)
    (hlog : s.log = pre ++ .returned f c :: post) (hw : (calls c).wait = true) :
    f = (calls c).file ∧ (f ∈ files0 ∨ ∃ d, Event.finished f d ∈ pre) := by
  have key : Inv0 calls files0 s ∧ Always (fun pre e => ∀ f c, e = .returned f c → (calls c).wait = true →
      f = (calls c).file ∧ (f ∈ files0 ∨ ∃ d, Event.finished f d ∈ pre)) s.log := by
    refine run_inv (I := fun s => Inv0 calls files0 s ∧ Always _ s.log) ?_ ⟨inv0_opened calls files0, always_nil _⟩ h
    rintro s c ok s' ⟨h0, ha⟩ hs
    refine ⟨inv0_step h0 hs, ?_⟩
    rcases step_log h0 hs with h1 | ⟨e, h1, h2⟩ | h1
    · rw [h1]; exact ha
    · rw [h1]
      refine always_append ha ?_
      rintro f d rfl hw
      obtain ⟨rfl, rfl, h3⟩ := h2 f d rfl
      exact ⟨rfl, h0.known _ (h3 hw)⟩
    · rw [h1]
      refine always_append (always_append ha ?_) ?_ <;> (intro f d he; cases he)
  exact key.2 pre _ post hlog f c rfl hw

/-! ### C71 -/

/-- Two calls for one file. -/
def twins : Nat → Call := fun _ => { file := "cache.1.pdf".toList }

/-- Both calls look before one of them registers itself. -/
def racing : List (Nat × Bool) := [(0, true), (0, true), (0, true), (0, true), (1, true), (1, true), (1, true), (1, true), (0, true), (1, true), (0, true), (1, true)]

/-- **C71 is false of the code**: the constructor can run twice … -/
theorem C71_once_false : ¬ ∀ (calls : Nat → Call) (files0 : List Str) sched s, runSteps calls (opened files0) sched = some s → ∀ f, runs f s.log ≤ 1 := by
  intro h
  have hs : (runSteps twins (opened []) racing).map (·.log) = some [.began "cache.1.pdf".toList 0, .began "cache.1.pdf".toList 1] := by decide +kernel
  cases hr : runSteps twins (opened []) racing with
  | none => rw [hr] at hs; cases hs
  | some s =>
    rw [hr] at hs
    have hl : s.log = _ := Option.some.inj hs
    have := h twins [] racing s hr "cache.1.pdf".toList
    rw [hl] at this
    revert this
    decide +kernel

/-- … the second call then fails with a `KeyError`, although both constructors succeeded … -/
theorem C71_error_false : ¬ ∀ (calls : Nat → Call) (files0 : List Str) sched s, runSteps calls (opened files0) sched = some s →
    ∀ f c e, Event.raised f c e ∈ s.log → Event.failed f c ∈ s.log := by
  intro h
  have hs : (runSteps twins (opened []) (racing ++ [(0, true), (0, true), (0, true), (0, true), (0, true), (1, true), (1, true), (1, true), (1, true)])).map (·.log) =
      some [.began "cache.1.pdf".toList 0, .began "cache.1.pdf".toList 1, .finished "cache.1.pdf".toList 0, .returned "cache.1.pdf".toList 0,
        .finished "cache.1.pdf".toList 1, .raised "cache.1.pdf".toList 1 .key] := by decide +kernel
  cases hr : runSteps twins (opened []) (racing ++ [(0, true), (0, true), (0, true), (0, true), (0, true), (1, true), (1, true), (1, true), (1, true)]) with
  | none => rw [hr] at hs; cases hs
  | some s =>
    rw [hr] at hs
    have hl : s.log = _ := Option.some.inj hs
    have := h twins [] _ s hr "cache.1.pdf".toList 1 .key (by rw [hl]; simp)
    rw [hl] at this
    revert this
    decide +kernel

/-- … and the first one returns while the second constructor is writing the file. -/
theorem C71_overwritten_false : ¬ ∀ (calls : Nat → Call) (files0 : List Str) sched s, runSteps calls (opened files0) sched = some s →
    Always (fun pre e => ∀ f c, e = .returned f c → (calls c).wait = true → ¬ BeingWritten f pre) s.log := by
  intro h
  have hs : (runSteps twins (opened []) (racing ++ [(0, true), (0, true), (0, true), (0, true), (0, true)])).map (·.log) =
      some [.began "cache.1.pdf".toList 0, .began "cache.1.pdf".toList 1, .finished "cache.1.pdf".toList 0, .returned "cache.1.pdf".toList 0] := by decide +kernel
  cases hr : runSteps twins (opened []) (racing ++ [(0, true), (0, true), (0, true), (0, true), (0, true)]) with
  | none => rw [hr] at hs; cases hs
  | some s =>
    rw [hr] at hs
    have hl : s.log = _ := Option.some.inj hs
    refine h twins [] _ s hr [.began "cache.1.pdf".toList 0, .began "cache.1.pdf".toList 1, .finished "cache.1.pdf".toList 0] _ [] hl "cache.1.pdf".toList 0 rfl rfl ⟨1, ?_⟩
    decide +kernel

/-- All steps of a schedule are calm for a file. -/
def CalmRun (calls : Nat → Call) (f : Str) : St → List (Nat × Bool) → Prop
  | _, [] => True
  | s, (c, ok) :: rest => Calm calls f s c ∧ ∀ s', step calls s c ok = some s' → CalmRun calls f s' rest

theorem calm_inv {I : St → Prop} (hstep : ∀ s c ok s', I s → Calm calls f s c → step calls s c ok = some s' → I s') {s s' : St} {sched : List (Nat × Bool)}
    (h : I s) (hr : runSteps calls s sched = some s') (hc : CalmRun calls f s sched) : I s' := by
  induction sched generalizing s with
  | nil => cases hr; exact h
  | cons x sched ih =>
    obtain ⟨c, ok⟩ := x
    unfold runSteps at hr
    cases hs : step calls s c ok with
    | none => rw [hs] at hr; cases hr
    | some s1 =>
      rw [hs] at hr
      exact ih (hstep s c ok s1 h hc.1 hs) hr (hc.2 s1 hs)

theorem goes_schedule {s s' : St} (h : Goes calls f s s') : ∃ sched, (∀ x ∈ sched, x.2 = true) ∧ runSteps calls s sched = some s' := by
  induction h with
  | refl => exact ⟨[], by simp, rfl⟩
  | @step s1 s2 c _ _ hs ih =>
    obtain ⟨sched, h1, h2⟩ := ih
    refine ⟨sched ++ [(c, true)], ?_, ?_⟩
    · intro x hx
      rcases List.mem_append.mp hx with hx | hx
      · exact h1 x hx
      · simp at hx; rw [hx]
    · rw [runSteps_append, h2]
      simp only [Option.bind_some, runSteps, hs]

/-- **C71, the part that holds**: if in a schedule no call looks up the file between the moment another call for the same file has left the lock and its registration
in `in_progress`, then for that file: the constructor is started at most once, and not at all if the file was there; calls fail only if their own
constructor fails; a call (that waits on collisions) never returns while the file is being written; and as long as the constructor has not failed, every
call that has not ended can still return, if all constructors succeed. What happens with other files (failures, races) does not matter.
(Missing: the other schedules. The hypothesis would always hold if `in_progress` were set before the lock is released.) -/
theorem C71_once_partial (calls : Nat → Call) (files0 : List Str) (f : Str) (sched : List (Nat × Bool)) (s : St)
    (h : runSteps calls (opened files0) sched = some s) (hcalm : CalmRun calls f (opened files0) sched) :
    runs f s.log ≤ 1 ∧ (f ∈ files0 → runs f s.log = 0) ∧ (∀ c e, Event.raised f c e ∈ s.log → Event.failed f c ∈ s.log) ∧
      Always (fun pre e => ∀ c, e = .returned f c → (calls c).wait = true → ¬ BeingWritten f pre) s.log ∧
      ((∀ d, Event.failed f d ∉ s.log) → ∀ c, (calls c).file = f → Event.returned f c ∈ s.log ∨
        ∃ more s', (∀ x ∈ more, x.2 = true) ∧ runSteps calls s more = some s' ∧ Event.returned f c ∈ s'.log) := by
  have key : (Inv0 calls files0 s ∧ Inv1 calls files0 f s ∧ InvE calls s) ∧
      Always (fun pre e => ∀ c, e = .returned f c → (calls c).wait = true → ¬ BeingWritten f pre) s.log := by
    refine calm_inv (I := fun s => (Inv0 calls files0 s ∧ Inv1 calls files0 f s ∧ InvE calls s) ∧ Always _ s.log) ?_
      ⟨⟨inv0_opened calls files0, inv1_opened calls files0 f, invE_opened calls files0⟩, always_nil _⟩ h hcalm
    rintro s c ok s' ⟨⟨h0, h1, hE⟩, ha⟩ hc hs
    refine ⟨⟨inv0_step h0 hs, inv1_step h0 h1 hc hs, invE_step hE hs⟩, ?_⟩
    rcases step_log h0 hs with e1 | ⟨e, e1, e2⟩ | e1
    · rw [e1]; exact ha
    · rw [e1]
      refine always_append ha ?_
      rintro d rfl hw ⟨w, w1, w2, w3⟩
      obtain ⟨rfl, rfl, e3⟩ := e2 _ d rfl
      rcases h1.writing w w1 with h | h | h
      · exact w2 h
      · exact w3 h
      · exact h1.early w (h1.writes w w1) (by rw [h]; rfl) (e3 hw)
    · rw [e1]
      refine always_append (always_append ha ?_) ?_ <;> (intro d he; cases he)
  obtain ⟨⟨h0, h1, hE⟩, ha⟩ := key
  refine ⟨h1.once, fun hf => runs_zero (h1.none0 hf), h1.raised, ha, ?_⟩
  intro hok c hf
  by_cases hr : s.pc c = .returned
  · left; rw [← hf]; exact hE.ret c hr
  · by_cases hr' : s.pc c = .raised
    · obtain ⟨e, he⟩ := hE.rai c hr'
      rw [hf] at he
      exact absurd (h1.raised c e he) (hok c)
    · right
      obtain ⟨s', g, hret⟩ := can_return ⟨h0, h1, hok⟩ hf hr hr'
      obtain ⟨more, m1, m2⟩ := goes_schedule g
      exact ⟨more, s', m1, m2, hret⟩

/-- One call makes the file while the other one waits. -/
def polite : List (Nat × Bool) := [(0, true), (0, true), (0, true), (0, true), (0, true), (1, true), (1, true), (1, true), (1, true), (0, true), (0, true), (0, true), (0, true), (0, true),
  (0, true), (1, true), (1, true)]

/-- A check of calmness for the calls below a number. -/
def calmCheck (calls : Nat → Call) (f : Str) (n : Nat) : St → List (Nat × Bool) → Bool
  | _, [] => true
  | s, (c, ok) :: rest =>
    decide (c < n) && (decide (s.pc c ≠ .look) || (List.range n).all fun d => decide (s.pc d ≠ .gap)) &&
      (match step calls s c ok with | none => true | some s' => calmCheck calls f n s' rest)

theorem start_step {n : Nat} {s s' : St} {c : Nat} {ok : Bool} (hs : ∀ d, n ≤ d → s.pc d = .start) (hc : c < n) (hst : step calls s c ok = some s') :
    ∀ d, n ≤ d → s'.pc d = .start := by
  intro d hd
  have hdc : d ≠ c := by omega
  have := hs d hd
  unfold step at hst
  dsimp only at hst
  split at hst <;> (try split at hst) <;> first
    | (cases hst; done)
    | (injection hst with hst
       subst hst
       simp [St.goto, St.acquire, St.release, St.say, upd, wake, hdc, this])

theorem start_run {n : Nat} : ∀ {s s' : St} {sched : List (Nat × Bool)}, (∀ d, n ≤ d → s.pc d = .start) → (∀ x ∈ sched, x.1 < n) →
    runSteps calls s sched = some s' → ∀ d, n ≤ d → s'.pc d = .start
  | _, _, [], hs, _, h => by cases h; exact hs
  | s, s', (c, ok) :: rest, hs, hn, h => by
    unfold runSteps at h
    cases hst : step calls s c ok with
    | none => rw [hst] at h; cases h
    | some s1 =>
      rw [hst] at h
      exact start_run (start_step hs (hn (c, ok) (by simp)) hst) (fun x hx => hn x (List.mem_cons_of_mem _ hx)) h

theorem calm_of_check {n : Nat} : ∀ {s : St} {sched : List (Nat × Bool)}, (∀ d, n ≤ d → s.pc d = .start) → calmCheck calls f n s sched = true → CalmRun calls f s sched
  | _, [], _, _ => trivial
  | s, (c, ok) :: rest, hs, h => by
    simp only [calmCheck, Bool.and_eq_true, Bool.or_eq_true, decide_eq_true_eq, List.all_eq_true, List.mem_range] at h
    obtain ⟨⟨hc, h1⟩, h2⟩ := h
    refine ⟨?_, ?_⟩
    · intro hl _ d _
      rcases h1 with h1 | h1
      · exact absurd hl h1
      · by_cases hd : d < n
        · exact h1 d hd
        · rw [hs d (by omega)]; intro h; cases h
    · intro s' hst
      rw [hst] at h2
      exact calm_of_check (start_step hs hc hst) h2

theorem polite_calm : CalmRun twins "cache.1.pdf".toList (opened []) polite := calm_of_check (n := 2) (fun _ _ => rfl) (by decide +kernel)

example : (runSteps twins (opened []) polite).map (·.log) =
    some [.began "cache.1.pdf".toList 0, .finished "cache.1.pdf".toList 0, .returned "cache.1.pdf".toList 0, .returned "cache.1.pdf".toList 1] := by decide +kernel

/-! ### C72 -/

/-- The call can still end, one way or another. -/
def CanEnd (calls : Nat → Call) (s : St) (c : Nat) : Prop :=
  ∃ more s', runSteps calls s more = some s' ∧ Ended c (calls c).file s'.log

/-- The states after the failure of call 0. -/
structure Stuck (s : St) : Prop where
  prog : s.inProgress "cache.1.pdf".toList = some 0
  zero : s.pc 0 = .raised
  others : ∀ c, c ≠ 0 → s.pc c = .start ∨ s.pc c = .touch ∨ s.pc c = .look ∨ s.pc c = .collided 0 ∨ s.pc c = .waiting 0
  log : ∀ c, c ≠ 0 → ¬ Ended c "cache.1.pdf".toList s.log

theorem stuck_step {s s' : St} {c : Nat} {ok : Bool} (h : Stuck s) (hs : step twins s c ok = some s') : Stuck s' := by
  obtain ⟨h1, h2, h3, h4⟩ := h
  have hf : (twins c).file = "cache.1.pdf".toList := rfl
  have hw : (twins c).wait = true := rfl
  by_cases hc : c = 0
  · subst hc
    unfold step at hs
    rw [h2] at hs
    cases hs
  · unfold step at hs
    dsimp only at hs
    rw [hf] at hs
    rcases h3 c hc with hp | hp | hp | hp | hp <;> rw [hp] at hs <;> dsimp only at hs
    · split at hs
      · injection hs with hs
        subst hs
        exact ⟨h1, by simpa [St.goto, St.acquire, upd, Ne.symm hc] using h2, by
          intro d hd; simp only [St.goto, St.acquire, upd]; by_cases hdc : d = c <;> simp [hdc, h3 d hd], h4⟩
      · cases hs
    · injection hs with hs
      subst hs
      exact ⟨h1, by simpa [St.goto, upd, Ne.symm hc] using h2, by
          intro d hd; simp only [St.goto, upd]; by_cases hdc : d = c <;> simp [hdc, h3 d hd], h4⟩
    · rw [h1] at hs
      injection hs with hs
      subst hs
      exact ⟨h1, by simpa [St.goto, upd, Ne.symm hc] using h2, by
          intro d hd; simp only [St.goto, upd]; by_cases hdc : d = c <;> simp [hdc, h3 d hd], h4⟩
    · rw [if_pos hw] at hs
      injection hs with hs
      subst hs
      exact ⟨h1, by simpa [St.goto, St.release, upd, Ne.symm hc] using h2, by
          intro d hd; simp only [St.goto, St.release, upd]; by_cases hdc : d = c <;> simp [hdc, h3 d hd], h4⟩
    · cases hs

/-- The constructor of call 0 raises. -/
def failing : List (Nat × Bool) := [(0, true), (0, true), (0, true), (0, true), (0, true), (0, true), (0, false)]

/-- **C72 is false of the code**: after a failed construction every later call for the same file waits for ever. -/
theorem C72_retry_false : ¬ ∀ (calls : Nat → Call) (files0 : List Str) sched s, runSteps calls (opened files0) sched = some s →
    ∀ c d, Event.failed (calls c).file c ∈ s.log → (calls d).file = (calls c).file → CanEnd calls s d := by
  intro h
  have hs : (runSteps twins (opened []) failing).map (fun s => (s.log, s.inProgress "cache.1.pdf".toList, s.pc 0)) =
      some ([.began "cache.1.pdf".toList 0, .failed "cache.1.pdf".toList 0, .raised "cache.1.pdf".toList 0 (.user "constructor")], some 0, .raised) := by decide +kernel
  obtain ⟨s, hr, he⟩ := Option.map_eq_some_iff.mp hs
  have hlog := congrArg (fun x => x.1) he
  dsimp only at hlog
  have hm : Event.failed (twins 0).file 0 ∈ s.log := by rw [hlog]; decide +kernel
  obtain ⟨more, s', h1, h2⟩ := h twins [] failing s hr 0 1 hm rfl
  have hst : Stuck s := by
    constructor
    · exact congrArg (fun x => x.2.1) he
    · exact congrArg (fun x => x.2.2) he
    · intro c hc
      exact .inl (start_run (n := 1) (fun _ _ => rfl) (by decide) hr c (by omega))
    · intro c hc
      rw [hlog]
      simp [Ended, hc]
  have := (run_inv (I := Stuck) (fun _ _ _ _ => stuck_step) hst h1).log 1 (by decide)
  exact this h2

/-- **C72, the part that holds**: the exception of the constructor reaches the caller; and a failure does not concern other files: in a schedule that is calm for a
file (see C71) for which no constructor has failed, every call for that file can still return. (Missing: calls for the file whose
constructor has failed.) -/
theorem C72_retry_partial (calls : Nat → Call) (files0 : List Str) (sched : List (Nat × Bool)) (s : St)
    (h : runSteps calls (opened files0) sched = some s) :
    (∀ f c, Event.failed f c ∈ s.log → f = (calls c).file ∧ ∃ e, Event.raised f c e ∈ s.log) ∧
      (∀ f, CalmRun calls f (opened files0) sched → (∀ d, Event.failed f d ∉ s.log) → ∀ c, (calls c).file = f → CanEnd calls s c) := by
  refine ⟨?_, ?_⟩
  · have hE : InvE calls s := run_inv (I := InvE calls) (fun _ _ _ _ => invE_step) (invE_opened calls files0) h
    exact fun f c hf => ⟨hE.sub f c hf, hE.fail f c hf⟩
  · intro f hcalm hok c hf
    obtain ⟨_, _, _, _, h5⟩ := C71_once_partial calls files0 f sched s h hcalm
    rcases h5 hok c hf with h | ⟨more, s', _, m2, m3⟩
    · exact ⟨[], s, rfl, .inl (by rw [hf]; exact h)⟩
    · exact ⟨more, s', m2, .inl (by rw [hf]; exact m3)⟩

/-- Calls for two files: call 0 fails, the others are not concerned. -/
example : (runSteps (fun c => { file := if c = 0 then "a".toList else "b".toList }) (opened []) (failing ++ [(1, true), (1, true), (1, true), (1, true), (1, true), (1, true), (1, true),
    (1, true), (1, true), (1, true), (1, true)])).map (·.log) =
    some [.began "a".toList 0, .failed "a".toList 0, .raised "a".toList 0 (.user "constructor"), .began "b".toList 1, .finished "b".toList 1, .returned "b".toList 1] := by decide +kernel

end Verif.Cache
