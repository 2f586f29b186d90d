import Verif.Proofs.CacheThreads

/-! # Concurrent calls of `ensure` can end -/

namespace Verif.Cache
open Spec

variable {calls : Nat → Call} {files0 : List Str} {f : Str}

/-- A continuation without failures. -/
inductive Goes (calls : Nat → Call) (f : Str) : St → St → Prop where
  | refl (s : St) : Goes calls f s s
  | step {s s1 s2 : St} {c : Nat} : Goes calls f s s1 → Calm calls f s1 c → Cache.step calls s1 c true = some s2 → Goes calls f s s2

theorem Goes.trans {s s1 s2 : St} (h1 : Goes calls f s s1) (h2 : Goes calls f s1 s2) : Goes calls f s s2 := by
  induction h2 with
  | refl => exact h1
  | step _ hc hs ih => exact Goes.step ih hc hs

theorem Goes.one {s s' : St} {c : Nat} (hc : Calm calls f s c) (hs : Cache.step calls s c true = some s') : Goes calls f s s' :=
  Goes.step (Goes.refl s) hc hs

structure Good (calls : Nat → Call) (files0 : List Str) (f : Str) (s : St) : Prop where
  inv0 : Inv0 calls files0 s
  inv1 : Inv1 calls files0 f s
  ok : ∀ d, Event.failed f d ∉ s.log

theorem step_no_fail {s s' : St} {c : Nat} (hs : Cache.step calls s c true = some s') (h : ∀ d, Event.failed f d ∉ s.log) :
    ∀ d, Event.failed f d ∉ s'.log := by
  unfold step at hs
  dsimp only at hs
  split at hs <;> (try split at hs) <;> (try split at hs) <;> first
    | (cases hs; done)
    | (injection hs with hs
       subst hs
       simp only [St.goto, St.acquire, St.release, St.say] <;> grind)

theorem Good.step {s s' : St} {c : Nat} (h : Good calls files0 f s) (hc : Calm calls f s c) (hs : Cache.step calls s c true = some s') :
    Good calls files0 f s' :=
  ⟨inv0_step h.inv0 hs, inv1_step h.inv0 h.inv1 hc hs, step_no_fail hs h.ok⟩

theorem Good.goes {s s' : St} (h : Good calls files0 f s) (hg : Goes calls f s s') : Good calls files0 f s' := by
  induction hg with
  | refl => exact h
  | step _ hc hs ih => exact ih.step hc hs

/-- The program counters of the calls that neither hold the lock nor are in the gap are the same, apart from notifications. -/
def Frame (s s' : St) : Prop :=
  ∀ d, (s.pc d).holds = false → s.pc d ≠ .gap → (s'.pc d = s.pc d ∨ ((∃ o, s.pc d = .waiting o) ∧ s'.pc d = .notified))

def NoGap (calls : Nat → Call) (f : Str) (s : St) : Prop := ∀ d, (calls d).file = f → s.pc d ≠ .gap

/-- The call that is in the gap registers itself. -/
theorem clear_gap {s : St} (h : Good calls files0 f s) :
    ∃ s', Goes calls f s s' ∧ NoGap calls f s' ∧ s'.lock = s.lock ∧ ∀ d, s.pc d ≠ .gap → s'.pc d = s.pc d := by
  by_cases hg : NoGap calls f s
  · exact ⟨s, Goes.refl s, hg, rfl, fun _ _ => rfl⟩
  · unfold NoGap at hg
    simp only [Classical.not_forall, Decidable.not_not] at hg
    obtain ⟨c, hf, hc⟩ := hg
    have hcalm : Calm calls f s c := by intro h; rw [hc] at h; cases h
    have hs : step calls s c true = some ({ s with inProgress := upd s.inProgress (calls c).file (some c) }.goto c .construct) := by
      unfold step; rw [hc]
    refine ⟨_, Goes.one hcalm hs, ?_, rfl, ?_⟩
    · intro d hd hdg
      by_cases hdc : d = c
      · subst hdc
        simp [St.goto, upd] at hdg
      · have hdg' : s.pc d = .gap := by simpa [St.goto, upd, hdc] using hdg
        exact hdc (h.inv1.one d c hd hf (by rw [hdg']; rfl) (by rw [hc]; rfl))
    · intro d hd
      have : d ≠ c := by rintro rfl; exact hd hc
      simp [St.goto, upd, this]

/-- How long a call can hold the lock. -/
def Pc.left : Pc → Nat
  | .touch => 4
  | .look => 3
  | .add => 3
  | .collided _ => 2
  | .files => 2
  | .del => 2
  | .check => 1
  | .notify => 1
  | _ => 0

/-- The call that holds the lock can go on. -/
theorem hold_step {s : St} {h : Nat} (hg : Good calls files0 f s) (hn : NoGap calls f s) (hl : s.lock = some h) :
    ∃ s', Calm calls f s h ∧ step calls s h true = some s' ∧ (∀ d, d ≠ h → s'.pc d = s.pc d ∨ ((∃ o, s.pc d = .waiting o) ∧ s'.pc d = .notified)) ∧
      (s'.lock = none ∨ (s'.lock = some h ∧ (s'.pc h).left < (s.pc h).left ∧ s'.pc h ≠ .gap)) := by
  have hh := (hg.inv0.lock h).mpr hl
  have hcalm : Calm calls f s h := fun _ _ d hd => hn d hd
  refine (?_ : ∃ s', step calls s h true = some s' ∧ (∀ d, d ≠ h → s'.pc d = s.pc d ∨ ((∃ o, s.pc d = .waiting o) ∧ s'.pc d = .notified)) ∧
      (s'.lock = none ∨ (s'.lock = some h ∧ (s'.pc h).left < (s.pc h).left ∧ s'.pc h ≠ .gap))).imp fun s' h' => ⟨hcalm, h'⟩
  unfold step
  dsimp only
  split <;> rename_i hpc <;> rw [hpc] at hh <;> try (cases hh; done)
  · exact ⟨_, rfl, by intro d hd; left; simp [St.goto, upd, hd], by right; simp [St.goto, upd, hl, hpc, Pc.left]⟩
  · split
    · exact ⟨_, rfl, by intro d hd; left; simp [St.goto, upd, hd], by right; simp [St.goto, upd, hl, hpc, Pc.left]⟩
    · exact ⟨_, rfl, by intro d hd; left; simp [St.goto, upd, hd], by right; simp [St.goto, upd, hl, hpc, Pc.left]⟩
  · split
    · exact ⟨_, rfl, by intro d hd; left; simp [St.goto, St.release, upd, hd], by left; rfl⟩
    · exact ⟨_, rfl, by intro d hd; left; simp [St.goto, St.release, St.say, upd, hd], by left; rfl⟩
  · split
    · exact ⟨_, rfl, by intro d hd; left; simp [St.goto, St.release, St.say, upd, hd], by left; rfl⟩
    · exact ⟨_, rfl, by intro d hd; left; simp [St.goto, St.release, St.say, upd, hd], by left; rfl⟩
  · split
    · exact ⟨_, rfl, by intro d hd; left; simp [St.goto, St.release, St.say, upd, hd], by left; rfl⟩
    · exact ⟨_, rfl, by intro d hd; left; simp [St.goto, St.release, upd, hd], by left; rfl⟩
  · exact ⟨_, rfl, by intro d hd; left; simp [St.goto, upd, hd], by right; simp [St.goto, upd, hl, hpc, Pc.left]⟩
  · split
    · exact ⟨_, rfl, by intro d hd; left; simp [St.goto, St.release, St.say, upd, hd], by left; rfl⟩
    · exact ⟨_, rfl, by intro d hd; left; simp [St.goto, upd, hd], by right; simp [St.goto, upd, hl, hpc, Pc.left]⟩
  · refine ⟨_, rfl, ?_, by left; rfl⟩
    intro d hd
    by_cases hw : s.pc d = .waiting h
    · right; exact ⟨⟨h, hw⟩, by simp [St.goto, St.release, St.say, upd, hd, wake, hw]⟩
    · left; simp [St.goto, St.release, St.say, upd, hd, wake, hw]

/-- The lock can be released. -/
theorem free_lock {s : St} (hg : Good calls files0 f s) : ∃ s', Goes calls f s s' ∧ s'.lock = none ∧ NoGap calls f s' ∧ Frame s s' := by
  suffices key : ∀ n s, Good calls files0 f s → (∀ h, s.lock = some h → (s.pc h).left ≤ n) →
      ∃ s', Goes calls f s s' ∧ s'.lock = none ∧ NoGap calls f s' ∧ Frame s s' from key 4 s hg (by
    intro h _; cases s.pc h <;> simp [Pc.left])
  intro n
  induction n with
  | zero =>
    intro s hg hle
    obtain ⟨s1, g1, n1, l1, p1⟩ := clear_gap hg
    cases hl : s.lock with
    | none => exact ⟨s1, g1, by rw [l1, hl], n1, fun d _ hd => .inl (p1 d hd)⟩
    | some h =>
      have := hle h hl
      have hh := (hg.inv0.lock h).mpr hl
      cases hp : s.pc h <;> rw [hp] at this hh <;> simp [Pc.left, Pc.holds] at this hh
  | succ n ih =>
    intro s hg hle
    obtain ⟨s1, g1, n1, l1, p1⟩ := clear_gap hg
    cases hl : s.lock with
    | none => exact ⟨s1, g1, by rw [l1, hl], n1, fun d _ hd => .inl (p1 d hd)⟩
    | some h =>
      have hg1 := hg.goes g1
      have hh := (hg.inv0.lock h).mpr hl
      obtain ⟨s2, c2, e2, f2, o2⟩ := hold_step hg1 n1 (l1.trans hl)
      have hg2 := hg1.step c2 e2
      have hph : s1.pc h = s.pc h := p1 h (by intro hp; rw [hp] at hh; cases hh)
      obtain ⟨s3, g3, l3, n3, f3⟩ := ih s2 hg2 (by
        intro h' hl'
        rcases o2 with o2 | ⟨o2, o3, o4⟩
        · rw [o2] at hl'; cases hl'
        · rw [o2] at hl'
          cases hl'
          have := hle h hl
          rw [hph] at o3
          omega)
      refine ⟨s3, (g1.trans (Goes.one c2 e2)).trans g3, l3, n3, ?_⟩
      intro d hd hdg
      have hdh : d ≠ h := by rintro rfl; rw [hh] at hd; cases hd
      have e1 := p1 d hdg
      rcases f2 d hdh with e2' | ⟨⟨o, ho⟩, e2'⟩
      · rcases f3 d (by rw [e2', e1]; exact hd) (by rw [e2', e1]; exact hdg) with e3 | ⟨⟨o, ho⟩, e3⟩
        · left; rw [e3, e2', e1]
        · right; exact ⟨⟨o, by rw [← e1, ← e2']; exact ho⟩, e3⟩
      · right
        refine ⟨⟨o, by rw [← e1]; exact ho⟩, ?_⟩
        rcases f3 d (by rw [e2']; rfl) (by rw [e2']; exact fun h => absurd h (by decide)) with e3 | ⟨⟨o, ho⟩, e3⟩
        · rw [e3, e2']
        · rw [e2'] at ho; cases ho

/-- How far a call is from its end. -/
def Pc.rank : Pc → Nat
  | .start => 20
  | .touch => 19
  | .look => 18
  | .collided _ => 17
  | .files => 17
  | .waiting _ => 16
  | .gap => 16
  | .construct => 15
  | .building => 14
  | .built => 13
  | .add => 12
  | .del => 11
  | .notify => 10
  | .notified => 9
  | .check => 8
  | .returned => 0
  | .raised => 0

/-- A call that does not wait for another one can get closer to its end. -/
theorem closer {s : St} {c : Nat} (hg : Good calls files0 f s) (hf : (calls c).file = f) (hw : ∀ o, s.pc c ≠ .waiting o)
    (hr : s.pc c ≠ .returned) (hr' : s.pc c ≠ .raised) :
    ∃ s1 s', Goes calls f s s1 ∧ s1.pc c = s.pc c ∧ Calm calls f s1 c ∧ step calls s1 c true = some s' ∧ (s'.pc c).rank < (s.pc c).rank ∧ s'.pc c ≠ .raised ∧
      (s'.pc c = .returned → Event.returned f c ∈ s'.log) ∧ Frame s s1 := by
  have hpre : ∃ s1, Goes calls f s s1 ∧ s1.pc c = s.pc c ∧ Calm calls f s1 c ∧ ((s.pc c = .start ∨ s.pc c = .built ∨ s.pc c = .notified) → s1.lock = none) ∧ Frame s s1 := by
    by_cases hlk : s.pc c = .start ∨ s.pc c = .built ∨ s.pc c = .notified
    · obtain ⟨s1, g1, l1, n1, f1⟩ := free_lock hg
      refine ⟨s1, g1, ?_, fun _ _ d hd => n1 d hd, fun _ => l1, f1⟩
      rcases f1 c (by rcases hlk with h | h | h <;> rw [h] <;> rfl) (by rcases hlk with h | h | h <;> rw [h] <;> (intro h; cases h)) with h | ⟨⟨o, ho⟩, _⟩
      · exact h
      · exact absurd ho (hw o)
    · by_cases hgap : s.pc c = .gap
      · exact ⟨s, Goes.refl s, rfl, fun h => (by rw [hgap] at h; cases h), fun h => absurd h hlk, fun d _ _ => .inl rfl⟩
      · obtain ⟨s1, g1, n1, l1, p1⟩ := clear_gap hg
        exact ⟨s1, g1, p1 c hgap, fun _ _ d hd => n1 d hd, fun h => absurd h hlk, fun d _ hd => .inl (p1 d hd)⟩
  obtain ⟨s1, g1, e1, c1, l1, fr⟩ := hpre
  have hg1 := hg.goes g1
  suffices h : ∃ s', step calls s1 c true = some s' ∧ (s'.pc c).rank < (s1.pc c).rank ∧ s'.pc c ≠ .raised ∧ (s'.pc c = .returned → Event.returned f c ∈ s'.log) by
    obtain ⟨s', a1, a2, a3, a4⟩ := h
    exact ⟨s1, s', g1, e1, c1, a1, by rw [← e1]; exact a2, a3, a4, fr⟩
  rw [← e1] at l1 hw hr hr'
  have hlate := hg1.inv0.late c
  have hown := hg1.inv1.own c hf
  clear g1 e1 c1 fr hg
  unfold step
  dsimp only
  split <;> rename_i hpc <;> rw [hpc] at l1 hlate hown hw hr hr'
  · rw [if_pos (l1 (by simp))]
    exact ⟨_, rfl, by simp [St.goto, upd, hpc, Pc.rank], by simp [St.goto, upd], by simp [St.goto, upd]⟩
  · exact ⟨_, rfl, by simp [St.goto, upd, hpc, Pc.rank], by simp [St.goto, upd], by simp [St.goto, upd]⟩
  · split <;> exact ⟨_, rfl, by simp [St.goto, upd, hpc, Pc.rank], by simp [St.goto, upd], by simp [St.goto, upd]⟩
  · split
    · exact ⟨_, rfl, by simp [St.goto, upd, hpc, Pc.rank], by simp [St.goto, upd], by simp [St.goto, upd]⟩
    · exact ⟨_, rfl, by simp [St.goto, St.say, upd, hpc, Pc.rank], by simp [St.goto, St.say, upd], by simp [St.goto, St.say, upd, hf]⟩
  · exact absurd rfl (hw _)
  · rw [if_pos (l1 (by simp))]
    exact ⟨_, rfl, by simp [St.goto, upd, hpc, Pc.rank], by simp [St.goto, upd], by simp [St.goto, upd]⟩
  · rw [if_pos (hlate rfl)]
    exact ⟨_, rfl, by simp [St.goto, St.say, upd, hpc, Pc.rank], by simp [St.goto, St.say, upd], by simp [St.goto, St.say, upd, hf]⟩
  · split
    · exact ⟨_, rfl, by simp [St.goto, St.say, upd, hpc, Pc.rank], by simp [St.goto, St.say, upd], by simp [St.goto, St.say, upd, hf]⟩
    · exact ⟨_, rfl, by simp [St.goto, upd, hpc, Pc.rank], by simp [St.goto, upd], by simp [St.goto, upd]⟩
  · exact ⟨_, rfl, by simp [St.goto, upd, hpc, Pc.rank], by simp [St.goto, upd], by simp [St.goto, upd]⟩
  · exact ⟨_, rfl, by simp [St.goto, St.say, upd, hpc, Pc.rank], by simp [St.goto, St.say, upd], by simp [St.goto, St.say, upd]⟩
  · exact ⟨_, rfl, by simp [St.goto, St.say, upd, hpc, Pc.rank], by simp [St.goto, St.say, upd], by simp [St.goto, St.say, upd]⟩
  · rw [if_pos (l1 (by simp))]
    exact ⟨_, rfl, by simp [St.goto, upd, hpc, Pc.rank], by simp [St.goto, upd], by simp [St.goto, upd]⟩
  · exact ⟨_, rfl, by simp [St.goto, upd, hpc, Pc.rank], by simp [St.goto, upd], by simp [St.goto, upd]⟩
  · rw [hf, hown rfl]
    exact ⟨_, rfl, by simp [St.goto, upd, hpc, Pc.rank], by simp [St.goto, upd], by simp [St.goto, upd]⟩
  · exact ⟨_, rfl, by simp [St.goto, St.say, upd, hpc, Pc.rank], by simp [St.goto, St.say, upd], by simp [St.goto, St.say, upd, hf]⟩
  · exact absurd rfl hr
  · exact absurd rfl hr'

/-- A waiting call can be notified. -/
theorem waiter {s : St} {c o : Nat} (hg : Good calls files0 f s) (hf : (calls c).file = f) (hc : s.pc c = .waiting o) :
    ∃ s', Goes calls f s s' ∧ s'.pc c = .notified := by
  suffices key : ∀ n s, Good calls files0 f s → s.pc c = .waiting o → (s.pc o).rank ≤ n → ∃ s', Goes calls f s s' ∧ s'.pc c = .notified from key _ s hg hc (Nat.le_refl _)
  intro n
  induction n with
  | zero =>
    intro s hg hc hr
    rcases hg.inv1.wait c o hf hc with h | h
    · rcases hg.inv1.prog o h with h | ⟨_, h⟩
      · cases hp : s.pc o <;> rw [hp] at h hr <;> simp [Pc.own, Pc.rank] at h hr
      · exact absurd h (hg.ok o)
    · rw [h] at hr; simp [Pc.rank] at hr
  | succ n ih =>
    intro s hg hc hr
    have hof : (calls o).file = f := (hg.inv0.wait c o hc).trans hf
    have hpo : (s.pc o).own = true ∨ s.pc o = .notify := by
      rcases hg.inv1.wait c o hf hc with h | h
      · rcases hg.inv1.prog o h with h | ⟨_, h⟩
        · exact .inl h
        · exact absurd h (hg.ok o)
      · exact .inr h
    have hco : c ≠ o := by
      rintro rfl
      rw [hc] at hpo
      rcases hpo with h | h <;> cases h
    obtain ⟨s1, s2, g1, e1, c1, st, rk, _, _, fr⟩ := closer hg hof
      (by rcases hpo with h | h <;> (intro o' ho; rw [ho] at h; cases h))
      (by rcases hpo with h | h <;> (intro ho; rw [ho] at h; cases h))
      (by rcases hpo with h | h <;> (intro ho; rw [ho] at h; cases h))
    rcases fr c (by rw [hc]; rfl) (by rw [hc]; exact fun h => (by cases h)) with hc1 | ⟨_, hc1⟩
    · have hg1 := hg.goes g1
      have hg2 := hg1.step c1 st
      rw [hc] at hc1
      have hc2 : s2.pc c = .waiting o ∨ s2.pc c = .notified := by
        have hpo' := hpo
        rw [← e1] at hpo'
        unfold step at st
        dsimp only at st
        split at st <;> (try split at st) <;> (try split at st) <;> first
          | (cases st; done)
          | (injection st with st
             subst st
             simp [St.goto, St.acquire, St.release, St.say, upd, wake, hco, hc1])
      rcases hc2 with hc2 | hc2
      · obtain ⟨s3, g3, p3⟩ := ih s2 hg2 hc2 (by omega)
        exact ⟨s3, (g1.trans (Goes.one c1 st)).trans g3, p3⟩
      · exact ⟨s2, g1.trans (Goes.one c1 st), hc2⟩
    · exact ⟨s1, g1, hc1⟩

/-- Every call that has not ended can return. -/
theorem can_return {s : St} {c : Nat} (hg : Good calls files0 f s) (hf : (calls c).file = f) (hr : s.pc c ≠ .returned) (hr' : s.pc c ≠ .raised) :
    ∃ s', Goes calls f s s' ∧ Event.returned f c ∈ s'.log := by
  suffices key : ∀ n s, Good calls files0 f s → s.pc c ≠ .returned → s.pc c ≠ .raised → (s.pc c).rank ≤ n → ∃ s', Goes calls f s s' ∧ Event.returned f c ∈ s'.log from
    key _ s hg hr hr' (Nat.le_refl _)
  intro n
  induction n with
  | zero =>
    intro s _ hr hr' hle
    cases hp : s.pc c <;> rw [hp] at hle hr hr' <;> simp [Pc.rank] at hle hr hr'
  | succ n ih =>
    intro s hg hr hr' hle
    by_cases hw : ∃ o, s.pc c = .waiting o
    · obtain ⟨o, hw⟩ := hw
      obtain ⟨s1, g1, p1⟩ := waiter hg hf hw
      obtain ⟨s2, g2, p2⟩ := ih s1 (hg.goes g1) (by rw [p1]; exact fun h => (by cases h)) (by rw [p1]; exact fun h => (by cases h)) (by
        rw [hw] at hle; rw [p1]; simp [Pc.rank] at hle ⊢; omega)
      exact ⟨s2, g1.trans g2, p2⟩
    · obtain ⟨s1, s2, g1, e1, c1, st, rk, nr, ret, _⟩ := closer hg hf (fun o ho => hw ⟨o, ho⟩) hr hr'
      by_cases h2 : s2.pc c = .returned
      · exact ⟨s2, g1.trans (Goes.one c1 st), ret h2⟩
      · obtain ⟨s3, g3, p3⟩ := ih s2 ((hg.goes g1).step c1 st) h2 nr (by omega)
        exact ⟨s3, (g1.trans (Goes.one c1 st)).trans g3, p3⟩

end Verif.Cache
