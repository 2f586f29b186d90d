import Verif.Model.Cache
import Mathlib.Logic.Equiv.List
import Mathlib.Data.Countable.Basic

/-! # Properties C75 and C76: the query cache -/

namespace Verif.Cache

variable {V : Type}

/-! ### The specification: reading a history -/

/-- The versions of the last process that was started. -/
def versions (ops : List QOp) : Option (Str × Str) := ops.foldl (fun acc op => match op with | .start e i => some (e, i) | _ => acc) none

/-- The queries since the last start or pruning render. -/
def recent (ops : List QOp) : List Query :=
  ops.foldl (fun acc op => match op with | .start _ _ => [] | .query k => k :: acc | .render true _ => [] | .render false _ => acc) []

theorem versions_snoc (ops : List QOp) (op : QOp) :
    versions (ops ++ [op]) = match op with | .start e i => some (e, i) | _ => versions ops := by
  rw [versions, List.foldl_append]
  cases op <;> rfl

theorem recent_snoc (ops : List QOp) (op : QOp) :
    recent (ops ++ [op]) = match op with | .start _ _ => [] | .query k => k :: recent ops | .render true _ => [] | .render false _ => recent ops := by
  rw [recent, List.foldl_append]
  cases op with
  | start => rfl
  | query => rfl
  | render p s => cases p <;> rfl

theorem qRun_snoc (measure : Str → Str → Query → Except Err V) : ∀ (ops : List QOp) (s : QSt V) (op : QOp),
    qRun measure s (ops ++ [op]) = (qStep measure (qRun measure s ops) op).2
  | [], _, _ => rfl
  | o :: ops, s, op => qRun_snoc measure ops (qStep measure s o).2 op

theorem lookup_mem {d : List (Query × V)} {k : Query} {v : V} (h : lookup d k = some v) : (k, v) ∈ d := by
  unfold lookup at h
  cases hf : d.find? fun e => e.1 == k with
  | none => rw [hf] at h; cases h
  | some e =>
    rw [hf] at h
    have h1 := List.mem_of_find?_eq_some hf
    have h2 := List.find?_some hf
    simp at h h2
    rw [← h, ← h2]
    exact h1

theorem lookup_none {d : List (Query × V)} {k : Query} (h : lookup d k = none) : ∀ v, (k, v) ∉ d := by
  intro v hv
  unfold lookup at h
  rw [Option.map_eq_none_iff, List.find?_eq_none] at h
  simpa using h _ hv

/-- Everything known is what the running versions measure, and the file is right for the versions in it. -/
structure QInv (measure : Str → Str → Query → Except Err V) (ops : List QOp) (s : QSt V) : Prop where
  versions : versions ops = s.running.map fun r => (r.1, r.2.inkscape)
  cache : ∀ e b, s.running = some (e, b) → ∀ k v, (k, v) ∈ b.queryCache → measure e b.inkscape k = .ok v
  used : ∀ e b, s.running = some (e, b) → ∀ k, (∃ v, (k, v) ∈ b.used) ↔ k ∈ recent ops ∧ ∃ v, measure e b.inkscape k = .ok v
  usedIn : ∀ e b, s.running = some (e, b) → ∀ k v, (k, v) ∈ b.used → (k, v) ∈ b.queryCache
  file : ∀ f, s.file = some f → ∀ k v, (k, v) ∈ f.queries → measure f.version f.inkscape k = .ok v

theorem qInv_step {measure : Str → Str → Query → Except Err V} {ops : List QOp} {s : QSt V} (h : QInv measure ops s) (op : QOp) :
    QInv measure (ops ++ [op]) (qStep measure s op).2 := by
  cases op with
  | start e i =>
    refine ⟨?_, ?_, ?_, ?_, h.file⟩
    · rw [versions_snoc]; rfl
    · intro e' b hb k v hkv
      simp only [qStep, Option.some.injEq, Prod.mk.injEq] at hb
      obtain ⟨rfl, rfl⟩ := hb
      simp only [openBackend, loadQueries] at hkv ⊢
      split at hkv
      · cases hkv
      · rename_i f hf
        split at hkv
        · cases hkv
        · split at hkv
          · cases hkv
          · rename_i h1 h2
            have := h.file f hf k v hkv
            rw [Decidable.not_not.mp h1, Decidable.not_not.mp h2] at this
            exact this
    · intro e' b hb k
      simp only [qStep, Option.some.injEq, Prod.mk.injEq] at hb
      obtain ⟨rfl, rfl⟩ := hb
      simp [recent_snoc, openBackend]
    · intro e' b hb k v hkv
      simp only [qStep, Option.some.injEq, Prod.mk.injEq] at hb
      obtain ⟨rfl, rfl⟩ := hb
      cases hkv
  | query k =>
    cases hr : s.running with
    | none =>
      have hs : (qStep measure s (.query k)).2 = s := by simp [qStep, hr]
      rw [hs]
      refine ⟨?_, ?_, ?_, ?_, h.file⟩
      · rw [versions_snoc]; exact h.versions
      all_goals (intro e b hb; rw [hr] at hb; cases hb)
    | some r =>
      obtain ⟨e, b⟩ := r
      have hc := h.cache e b hr
      have hu := h.used e b hr
      have hi := h.usedIn e b hr
      have hs : (qStep measure s (.query k)).2 = { s with running := some (e, (processQuery (measure e b.inkscape) b k).2) } := by simp [qStep, hr]
      rw [hs]
      have hv : (processQuery (measure e b.inkscape) b k).2.inkscape = b.inkscape := by
        unfold processQuery
        split
        · rfl
        · split <;> rfl
      refine ⟨?_, ?_, ?_, ?_, h.file⟩
      · rw [versions_snoc]
        simp only [Option.map_some, hv]
        rw [h.versions, hr]
        rfl
      · intro e' b' hb k' v' hkv
        simp only [Option.some.injEq, Prod.mk.injEq] at hb
        obtain ⟨rfl, rfl⟩ := hb
        rw [hv]
        unfold processQuery at hkv
        split at hkv
        · exact hc _ _ hkv
        · split at hkv
          · exact hc _ _ hkv
          · rename_i hm
            rcases List.mem_cons.mp hkv with h1 | h1
            · cases h1; exact hm
            · exact hc _ _ h1
      · intro e' b' hb k'
        simp only [Option.some.injEq, Prod.mk.injEq] at hb
        obtain ⟨rfl, rfl⟩ := hb
        rw [hv, recent_snoc]
        unfold processQuery
        split
        · rename_i v hl
          have hm := hc _ _ (lookup_mem hl)
          have := hu k'
          simp only [List.mem_cons, Prod.mk.injEq]
          constructor
          · rintro ⟨v', ⟨rfl, rfl⟩ | h1⟩
            · exact ⟨.inl rfl, _, hm⟩
            · exact ⟨.inr (this.mp ⟨_, h1⟩).1, (this.mp ⟨_, h1⟩).2⟩
          · rintro ⟨rfl | h1, h2⟩
            · exact ⟨v, .inl ⟨rfl, rfl⟩⟩
            · obtain ⟨v', h3⟩ := this.mpr ⟨h1, h2⟩
              exact ⟨v', .inr h3⟩
        · split
          · rename_i er hm
            rw [hu k']
            simp only [List.mem_cons]
            constructor
            · rintro ⟨h1, h2⟩; exact ⟨.inr h1, h2⟩
            · rintro ⟨rfl | h1, h2⟩
              · obtain ⟨v, h2⟩ := h2
                rw [hm] at h2
                cases h2
              · exact ⟨h1, h2⟩
          · rename_i v hm
            have := hu k'
            simp only [List.mem_cons, Prod.mk.injEq]
            constructor
            · rintro ⟨v', ⟨rfl, rfl⟩ | h1⟩
              · exact ⟨.inl rfl, _, hm⟩
              · exact ⟨.inr (this.mp ⟨_, h1⟩).1, (this.mp ⟨_, h1⟩).2⟩
            · rintro ⟨rfl | h1, h2⟩
              · exact ⟨v, .inl ⟨rfl, rfl⟩⟩
              · obtain ⟨v', h3⟩ := this.mpr ⟨h1, h2⟩
                exact ⟨v', .inr h3⟩
      · intro e' b' hb k' v' hkv
        simp only [Option.some.injEq, Prod.mk.injEq] at hb
        obtain ⟨rfl, rfl⟩ := hb
        unfold processQuery at hkv ⊢
        split at hkv
        · rename_i v hl
          rcases List.mem_cons.mp hkv with h1 | h1
          · cases h1; exact lookup_mem hl
          · exact hi _ _ h1
        · split at hkv
          · exact hi _ _ hkv
          · rcases List.mem_cons.mp hkv with h1 | h1
            · exact List.mem_cons.mpr (.inl h1)
            · exact List.mem_cons_of_mem _ (hi _ _ h1)
  | render p sv =>
    cases hr : s.running with
    | none =>
      have hs : (qStep measure s (.render p sv)).2 = s := by simp [qStep, hr]
      rw [hs]
      refine ⟨?_, ?_, ?_, ?_, h.file⟩
      · rw [versions_snoc]; exact h.versions
      all_goals (intro e b hb; rw [hr] at hb; cases hb)
    | some r =>
      obtain ⟨e, b⟩ := r
      have hc := h.cache e b hr
      have hu := h.used e b hr
      have hi := h.usedIn e b hr
      have hs : (qStep measure s (.render p sv)).2 = { running := some (e, (renderQueries e p sv b s.file).1), file := (renderQueries e p sv b s.file).2 } := by simp [qStep, hr]
      rw [hs]
      have hc' : ∀ k v, (k, v) ∈ (renderQueries e p sv b s.file).1.queryCache → measure e b.inkscape k = .ok v := by
        intro k v hkv
        cases p
        · exact hc _ _ hkv
        · exact hc _ _ (hi _ _ hkv)
      have hv : (renderQueries e p sv b s.file).1.inkscape = b.inkscape := by cases p <;> rfl
      refine ⟨?_, ?_, ?_, ?_, ?_⟩
      · rw [versions_snoc]
        simp only [Option.map_some, hv]
        rw [h.versions, hr]
        rfl
      · intro e' b' hb k v hkv
        simp only [Option.some.injEq, Prod.mk.injEq] at hb
        obtain ⟨rfl, rfl⟩ := hb
        rw [hv]
        exact hc' _ _ hkv
      · intro e' b' hb k
        simp only [Option.some.injEq, Prod.mk.injEq] at hb
        obtain ⟨rfl, rfl⟩ := hb
        rw [hv, recent_snoc]
        cases p
        · exact hu k
        · simp [renderQueries, pruneQueries]
      · intro e' b' hb k v hkv
        simp only [Option.some.injEq, Prod.mk.injEq] at hb
        obtain ⟨rfl, rfl⟩ := hb
        cases p
        · exact hi _ _ hkv
        · cases hkv
      · intro f hf k v hkv
        cases sv
        · exact h.file f hf k v hkv
        · simp only [renderQueries, ↓reduceIte, Option.some.injEq] at hf
          subst hf
          have : measure e b.inkscape k = .ok v := hc' k v hkv
          cases p <;> exact this

theorem qInv (measure : Str → Str → Query → Except Err V) (ops : List QOp) : QInv measure ops (qRun measure {} ops) := by
  have key : ∀ (n : Nat) (ops : List QOp), ops.length = n → QInv measure ops (qRun measure {} ops) := by
    intro n
    induction n with
    | zero =>
      intro ops hl
      rw [List.length_eq_zero_iff.mp hl]
      exact ⟨rfl, fun _ _ h => (by cases h), fun _ _ h => (by cases h), fun _ _ h => (by cases h), fun _ h => (by cases h)⟩
    | succ n ih =>
      intro ops hl
      have hne : ops ≠ [] := by rintro rfl; simp at hl
      rw [← List.dropLast_concat_getLast hne, qRun_snoc]
      exact qInv_step (ih _ (by rw [List.length_dropLast]; omega)) _
  exact key _ _ rfl

/-! ### C75 -/

/-- **C75**: in every history of processes (with any versions), queries and renders (with any options), the answer to a query is what the running version of Elsie gets from the
running version of Inkscape, be it a number or a failure. -/
theorem C75_current (measure : Str → Str → Query → Except Err V) (ops : List QOp) (e i : Str) (h : versions ops = some (e, i)) (k : Query) :
    (qStep measure (qRun measure {} ops) (.query k)).1 = some (measure e i k) := by
  have inv := qInv measure ops
  cases hr : (qRun measure {} ops).running with
  | none => rw [inv.versions, hr] at h; cases h
  | some r =>
    obtain ⟨e', b⟩ := r
    rw [inv.versions, hr] at h
    simp only [Option.map_some, Option.some.injEq, Prod.mk.injEq] at h
    obtain ⟨rfl, rfl⟩ := h
    simp only [qStep, hr, processQuery]
    split
    · rename_i v hl
      rw [inv.cache _ _ hr _ _ (lookup_mem hl)]
    · split
      · rename_i hm; rw [hm]
      · rename_i hm; rw [hm]

/-- An upgrade of Inkscape between two runs. -/
example : versions [.start "3".toList "1.0".toList, .query ("inkscape-w".toList, "<text/>".toList), .render true true, .start "3".toList "1.1".toList] = some ("3".toList, "1.1".toList) := by
  decide +kernel

/-! ### C76 -/

/-- Queries that never fail; the result is the length of the text. -/
def lengths : Str → Str → Query → Except Err Nat := fun _ _ k => .ok k.2.length

/-- The keys in the file. -/
def saved (s : QSt V) : List Query := (s.file.map (·.queries)).getD [] |>.map (·.1)

/-- **C76 is false of the code**: rendering a deck twice empties the saved cache. -/
theorem C76_saved_false : ¬ ∀ (ops : List QOp) (e i : Str) (k : Query), .start e i ∉ ops → .query k ∈ ops →
    k ∈ saved (qRun lengths {} (.start e i :: (ops ++ [.render true true]))) := by
  intro h
  have := h [.query ("inkscape-w".toList, "<text/>".toList), .render true true] "3".toList "1.0".toList ("inkscape-w".toList, "<text/>".toList) (by decide +kernel) (by decide +kernel)
  revert this
  decide +kernel

/-- **C76, the part that holds**: after a render with the default options, the file has exactly the queries that succeeded since the process started or since the last render that
pruned, with their values and the running versions; after a render that does not prune, it has at least these. (Missing: the queries before the previous pruning render.) -/
theorem C76_saved_partial (measure : Str → Str → Query → Except Err V) (ops : List QOp) (e i : Str) (h : versions ops = some (e, i)) :
    (∃ f, (qRun measure {} (ops ++ [.render true true])).file = some f ∧ f.version = e ∧ f.inkscape = i ∧
      ∀ k v, (k, v) ∈ f.queries ↔ k ∈ recent ops ∧ measure e i k = .ok v) ∧
    (∃ f, (qRun measure {} (ops ++ [.render false true])).file = some f ∧ f.version = e ∧ f.inkscape = i ∧
      ∀ k v, k ∈ recent ops → measure e i k = .ok v → (k, v) ∈ f.queries) := by
  have inv := qInv measure ops
  rw [qRun_snoc, qRun_snoc]
  cases hr : (qRun measure {} ops).running with
  | none => rw [inv.versions, hr] at h; cases h
  | some r =>
    obtain ⟨e', b⟩ := r
    rw [inv.versions, hr] at h
    simp only [Option.map_some, Option.some.injEq, Prod.mk.injEq] at h
    obtain ⟨rfl, rfl⟩ := h
    have hu := inv.used _ _ hr
    have hi := inv.usedIn _ _ hr
    have hc := inv.cache _ _ hr
    have main : ∀ k v, (k, v) ∈ b.used ↔ k ∈ recent ops ∧ measure e' b.inkscape k = .ok v := by
      intro k v
      constructor
      · intro hk
        exact ⟨((hu k).mp ⟨v, hk⟩).1, hc _ _ (hi _ _ hk)⟩
      · rintro ⟨h1, h2⟩
        obtain ⟨v', hv'⟩ := (hu k).mpr ⟨h1, v, h2⟩
        have := hc _ _ (hi _ _ hv')
        rw [h2] at this
        cases this
        exact hv'
    refine ⟨⟨saveQueries e' (pruneQueries b), by simp [qStep, hr, renderQueries], rfl, rfl, main⟩,
      ⟨saveQueries e' b, by simp [qStep, hr, renderQueries], rfl, rfl, fun k v h1 h2 => hi _ _ ((main k v).mpr ⟨h1, h2⟩)⟩⟩

/-- Texts are measured, the deck is rendered. -/
example : saved (qRun lengths {} [.start "3".toList "1.0".toList, .query ("inkscape-w".toList, "<text/>".toList), .query ("inkscape-w".toList, "<text/>".toList), .render true true]) =
    [("inkscape-w".toList, "<text/>".toList), ("inkscape-w".toList, "<text/>".toList)] := by decide +kernel

/-! ### C134 -/

/-- Two Inkscapes: `measure` is the one that runs first. What the other one says is not asked for. -/
def Again (measure measure' : Str → Str → Query → Except Err V) (first second : List QOp) (k : Query) : Option (Except Err V) :=
  (qStep measure' (qRun measure' (qRun measure {} first) second) (.query k)).1

/-- No new process, and no render that prunes. -/
def Undisturbed (ops : List QOp) : Prop := ∀ op ∈ ops, (∃ k, op = .query k) ∨ ∃ s, op = .render false s

/-- An Inkscape that cannot be called any more. -/
def gone : Str → Str → Query → Except Err Nat := fun _ _ _ => .error .value

/-- **C134 is false of the code**: after two renders, a text of the deck is measured again, in the same process … -/
theorem C134_process_false : ¬ ∀ (ops : List QOp) (e i : Str) (k : Query), .start e i ∉ ops → .query k ∈ ops →
    Again lengths gone (.start e i :: ops) [] k = some (lengths e i k) := by
  intro h
  have := h [.query ("inkscape-w".toList, "<text/>".toList), .render true true, .render true true] "3".toList "1.0".toList ("inkscape-w".toList, "<text/>".toList) (by decide +kernel) (by decide +kernel)
  revert this
  decide +kernel

/-- … and in the next one. -/
theorem C134_next_false : ¬ ∀ (ops : List QOp) (e i : Str) (k : Query), .start e i ∉ ops → .query k ∈ ops →
    Again lengths gone (.start e i :: (ops ++ [.render true true])) [.start e i] k = some (lengths e i k) := by
  intro h
  have := h [.query ("inkscape-w".toList, "<text/>".toList), .render true true] "3".toList "1.0".toList ("inkscape-w".toList, "<text/>".toList) (by decide +kernel) (by decide +kernel)
  revert this
  decide +kernel

theorem lookup_cons (d : List (Query × V)) (k' k : Query) (v : V) : lookup ((k', v) :: d) k = if k' = k then some v else lookup d k := by
  unfold lookup
  by_cases h : k' = k
  · simp [h]
  · simp [h]

theorem lookup_some {d : List (Query × V)} {k : Query} {v : V} (h : (k, v) ∈ d) : ∃ v', lookup d k = some v' := by
  cases hl : lookup d k with
  | none => exact absurd h (lookup_none hl v)
  | some v' => exact ⟨v', rfl⟩

/-- What is in the cache stays there. -/
theorem calm_keeps (measure' : Str → Str → Query → Except Err V) (k : Query) (v : V) : ∀ (ops : List QOp) (s : QSt V) (e : Str) (b : Backend V), Undisturbed ops →
    s.running = some (e, b) → lookup b.queryCache k = some v → ∃ b', (qRun measure' s ops).running = some (e, b') ∧ lookup b'.queryCache k = some v
  | [], _, _, b, _, hr, hl => ⟨b, hr, hl⟩
  | op :: ops, s, e, b, hc, hr, hl => by
    have hc' : Undisturbed ops := fun o ho => hc o (.tail _ ho)
    rcases hc op (.head _) with ⟨k', rfl⟩ | ⟨save, rfl⟩
    · have hs : (qStep measure' s (.query k')).2 = { s with running := some (e, (processQuery (measure' e b.inkscape) b k').2) } := by simp [qStep, hr]
      refine calm_keeps measure' k v ops (qStep measure' s (.query k')).2 e (processQuery (measure' e b.inkscape) b k').2 hc' (by rw [hs]) ?_
      unfold processQuery
      split
      · exact hl
      · rename_i hn
        split
        · exact hl
        · dsimp only
          rw [lookup_cons, if_neg, hl]
          rintro rfl
          rw [hn] at hl
          cases hl
    · exact calm_keeps measure' k v ops (qStep measure' s (.render false save)).2 e b hc' (by simp [qStep, hr, renderQueries]) hl

/-- **C134, the part that holds**: a text that was measured successfully since the process started, or since the last render that pruned, is not measured again as long as no
render prunes and no process starts; and if a render saved the measurements (pruning or not), neither in the next process with the same versions. What Inkscape would say the second time (it may be gone) does not
matter. (Missing: texts measured before the previous render that pruned.) -/
theorem C134_reused_partial (measure measure' : Str → Str → Query → Except Err V) (ops : List QOp) (e i : Str) (h : versions ops = some (e, i)) (k : Query) (v : V)
    (hk : k ∈ recent ops) (hm : measure e i k = .ok v) (later : List QOp) (hl : Undisturbed later) (prune : Bool) :
    Again measure measure' ops later k = some (.ok v) ∧ Again measure measure' (ops ++ [.render prune true]) later k = some (.ok v) ∧
      Again measure measure' (ops ++ [.render prune true]) (.start e i :: later) k = some (.ok v) := by
  have inv := qInv measure ops
  cases hr : (qRun measure {} ops).running with
  | none => rw [inv.versions, hr] at h; cases h
  | some r =>
    obtain ⟨e', b⟩ := r
    have h' := h
    rw [inv.versions, hr] at h'
    simp only [Option.map_some, Option.some.injEq, Prod.mk.injEq] at h'
    obtain ⟨rfl, rfl⟩ := h'
    have value : ∀ d : List (Query × V), (∀ k v, (k, v) ∈ d → (k, v) ∈ b.queryCache) → (∃ v, (k, v) ∈ d) → lookup d k = some v := by
      rintro d hd ⟨v', hv'⟩
      obtain ⟨v'', hv''⟩ := lookup_some hv'
      have := inv.cache _ _ hr _ _ (hd _ _ (lookup_mem hv''))
      rw [hm] at this
      cases this
      exact hv''
    have used := (inv.used _ _ hr k).mpr ⟨hk, v, hm⟩
    have hq : lookup b.queryCache k = some v := value _ (fun _ _ h => h) (used.imp fun v hv => inv.usedIn _ _ hr _ _ hv)
    have hu : lookup b.used k = some v := value _ (fun _ _ h => inv.usedIn _ _ hr _ _ h) used
    have answer : ∀ (s : QSt V) (c : Backend V), s.running = some (e', c) → lookup c.queryCache k = some v →
        (qStep measure' (qRun measure' s later) (.query k)).1 = some (.ok v) := by
      intro s c hs hc
      obtain ⟨b', hb, hb'⟩ := calm_keeps measure' k v later s e' c hl hs hc
      simp only [qStep, hb, processQuery, hb']
    have hp : lookup (if prune then pruneQueries b else b).queryCache k = some v := by
      cases prune
      · exact hq
      · exact hu
    have hrun : (qRun measure {} (ops ++ [.render prune true])).running = some (e', if prune then pruneQueries b else b) := by
      rw [qRun_snoc]
      simp [qStep, hr, renderQueries]
    have hfile : (qRun measure {} (ops ++ [.render prune true])).file = some (saveQueries e' (if prune then pruneQueries b else b)) := by
      rw [qRun_snoc]
      simp [qStep, hr, renderQueries]
    refine ⟨answer _ b hr hq, answer _ _ hrun hp, ?_⟩
    unfold Again
    refine answer _ (openBackend e' b.inkscape (some (saveQueries e' (if prune then pruneQueries b else b)))) ?_ ?_
    · simp only [qStep, hfile]
    · have hi : (if prune then pruneQueries b else b).inkscape = b.inkscape := by cases prune <;> rfl
      simp only [openBackend, loadQueries, saveQueries, hi]
      simpa using hp

/-- A deck is rendered, and made again in a new process in which another text is measured first: Inkscape is not asked about the old text. -/
example : Again lengths gone [.start "3".toList "1.0".toList, .query ("inkscape-w".toList, "<text/>".toList), .render true true]
    [.start "3".toList "1.0".toList, .query ("inkscape-w".toList, "<g/>".toList), .render false false] ("inkscape-w".toList, "<text/>".toList) = some (.ok 7) := by
  decide +kernel

/-! ### C74 for the file of the query cache -/

/-- JSON as far as it is needed: what was written can be read, and an object is not valid without its end. -/
structure GoodJson (json : Json V) : Prop where
  back : ∀ f, json.load (json.dump f) = some f
  cut : ∀ f part, part <+: json.dump f → part ≠ json.dump f → json.load part = none

/-- **C74 is false of the code** also for the file of the query cache: if the process dies while the file is written, no later process can be started, … -/
theorem C74_queries_false (json : Json V) (hj : GoodJson json) (elsie : Str) (b : Backend V) (old : Option Str) :
    ∃ file, SaveCrash json elsie b old file ∧ ∀ elsie' inkscape', openFile json elsie' inkscape' file = .error .value := by
  refine ⟨some [], .writing [] (List.nil_prefix), fun elsie' inkscape' => ?_⟩
  have h : json.load [] = none := by
    by_cases hne : [] = json.dump (saveQueries elsie b)
    · -- then another file would be written as a proper continuation of nothing
      let f : QueryFile V := { version := 'x' :: elsie, inkscape := b.inkscape, queries := [] }
      have hf : [] ≠ json.dump f := by
        intro h
        have h1 := hj.back f
        rw [← h, hne, hj.back] at h1
        have h2 := congrArg List.length (congrArg QueryFile.version (Option.some.inj h1))
        simp [saveQueries, f] at h2
      exact hj.cut f [] List.nil_prefix hf
    · exact hj.cut _ [] List.nil_prefix hne
  simp only [openFile, h]

/-- … **the part that holds**: the next process gets the measurements of the old file or of the new one, or the file is a proper beginning of the new one (and no process can be started until it is
deleted). -/
theorem C74_queries_partial (json : Json V) (hj : GoodJson json) (elsie : Str) (b : Backend V) (old : Option (QueryFile V)) (file : Option Str)
    (h : SaveCrash json elsie b (old.map json.dump) file) :
    (∀ elsie' inkscape', openFile json elsie' inkscape' file = .ok (openBackend elsie' inkscape' old)) ∨
    (∀ elsie' inkscape', openFile json elsie' inkscape' file = .ok (openBackend elsie' inkscape' (some (saveQueries elsie b)))) ∨
    ((∃ part, file = some part ∧ part <+: json.dump (saveQueries elsie b) ∧ part ≠ json.dump (saveQueries elsie b)) ∧
      ∀ elsie' inkscape', openFile json elsie' inkscape' file = .error .value) := by
  cases h with
  | before =>
    left
    intro elsie' inkscape'
    cases old with
    | none => rfl
    | some f => simp only [Option.map_some, openFile, hj.back]
  | writing part hp =>
    right
    by_cases hne : part = json.dump (saveQueries elsie b)
    · left
      intro elsie' inkscape'
      simp only [openFile, hne, hj.back]
    · right
      exact ⟨⟨part, rfl, hp, hne⟩, fun elsie' inkscape' => by simp only [openFile, hj.cut _ _ hp hne]⟩

/-- There is such a JSON: a number for every file, written as that many characters and a brace. -/
example : ∃ json : Json Nat, GoodJson json := by
  classical
  have hc : Countable (QueryFile Nat) := by
    have : Countable Char := Function.Injective.countable (f := Char.toNat) (fun a b h => Char.toNat_inj.mp h)
    have hs : Countable Str := inferInstanceAs (Countable (List Char))
    have hq : Countable (List (Query × Nat)) := inferInstanceAs (Countable (List ((Str × Str) × Nat)))
    exact Function.Injective.countable (f := fun f : QueryFile Nat => (f.version, f.inkscape, f.queries)) (fun a b h => by
      cases a; cases b; simp only [Prod.mk.injEq] at h; obtain ⟨rfl, rfl, rfl⟩ := h; rfl)
  obtain ⟨code, hcode⟩ := hc.exists_injective_nat'
  have key : ∀ f g, List.replicate (code f) 'a' ++ ['}'] <+: List.replicate (code g) 'a' ++ ['}'] → f = g := by
    intro f g hp
    apply hcode
    have hlen : code f ≤ code g := by simpa using hp.length_le
    rcases Nat.lt_or_ge (code f) (code g) with hlt | hge
    · exfalso
      obtain ⟨t, ht⟩ := hp
      have := congrArg (fun l => l[code f]?) ht
      simp [List.getElem?_append, hlt] at this
    · omega
  let json : Json Nat :=
    { dump := fun f => List.replicate (code f) 'a' ++ ['}']
      load := fun s => if h : ∃ f : QueryFile Nat, s = List.replicate (code f) 'a' ++ ['}'] then some h.choose else none }
  refine ⟨json, ?_, ?_⟩
  · intro f
    have h : ∃ g : QueryFile Nat, List.replicate (code f) 'a' ++ ['}'] = List.replicate (code g) 'a' ++ ['}'] := ⟨f, rfl⟩
    simp only [json, dif_pos h]
    exact congrArg some (key _ _ (by rw [← h.choose_spec])) 
  · intro f part hp hne
    have h : ¬ ∃ g : QueryFile Nat, part = List.replicate (code g) 'a' ++ ['}'] := by
      rintro ⟨g, rfl⟩
      exact hne (by rw [key _ _ hp])
    simp only [json, dif_neg h]

end Verif.Cache
