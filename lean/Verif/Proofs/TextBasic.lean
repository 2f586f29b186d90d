import Verif.Model.TextParser
import Verif.Spec.Text

/-! Helper lemmas about `normalize_tokens`, `shown`, balance. -/

namespace Verif.Text
open Spec

/-! ### `shown`, `chars` and concatenation -/

/-- Nesting depth after a stream, `none` if it closes more than is open. -/
def depth : Nat → List Tok → Option Nat
  | d, [] => some d
  | d, .opn _ :: ts => depth (d + 1) ts
  | 0, .close :: _ => none
  | d + 1, .close :: ts => depth d ts
  | d, .text _ :: ts => depth d ts
  | d, .newline _ :: ts => depth d ts

@[simp] theorem depth_nil (d) : depth d [] = some d := by cases d <;> rfl
@[simp] theorem depth_opn (d s ts) : depth d (.opn s :: ts) = depth (d + 1) ts := by cases d <;> rfl
@[simp] theorem depth_close_zero (ts) : depth 0 (.close :: ts) = none := rfl
@[simp] theorem depth_close_succ (d ts) : depth (d + 1) (.close :: ts) = depth d ts := rfl
@[simp] theorem depth_text (d s ts) : depth d (.text s :: ts) = depth d ts := by cases d <;> rfl
@[simp] theorem depth_newline (d n ts) : depth d (.newline n :: ts) = depth d ts := by cases d <;> rfl

theorem depth_append (d : Nat) (a b : List Tok) :
    depth d (a ++ b) = (depth d a).bind (fun d' => depth d' b) := by
  induction a generalizing d with
  | nil => simp
  | cons t a ih =>
    cases t <;> simp [ih]
    cases d <;> simp [ih]

theorem depth_add (a : List Tok) (d d' k : Nat) (h : depth d a = some d') :
    depth (d + k) a = some (d' + k) := by
  induction a generalizing d with
  | nil => simp at h; simp [h]
  | cons t a ih =>
    cases t with
    | text s => simp at h ⊢; exact ih _ h
    | newline s => simp at h ⊢; exact ih _ h
    | opn s => simp at h ⊢; have := ih _ h; rw [← this]; congr 1; omega
    | close =>
      cases d with
      | zero => simp at h
      | succ d =>
        simp at h
        have := ih _ h
        rw [show d + 1 + k = (d + k) + 1 by omega]
        simpa using this

theorem depth_of_balanced {ts : List Tok} (h : Balanced ts) : ∀ d, depth d ts = some d := by
  induction h with
  | nil => simp
  | text s ts _ ih => simpa using ih
  | newline s ts _ ih => simpa using ih
  | block s inner ts _ _ ih1 ih2 =>
    intro d
    simp [depth_append, ih1, ih2]

theorem balanced_append {a b : List Tok} (ha : Balanced a) (hb : Balanced b) : Balanced (a ++ b) := by
  induction ha with
  | nil => simpa
  | text s ts _ ih => exact .text _ _ ih
  | newline s ts _ ih => exact .newline _ _ ih
  | block s inner ts h1 _ _ ih2 =>
    have := Balanced.block s inner (ts ++ b) h1 ih2
    simpa using this

/-- A stream whose depth goes from `d+1` to `0` splits at the close of level `d`. -/
theorem split_close (ts : List Tok) : ∀ d, depth (d + 1) ts = some 0 →
    ∃ inner rest, ts = inner ++ .close :: rest ∧ Balanced inner ∧ depth d rest = some 0 := by
  induction hn : ts.length using Nat.strongRecOn generalizing ts with
  | _ n ih =>
    intro d h
    cases ts with
    | nil => simp at h
    | cons t ts =>
      cases t with
      | text s =>
        simp at h
        obtain ⟨i, r, e, hb, hr⟩ := ih ts.length (by simp at hn; omega) ts rfl d h
        exact ⟨.text s :: i, r, by simp [e], .text _ _ hb, hr⟩
      | newline s =>
        simp at h
        obtain ⟨i, r, e, hb, hr⟩ := ih ts.length (by simp at hn; omega) ts rfl d h
        exact ⟨.newline s :: i, r, by simp [e], .newline _ _ hb, hr⟩
      | close =>
        simp at h
        exact ⟨[], ts, rfl, .nil, h⟩
      | opn s =>
        simp at h
        obtain ⟨i, r, e, hb, hr⟩ := ih ts.length (by simp at hn; omega) ts rfl (d + 1) h
        have hlen : r.length < n := by simp [e] at hn; omega
        obtain ⟨i2, r2, e2, hb2, hr2⟩ := ih r.length hlen r rfl d hr
        refine ⟨.opn s :: i ++ .close :: i2, r2, ?_, .block _ _ _ hb hb2, hr2⟩
        simp [e, e2]

theorem balanced_of_depth (ts : List Tok) (h : depth 0 ts = some 0) : Balanced ts := by
  induction hn : ts.length using Nat.strongRecOn generalizing ts with
  | _ n ih =>
    cases ts with
    | nil => exact .nil
    | cons t ts =>
      simp at hn
      cases t with
      | text s => simp at h; exact .text _ _ (ih ts.length (by omega) ts h rfl)
      | newline s => simp at h; exact .newline _ _ (ih ts.length (by omega) ts h rfl)
      | close => simp at h
      | opn s =>
        simp at h
        obtain ⟨i, r, e, hb, hr⟩ := split_close ts 0 h
        have hlen : r.length < n := by simp [e] at hn; omega
        have := Balanced.block s i r hb (ih r.length hlen r hr rfl)
        simpa [e] using this

theorem balanced_iff_depth (ts : List Tok) : Balanced ts ↔ depth 0 ts = some 0 :=
  ⟨fun h => depth_of_balanced h 0, balanced_of_depth ts⟩

/-- The open styles after a stream. -/
def stackAfter : List Str → List Tok → List Str
  | st, [] => st
  | st, .opn s :: ts => stackAfter (s :: st) ts
  | st, .close :: ts => stackAfter st.tail ts
  | st, .text _ :: ts => stackAfter st ts
  | st, .newline _ :: ts => stackAfter st ts

theorem shown_append (st : List Str) (a b : List Tok) :
    shown st (a ++ b) = shown st a ++ shown (stackAfter st a) b := by
  induction a generalizing st with
  | nil => simp [shown, stackAfter]
  | cons t a ih => cases t <;> simp [shown, stackAfter, ih]

theorem chars_append (a b : List Tok) : chars (a ++ b) = chars a ++ chars b := by
  induction a with
  | nil => simp [chars]
  | cons t a ih => cases t <;> simp [chars, ih]

theorem shown_fst (st : List Str) (a : List Tok) : (shown st a).map Prod.fst = chars a := by
  induction a generalizing st with
  | nil => simp [shown, chars]
  | cons t a ih => cases t <;> simp [shown, chars, ih, mark, Function.comp_def]

theorem plainText_eq_chars (a : List Tok) : plainText a = chars a := by
  induction a with
  | nil => simp [plainText, chars]
  | cons t a ih => cases t <;> simp_all [plainText, chars]

/-! ### normalisation -/

theorem mark_nl (st : List Str) : mark st '\n' = ('\n', []) := by simp [mark]

/-- Equality of what is displayed, and of nesting. -/
theorem normStep_simplifies {res res' : List Tok} {t : Tok} (h : normStep res t = .ok res')
    (ts : List Tok) :
    (res.reverse ++ t :: ts = res'.reverse ++ ts) ∨
      Simplify (res.reverse ++ t :: ts) (res'.reverse ++ ts) := by
  unfold normStep at h
  split at h
  · injection h with h; subst h; right; exact .dropEmpty _ _
  · split at h
    · injection h with h; subst h
      right
      simpa using Simplify.mergeBreaks _ _ _ ts
    · injection h with h; subst h; left; simp
  · split at h
    · cases h
    · injection h with h; subst h
      right
      simpa using Simplify.moveOut _ _ ts
    · injection h with h; subst h; left; simp
  · injection h with h; subst h; left; simp

theorem Spec.Simplifies.trans {a b c : List Tok} (h1 : Simplifies a b) (h2 : Simplifies b c) :
    Simplifies a c := by
  induction h1 with
  | refl => exact h2
  | step s _ ih => exact .step s (ih h2)

theorem normLoop_simplifies {res r : List Tok} (ts : List Tok) (h : normLoop res ts = .ok r) :
    Simplifies (res.reverse ++ ts) r.reverse := by
  induction ts generalizing res with
  | nil => simp [normLoop] at h; subst h; simpa using Simplifies.refl _
  | cons t ts ih =>
    simp only [normLoop] at h
    split at h
    · rename_i res' hs
      rcases normStep_simplifies hs ts with h1 | h1
      · rw [h1]; exact ih h
      · exact .step h1 (ih h)
    · cases h

theorem normalize_simplifies {ts r : List Tok} (h : normalizeTokens ts = .ok r) :
    Simplifies ts r := by
  unfold normalizeTokens at h
  split at h
  · rename_i res hl
    injection h with h
    have h1 := normLoop_simplifies ts hl
    simp at h1
    refine h1.trans ?_
    subst h
    cases res with
    | nil => exact .refl _
    | cons t res =>
      cases t <;> try exact .refl _
      simp [popNewline]
      exact .step (.dropTrailing _ _) (.refl _)
  · cases h

/-- Simplification keeps what is displayed, up to trailing line breaks. -/
theorem simplify_shown {a b : List Tok} (h : Simplify a b) (st : List Str) :
    ∃ k, shown st b ++ List.replicate k ('\n', []) = shown st a := by
  cases h with
  | dropEmpty a b => exact ⟨0, by simp [shown_append, shown]⟩
  | mergeBreaks a n m b =>
    exact ⟨0, by simp [shown_append, shown, mark_nl, ← List.replicate_append_replicate]⟩
  | moveOut a n b => exact ⟨0, by simp [shown_append, shown, mark_nl]⟩
  | dropTrailing a n => exact ⟨n, by simp [shown_append, shown, mark_nl]⟩
  | joinRuns a s t b => exact ⟨0, by simp [shown_append, shown]⟩

theorem simplifies_shown {a b : List Tok} (h : Simplifies a b) (st : List Str) :
    ∃ k, shown st b ++ List.replicate k ('\n', []) = shown st a := by
  induction h with
  | refl => exact ⟨0, by simp⟩
  | step s _ ih =>
    obtain ⟨k, hk⟩ := ih
    obtain ⟨j, hj⟩ := simplify_shown s st
    refine ⟨k + j, ?_⟩
    rw [← List.replicate_append_replicate, ← List.append_assoc, hk, hj]

theorem simplify_depth {a b : List Tok} (h : Simplify a b) (d e : Nat) (hd : depth d a = some e) :
    depth d b = some e := by
  cases h <;> simp_all [depth_append]
  · rename_i a n b
    cases h : depth d a with
    | none => simp [h] at hd
    | some d' => cases d' <;> simp_all

theorem simplifies_depth {a b : List Tok} (h : Simplifies a b) (d e : Nat)
    (hd : depth d a = some e) : depth d b = some e := by
  induction h with
  | refl => exact hd
  | step s _ ih => exact ih (simplify_depth s d e hd)

theorem normLoop_ok {d e : Nat} (ts : List Tok) : ∀ res, depth 0 res.reverse = some d →
    depth d ts = some e → ∃ r, normLoop res ts = .ok r := by
  induction ts generalizing d with
  | nil => intro res _ _; exact ⟨res, rfl⟩
  | cons t ts ih =>
    intro res h1 h2
    simp only [normLoop]
    have hstep : ∃ res', normStep res t = .ok res' := by
      unfold normStep
      split
      · exact ⟨_, rfl⟩
      · split <;> exact ⟨_, rfl⟩
      · cases res with
        | nil => simp at h1; subst h1; simp at h2
        | cons x xs => cases x <;> exact ⟨_, rfl⟩
      · exact ⟨_, rfl⟩
    obtain ⟨res', hs⟩ := hstep
    rw [hs]
    have hd : depth 0 (res.reverse ++ t :: ts) = some e := by simp [depth_append, h1, h2]
    have hd' : depth 0 (res'.reverse ++ ts) = some e := by
      rcases normStep_simplifies hs ts with h | h
      · rw [← h]; exact hd
      · exact simplify_depth h _ _ hd
    rw [depth_append] at hd'
    cases h3 : depth 0 res'.reverse with
    | none => simp [h3] at hd'
    | some d' => simp [h3] at hd'; exact ih _ h3 hd'

/-- Normalisation succeeds on every stream that never closes more than is open. -/
theorem normalize_ok {ts : List Tok} {e : Nat} (h : depth 0 ts = some e) :
    ∃ r, normalizeTokens ts = .ok r := by
  obtain ⟨r, hr⟩ := normLoop_ok (d := 0) ts [] (by simp) h
  exact ⟨_, by simp [normalizeTokens, hr]; rfl⟩

/-! ### normal forms -/

/-- Local form of `NormalForm` for a reversed list (later token first): no empty text, and a
newline token is followed neither by a newline nor by a close. -/
def NFRev : List Tok → Prop
  | [] => True
  | [t] => t ≠ .text []
  | t :: u :: rest =>
    t ≠ .text [] ∧ (u.isNewline → t.isNewline = false ∧ t ≠ .close) ∧ NFRev (u :: rest)

theorem NFRev.tail {t : Tok} {res : List Tok} (h : NFRev (t :: res)) : NFRev res := by
  cases res with
  | nil => trivial
  | cons u rest => exact h.2.2

theorem NFRev.head {t : Tok} {res : List Tok} (h : NFRev (t :: res)) : t ≠ .text [] := by
  cases res with
  | nil => exact h
  | cons u rest => exact h.1

theorem normStep_nf {res res' : List Tok} {t : Tok} (hn : NFRev res)
    (h : normStep res t = .ok res') : NFRev res' := by
  unfold normStep at h
  split at h
  · injection h with h; subst h; exact hn
  · split at h
    · injection h with h; subst h
      rename_i n m rest
      cases rest with
      | nil => simp [NFRev]
      | cons u rest =>
        obtain ⟨_, h2, h3⟩ := hn
        refine ⟨by simp, fun hu => ?_, h3⟩
        have := h2 hu
        simp [Tok.isNewline] at this
    · injection h with h; subst h
      rename_i hx
      cases res with
      | nil => simp [NFRev]
      | cons u rest =>
        refine ⟨by simp, fun hu => ?_, hn⟩
        cases u <;> simp_all [Tok.isNewline]
  · split at h
    · cases h
    · injection h with h; subst h
      rename_i m rest
      have hr := hn.tail
      refine ⟨by simp, by simp [Tok.isNewline], ?_⟩
      cases rest with
      | nil => simp [NFRev]
      | cons u rest =>
        refine ⟨by simp, fun hu => ?_, hr⟩
        have := hn.2.1 hu
        simp [Tok.isNewline] at this
    · injection h with h; subst h
      rename_i hx hy
      cases res with
      | nil => simp [NFRev]
      | cons u rest =>
        refine ⟨by simp, fun hu => ?_, hn⟩
        cases u <;> simp_all [Tok.isNewline]
  · injection h with h; subst h
    rename_i h1 h2 h3
    cases res with
    | nil => simpa [NFRev] using h1
    | cons u rest =>
      refine ⟨by simpa using h1, fun hu => ⟨?_, by simpa using h3⟩, hn⟩
      cases t <;> simp_all [Tok.isNewline]

theorem normLoop_nf {res r : List Tok} (ts : List Tok) (hn : NFRev res)
    (h : normLoop res ts = .ok r) : NFRev r := by
  induction ts generalizing res with
  | nil => simp [normLoop] at h; subst h; exact hn
  | cons t ts ih =>
    simp only [normLoop] at h
    split at h
    · rename_i res' hs; exact ih (normStep_nf hn hs) h
    · cases h

theorem NFRev.drop {a b : List Tok} (h : NFRev (a ++ b)) : NFRev b := by
  induction a with
  | nil => exact h
  | cons t a ih => exact ih h.tail

theorem normalForm_of_nfrev {r : List Tok} (h : NFRev r) (ht : ∀ n rest, r ≠ .newline n :: rest) :
    NormalForm r.reverse := by
  refine ⟨?_, ?_, ?_, ?_⟩
  · intro hm
    rw [List.mem_reverse] at hm
    obtain ⟨a, b, rfl⟩ := List.append_of_mem hm
    exact h.drop.head rfl
  · intro a n m b he
    have : r = b.reverse ++ .newline m :: .newline n :: a.reverse := by
      have := congrArg List.reverse he; simpa using this
    subst this
    have := h.drop.2.1 rfl
    simp [Tok.isNewline] at this
  · intro a n b he
    have : r = b.reverse ++ .close :: .newline n :: a.reverse := by
      have := congrArg List.reverse he; simpa using this
    subst this
    have := h.drop.2.1 rfl
    simp at this
  · intro a n he
    have : r = .newline n :: a.reverse := by
      have := congrArg List.reverse he; simpa using this
    exact ht _ _ this

theorem normalize_nf {ts r : List Tok} (h : normalizeTokens ts = .ok r) : NormalForm r := by
  unfold normalizeTokens at h
  split at h
  · rename_i res hl
    injection h with h
    subst h
    have hn := normLoop_nf ts (res := []) trivial hl
    apply normalForm_of_nfrev
    · cases res with
      | nil => trivial
      | cons t res => cases t <;> first | exact hn | exact hn.tail
    · intro n rest he
      cases res with
      | nil => simp [popNewline] at he
      | cons t res =>
        cases t <;> simp [popNewline] at he
        subst he
        have := hn.2.1 rfl
        simp [Tok.isNewline] at this
  · cases h

/-- A normal form is left alone. -/
theorem normLoop_of_nf {d e : Nat} (ts : List Tok) : ∀ res, NormalForm (res.reverse ++ ts) →
    depth 0 res.reverse = some d → depth d ts = some e → normLoop res ts = .ok (ts.reverse ++ res) := by
  induction ts generalizing d with
  | nil => intro res _ _ _; simp [normLoop]
  | cons t ts ih =>
    intro res hn h1 h2
    have hs : normStep res t = .ok (t :: res) := by
      unfold normStep
      split
      · exact absurd (by simp) hn.noEmpty
      · cases res with
        | nil => rfl
        | cons u rest =>
          cases u with
          | newline m => exact absurd (by simp; rfl) (hn.noAdjacent rest.reverse m _ ts)
          | _ => rfl
      · cases res with
        | nil => simp at h1; subst h1; simp at h2
        | cons u rest =>
          cases u with
          | newline m => exact absurd (by simp) (hn.noBeforeClose rest.reverse m ts)
          | _ => rfl
      · rfl
    simp only [normLoop, hs]
    cases hd : depth d [t] with
    | none =>
      have : depth d (t :: ts) = (depth d [t]).bind (fun d' => depth d' ts) := depth_append d [t] ts
      rw [hd] at this; rw [h2] at this; simp at this
    | some d' =>
      have h3 : depth d' ts = some e := by
        have : depth d (t :: ts) = (depth d [t]).bind (fun d' => depth d' ts) := depth_append d [t] ts
        rw [hd, h2] at this; simpa using this.symm
      have := ih (d := d') (t :: res) (by simpa using hn) (by simp [depth_append, h1, hd]) h3
      rw [this]; simp

theorem normalize_of_nf {ts : List Tok} {e : Nat} (hn : NormalForm ts) (h : depth 0 ts = some e) :
    normalizeTokens ts = .ok ts := by
  have := normLoop_of_nf (d := 0) ts [] (by simpa using hn) (by simp) h
  simp [normalizeTokens, this]
  cases hr : ts.reverse with
  | nil => simp at hr; simp [hr, popNewline]
  | cons t rest =>
    have hts : ts = rest.reverse ++ [t] := by
      have := congrArg List.reverse hr; simpa using this
    cases t with
    | newline n => exact absurd hts (hn.noTrailing _ _)
    | text s => simp [popNewline, hts]
    | opn s => simp [popNewline, hts]
    | close => simp [popNewline, hts]

end Verif.Text
