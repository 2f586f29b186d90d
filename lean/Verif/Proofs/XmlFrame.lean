import Verif.Proofs.Xml
import Verif.Model.TextItem

/-! # Lemmas: parts of a document

What is written and read in the middle of a document is what is written and read alone. -/

namespace Verif.Xml
open Spec

/-! ### writing -/

/-- `y` was written after `x`. -/
def Xml.over (x y : Xml) : Xml := { chunks := x.chunks ++ y.chunks, stack := y.stack ++ x.stack, isOpen := y.isOpen }

theorem over_closeTag (x y : Xml) : (x.over y).closeTag = x.over y.closeTag := by
  unfold Xml.closeTag Xml.over
  cases h : y.isOpen <;> simp [h]

theorem exec_over (x : Xml) {y y' : Xml} {o : Op} (h : exec y o = .ok y') : exec (x.over y) o = .ok (x.over y') := by
  cases o with
  | raw t =>
    injection h with h; subst h
    simp only [exec, over_closeTag]
    simp [Xml.over]
  | element n =>
    injection h with h; subst h
    simp only [exec, over_closeTag]
    simp [Xml.over]
  | text t =>
    injection h with h; subst h
    simp only [exec, over_closeTag]
    simp [Xml.over]
  | set n v esc =>
    simp only [exec] at h ⊢
    split at h
    · cases h
    · rename_i ho
      injection h with h; subst h
      rw [if_neg (show ¬ ((!(x.over y).isOpen) = true) from ho)]
      simp [Xml.over]
  | close arg =>
    simp only [exec] at h ⊢
    split at h
    · cases h
    · rename_i n rest hs
      have hs' : (x.over y).stack = n :: (rest ++ x.stack) := by simp [Xml.over, hs]
      rw [hs']
      dsimp only
      split at h
      · cases h
      · rename_i hn
        rw [if_neg hn]
        split at h
        · rename_i ho
          injection h with h; subst h
          rw [if_pos (show (x.over y).isOpen = true from ho)]
          simp [Xml.over]
        · rename_i ho
          injection h with h; subst h
          rw [if_neg (show ¬ (x.over y).isOpen = true from ho)]
          simp [Xml.over]

theorem run_over (x : Xml) {ops : List Op} {y y' : Xml} (h : run y ops = .ok y') : run (x.over y) ops = .ok (x.over y') := by
  induction ops generalizing y with
  | nil => injection h with h; subst h; rfl
  | cons o os ih =>
    simp only [run] at h ⊢
    split at h
    · cases h
    · rename_i z hz
      rw [exec_over x hz]
      exact ih h

/-- An operation before which a start tag is completed. -/
def closing : Op → Bool
  | .raw _ => true
  | .element _ => true
  | .text _ => true
  | _ => false

theorem closeTag_closeTag (x : Xml) : x.closeTag.closeTag = x.closeTag := by
  unfold Xml.closeTag
  cases h : x.isOpen <;> simp [h]

theorem over_empty (x : Xml) : x.closeTag.over {} = x.closeTag := by
  have := closeTag_isOpen x
  generalize x.closeTag = y at *
  cases y
  simp only at this
  subst this
  simp [Xml.over]

/-- Operations written alone and in the middle of a document. -/
theorem run_at (x : Xml) {o : Op} {os : List Op} (ho : closing o = true) {y : Xml} (h : run {} (o :: os) = .ok y) : run x (o :: os) = .ok (x.closeTag.over y) := by
  have := run_over x.closeTag h
  rw [over_empty] at this
  rw [← this]
  simp only [run]
  have : exec x o = exec x.closeTag o := by
    cases o with
    | raw t => simp only [exec, closeTag_closeTag]
    | element t => simp only [exec, closeTag_closeTag]
    | text t => simp only [exec, closeTag_closeTag]
    | _ => cases ho
  rw [this]

/-! ### texts -/

theorem drawTok_over (x : Xml) (env : Env) (i : Nat) {st st' : DrawSt} {t : Verif.Text.Tok} (h : drawTok env i st t = .ok st') :
    drawTok env i { st with xml := x.over st.xml } t = .ok { st' with xml := x.over st'.xml } := by
  cases t with
  | text s =>
    simp only [drawTok] at h ⊢
    split at h
    · cases h
    · rename_i z hz
      injection h with h; subst h
      rw [run_over x hz]
  | newline n =>
    simp only [drawTok] at h ⊢
    split at h
    · cases h
    · rename_i z hz
      injection h with h; subst h
      rw [run_over x hz]
  | opn n =>
    simp only [drawTok] at h ⊢
    split at h
    · cases h
    · rename_i hs
      rw [if_neg hs]
      split at h
      · cases h
      · rename_i z hz
        injection h with h; subst h
        rw [run_over x hz]
  | close =>
    simp only [drawTok] at h ⊢
    split at h
    · cases h
    · rename_i z hz
      rw [run_over x hz]
      dsimp only
      split at h
      · cases h
      · rename_i r rest hr
        injection h with h; subst h
        simp only [hr]

theorem drawLoop_over (x : Xml) (env : Env) {ts : List Verif.Text.Tok} : ∀ (i : Nat) {st st' : DrawSt}, drawLoop env i st ts = .ok st' →
    drawLoop env i { st with xml := x.over st.xml } ts = .ok { st' with xml := x.over st'.xml } := by
  induction ts with
  | nil => intro i st st' h; injection h with h; subst h; rfl
  | cons t ts ih =>
    intro i st st' h
    simp only [drawLoop] at h ⊢
    split at h
    · cases h
    · rename_i z hz
      rw [drawTok_over x env i hz]
      exact ih _ h

/-- A text written alone and in the middle of a document. -/
theorem drawText_over (x : Xml) {env : Env} {toks : List Verif.Text.Tok} {y : Xml} (h : drawText env {} toks = .ok y) :
    drawText env x toks = .ok (x.closeTag.over y) := by
  simp only [drawText] at h ⊢
  split at h
  · cases h
  · rename_i a ha
    split at h
    · cases h
    · rename_i z hz
      have h1 : run x (headOps env a) = .ok (x.closeTag.over z) := run_at x (o := .element "text".toList) rfl hz
      rw [h1]
      dsimp only
      split at h
      · cases h
      · rename_i st hst
        have h2 := drawLoop_over x.closeTag env 0 hst
        dsimp only at h2
        rw [h2]
        exact run_over _ h

/-! ### reading -/

/-- What is open, in the middle of a document read so far. -/
def graft (z : Ctx) : List (Forest × Str × Attrs) → List (Forest × Str × Attrs)
  | [] => z.up
  | [(o, n, as)] => (z.cur ++ o, n, as) :: z.up
  | f :: g :: r => f :: graft z (g :: r)

/-- What was read alone, in the middle of a document read so far. -/
def frame (z : Ctx) (c : Ctx) : Ctx := { cur := if c.up.isEmpty then z.cur ++ c.cur else c.cur, up := graft z c.up }

theorem frame_cur (z c : Ctx) (F : Forest) : frame z { c with cur := c.cur ++ F } = { frame z c with cur := (frame z c).cur ++ F } := by
  unfold frame
  cases c.up <;> simp [Forest.append_assoc]

theorem frame_open (z c : Ctx) (n : Str) (as : Attrs) :
    frame z { cur := .nil, up := (c.cur, n, as) :: c.up } = { cur := .nil, up := ((frame z c).cur, n, as) :: (frame z c).up } := by
  unfold frame
  cases c.up <;> simp [graft]

theorem frame_close (z : Ctx) (cur outer : Forest) (m : Str) (as : Attrs) (up : List (Forest × Str × Attrs)) :
    ∃ outer', (frame z { cur := cur, up := (outer, m, as) :: up }).up = (outer', m, as) :: graft z up ∧
      (frame z { cur := cur, up := (outer, m, as) :: up }).cur = cur ∧
      frame z { cur := outer ++ .elem m as cur .nil, up := up } = { cur := outer' ++ .elem m as cur .nil, up := graft z up } := by
  unfold frame
  cases up with
  | nil => exact ⟨z.cur ++ outer, by simp [graft], by simp, by simp [graft, Forest.append_assoc]⟩
  | cons g r => exact ⟨outer, by simp [graft], by simp, by simp⟩

theorem step_frame (z : Ctx) {st st' : RState} {c : Char} (h : step st c = some st') : step (frame z st.1, st.2) c = some (frame z st'.1, st'.2) := by
  obtain ⟨w, m⟩ := st
  unfold step at h ⊢
  split at h
  · cases h
  · rename_i hc
    rw [if_neg hc]
    cases m with
    | content txt =>
      dsimp only at h ⊢
      split at h
      · rename_i h1; rw [if_pos h1]; injection h with h; subst h; rw [frame_cur]
      · rename_i h1; rw [if_neg h1]
        split at h <;> rename_i h2
        · rw [if_pos h2]; injection h with h; subst h; rfl
        · rw [if_neg h2]; injection h with h; subst h; rfl
    | slash n as =>
      dsimp only at h ⊢
      split at h
      · rename_i h1; rw [if_pos h1]; injection h with h; subst h; rw [frame_cur]
      · cases h
    | endName n =>
      dsimp only at h ⊢
      split at h
      · rename_i h1; rw [if_pos h1]
        obtain ⟨cur, up⟩ := w
        cases up with
        | nil => cases h
        | cons f up =>
          obtain ⟨outer, m, as⟩ := f
          dsimp only at h ⊢
          obtain ⟨outer', e1, e2, e3⟩ := frame_close z cur outer m as up
          rw [e1]
          dsimp only
          split at h
          · rename_i h3; rw [if_pos h3]; injection h with h; subst h
            rw [e2]
            simp only [e3]
          · cases h
      · rename_i h1; rw [if_neg h1]
        split at h
        · rename_i h2; rw [if_pos h2]; injection h with h; subst h; rfl
        · cases h
    | _ =>
      dsimp only at h ⊢
      repeat' (first | (split at h <;> rename_i h1 <;> first | rw [if_pos h1] | rw [if_neg h1] | simp only [h1]))
      all_goals first
        | (cases h; done)
        | (injection h with h; subst h; first | rfl | (simp only [openElem]; rw [frame_open]))
        | (rename_i e; cases hd : decode e <;> rw [hd] at h <;> first | (cases h; done) | (injection h with h; subst h; rfl))

theorem steps_frame (z : Ctx) {s : Str} {st st' : RState} (h : steps st s = some st') : steps (frame z st.1, st.2) s = some (frame z st'.1, st'.2) := by
  induction s generalizing st with
  | nil => injection h with h; subst h; rfl
  | cons c s ih =>
    simp only [steps] at h ⊢
    split at h
    · cases h
    · rename_i st1 h1
      rw [step_frame z h1]
      exact ih h

/-- The last node is not a text. -/
theorem append_text_elem {F : Forest} {txt n : Str} {as : Attrs} {K : Forest} (h : F ++ textNode txt = .elem n as K .nil) : txt = [] := by
  cases txt with
  | nil => rfl
  | cons c cs =>
    exfalso
    cases F with
    | nil => cases h
    | text s r => cases h
    | elem n' as' k r =>
      have h' : Forest.elem n' as' k (r ++ textNode (c :: cs)) = .elem n as K .nil := h
      injection h' with _ _ _ h'
      cases r <;> cases h'

/-- An element read alone and in the middle of a document. -/
theorem steps_part (z : Ctx) {s : Str} (hs : '\r' ∉ s) {n : Str} {as : Attrs} {K : Forest} (h : readXml s = some (.elem n as K .nil)) :
    steps (z, .content []) s = some ({ z with cur := z.cur ++ .elem n as K .nil }, .content []) := by
  unfold readXml at h
  rw [eol_id hs] at h
  split at h
  · cases h
  · rename_i st hst
    obtain ⟨w, m⟩ := st
    have := steps_frame z hst
    have e0 : frame z {} = z := by unfold frame; cases z; simp [graft, Forest.append_nil]
    rw [e0] at this
    rw [this]
    cases m with
    | content txt =>
      simp only [final] at h
      split at h
      · rename_i hup
        injection h with h
        have ht := append_text_elem h
        subst ht
        have h' : w.cur = .elem n as K .nil := by rw [← h]; simp [textNode, Forest.append_nil]
        unfold frame
        rw [hup, h']
        rfl
      · cases h
    | _ => cases h

end Verif.Xml
