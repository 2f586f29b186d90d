import Verif.Spec.Xml
import Mathlib.Tactic.Common

/-! Helper lemmas for the XML writer and reader. -/

namespace Verif.Xml
open Spec

/-! ### forests -/

theorem Forest.nil_append (g : Forest) : Forest.nil ++ g = g := rfl
theorem Forest.append_nil : ∀ f : Forest, f ++ Forest.nil = f
  | .nil => rfl
  | .text s r => by
    have := Forest.append_nil r
    show Forest.text s (r ++ Forest.nil) = _
    rw [this]
  | .elem n a k r => by
    have := Forest.append_nil r
    show Forest.elem n a k (r ++ Forest.nil) = _
    rw [this]
theorem Forest.append_assoc : ∀ f g h : Forest, (f ++ g) ++ h = f ++ (g ++ h)
  | .nil, _, _ => rfl
  | .text s r, g, h => by
    have := Forest.append_assoc r g h
    show Forest.text s ((r ++ g) ++ h) = Forest.text s (r ++ (g ++ h))
    rw [this]
  | .elem n a k r, g, h => by
    have := Forest.append_assoc r g h
    show Forest.elem n a k ((r ++ g) ++ h) = Forest.elem n a k (r ++ (g ++ h))
    rw [this]

/-- What the reader has stored, and the pending text, after the forest. -/
def pre (p : Str) : Forest → Forest × Str
  | .nil => (.nil, p)
  | .text s r => pre (p ++ nbsp s) r
  | .elem n a k r =>
    (textNode p ++ Forest.elem n (a.map (fun x => (x.1, attrText x.2))) (norm [] k) (pre [] r).1, (pre [] r).2)

theorem norm_pre (p : Str) (f : Forest) : norm p f = (pre p f).1 ++ textNode (pre p f).2 := by
  induction f generalizing p with
  | nil => rfl
  | text s r ih => exact ih _
  | elem n a k r _ ih2 =>
    simp only [norm, pre]
    rw [Forest.append_assoc]
    congr 1
    show _ = Forest.elem _ _ _ ((pre [] r).1 ++ textNode (pre [] r).2)
    rw [← ih2]

theorem pre_append_text (p : Str) (f : Forest) (t : Str) :
    pre p (f ++ Forest.text t .nil) = ((pre p f).1, (pre p f).2 ++ nbsp t) := by
  induction f generalizing p with
  | nil => rfl
  | text s r ih => exact ih _
  | elem n a k r _ ih2 =>
    have : Forest.elem n a k r ++ Forest.text t .nil = Forest.elem n a k (r ++ Forest.text t .nil) := rfl
    rw [this]
    simp only [pre, ih2]

theorem pre_append_elem (p : Str) (f : Forest) (n : Str) (a : Attrs) (k : Forest) :
    pre p (f ++ Forest.elem n a k .nil) =
      ((pre p f).1 ++ textNode (pre p f).2 ++ Forest.elem n (a.map (fun x => (x.1, attrText x.2))) (norm [] k) .nil, []) := by
  induction f generalizing p with
  | nil => rfl
  | text s r ih => exact ih _
  | elem m b k' r _ ih2 =>
    have : Forest.elem m b k' r ++ Forest.elem n a k .nil = Forest.elem m b k' (r ++ Forest.elem n a k .nil) := rfl
    rw [this]
    simp only [pre, ih2, Forest.append_assoc]
    congr 1

/-! ### escaping -/

def esc1 (c : Char) : Str :=
  if c = '&' then "&amp;".toList else if c = '<' then "&lt;".toList else if c = '>' then "&gt;".toList else [c]

theorem escapeText_eq (s : Str) : escapeText s = s.flatMap esc1 := by
  unfold escapeText replaceChar
  induction s with
  | nil => rfl
  | cons c s ih =>
    simp only [List.flatMap_cons, List.flatMap_append] at ih ⊢
    rw [ih]
    congr 1
    unfold esc1
    by_cases h1 : c = '&'
    · subst h1; decide
    · by_cases h2 : c = '<'
      · subst h2; decide
      · by_cases h3 : c = '>'
        · subst h3; decide
        · simp [h1, h2, h3]

theorem escapeText_append (s t : Str) : escapeText (s ++ t) = escapeText s ++ escapeText t := by
  simp [escapeText_eq]

def tesc1 (c : Char) : Str := if c = ' ' then "&#160;".toList else esc1 c

theorem textEscape_eq (s : Str) : replaceChar ' ' "&#160;".toList (escapeText s) = s.flatMap tesc1 := by
  rw [escapeText_eq]
  unfold replaceChar
  induction s with
  | nil => rfl
  | cons c s ih =>
    simp only [List.flatMap_cons, List.flatMap_append]
    rw [ih]
    congr 1
    unfold tesc1 esc1
    by_cases h1 : c = '&'
    · subst h1; decide
    · by_cases h2 : c = '<'
      · subst h2; decide
      · by_cases h3 : c = '>'
        · subst h3; decide
        · by_cases h4 : c = ' '
          · subst h4; decide
          · simp [h1, h2, h3, h4]

theorem replaceChar_notin {c : Char} {r s : Str} (h : c ∉ s) : replaceChar c r s = s := by
  unfold replaceChar
  induction s with
  | nil => rfl
  | cons x s ih =>
    simp only [List.mem_cons, not_or] at h
    have hx : ¬ x = c := fun e => h.1 e.symm
    simp only [List.flatMap_cons, if_neg hx, ih h.2, List.singleton_append]

/-! ### the reader on what the writer emits -/

theorem steps_append (st : RState) (s t : Str) : steps st (s ++ t) = (steps st s).bind (fun st => steps st t) := by
  induction s generalizing st with
  | nil => rfl
  | cons c s ih =>
    simp only [List.cons_append, steps]
    cases step st c with
    | none => rfl
    | some st => exact ih st

theorem steps_text (z : Ctx) (p t : Str) (ht : ∀ c ∈ t, xmlChar c = true) :
    steps (z, .content p) (t.flatMap tesc1) = some (z, .content (p ++ nbsp t)) := by
  induction t generalizing p with
  | nil => simp [steps, nbsp]
  | cons c t ih =>
    have hc : xmlChar c = true := ht c (by simp)
    have key : steps (z, .content p) (tesc1 c) = some (z, .content (p ++ nbsp [c])) := by
      unfold tesc1 esc1
      by_cases h4 : c = ' '
      · subst h4; rfl
      · rw [if_neg h4]
        by_cases h1 : c = '&'
        · subst h1; rfl
        · rw [if_neg h1]
          by_cases h2 : c = '<'
          · subst h2; rfl
          · rw [if_neg h2]
            by_cases h3 : c = '>'
            · subst h3; rfl
            · rw [if_neg h3]
              simp only [steps, step, hc, Bool.not_true, Bool.false_eq_true, if_false, h1, h2, nbsp, List.map_cons, List.map_nil, h4]
    rw [List.flatMap_cons, steps_append, key, Option.bind_some, ih _ (fun d hd => ht d (List.mem_cons_of_mem _ hd))]
    simp [nbsp]

theorem steps_attr (z : Ctx) (n : Str) (as : Attrs) (a v w : Str) (hw : ∀ c ∈ w, xmlChar c = true) (hq : '\'' ∉ w) :
    steps (z, .attrVal n as a '\'' v) (w.flatMap esc1) = some (z, .attrVal n as a '\'' (v ++ attrText w)) := by
  induction w generalizing v with
  | nil => simp [steps, attrText]
  | cons c t ih =>
    have hc : xmlChar c = true := hw c (by simp)
    simp only [List.mem_cons, not_or] at hq
    have hcq : ¬ c = '\'' := fun e => hq.1 e.symm
    have key : steps (z, .attrVal n as a '\'' v) (esc1 c) = some (z, .attrVal n as a '\'' (v ++ attrText [c])) := by
      unfold esc1
      by_cases h1 : c = '&'
      · subst h1; rfl
      · rw [if_neg h1]
        by_cases h2 : c = '<'
        · subst h2; rfl
        · rw [if_neg h2]
          by_cases h3 : c = '>'
          · subst h3; rfl
          · rw [if_neg h3]
            simp only [steps, step, hc, Bool.not_true, Bool.false_eq_true, if_false, h1, h2, hcq, attrText, List.map_cons, List.map_nil]
            by_cases hs : isWs c = true
            · simp [hs]
            · simp [hs]
    rw [List.flatMap_cons, steps_append, key, Option.bind_some, ih _ (fun d hd => hw d (List.mem_cons_of_mem _ hd)) hq.2]
    simp [attrText]

theorem char_le (a c : Char) : (a ≤ c) ↔ a.toNat ≤ c.toNat := by
  rw [Char.le_def]; rfl

theorem nameStart_xmlChar {c : Char} (h : nameStart c = true) : xmlChar c = true ∧ c ≠ '/' ∧ nameChar c = true := by
  refine ⟨?_, ?_, by simp [nameChar, h]⟩
  · simp only [nameStart, Char.isAlpha, Char.isUpper, Char.isLower, Bool.or_eq_true, Bool.and_eq_true, decide_eq_true_eq] at h
    simp only [xmlChar, Bool.or_eq_true, Bool.and_eq_true, decide_eq_true_eq]
    rcases h with ((h | h) | rfl) | rfl
    · have h1 := h.1; have h2 := h.2
      simp only [ge_iff_le, UInt32.le_iff_toNat_le] at h1 h2
      left; left; right
      have e : c.toNat = c.val.toNat := rfl
      rw [e]
      exact ⟨Nat.le_trans (by decide) h1, Nat.le_trans h2 (by decide)⟩
    · have h1 := h.1; have h2 := h.2
      simp only [ge_iff_le, UInt32.le_iff_toNat_le] at h1 h2
      left; left; right
      have e : c.toNat = c.val.toNat := rfl
      rw [e]
      exact ⟨Nat.le_trans (by decide) h1, Nat.le_trans h2 (by decide)⟩
    · decide
    · decide
  · rintro rfl; exact absurd h (by decide)

theorem nameChar_xmlChar {c : Char} (h : nameChar c = true) : xmlChar c = true ∧ c ≠ '\r' ∧ c ≠ '>' ∧ c ≠ '=' := by
  refine ⟨?_, ?_, ?_, ?_⟩
  · simp only [nameChar, Bool.or_eq_true, decide_eq_true_eq] at h
    rcases h with ((h | h) | rfl) | rfl
    · exact (nameStart_xmlChar h).1
    · simp only [Char.isDigit, Bool.and_eq_true, decide_eq_true_eq, ge_iff_le, UInt32.le_iff_toNat_le] at h
      simp only [xmlChar, Bool.or_eq_true, Bool.and_eq_true, decide_eq_true_eq]
      left; left; right
      have e : c.toNat = c.val.toNat := rfl
      rw [e]
      exact ⟨Nat.le_trans (by decide) h.1, Nat.le_trans h.2 (by decide)⟩
    · decide
    · decide
  all_goals rintro rfl; exact absurd h (by decide)

theorem steps_nameTail (z : Ctx) (n s : Str) (hs : ∀ d ∈ s, nameChar d = true) :
    steps (z, .name n) s = some (z, .name (n ++ s)) := by
  induction s generalizing n with
  | nil => simp [steps]
  | cons c s ih =>
    have hc := hs c (by simp)
    simp only [steps, step, (nameChar_xmlChar hc).1, Bool.not_true, Bool.false_eq_true, if_false, hc, if_true]
    rw [ih _ (fun d hd => hs d (List.mem_cons_of_mem _ hd))]
    simp

theorem steps_name (z : Ctx) (n : Str) (hn : ValidName n) : steps (z, .lt) n = some (z, .name n) := by
  cases n with
  | nil => exact absurd hn (by simp [ValidName])
  | cons c s =>
    obtain ⟨h1, h2⟩ := hn
    obtain ⟨g1, g2, g3⟩ := nameStart_xmlChar h1
    simp only [steps, step, g1, Bool.not_true, Bool.false_eq_true, if_false, g2, h1, if_true]
    rw [steps_nameTail z [c] s h2]
    rfl

theorem steps_attrNameTail (z : Ctx) (m : Str) (as : Attrs) (n s : Str) (hs : ∀ d ∈ s, nameChar d = true) :
    steps (z, .attrName m as n) s = some (z, .attrName m as (n ++ s)) := by
  induction s generalizing n with
  | nil => simp [steps]
  | cons c s ih =>
    have hc := hs c (by simp)
    simp only [steps, step, (nameChar_xmlChar hc).1, Bool.not_true, Bool.false_eq_true, if_false, hc, if_true]
    rw [ih _ (fun d hd => hs d (List.mem_cons_of_mem _ hd))]
    simp

theorem steps_attrName (z : Ctx) (m : Str) (as : Attrs) (n : Str) (hn : ValidName n) :
    steps (z, .space m as) n = some (z, .attrName m as n) := by
  cases n with
  | nil => exact absurd hn (by simp [ValidName])
  | cons c s =>
    obtain ⟨h1, h2⟩ := hn
    obtain ⟨g1, g2, g3⟩ := nameStart_xmlChar h1
    simp only [steps, step, g1, Bool.not_true, Bool.false_eq_true, if_false, h1, if_true]
    rw [steps_attrNameTail z m as [c] s h2]
    rfl

theorem steps_endName (z : Ctx) (n s : Str) (hs : ∀ d ∈ s, nameChar d = true) :
    steps (z, .endName n) s = some (z, .endName (n ++ s)) := by
  induction s generalizing n with
  | nil => simp [steps]
  | cons c s ih =>
    have hc := hs c (by simp)
    obtain ⟨g1, g2, g3, g4⟩ := nameChar_xmlChar hc
    simp only [steps, step, g1, Bool.not_true, Bool.false_eq_true, if_false, hc, g3, if_true]
    rw [ih _ (fun d hd => hs d (List.mem_cons_of_mem _ hd))]
    simp

theorem Spec.ValidName.all {n : Str} (h : ValidName n) : ∀ d ∈ n, nameChar d = true := by
  cases n with
  | nil => simp
  | cons c s =>
    intro d hd
    rcases List.mem_cons.mp hd with rfl | hd
    · exact (nameStart_xmlChar h.1).2.2
    · exact h.2 d hd

/-! ### line ends -/

theorem eol_id {s : Str} (h : '\r' ∉ s) : eol s = s := by
  induction s with
  | nil => rfl
  | cons c s ih =>
    simp only [List.mem_cons, not_or] at h
    have hc : c ≠ '\r' := fun e => h.1 e.symm
    rw [eol]
    · rw [ih h.2]
    · intro s' e; exact absurd e hc
    · intro e; exact hc e

/-! ### the meaning of the calls as a zipper -/

/-- The forest built so far: nodes before this point, the open elements, and whether the last tag is still open. -/
structure A where
  cur : Forest := .nil
  up : List (Forest × Str × Attrs) := []
  isOpen : Bool := false

def aexec (a : A) : Op → Option A
  | .raw _ => none
  | .element n => some { cur := .nil, up := (a.cur, n, []) :: a.up, isOpen := true }
  | .set n v _ =>
    if a.isOpen then
      match a.up with
      | (o, m, as) :: u => some { a with up := (o, m, as ++ [(n, v)]) :: u }
      | [] => none
    else none
  | .text t => some { a with cur := a.cur ++ Forest.text t .nil, isOpen := false }
  | .close arg =>
    match a.up with
    | [] => none
    | (o, m, as) :: u =>
      if arg = none ∨ arg = some m then some { cur := o ++ Forest.elem m as a.cur .nil, up := u, isOpen := false } else none

def arun (a : A) : List Op → Option A
  | [] => some a
  | o :: os =>
    match aexec a o with
    | none => none
    | some a => arun a os

theorem arun_append (a : A) (s t : List Op) : arun a (s ++ t) = (arun a s).bind (fun a => arun a t) := by
  induction s generalizing a with
  | nil => rfl
  | cons c s ih =>
    simp only [List.cons_append, arun]
    cases aexec a c with
    | none => rfl
    | some st => exact ih st

theorem run_append (x : Xml) (s t : List Op) : run x (s ++ t) =
    match run x s with | .error e => .error e | .ok x => run x t := by
  induction s generalizing x with
  | nil => rfl
  | cons c s ih =>
    simp only [List.cons_append, run]
    cases exec x c with
    | error e => rfl
    | ok x => exact ih x

/-- Writer and zipper have the same open elements. -/
structure Agree (x : Xml) (a : A) : Prop where
  stack : x.stack = a.up.map (·.2.1)
  isOpen : x.isOpen = a.isOpen
  top : a.isOpen = true → a.up ≠ []

theorem closeTag_stack (x : Xml) : x.closeTag.stack = x.stack := by unfold Xml.closeTag; split <;> rfl
theorem closeTag_isOpen (x : Xml) : x.closeTag.isOpen = false := by
  unfold Xml.closeTag; split
  · rfl
  · simp_all

theorem exec_agree {x : Xml} {a : A} (h : Agree x a) (o : Op) (hraw : ∀ t, o ≠ .raw t) :
    (∀ x', exec x o = .ok x' → ∃ a', aexec a o = some a' ∧ Agree x' a') ∧ (∀ a', aexec a o = some a' → ∃ x', exec x o = .ok x') := by
  obtain ⟨h1, h2, h3⟩ := h
  cases o with
  | raw t => exact absurd rfl (hraw t)
  | element n =>
    refine ⟨fun x' hx => ?_, fun a' _ => ⟨_, rfl⟩⟩
    injection hx with hx; subst hx
    refine ⟨_, rfl, ?_, rfl, by simp⟩
    simp [closeTag_stack, h1]
  | text t =>
    refine ⟨fun x' hx => ?_, fun a' _ => ⟨_, rfl⟩⟩
    injection hx with hx; subst hx
    exact ⟨_, rfl, by simpa [closeTag_stack] using h1, closeTag_isOpen x, by simp⟩
  | set n v e =>
    simp only [exec, aexec]
    cases hx : x.isOpen with
    | false =>
      rw [hx] at h2
      simp only [Bool.not_false, if_true, ← h2, Bool.false_eq_true, if_false]
      exact ⟨fun x' h => (by cases h), fun a' h => (by cases h)⟩
    | true =>
      rw [hx] at h2
      simp only [Bool.not_true, Bool.false_eq_true, if_false, ← h2, if_true]
      cases hu : a.up with
      | nil => exact absurd hu (h3 h2.symm)
      | cons f u =>
        obtain ⟨o, m, as⟩ := f
        refine ⟨fun x' hx' => ?_, fun a' _ => ⟨_, rfl⟩⟩
        injection hx' with hx'; subst hx'
        exact ⟨_, rfl, by simp [h1, hu], rfl, by simp⟩
  | close arg =>
    simp only [exec, aexec, h1]
    cases hu : a.up with
    | nil =>
      exact ⟨fun x' h => (by cases h), fun a' h => (by cases h)⟩
    | cons f u =>
      obtain ⟨o, m, as⟩ := f
      simp only [List.map_cons]
      have harg : (arg ≠ none ∧ arg ≠ some m) ↔ ¬ (arg = none ∨ arg = some m) := by
        rw [not_or]
      by_cases ha : arg = none ∨ arg = some m
      · rw [if_neg (by rw [harg]; exact fun h => h ha), if_pos ha]
        refine ⟨fun x' hx' => ⟨_, rfl, ?_⟩, fun a' _ => ?_⟩
        · split at hx'
          · injection hx' with hx'; subst hx'; exact ⟨rfl, rfl, by simp⟩
          · rename_i hop
            injection hx' with hx'; subst hx'; exact ⟨rfl, by simpa using hop, by simp⟩
        · split
          · exact ⟨_, rfl⟩
          · exact ⟨_, rfl⟩
      · rw [if_pos (by rw [harg]; exact ha), if_neg ha]
        exact ⟨fun x' h => (by cases h), fun a' h => (by cases h)⟩

theorem run_agree {x : Xml} {a : A} (h : Agree x a) (os : List Op) (hraw : ∀ o ∈ os, ∀ t, o ≠ .raw t) :
    (∀ x', run x os = .ok x' → ∃ a', arun a os = some a' ∧ Agree x' a') ∧ (∀ a', arun a os = some a' → ∃ x', run x os = .ok x') := by
  induction os generalizing x a with
  | nil =>
    refine ⟨fun x' hx => ⟨a, rfl, ?_⟩, fun a' _ => ⟨x, rfl⟩⟩
    injection hx with hx; subst hx; exact h
  | cons o os ih =>
    obtain ⟨e1, e2⟩ := exec_agree h o (hraw o (by simp))
    have hraw' := fun o' ho' => hraw o' (List.mem_cons_of_mem _ ho')
    simp only [run, arun]
    cases hx : exec x o with
    | error e =>
      refine ⟨fun x' h => (by cases h), fun a' ha => ?_⟩
      cases hb : aexec a o with
      | none => rw [hb] at ha; cases ha
      | some b => obtain ⟨x', hx'⟩ := e2 b hb; rw [hx] at hx'; cases hx'
    | ok x1 =>
      obtain ⟨a1, ha1, hag⟩ := e1 x1 hx
      rw [ha1]
      exact ih hag hraw'

/-! ### nesting -/

theorem Spec.Nested.append {a b : List Op} {F G : Forest} (h1 : Nested a F) (h2 : Nested b G) : Nested (a ++ b) (F ++ G) := by
  induction h1 with
  | nil => exact h2
  | text t ops F _ ih => exact Nested.text t _ _ ih
  | elem n sets arg body ops K F hb _ harg _ ih2 =>
    have := Nested.elem n sets arg body _ K _ hb ih2 harg
    show Nested _ (Forest.elem n _ K (F ++ G))
    simpa using this

/-- The calls made so far, with some elements still open. -/
inductive OpsCtx : List Op → Forest → List (Forest × Str × Attrs) → Bool → Prop where
  | base {ops F} : Nested ops F → OpsCtx ops F [] false
  | push {ops outer up b} (n : Str) (sets : List (Str × Str × Bool)) {body : List Op} {K : Forest} {op : Bool} :
      OpsCtx ops outer up b → Nested body K → (op = true → body = [] ∧ K = .nil) →
      OpsCtx (ops ++ .element n :: (sets.map (fun s => Op.set s.1 s.2.1 s.2.2) ++ body)) K
        ((outer, n, sets.map (fun s => (s.1, s.2.1))) :: up) op

theorem OpsCtx.add {ops : List Op} {F : Forest} {up} {b : Bool} (h : OpsCtx ops F up b) {seg : List Op} {G : Forest}
    (hs : Nested seg G) : OpsCtx (ops ++ seg) (F ++ G) up false := by
  cases h with
  | base h => exact .base (h.append hs)
  | push n sets h1 h2 h3 =>
    have := OpsCtx.push n sets (op := false) h1 (h2.append hs) (by simp)
    simpa using this

theorem OpsCtx.exec {ops : List Op} {a a' : A} (h : OpsCtx ops a.cur a.up a.isOpen) {o : Op} (he : aexec a o = some a') :
    OpsCtx (ops ++ [o]) a'.cur a'.up a'.isOpen := by
  cases o with
  | raw t => cases he
  | element n =>
    injection he with he; subst he
    have := OpsCtx.push n [] (body := []) (op := true) h Nested.nil (by simp)
    simpa using this
  | text t =>
    injection he with he; subst he
    exact h.add (Nested.text t [] .nil Nested.nil)
  | set n v e =>
    simp only [aexec] at he
    split at he
    · rename_i hop
      split at he
      · rename_i o m as u hu
        injection he with he; subst he
        simp only
        generalize hc : a.cur = c at h ⊢
        rw [hu, hop] at h
        cases h with
        | push n' sets h1 h2 h3 =>
          obtain ⟨e1, e2⟩ := h3 rfl
          subst e1 e2
          have := OpsCtx.push m (sets ++ [(n, v, e)]) (body := []) (op := true) h1 Nested.nil (by simp)
          rw [hop]
          simpa using this
      · cases he
    · cases he
  | close arg =>
    simp only [aexec] at he
    split at he
    · cases he
    · rename_i o m as u hu
      split at he
      · rename_i ha
        injection he with he; subst he
        simp only
        generalize hc : a.cur = c at h ⊢
        rw [hu] at h
        generalize a.isOpen = op at h
        cases h with
        | push n' sets h1 h2 h3 =>
          have h4 := Nested.elem m sets arg _ [] _ .nil h2 Nested.nil ha
          have := h1.add h4
          simpa using this
      · cases he

theorem OpsCtx.run {ops : List Op} {a a' : A} (h : OpsCtx ops a.cur a.up a.isOpen) {os : List Op} (he : arun a os = some a') :
    OpsCtx (ops ++ os) a'.cur a'.up a'.isOpen := by
  induction os generalizing ops a with
  | nil => injection he with he; subst he; simpa using h
  | cons o os ih =>
    simp only [arun] at he
    split at he
    · cases he
    · rename_i a1 h1
      have := ih (h.exec h1) he
      simpa using this

/-- Nested calls are accepted. -/
theorem Spec.Nested.arun {ops : List Op} {F : Forest} (h : Nested ops F) (a : A) :
    ∃ op, arun a ops = some { cur := a.cur ++ F, up := a.up, isOpen := op } := by
  induction h generalizing a with
  | nil => exact ⟨a.isOpen, by simp [Xml.arun, Forest.append_nil]⟩
  | text t ops F _ ih =>
    simp only [Xml.arun, aexec]
    obtain ⟨op, ho⟩ := ih { a with cur := a.cur ++ Forest.text t .nil, isOpen := false }
    refine ⟨op, ho.trans ?_⟩
    simp only [Forest.append_assoc]
    rfl
  | elem n sets arg body ops K F _ _ harg ih1 ih2 =>
    simp only [Xml.arun, aexec]
    have hsets : ∀ (sets : List (Str × Str × Bool)) (as : Attrs), Xml.arun { cur := .nil, up := (a.cur, n, as) :: a.up, isOpen := true }
        (sets.map (fun s => Op.set s.1 s.2.1 s.2.2)) =
        some { cur := .nil, up := (a.cur, n, as ++ sets.map (fun s => (s.1, s.2.1))) :: a.up, isOpen := true } := by
      intro sets
      induction sets with
      | nil => intro as; simp [Xml.arun]
      | cons s sets ih =>
        intro as
        simp only [List.map_cons, Xml.arun, aexec, if_true]
        rw [ih]
        simp
    rw [arun_append, hsets sets [], Option.bind_some, arun_append]
    obtain ⟨op, ho⟩ := ih1 { cur := .nil, up := (a.cur, n, [] ++ sets.map (fun s => (s.1, s.2.1))) :: a.up, isOpen := true }
    rw [ho, Option.bind_some]
    simp only [Xml.arun, aexec, if_pos harg]
    obtain ⟨op2, ho2⟩ := ih2 { cur := a.cur ++ Forest.elem n ([] ++ sets.map (fun s => (s.1, s.2.1))) (Forest.nil ++ K) .nil, up := a.up, isOpen := false }
    refine ⟨op2, ho2.trans ?_⟩
    simp only [Forest.append_assoc, Forest.nil_append, List.nil_append]
    rfl

/-! ### reading -/

def nzFrame (f : Forest × Str × Attrs) : Forest × Str × Attrs :=
  ((pre [] f.1).1 ++ textNode (pre [] f.1).2, f.2.1, f.2.2.map (fun x => (x.1, attrText x.2)))

/-- What the reader makes of the chunks. -/
def Reads (chunks : List Str) (a : A) : Prop :=
  if a.isOpen then
    match a.up with
    | [] => False
    | (o, m, as) :: u =>
      a.cur = .nil ∧ ∃ mode, steps ({}, .content []) chunks.flatten =
        some ({ cur := (pre [] o).1 ++ textNode (pre [] o).2, up := u.map nzFrame }, mode) ∧
        ((as = [] ∧ mode = .name m) ∨ mode = .attrEnd m (as.map (fun x => (x.1, attrText x.2))))
  else steps ({}, .content []) chunks.flatten =
    some ({ cur := (pre [] a.cur).1, up := a.up.map nzFrame }, .content (pre [] a.cur).2)

structure Good (x : Xml) (a : A) : Prop extends Agree x a where
  names : ∀ f ∈ a.up, ValidName f.2.1
  noCR : '\r' ∉ x.chunks.flatten
  reads : Reads x.chunks a

/-- The attributes set on the element whose tag is open. -/
def seen (a : A) : List Str :=
  if a.isOpen then match a.up with | (_, _, as) :: _ => as.map (·.1) | [] => [] else []

/-- The end of the start tag. -/
theorem Good.closeTag {x : Xml} {a : A} (h : Good x a) : Good x.closeTag { a with isOpen := false } := by
  obtain ⟨⟨h1, h2, h3⟩, h4, h5, h6⟩ := h
  cases ho : a.isOpen with
  | false =>
    have : x.closeTag = x := by unfold Xml.closeTag; rw [h2, ho]; simp
    rw [this]
    have e : ({ a with isOpen := false } : A) = a := by cases a; simp at ho; subst ho; rfl
    rw [e]
    exact ⟨⟨h1, h2, h3⟩, h4, h5, h6⟩
  | true =>
    have hx : x.closeTag = { x with chunks := x.chunks ++ [['>']], isOpen := false } := by unfold Xml.closeTag; rw [h2, ho]; simp
    refine ⟨⟨?_, ?_, by simp⟩, h4, ?_, ?_⟩
    · rw [hx]; exact h1
    · rw [hx]
    · rw [hx]; simp only [List.flatten_append, List.mem_append, not_or]; exact ⟨h5, by decide⟩
    · rw [hx]
      unfold Reads at h6 ⊢
      rw [if_pos ho] at h6
      simp only [Bool.false_eq_true, if_false]
      cases hu : a.up with
      | nil => rw [hu] at h6; exact h6.elim
      | cons f u =>
        obtain ⟨o, m, as⟩ := f
        rw [hu] at h6
        obtain ⟨hc, mode, hs, hm⟩ := h6
        rw [List.flatten_append, steps_append, hs, Option.bind_some, hc]
        have hgt1 : nameChar '>' = false := by decide
        have hgt2 : isWs '>' = false := by decide
        have hgt3 : xmlChar '>' = true := by decide
        rcases hm with ⟨rfl, rfl⟩ | rfl
        · simp only [List.flatten_cons, List.flatten_nil, List.append_nil, steps, step, hgt1, hgt2, hgt3, Bool.not_true, Bool.false_eq_true, if_false, if_true, openElem, pre, List.map_cons, nzFrame, List.map_nil]
        · simp only [List.flatten_cons, List.flatten_nil, List.append_nil, steps, step, hgt1, hgt2, hgt3, Bool.not_true, Bool.false_eq_true, if_false, if_true, openElem, pre, List.map_cons, nzFrame]

theorem tesc1_noCR {c : Char} (h : c ≠ '\r') : '\r' ∉ tesc1 c := by
  unfold tesc1 esc1
  split
  · decide
  · split
    · decide
    · split
      · decide
      · split
        · decide
        · simpa using h.symm

theorem esc1_noCR {c : Char} (h : c ≠ '\r') : '\r' ∉ esc1 c := by
  unfold esc1
  split
  · decide
  · split
    · decide
    · split
      · decide
      · simpa using h.symm

theorem Spec.ValidName.noCR {n : Str} (h : ValidName n) : '\r' ∉ n := by
  intro hm
  exact (nameChar_xmlChar (h.all _ hm)).2.1 rfl

theorem Good.exec {x x' : Xml} {a : A} {o : Op} (h : Good x a) (hv : Valid o) (he : Xml.exec x o = .ok x')
    (hd : ∀ n v e, o = .set n v e → n ∉ seen a) : ∃ a', aexec a o = some a' ∧ Good x' a' := by
  have hraw : ∀ t, o ≠ .raw t := by rintro t rfl; exact hv
  obtain ⟨a', ha', hag⟩ := (exec_agree h.toAgree o hraw).1 x' he
  suffices hh : (∀ f ∈ a'.up, ValidName f.2.1) ∧ '\r' ∉ x'.chunks.flatten ∧ Reads x'.chunks a' from
    ⟨a', ha', { toAgree := hag, names := hh.1, noCR := hh.2.1, reads := hh.2.2 }⟩
  cases o with
  | raw t => exact absurd hv id
  | text t =>
    have hcl := h.closeTag
    generalize hx1 : x.closeTag = x1 at *
    injection he with he; subst he
    rw [hx1] at *
    injection ha' with ha'; subst ha'
    refine ⟨hcl.names, ?_, ?_⟩
    · simp only [textEscape_eq, List.flatten_append, List.flatten_cons, List.flatten_nil, List.append_nil, List.mem_append, not_or]
      refine ⟨hcl.noCR, ?_⟩
      intro hm
      obtain ⟨c, hc, hm⟩ := List.mem_flatMap.mp hm
      exact tesc1_noCR (hv c hc).2 hm
    · have := hcl.reads
      simp only [Reads, Bool.false_eq_true, if_false] at this ⊢
      rw [List.flatten_append, steps_append, this, Option.bind_some]
      simp only [textEscape_eq, List.flatten_cons, List.flatten_nil, List.append_nil]
      rw [steps_text _ _ _ (fun c hc => (hv c hc).1), pre_append_text]
  | element n =>
    have hcl := h.closeTag
    generalize hx1 : x.closeTag = x1 at *
    injection he with he; subst he
    rw [hx1] at *
    injection ha' with ha'; subst ha'
    refine ⟨?_, ?_, ?_⟩
    · intro f hf
      rcases List.mem_cons.mp hf with rfl | hf
      · exact hv
      · exact h.names f hf
    · simp only [List.flatten_append, List.flatten_cons, List.flatten_nil, List.append_nil, List.mem_append, not_or]
      exact ⟨hcl.noCR, by decide, ValidName.noCR hv⟩
    · have := hcl.reads
      simp only [Reads, Bool.false_eq_true, if_false, if_true] at this ⊢
      refine ⟨trivial, .name n, ?_, Or.inl ⟨trivial, rfl⟩⟩
      rw [List.flatten_append, steps_append, this, Option.bind_some]
      simp only [List.flatten_cons, List.flatten_nil, List.append_nil, List.singleton_append]
      have hlt : xmlChar '<' = true := by decide
      simp only [steps, step, hlt, Bool.not_true, Bool.false_eq_true, if_false, if_true]
      rw [steps_name _ _ hv]
  | set n v esc =>
    obtain ⟨hn, hpl, hq⟩ := hv
    have hread := h.reads
    simp only [Xml.exec] at he
    split at he
    · cases he
    · rename_i hop
      have hop : x.isOpen = true := by simpa using hop
      have hopa : a.isOpen = true := by rw [← h.isOpen]; exact hop
      injection he with he; subst he
      have hvv : (if esc = true then replaceChar '\'' "\\'".toList v else v) = v := by
        split
        · exact replaceChar_notin hq
        · rfl
      have hseen := hd n v esc rfl
      simp only [aexec, hopa, if_true] at ha'
      simp only [Reads, hopa, if_true] at hread
      simp only [seen, hopa, if_true] at hseen
      cases hu : a.up with
      | nil => rw [hu] at hread; exact hread.elim
      | cons f u =>
        obtain ⟨o, m, as⟩ := f
        rw [hu] at hread ha' hseen
        injection ha' with ha'; subst ha'
        obtain ⟨hc, mode, hs, hm⟩ := hread
        refine ⟨?_, ?_, ?_⟩
        · intro f hf
          rcases List.mem_cons.mp hf with rfl | hf
          · exact h.names (o, m, as) (by rw [hu]; simp)
          · exact h.names f (by rw [hu]; exact List.mem_cons_of_mem _ hf)
        · dsimp only
          rw [hvv]
          simp only [List.flatten_append, List.flatten_cons, List.flatten_nil, List.append_nil, List.mem_append, not_or]
          refine ⟨h.noCR, ⟨⟨⟨by decide, hn.noCR⟩, by decide⟩, ?_⟩, by decide⟩
          rw [escapeText_eq]
          intro hm
          obtain ⟨c, hc, hm⟩ := List.mem_flatMap.mp hm
          exact esc1_noCR (hpl c hc).2 hm
        · simp only [Reads, hopa, if_true]
          refine ⟨hc, .attrEnd m ((as ++ [(n, v)]).map (fun x => (x.1, attrText x.2))), ?_, Or.inr rfl⟩
          rw [hvv, List.flatten_append, steps_append, hs, Option.bind_some]
          simp only [List.flatten_cons, List.flatten_nil, List.append_nil, List.append_assoc, List.cons_append, List.nil_append]
          have hsp1 : xmlChar ' ' = true := by decide
          have hsp2 : nameChar ' ' = false := by decide
          have hsp3 : isWs ' ' = true := by decide
          have first : steps ({ cur := (pre [] o).1 ++ textNode (pre [] o).2, up := u.map nzFrame }, mode)
              (' ' :: (n ++ ("='".toList ++ (escapeText v ++ ['\''])))) =
              steps ({ cur := (pre [] o).1 ++ textNode (pre [] o).2, up := u.map nzFrame }, .space m (as.map (fun x => (x.1, attrText x.2))))
              (n ++ ("='".toList ++ (escapeText v ++ ['\'']))) := by
            rcases hm with ⟨rfl, rfl⟩ | rfl
            · simp only [steps, step, hsp1, hsp2, hsp3, Bool.not_true, Bool.false_eq_true, if_false, if_true, List.map_nil]
            · simp only [steps, step, hsp1, hsp3, Bool.not_true, Bool.false_eq_true, if_false, if_true]
          rw [first, steps_append, steps_attrName _ _ _ _ hn, Option.bind_some, steps_append]
          have eq1 : ∀ z as', steps (z, .attrName m as' n) "='".toList = some (z, .attrVal m as' n '\'' []) := by
            intro z as'; rfl
          rw [eq1, Option.bind_some, steps_append, escapeText_eq, steps_attr _ _ _ _ _ _ (fun c hc => (hpl c hc).1) hq, Option.bind_some]
          have hq1 : xmlChar '\'' = true := by decide
          simp only [steps, step, hq1, Bool.not_true, Bool.false_eq_true, if_false, if_true]
          rw [if_neg (by simpa using hseen)]
          simp
  | close arg =>
    have hread := h.reads
    have hnames := h.names
    simp only [Xml.exec, h.stack] at he
    simp only [aexec] at ha'
    cases hu : a.up with
    | nil => rw [hu] at ha'; cases ha'
    | cons f u =>
      obtain ⟨o, m, as⟩ := f
      rw [hu] at ha' he hnames
      simp only at ha'
      split at ha'
      · injection ha' with ha'; subst ha'
        simp only [List.map_cons] at he
        split at he
        · cases he
        · have hnm : ValidName m := hnames (o, m, as) (by simp)
          split at he
          · rename_i hop
            have hopa : a.isOpen = true := by rw [← h.isOpen]; exact hop
            injection he with he; subst he
            simp only [Reads, hopa, if_true, hu] at hread
            obtain ⟨hc, mode, hs, hm⟩ := hread
            refine ⟨fun f hf => hnames f (List.mem_cons_of_mem _ hf), ?_, ?_⟩
            · simp only [List.flatten_append, List.flatten_cons, List.flatten_nil, List.append_nil, List.mem_append, not_or]
              exact ⟨h.noCR, by decide⟩
            · simp only [Reads, Bool.false_eq_true, if_false]
              rw [List.flatten_append, steps_append, hs, Option.bind_some, hc, pre_append_elem]
              rcases hm with ⟨rfl, rfl⟩ | rfl
              · rfl
              · rfl
          · rename_i hop
            have hopa : a.isOpen = false := by rw [← h.isOpen]; simpa using hop
            injection he with he; subst he
            simp only [Reads, hopa, Bool.false_eq_true, if_false, hu] at hread
            refine ⟨fun f hf => hnames f (List.mem_cons_of_mem _ hf), ?_, ?_⟩
            · simp only [List.flatten_append, List.flatten_cons, List.flatten_nil, List.append_nil, List.mem_append, not_or]
              exact ⟨h.noCR, by decide, hnm.noCR, by decide⟩
            · simp only [Reads, Bool.false_eq_true, if_false]
              rw [List.flatten_append, steps_append, hread, Option.bind_some, pre_append_elem]
              simp only [List.flatten_cons, List.flatten_nil, List.append_nil, List.map_cons]
              have e1 : ∀ (z : Ctx) p, steps (z, .content p) ['<', '/'] = some ({ z with cur := z.cur ++ textNode p }, .endName []) := by
                intro z p; rfl
              rw [steps_append, e1, Option.bind_some, steps_append, steps_endName _ _ _ hnm.all, Option.bind_some]
              have hgt3 : xmlChar '>' = true := by decide
              simp only [steps, step, hgt3, Bool.not_true, Bool.false_eq_true, if_false, if_true, List.nil_append, nzFrame]
              rw [norm_pre]
      · cases ha'

theorem seen_exec {a a' : A} {o : Op} (h : aexec a o = some a') : seen a' =
    match o with | .set n _ _ => seen a ++ [n] | _ => [] := by
  cases o with
  | raw t => cases h
  | element n => injection h with h; subst h; rfl
  | text t => injection h with h; subst h; rfl
  | set n v e =>
    simp only [aexec] at h
    split at h
    · rename_i ho
      split at h
      · rename_i hu
        injection h with h; subst h
        simp [seen, ho, hu]
      · cases h
    · cases h
  | close arg =>
    simp only [aexec] at h
    split at h
    · cases h
    · split at h
      · injection h with h; subst h; rfl
      · cases h

theorem setsDistinct_mono {s t : List Str} (h : ∀ n ∈ s, n ∈ t) {ops : List Op} (hd : SetsDistinct t ops) : SetsDistinct s ops := by
  induction ops generalizing s t with
  | nil => trivial
  | cons o os ih =>
    cases o with
    | raw _ => exact ih h hd
    | element _ => exact hd
    | text _ => exact ih h hd
    | close _ => exact ih h hd
    | set n v e =>
      refine ⟨fun hm => hd.1 (h n hm), ih ?_ hd.2⟩
      intro m hm
      rcases List.mem_append.mp hm with hm | hm
      · exact List.mem_append_left _ (h m hm)
      · exact List.mem_append_right _ hm

theorem Good.run {x x' : Xml} {a : A} {os : List Op} (h : Good x a) (hv : ∀ o ∈ os, Valid o) (hd : SetsDistinct (seen a) os)
    (he : Xml.run x os = .ok x') : ∃ a', arun a os = some a' ∧ Good x' a' := by
  induction os generalizing x a with
  | nil => injection he with he; subst he; exact ⟨a, rfl, h⟩
  | cons o os ih =>
    simp only [Xml.run] at he
    split at he
    · cases he
    · rename_i x1 hx1
      obtain ⟨a1, ha1, hg⟩ := h.exec (hv o (by simp)) hx1 (by
        rintro n v e rfl
        exact hd.1)
      have hs := seen_exec ha1
      have hd' : SetsDistinct (seen a1) os := by
        rw [hs]
        cases o with
        | raw _ => exact setsDistinct_mono (by simp) hd
        | element _ => exact hd
        | text _ => exact setsDistinct_mono (by simp) hd
        | close _ => exact setsDistinct_mono (by simp) hd
        | set n v e => exact hd.2
      obtain ⟨a', ha', hg'⟩ := ih hg (fun o ho => hv o (List.mem_cons_of_mem _ ho)) hd' he
      exact ⟨a', by simp only [arun, ha1]; exact ha', hg'⟩

theorem good_init : Good {} {} := ⟨⟨rfl, rfl, by simp⟩, by simp, by simp, rfl⟩

/-- The end of the document. -/
theorem Good.toString {x : Xml} {a : A} (h : Good x a) {s : Str} (hs : x.toString = .ok s) :
    a.up = [] ∧ readXml s = some (norm [] a.cur) := by
  unfold Xml.toString at hs
  split at hs
  · rename_i h0
    injection hs with hs; subst hs
    have hup : a.up = [] := by
      have := h.stack
      rw [List.eq_nil_of_length_eq_zero h0] at this
      exact List.map_eq_nil_iff.mp this.symm
    refine ⟨hup, ?_⟩
    have hop : a.isOpen = false := by
      cases ho : a.isOpen with
      | false => rfl
      | true => exact absurd hup (h.top ho)
    have hr := h.reads
    simp only [Reads, hop, Bool.false_eq_true, if_false] at hr
    unfold readXml
    rw [eol_id h.noCR, hr]
    simp only [final, hup, List.map_nil, if_true, norm_pre]
  · cases hs

end Verif.Xml
