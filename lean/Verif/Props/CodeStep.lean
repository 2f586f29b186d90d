import Verif.Model.CodeStep
import Verif.Spec.CodeStep
import Verif.Props.Code
import Verif.Props.TextItem
import Verif.Props.Need

/-! # Property C140: code shown step by step stays in place -/

namespace Verif.CodeStep
open Spec Verif.Text Verif.Text.Spec

theorem intercalate_cons (c : Char) (l m : Str) (ls : List Str) : List.intercalate [c] (l :: m :: ls) = l ++ c :: List.intercalate [c] (m :: ls) := by
  simp [List.intercalate, List.intersperse]

theorem intercalate_one (c : Char) (l : Str) : List.intercalate [c] [l] = l := by
  simp [List.intercalate, List.intersperse]

theorem splitOn_rows {s : Str} {ls : List Str} (h : RowsOf s ls) : splitOn '\n' s = ls := by
  obtain ⟨h1, h2, rfl⟩ := h
  induction ls with
  | nil => exact absurd rfl h1
  | cons l ls ih =>
    cases ls with
    | nil => rw [intercalate_one]; exact Verif.Show.splitOn_notin (h2 l List.mem_cons_self)
    | cons m ls =>
      rw [intercalate_cons, Verif.Show.splitOn_append (h2 l List.mem_cons_self), ih (List.cons_ne_nil _ _) (fun x hx => h2 x (.tail _ hx))]

theorem getLines_ok {lines : List Str} : ∀ {visible : List (Option Nat)}, InRange lines visible → ∃ ls, getLines lines visible = .ok ls ∧ List.Forall₂ (Shows lines) visible ls := by
  intro visible
  induction visible with
  | nil => intro _; exact ⟨[], rfl, .nil⟩
  | cons v vs ih =>
    intro h
    obtain ⟨ls, h1, h2⟩ := ih (fun i hi => h i (.tail _ hi))
    cases v with
    | none => exact ⟨[] :: ls, by simp [getLines, getLine, h1], .cons rfl h2⟩
    | some i =>
      have hi := h i List.mem_cons_self
      exact ⟨lines[i] :: ls, by simp [getLines, getLine, h1, List.getElem?_eq_getElem hi], .cons (by simp [Shows, List.getElem?_eq_getElem hi]) h2⟩

theorem shows_mem {lines : List Str} {visible : List (Option Nat)} {ls : List Str} (h : List.Forall₂ (Shows lines) visible ls) : ∀ l ∈ ls, l = [] ∨ l ∈ lines := by
  induction h with
  | nil => intro l hl; cases hl
  | @cons v l vs ls h1 h2 ih =>
    intro x hx
    rcases List.mem_cons.mp hx with rfl | hx
    · cases v with
      | none => exact .inl h1
      | some i => exact .inr (List.mem_of_getElem? h1)
    · exact ih x hx

theorem intercalate_mem {c d : Char} {ls : List Str} (h : d ∈ List.intercalate [c] ls) : d = c ∨ ∃ l ∈ ls, d ∈ l := by
  induction ls with
  | nil => simp [List.intercalate] at h
  | cons l ls ih =>
    cases ls with
    | nil => rw [intercalate_one] at h; exact .inr ⟨l, List.mem_cons_self, h⟩
    | cons m ls =>
      rw [intercalate_cons] at h
      rcases List.mem_append.mp h with h | h
      · exact .inr ⟨l, List.mem_cons_self, h⟩
      · rcases List.mem_cons.mp h with h | h
        · exact .inl h
        · rcases ih h with h | ⟨x, hx, h⟩
          · exact .inl h
          · exact .inr ⟨x, .tail _ hx, h⟩

theorem mem_intercalate {c d : Char} {ls : List Str} {l : Str} (hl : l ∈ ls) (h : d ∈ l) : d ∈ List.intercalate [c] ls := by
  induction ls with
  | nil => cases hl
  | cons m ls ih =>
    cases ls with
    | nil => rw [intercalate_one]; rw [List.mem_singleton] at hl; rw [← hl]; exact h
    | cons n ls =>
      rw [intercalate_cons]
      rcases List.mem_cons.mp hl with rfl | hl
      · exact List.mem_append_left _ h
      · exact List.mem_append_right _ (.tail _ (ih hl))

theorem untab_id (n : Nat) {s : Str} (h : '\t' ∉ s) : untab n s = s := by
  induction s with
  | nil => rfl
  | cons c s ih =>
    have hc : c ≠ '\t' := fun e => h (e ▸ List.mem_cons_self)
    have := ih (fun e => h (.tail _ e))
    unfold untab
    split
    · rename_i e; cases e
    · rename_i e; injection e with e1 e2; exact absurd e1 hc
    · rename_i e; injection e with e1 e2; subst e1; subst e2; rw [this]

theorem intercalate_head {c : Char} {l : Str} {ls : List Str} (h : l ≠ []) : (List.intercalate [c] (l :: ls)).head? = l.head? := by
  cases ls with
  | nil => rw [intercalate_one]
  | cons m ls => rw [intercalate_cons]; cases l with | nil => exact absurd rfl h | cons d l => rfl

theorem intercalate_last {c : Char} {l : Str} (h : l ≠ []) : ∀ {ls : List Str}, ls.getLast? = some l → (List.intercalate [c] ls).getLast? = l.getLast? := by
  intro ls
  induction ls with
  | nil => intro e; cases e
  | cons m ls ih =>
    intro e
    cases ls with
    | nil => rw [intercalate_one]; simp at e; rw [e]
    | cons n ls =>
      have := ih (by rw [← e]; simp)
      rw [intercalate_cons, List.getLast?_append, List.getLast?_cons, this]
      cases hx : l.getLast? with
      | none => exact absurd (List.getLast?_eq_none_iff.mp hx) h
      | some x => rfl

theorem stripNl_id {s : Str} (h1 : s.head? ≠ some '\n') (h2 : s.getLast? ≠ some '\n') : stripNl s = s := by
  unfold stripNl
  have e : s.dropWhile (· == '\n') = s := by
    cases s with
    | nil => rfl
    | cons c s => rw [List.dropWhile_cons_of_neg]; intro e; exact h1 (by simp at e; rw [e]; rfl)
  rw [e, List.rdropWhile_eq_self_iff]
  intro hl e
  apply h2
  rw [List.getLast?_eq_some_getLast hl]
  simp at e
  rw [e]

theorem strip_rows {ls : List Str} (hn : ∀ l ∈ ls, '\n' ∉ l) {a b : Str} (h1 : ls.head? = some a) (ha : a ≠ []) (h2 : ls.getLast? = some b) (hb : b ≠ []) :
    stripNl (List.intercalate ['\n'] ls) = List.intercalate ['\n'] ls := by
  cases ls with
  | nil => cases h1
  | cons l ls =>
    injection h1 with h1
    subst h1
    apply stripNl_id
    · rw [intercalate_head ha]
      intro e
      exact hn l List.mem_cons_self (List.mem_of_head? e)
    · rw [intercalate_last hb h2]
      intro e
      exact hn b (List.mem_of_getLast? h2) (List.mem_of_getLast? e)

/-- The text of one step. -/
theorem step_toks (lx : Lexer) (hx : Honours lx) (tabsize : Nat) (escapeChar : Str) (x b e : Char) (hd : Delims escapeChar x b e) (code : Str) (lines : List Str)
    (hl : RowsOf code lines) (hch : '\r' ∉ code ∧ '\t' ∉ code ∧ '﻿' ∉ code) (visible : List (Option Nat)) (hr : InRange lines visible)
    (h1 : Seen lines visible.head?) (h2 : Seen lines visible.getLast?) :
    ∃ ls toks, getLines (splitOn '\n' code) visible = .ok ls ∧ boxCode (some lx) false false tabsize escapeChar (List.intercalate ['\n'] ls) = .ok toks ∧
      Balanced toks ∧ Clean toks ∧ chars toks = List.intercalate ['\n'] ls ∧ RowsOf (chars toks) ls ∧ List.Forall₂ (Shows lines) visible ls := by
  rw [splitOn_rows hl]
  obtain ⟨ls, g1, g2⟩ := getLines_ok hr
  have hnl : ∀ l ∈ ls, '\n' ∉ l := by
    intro l hm
    rcases shows_mem g2 l hm with rfl | h
    · simp
    · exact hl.2.1 l h
  have hmem : ∀ d ∈ List.intercalate ['\n'] ls, d = '\n' ∨ d ∈ code := by
    intro d hd
    rcases intercalate_mem hd with h | ⟨l, hm, h⟩
    · exact .inl h
    · rcases shows_mem g2 l hm with rfl | h'
      · cases h
      · exact .inr (hl.2.2 ▸ mem_intercalate h' h)
  have hnot : ∀ d, d ≠ '\n' → d ∉ code → d ∉ List.intercalate ['\n'] ls := fun d h h' hm => (hmem d hm).elim h h'
  have hut : untab tabsize (List.intercalate ['\n'] ls) = List.intercalate ['\n'] ls := untab_id _ (hnot _ (by decide) hch.2.1)
  obtain ⟨toks, t1, t2, -, t3, -, t4, -⟩ := highlight_chars lx hx (List.intercalate ['\n'] ls) (hnot _ (by decide) hch.1)
    (fun h => hnot _ (by decide) hch.2.2 (List.mem_of_head? h))
  have hends : ∃ a b, ls.head? = some a ∧ a ≠ [] ∧ ls.getLast? = some b ∧ b ≠ [] := by
    obtain ⟨i, l, e1, e2, e3⟩ := h1
    obtain ⟨i', l', e1', e2', e3'⟩ := h2
    have hlen := g2.length_eq
    have hpos : 0 < visible.length := by cases visible with | nil => cases e1 | cons => simp
    refine ⟨l, l', ?_, e3, ?_, e3'⟩
    · have h0 : visible[0]? = some (some i) := by rw [← List.head?_eq_getElem?]; exact e1
      rw [List.head?_eq_getElem?]
      obtain ⟨hh, hv⟩ := List.getElem?_eq_some_iff.mp h0
      have := List.Forall₂.get g2 hh (by omega)
      simp only [List.get_eq_getElem, hv, Shows, e2] at this
      rw [List.getElem?_eq_getElem (by omega)]
      exact this.symm
    · have h0 : visible[visible.length - 1]? = some (some i') := by rw [← List.getLast?_eq_getElem?]; exact e1'
      rw [List.getLast?_eq_getElem?]
      obtain ⟨hh, hv⟩ := List.getElem?_eq_some_iff.mp h0
      have := List.Forall₂.get g2 hh (by omega)
      simp only [List.get_eq_getElem, hv, Shows, e2'] at this
      rw [List.getElem?_eq_getElem (by omega)]
      simp only [← hlen]
      exact this.symm
  obtain ⟨a, b', k1, k2, k3, k4⟩ := hends
  rw [strip_rows hnl k1 k2 k3 k4] at t4
  refine ⟨ls, toks, g1, by simp [boxCode, delims_ok hd, expandTabs_eq, hut, t1], t2, t3, t4, ⟨(by rintro rfl; cases k1), hnl, t4.symm⟩, g2⟩

/-- **C140, with a condition.** If the first and the last place of every step show a line that is not empty, `code_step` succeeds, and at every step every place shows the line that was asked for, or nothing.
Missing: the other steps. -/
theorem C140_steps_partial (lx : Lexer) (hx : Honours lx) (tabsize : Nat) (escapeChar : Str) (x b e : Char) (hd : Delims escapeChar x b e) (code : Str) (lines : List Str)
    (hl : RowsOf code lines) (hch : '\r' ∉ code ∧ '\t' ∉ code ∧ '﻿' ∉ code) (fragments : List (List (Option Nat)))
    (hf : ∀ f ∈ fragments, InRange lines f ∧ Seen lines f.head? ∧ Seen lines f.getLast?) :
    ∃ steps, codeSteps lx tabsize escapeChar code fragments = .ok steps ∧
      List.Forall₂ (fun f toks => ∃ ls, RowsOf (chars toks) ls ∧ List.Forall₂ (Shows lines) f ls) fragments steps := by
  induction fragments with
  | nil => exact ⟨[], rfl, .nil⟩
  | cons f fs ih =>
    obtain ⟨steps, h1, h2⟩ := ih (fun f hm => hf f (.tail _ hm))
    obtain ⟨k1, k2, k3⟩ := hf f List.mem_cons_self
    obtain ⟨ls, toks, g1, g2, -, -, -, g5, g6⟩ := step_toks lx hx tabsize escapeChar x b e hd code lines hl hch f k1 k2 k3
    exact ⟨toks :: steps, by simp only [codeSteps, g1, g2, h1], .cons ⟨ls, g5, g6⟩ h2⟩

/-- **C140 is false**: in the steps `[None, 1]` and `[0, 1]` of a code with the lines `a` and `b`, the first step shows `b` in the first row, whatever the lexer: pygments removes line breaks at the beginning. -/
theorem C140_steps_false (lx : Lexer) (hx : Honours lx) :
    ¬ ∀ (tabsize : Nat) (code : Str) (lines : List Str), RowsOf code lines → '\r' ∉ code ∧ '\t' ∉ code ∧ '﻿' ∉ code → ∀ fragments : List (List (Option Nat)),
      (∀ f ∈ fragments, InRange lines f ∧ f ≠ []) →
      ∃ steps, codeSteps lx tabsize ['~'] code fragments = .ok steps ∧
        List.Forall₂ (fun f toks => ∃ ls, RowsOf (chars toks) ls ∧ List.Forall₂ (Shows lines) f ls) fragments steps := by
  intro h
  obtain ⟨steps, h1, h2⟩ := h 4 ['a', '\n', 'b'] [['a'], ['b']] ⟨by simp, by decide, rfl⟩ (by decide) [[none, some 1], [some 0, some 1]] (by
    intro f hf
    rcases List.mem_cons.mp hf with rfl | hf
    · exact ⟨by intro i hi; simp at hi; simp [hi], by simp⟩
    · rw [List.mem_singleton.mp hf]
      exact ⟨by intro i hi; simp at hi; simp; omega, by simp⟩)
  cases h2 with
  | @cons _ toks _ steps' h3 h4 =>
    obtain ⟨ls, k1, k2⟩ := h3
    have hb : boxCode (some lx) false false 4 ['~'] ['\n', 'b'] = .ok toks := by
      have e : getLines (splitOn '\n' ['a', '\n', 'b']) [none, some 1] = .ok [[], ['b']] := by decide
      have e' : List.intercalate ['\n'] [[], ['b']] = ['\n', 'b'] := by decide
      simp only [codeSteps, e, e'] at h1
      split at h1
      · cases h1
      · rename_i t ht
        split at h1
        · cases h1
        · injection h1 with h1
          injection h1 with h1 _
          rw [ht, h1]
    obtain ⟨r, hr, -, hc⟩ := C15_code_highlight lx hx 4 ['~'] '~' '{' '}' (.one _) ['\n', 'b'] (by decide) (by decide)
    rw [hb] at hr
    injection hr with hr
    subst hr
    have hs : stripNl (untab 4 ['\n', 'b']) = ['b'] := by decide
    rw [hs] at hc
    have := splitOn_rows k1
    rw [hc] at this
    have e : splitOn '\n' ['b'] = [['b']] := by decide
    rw [e] at this
    subst this
    have := k2.length_eq
    cases this

/-! ### where the lines are drawn -/

open Verif.Xml Verif.Xml.Spec Verif.Style Verif.TextItem Verif.TextItem.Spec
open Verif.CairoDraw (Pt Mat)
open Verif.SvgDraw.Spec (Numbers readTransform num)

theorem splitOn_replicate (n : Nat) (s : Str) : splitOn '\n' (List.replicate n '\n' ++ s) = List.replicate n [] ++ splitOn '\n' s := by
  induction n with
  | zero => rfl
  | succ n ih => rw [List.replicate_succ, List.replicate_succ, List.cons_append, List.cons_append, ← ih]; rw [splitOn, if_pos rfl]

theorem splitOn_prefix {s : Str} (h : '\n' ∉ s) {r l : Str} {ls : List Str} (hr : splitOn '\n' r = l :: ls) : splitOn '\n' (s ++ r) = (s ++ l) :: ls := by
  induction s with
  | nil => exact hr
  | cons c s ih =>
    have hc : c ≠ '\n' := fun e => h (e ▸ List.mem_cons_self)
    rw [List.cons_append, splitOn, if_neg hc, ih (fun e => h (.tail _ e))]
    rfl

theorem first_row {toks : List Tok} (hc : Clean toks) : ∃ l ls ms, splitOn '\n' (chars toks) = l :: ls ∧ lineTexts toks = l :: ms := by
  induction toks with
  | nil => exact ⟨[], [], [], rfl, rfl⟩
  | cons t toks ih =>
    obtain ⟨l, ls, ms, h1, h2⟩ := ih ⟨fun s hs => hc.1 s (.tail _ hs), fun n hn => hc.2 n (.tail _ hn)⟩
    cases t with
    | text s => exact ⟨s ++ l, ls, ms, splitOn_prefix (hc.1 s List.mem_cons_self).2 h1, by simp [lineTexts, h2]⟩
    | newline n =>
      have hn := hc.2 n List.mem_cons_self
      obtain ⟨m, rfl⟩ : ∃ m, n = m + 1 := ⟨n - 1, by omega⟩
      exact ⟨[], _, _, by rw [chars, splitOn_replicate, List.replicate_succ, List.cons_append], rfl⟩
    | opn n => exact ⟨l, ls, ms, h1, h2⟩
    | close => exact ⟨l, ls, ms, h1, h2⟩

theorem rows_head (r : Nat) (bs : List Nat) : (rows r bs)[0]? = some r := by cases bs <;> rfl

/-- The rows that are not empty are drawn, in their rows. -/
theorem drawn_rows {toks : List Tok} (hc : Clean toks) : ∀ {r k : Nat} {l : Str}, (splitOn '\n' (chars toks))[k]? = some l → l ≠ [] →
    ∃ j : Nat, (rows r (breaks toks))[j]? = some (r + k) ∧ (lineTexts toks)[j]? = some l := by
  induction toks with
  | nil =>
    intro r k l h hl
    cases k with
    | zero => injection h with h; exact absurd h.symm hl
    | succ k => cases h
  | cons t toks ih =>
    intro r k l h hl
    have hc' : Clean toks := ⟨fun s hs => hc.1 s (.tail _ hs), fun n hn => hc.2 n (.tail _ hn)⟩
    cases t with
    | text s =>
      obtain ⟨l0, ls, ms, h1, h2⟩ := first_row hc'
      rw [chars, splitOn_prefix (hc.1 s List.mem_cons_self).2 h1] at h
      cases k with
      | zero =>
        injection h with h
        exact ⟨0, rows_head _ _, by simp only [lineTexts, h2]; rw [← h]; rfl⟩
      | succ k =>
        obtain ⟨j, j1, j2⟩ := ih hc' (r := r) (k := k + 1) (l := l) (by rw [h1]; exact h) hl
        cases j with
        | zero => rw [show breaks (Tok.text s :: toks) = breaks toks from rfl] at *; rw [rows_head] at j1; injection j1 with j1; omega
        | succ j => exact ⟨j + 1, j1, by rw [h2] at j2; simp only [lineTexts, h2]; exact j2⟩
    | newline n =>
      rw [chars, splitOn_replicate] at h
      by_cases hk : k < n
      · rw [List.getElem?_append_left (by simpa using hk)] at h
        rw [List.getElem?_replicate, if_pos hk] at h
        injection h with h
        exact absurd h.symm hl
      · rw [List.getElem?_append_right (by simp; omega), List.length_replicate] at h
        obtain ⟨j, j1, j2⟩ := ih hc' (r := r + n) h hl
        refine ⟨j + 1, ?_, j2⟩
        rw [show r + k = r + n + (k - n) from by omega]
        exact j1
    | opn n => exact ih hc' h hl
    | close => exact ih hc' h hl

theorem safe_equal {styles : Str → Option TextStyle} {p : Rat} (toks : List Tok) : ∀ prev good, (∀ q ∈ prev, q = p) → (∀ g ∈ good, g = true) →
    (∀ n, Tok.opn n ∈ toks → ∃ s, styles n = some s ∧ s.priority = p) → SafeBreaks styles prev good toks := by
  induction toks with
  | nil => intro _ _ _ _ _; trivial
  | cons t toks ih =>
    intro prev good hp hg hn
    have hn' : ∀ n, Tok.opn n ∈ toks → ∃ s, styles n = some s ∧ s.priority = p := fun n h => hn n (.tail _ h)
    cases t with
    | text s => exact ih prev good hp hg hn'
    | newline n => exact ⟨by rw [List.all_eq_true]; exact hg, ih prev good hp hg hn'⟩
    | opn n =>
      obtain ⟨s, h1, h2⟩ := hn n List.mem_cons_self
      rw [SafeBreaks, h1]
      refine ih _ _ ?_ ?_ hn'
      · intro q hq
        rcases List.mem_cons.mp hq with rfl | hq
        · exact h2
        · exact hp q hq
      · intro g hg'
        rcases List.mem_cons.mp hg' with rfl | hg'
        · rw [List.all_eq_true]; intro q hq; rw [hp q hq, h2]; simp
        · exact hg g hg'
    | close => exact ih prev good.tail hp (fun g h => hg g (List.mem_of_mem_tail h)) hn'

theorem text_chars {toks : List Tok} {s : Str} (h : Tok.text s ∈ toks) : ∀ c ∈ s, c ∈ chars toks := by
  induction toks with
  | nil => cases h
  | cons t toks ih =>
    intro c hc
    rcases List.mem_cons.mp h with rfl | h
    · exact List.mem_append_left _ hc
    · have := ih h c hc
      cases t with
      | text s => exact List.mem_append_right _ this
      | newline n => exact List.mem_append_right _ this
      | opn n => exact this
      | close => exact this

theorem codeSteps_mem {lx : Lexer} {tabsize : Nat} {esc code : Str} : ∀ {fragments : List (List (Option Nat))} {steps : List (List Tok)}, codeSteps lx tabsize esc code fragments = .ok steps →
    List.Forall₂ (fun f toks => ∃ ls, getLines (splitOn '\n' code) f = .ok ls ∧ boxCode (some lx) false false tabsize esc (List.intercalate ['\n'] ls) = .ok toks) fragments steps := by
  intro fragments
  induction fragments with
  | nil => intro steps h; injection h with h; subst h; exact .nil
  | cons f fs ih =>
    intro steps h
    simp only [codeSteps] at h
    repeat' split at h
    all_goals first | (cases h; done) | skip
    rename_i _ ls h1 _ toks h2 _ ts h3
    injection h with h
    subst h
    exact .cons ⟨ls, h1, h2⟩ (ih h3)

/-- A text drawn in SVG shows the lines of a step, each line that is not empty at its place: `place k` is the point at which the line at place `k` is anchored. -/
def DrawnAt (fmt : Rat → Str) (read : Str → Option Rat) (ang : Rat → Rat × Rat) (rect : Rect) (item : Verif.TextItem.Item) (lines : List Str) (f : List (Option Nat)) (place : Nat → Pt) : Prop :=
  ∃ x s attrs first rest p tr m ps, render fmt {} rect item = .ok x ∧ x.toString = .ok s ∧
    readXml s = some (.elem "text".toList attrs (linesForest (first :: rest)) .nil) ∧
    num read attrs "x" = some p.1 ∧ num read attrs "y" = some p.2 ∧ anchors read p (rest.map (·.1)) = some ps ∧
    readTransform read (attrs.lookup "transform".toList) = some tr ∧ placement ang {} tr = some m ∧
    ∀ (k i : Nat) l, f[k]? = some (some i) → lines[i]? = some l → l ≠ [] →
      ∃ j : Nat, ((first :: rest).map (fun l => l.2.textOf))[j]? = some (nbsp l) ∧ (ps.map m.apply)[j]? = some (place k)

variable {fmt : Rat → Str} {read : Str → Option Rat}

/-- **C140, with a condition.** If all steps have as many places, and the first and the last of them show a line that is not empty, then in boxes at the same place every line is drawn at the same
point in all steps in which it is seen at that place (text styles all of the same priority, none of them missing; see C58). -/
theorem C140_places_partial (hn : Numbers fmt read) (ang : Rat → Rat × Rat) (rect : Rect) (lx : Lexer) (hx : Honours lx) (tabsize : Nat) (escapeChar : Str) (x b e : Char) (hd : Delims escapeChar x b e)
    (code : Str) (lines : List Str) (hl : RowsOf code lines) (hch : '\r' ∉ code ∧ '\t' ∉ code ∧ '﻿' ∉ code) (hxml : ∀ c ∈ code, xmlChar c = true) (fragments : List (List (Option Nat))) (places : Nat)
    (hf : ∀ f ∈ fragments, f.length = places ∧ InRange lines f ∧ Seen lines f.head? ∧ Seen lines f.getLast?)
    (steps : List (List Tok)) (hs : codeSteps lx tabsize escapeChar code fragments = .ok steps)
    (style : TextStyle) (size spacing : Rat) (hsize : style.size = some size) (hspace : style.lineSpacing = some spacing) (styles : Str → Option TextStyle) (rotation : Option Rat)
    (hs1 : StyleOk style) (hs2 : ∀ n s, styles n = some s → StyleOk s)
    (hal : style.align = some "left".toList ∨ style.align = some "middle".toList ∨ style.align = some "right".toList)
    (hsty : ∀ toks ∈ steps, ∀ n, Tok.opn n ∈ toks → ∃ s, styles n = some s ∧ s.priority = style.priority) (width : List Tok → Rat) :
    ∃ place : Nat → Pt, List.Forall₂ (fun f toks => ∃ t0, makeState (width toks) style toks false = .ok t0 ∧
      DrawnAt fmt read ang rect ⟨toks, style, styles, rotation, t0.onRect rect⟩ lines f place) fragments steps := by
  refine ⟨fun k => (turn ang rotation (rect.x + rect.width / 2, rect.y + rect.height / 2)).apply
    ((textX rect style.align).toOption.getD 0, rect.y + (rect.height - places * (size * spacing)) / 2 + size * spacing * k + size), ?_⟩
  refine List.forall₂_iff_get.mpr ⟨(codeSteps_mem hs).length_eq, fun i hi1 hi2 => ?_⟩
  have hm := List.Forall₂.get (codeSteps_mem hs) hi1 hi2
  have hfm : fragments.get ⟨i, hi1⟩ ∈ fragments := List.get_mem _ _
  have htm : steps.get ⟨i, hi2⟩ ∈ steps := List.get_mem _ _
  generalize fragments.get ⟨i, hi1⟩ = f at *
  generalize steps.get ⟨i, hi2⟩ = toks at *
  obtain ⟨f0, f1, f2, f3⟩ := hf f hfm
  obtain ⟨ls, toks', g1, g2, g3, g4, g5, g6, g7⟩ := step_toks lx hx tabsize escapeChar x b e hd code lines hl hch f f1 f2 f3
  obtain ⟨ls', k1, k2⟩ := hm
  rw [g1] at k1
  injection k1 with k1
  subst k1
  rw [g2] at k2
  injection k2 with k2
  subst k2
  have hrows := splitOn_rows g6
  have hlen : ls.length = places := by rw [← f0]; exact g7.length_eq.symm
  have hnum : numberOfLines toks' = places := by
    rw [C06_number_of_lines _ (fun r hr => (g4.1 r hr).2), ← hlen, ← hrows]
    have : ∀ s : Str, (splitOn '\n' s).length = 1 + s.count '\n' := by
      intro s
      induction s with
      | nil => rfl
      | cons c s ih =>
        rw [splitOn]
        split
        · rename_i hc; rw [List.length_cons, ih, hc, List.count_cons_self]; omega
        · rename_i hc
          rw [List.count_cons_of_ne hc, ← ih]
          split
          · rename_i h0; exact absurd h0 (Verif.Show.splitOn_ne _ _)
          · rename_i h0; rw [h0]; rfl
    rw [this]
  have hst : makeState (width toks') style toks' false = .ok { width := width toks', height := (places : Nat) * (size * spacing), scaleToFit := false } := by
    simp only [makeState, hsize, hspace, hnum]
  refine ⟨_, hst, ?_⟩
  have hplain : ∀ s, Tok.text s ∈ toks' → Plain s := by
    intro s hs c hc
    have h1 := text_chars hs c hc
    rw [g5] at h1
    have h2 : c ≠ '\n' := by rintro rfl; exact (g4.1 s hs).2 hc
    have h3 : c ∈ code := by
      rcases intercalate_mem h1 with h | ⟨l, hm, h⟩
      · exact absurd h h2
      · rcases shows_mem g7 l hm with rfl | h'
        · cases h
        · exact hl.2.2 ▸ mem_intercalate h' h
    exact ⟨hxml c h3, by rintro rfl; exact hch.1 h3⟩
  obtain ⟨x', s, attrs, first, rest, p, tr, m, ps, ax, size', r1, r2, r3, r4, r5, r6, r7, r8, r9, r10, r11, r12⟩ :=
    C102_lines hn ang rect (width toks') toks' style styles false rotation hst (by show (1 : Rat) > 1 / 100000; decide +kernel) hs1 hs2 g3
      (fun n hn h => by obtain ⟨s, h1, -⟩ := hsty toks' htm n hn; rw [h1] at h; cases h)
      (fun s hs c hc => hplain s hs c hc) hal (safe_equal toks' _ _ (p := style.priority) (by simp) (by simp) (hsty toks' htm))
  refine ⟨x', s, attrs, first, rest, p, tr, m, ps, r1, r2, r3, r5, r6, r7, r8, r9, ?_⟩
  intro k i l hk hi' hne
  have hlk : (splitOn '\n' (chars toks'))[k]? = some l := by
    rw [hrows]
    obtain ⟨hk1, hk2⟩ := List.getElem?_eq_some_iff.mp hk
    have hk3 : k < ls.length := by rw [hlen, ← f0]; exact hk1
    have := List.Forall₂.get g7 hk1 hk3
    simp only [List.get_eq_getElem, hk2, Shows, hi'] at this
    rw [List.getElem?_eq_getElem hk3]
    exact this.symm
  have hpos : (places : Rat) ≠ 0 := by
    have : 0 < places := by rw [← f0]; exact Nat.lt_of_le_of_lt (Nat.zero_le _) (List.getElem?_eq_some_iff.mp hk).1
    exact_mod_cast this.ne'
  obtain ⟨j, j1, j2⟩ := drawn_rows g4 (r := 0) hlk hne
  refine ⟨j, ?_, ?_⟩
  · rw [r4, List.getElem?_map, j2]; rfl
  · rw [r12, List.getElem?_map, j1, Nat.zero_add]
    have hsz : size' = size := by rw [hsize] at r10; injection r10 with r10; exact r10.symm
    have hax : ax = (textX rect style.align).toOption.getD 0 := by
      rcases r11 with ⟨a1, a2, -⟩ | ⟨a1, a2, -⟩ | ⟨a1, a2, -⟩
      · rw [a1, a2]; rfl
      · rw [a1, a2]; rfl
      · rw [a1, a2]; rfl
    subst hsz
    rw [← hax]
    simp only [Option.map_some]
    congr 3
    show (lineBox rect ((places : Nat) * (size' * spacing)) toks' k 1).1 + size' * 1 = _
    unfold lineBox
    simp only [hnum]
    rw [mul_one, mul_div_cancel_left₀ _ hpos]
    push_cast
    rfl

/-! ### the boxes of the steps -/

section
open Verif.Slide Verif.Slide.Spec Verif.Layout.Spec
open Verif.Layout (BoxArgs Arg Size overlayArgs)

theorem hundred (axis : Bool) : SizeSays (extentArg axis (overlayArgs {})) { ratio := some (((Verif.Show.Spec.numeralValue ['1', '0', '0'] : Nat) : Rat) / 100) } := by
  have h : SizeSays (.str (['1', '0', '0'] ++ ['%'])) { ratio := some (((Verif.Show.Spec.numeralValue ['1', '0', '0'] : Nat) : Rat) / 100) } := .text (.percent ⟨by decide, by decide⟩)
  cases axis <;> exact h

theorem largest_le {q B : Rat} {l : List Rat} (hq : q ≤ B) (h : ∀ x ∈ l, x ≤ B) : largest (q :: l) ≤ B := by
  simp only [largest]
  induction l generalizing q with
  | nil => exact hq
  | cons x l ih => exact ih (max_le hq (h x List.mem_cons_self)) (fun y hy => h y (.tail _ hy))

theorem fixOf {env : Verif.Layout.Env} {q o full self v : Rat} (h : Denotes env (.fix q) o full self v) : v = o + q := by cases h; rfl

/-- **C140**: the overlays made for the steps are where their parent is, if the texts in them are not larger. -/
theorem C140_overlays (w h : Rat) (cs : List Call) (s : State) (hr : run (newSlide w h) cs = .ok s) (width height : Rat) (env : Verif.Layout.Env) (he : s.rects width height = .ok env)
    (k p : Nat) (c : BoxCall) (hk : cs[k]? = some (.box p c)) (hc : c.layout = overlayArgs {}) (P : Rect) (hP : env p = some P) (hpos : 0 ≤ P.width ∧ 0 ≤ P.height)
    (hin : ∀ d ∈ cs, onBox d = k + 1 → ∃ tw th, d = .text (k + 1) tw th false ∧ tw ≤ P.width ∧ th ≤ P.height) : env (k + 1) = env p := by
  obtain ⟨need, n1, n2⟩ := C139_sizes w h cs s hr width height env he
  obtain ⟨P', R, hP', ⟨q, hq, hR⟩, hpl⟩ := C124_box w h cs s hr width height env he k p c hk
  rw [hP] at hP'; injection hP' with hP'; subst hP'
  have hRq : R = q := by
    rw [hR, hc]
    have e : ∀ q : Rect, Verif.Scene.Spec.padded (overlayArgs {}) q = q := by
      intro q
      simp [Verif.Scene.Spec.padded, overlayArgs, mostSpecific]
    exact e q
  subst hRq
  have hP0 : ∀ axis, 0 ≤ extent axis P := fun axis => by cases axis; exact hpos.2; exact hpos.1
  have hst : stackOf cs (k + 1) = [] := by
    unfold stackOf
    rw [List.filterMap_eq_nil_iff]
    intro v hv
    have hcr : ∃ k' c', v = 1 + k' ∧ cs[k']? = some (.box (k + 1) c') := by
      rcases List.mem_append.mp hv with hv | hv
      · exact createdIn_call (List.mem_reverse.mp hv)
      · exact createdIn_call hv
    obtain ⟨k', c', -, hk'⟩ := hcr
    obtain ⟨_, _, hd, -⟩ := hin _ (List.mem_of_getElem? hk') rfl
    cases hd
  have hneed : ∀ axis, need axis (k + 1) ≤ extent axis P := by
    intro axis
    rw [n1 axis (k + 1) c.layout _ (by simp [madeBy, hk]) (by rw [hc]; exact hundred axis) (by
      intro p' w' h' st hm hp'
      obtain ⟨_, _, hd, -⟩ := hin _ hm hp'
      cases hd)]
    have hpad : padsOf axis c.layout = 0 := by rw [hc]; cases axis <;> decide +kernel
    rw [hpad]
    refine largest_le (hP0 axis) ?_
    intro x hx
    obtain ⟨y, hy, rfl⟩ := List.mem_map.mp hx
    rw [add_zero]
    rcases List.mem_cons.mp hy with rfl | hy
    · unfold together
      rw [hst]
      dsimp only
      split
      · exact hP0 axis
      · exact hP0 axis
    · obtain ⟨d, hd, hdy⟩ := List.mem_filterMap.mp hy
      have hon : onBox d = k + 1 := by
        cases d with
        | text p' w' h' fit => simp only [asks] at hdy; split at hdy; (rename_i h'; exact h'.1); cases hdy
        | image p' w' h' st => simp only [asks] at hdy; split at hdy; (rename_i h'; exact h'); cases hdy
        | box => cases hdy
        | shape => cases hdy
      obtain ⟨tw, th, rfl, t1, t2⟩ := hin d hd hon
      simp only [asks, true_and, true_or, if_true, Option.some.injEq] at hdy
      rw [← hdy]
      cases axis
      · exact t2
      · exact t1
  have hext : ∀ axis, extent axis R = extent axis P := by
    intro axis
    obtain ⟨P', R', hP', ⟨q', hq', hR'⟩, -, h3⟩ := n2 k p c axis _ hk (by rw [hc]; exact hundred axis) rfl rfl
    rw [hP] at hP'; injection hP' with hP'; subst hP'
    rw [hq] at hq'; injection hq' with hq'; subst hq'
    rw [← hR] at hR'
    subst hR'
    rw [h3 _ rfl (by decide +kernel), show (((Verif.Show.Spec.numeralValue ['1', '0', '0'] : Nat) : Rat) / 100) = 1 from by decide +kernel, mul_one]
    exact max_eq_left (hneed axis)
  have hstart : ∀ axis, start axis R = start axis P := by
    intro axis
    have := (hpl axis).1 (.fix 0) (by rw [hc]; cases axis <;> exact .number) (fun _ _ => trivial)
    rw [fixOf this, add_zero]
  rw [hq, hP]
  congr 1
  have e1 := hstart true
  have e2 := hstart false
  have e3 := hext true
  have e4 := hext false
  obtain ⟨x1, y1, w1, h1⟩ := R
  obtain ⟨x2, y2, w2, h2⟩ := P
  simp only [start, extent, if_true, Bool.false_eq_true, if_false] at e1 e2 e3 e4
  rw [e1, e2, e3, e4]

end

/-! ### the example of the cookbook -/

def exLines : List Str := ["def my_abs(x):".toList, "  if x < 0:".toList, "     x = -x".toList, "  assert x >= 0".toList]

def exFragments : List (List (Option Nat)) := [[some 0, none, none, some 3], [some 0, some 1, none, some 3], [some 0, some 1, some 2, some 3]]

theorem exRows : RowsOf (List.intercalate ['\n'] exLines) exLines := ⟨List.cons_ne_nil _ _, by decide, rfl⟩

theorem exSteps : ∀ f ∈ exFragments, f.length = 4 ∧ InRange exLines f ∧ Seen exLines f.head? ∧ Seen exLines f.getLast? := by
  have hs0 : Seen exLines (some (some 0)) := ⟨0, _, rfl, rfl, by decide⟩
  have hs3 : Seen exLines (some (some 3)) := ⟨3, _, rfl, rfl, by decide⟩
  intro f hf
  simp only [exFragments, List.mem_cons, List.not_mem_nil, or_false] at hf
  rcases hf with rfl | rfl | rfl <;> refine ⟨rfl, ?_, hs0, hs3⟩ <;> intro i hi <;> simp at hi <;> simp [exLines] <;> omega

example : ∃ steps, codeSteps (fun code => [("Token.Text".toList, stripNl code ++ ['\n'])]) 4 ['~'] (List.intercalate ['\n'] exLines) exFragments = .ok steps ∧
    List.Forall₂ (fun f toks => ∃ ls, RowsOf (chars toks) ls ∧ List.Forall₂ (Shows exLines) f ls) exFragments steps :=
  C140_steps_partial _ honours_exists 4 ['~'] '~' '{' '}' (.one _) _ exLines exRows (by decide) exFragments (fun f hf => (exSteps f hf).2)

/-- The first step: the second and the third row are empty. -/
example : codeSteps (fun code => [("Token.Text".toList, stripNl code ++ ['\n'])]) 4 ['~'] (List.intercalate ['\n'] exLines) [[some 0, none, none, some 3]] =
    .ok [[.opn "pygments-Token.Text".toList, .text "def my_abs(x):".toList, .newline 3, .text "  assert x >= 0".toList, .close]] := by decide +kernel

def exTheme : Str → Option TextStyle := fun n => if n = "pygments-Token.Text".toList then some { color := some "green".toList } else none

/-- The conditions of `C140_places_partial` hold. -/
example (ang : Rat → Rat × Rat) (width : List Tok → Rat) : ∃ steps, codeSteps (fun code => [("Token.Text".toList, stripNl code ++ ['\n'])]) 4 ['~'] (List.intercalate ['\n'] exLines) exFragments = .ok steps ∧
    ∃ place : Nat → Pt, List.Forall₂ (fun f toks => ∃ t0, makeState (width toks) exStyle toks false = .ok t0 ∧
      DrawnAt SvgDraw.sampleFmt SvgDraw.sampleRead ang exRect ⟨toks, exStyle, exTheme, none, t0.onRect exRect⟩ exLines f place) exFragments steps := by
  have key : ∀ f ∈ exFragments, ∀ ls toks, getLines (splitOn '\n' (List.intercalate ['\n'] exLines)) f = .ok ls →
      boxCode (some (fun code => [("Token.Text".toList, stripNl code ++ ['\n'])])) false false 4 ['~'] (List.intercalate ['\n'] ls) = .ok toks →
      ∀ n, Tok.opn n ∈ toks → n = "pygments-Token.Text".toList := by
    intro f hf ls toks h1 h2 n hn
    have e : ∀ f ∈ exFragments, ∃ ls toks, getLines (splitOn '\n' (List.intercalate ['\n'] exLines)) f = .ok ls ∧
        boxCode (some (fun code => [("Token.Text".toList, stripNl code ++ ['\n'])])) false false 4 ['~'] (List.intercalate ['\n'] ls) = .ok toks ∧
        (toks.all (fun t => match t with | .opn n => n == "pygments-Token.Text".toList | _ => true)) = true := by
      intro f hf
      simp only [exFragments, List.mem_cons, List.not_mem_nil, or_false] at hf
      rcases hf with rfl | rfl | rfl
      · exact ⟨_, _, rfl, rfl, by decide +kernel⟩
      · exact ⟨_, _, rfl, rfl, by decide +kernel⟩
      · exact ⟨_, _, rfl, rfl, by decide +kernel⟩
    obtain ⟨ls', toks', g1, g2, g3⟩ := e f hf
    rw [g1] at h1; injection h1 with h1; subst h1
    rw [g2] at h2; injection h2 with h2; subst h2
    exact eq_of_beq (List.all_eq_true.mp g3 _ hn)
  obtain ⟨steps, h1, -⟩ := C140_steps_partial _ honours_exists 4 ['~'] '~' '{' '}' (.one _) _ exLines exRows (by decide) exFragments (fun f hf => (exSteps f hf).2)
  refine ⟨steps, h1, C140_places_partial SvgDraw.sampleNumbers ang exRect _ honours_exists 4 ['~'] '~' '{' '}' (.one _) _ exLines exRows (by decide) (by decide) exFragments 4 exSteps steps h1 exStyle 20 (6/5) rfl rfl
    exTheme none
    ⟨(by intro f h; injection h with h; subst h; exact okStr_of_decide (by decide)),
      (by intro f h; injection h with h; subst h; exact okStr_of_decide (by decide)), (by intro f h; cases h)⟩
    (by
      intro n s h
      simp only [exTheme] at h
      split at h
      · injection h with h; subst h
        exact ⟨(by intro f h; cases h), (by intro f h; injection h with h; subst h; exact okStr_of_decide (by decide)), (by intro f h; cases h)⟩
      · cases h)
    (.inr (.inr rfl)) ?_ width⟩
  intro toks ht n hn
  obtain ⟨f, hf, ls, k1, k2⟩ : ∃ f ∈ exFragments, ∃ ls, getLines (splitOn '\n' (List.intercalate ['\n'] exLines)) f = .ok ls ∧
      boxCode (some (fun code => [("Token.Text".toList, stripNl code ++ ['\n'])])) false false 4 ['~'] (List.intercalate ['\n'] ls) = .ok toks := by
    obtain ⟨i, hi⟩ := List.get_of_mem ht
    have hlen := (codeSteps_mem h1).length_eq
    have hi' : i.1 < exFragments.length := by rw [hlen]; exact i.2
    obtain ⟨ls, k1, k2⟩ := List.Forall₂.get (codeSteps_mem h1) hi' i.2
    exact ⟨_, List.get_mem _ _, ls, k1, by rw [k2]; exact congrArg _ hi⟩
  rw [key f hf ls toks k1 k2 n hn]
  exact ⟨{ color := some "green".toList }, rfl, rfl⟩

/-- The boxes of two steps in a box of size 200. -/
example : (match Verif.Slide.run (Verif.Slide.newSlide 400 300) [.box 0 { layout := { width := .num 200, height := .num 200 } },
      .box 1 { layout := Verif.Layout.overlayArgs {}, show_ := .int 1 }, .text 2 120 80 false, .box 1 { layout := Verif.Layout.overlayArgs {}, show_ := .int 2 }, .text 4 150 80 false] with
    | .ok s => (match s.rects 400 300 with | .ok env => [1, 2, 4].map env | .error _ => [])
    | .error _ => []) = [some ⟨100, 50, 200, 200⟩, some ⟨100, 50, 200, 200⟩, some ⟨100, 50, 200, 200⟩] := by decide +kernel

end Verif.CodeStep
