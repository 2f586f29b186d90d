import Verif.Spec.CairoInline
import Verif.Proofs.CairoText
import Verif.Proofs.TextLines
import Verif.Props.TextLines
import Verif.Props.DrawStyle
import Verif.Props.TextQuery
import Mathlib.Tactic.Linarith
import Mathlib.Tactic.Ring

/-! # Lemmas for C131 -/

namespace Verif.CairoInline
open Verif.Text Verif.Text.Spec Verif.Style Verif.Cairo Verif.Cairo.Spec Spec
open Verif.Xml.Spec (applied)
open Verif.CairoDraw (Layout)
open Verif.Scene (Ext buildLayout allAttributes attributes alignments)

/-! ### the loop over the characters -/

theorem total_append (adv : Char → TextStyle → Rat) (a b : List Cell) : total adv (a ++ b) = total adv a + total adv b := by
  induction a with
  | nil => simp [total]
  | cons c a ih => simp only [List.cons_append, total, ih]; ring

theorem sideBySide_append (adv : Char → TextStyle → Rat) (a b : List Cell) : ∀ off x,
    sideBySide adv off x (a ++ b) = sideBySide adv off x a ++ sideBySide adv (off + byteLength (a.map (·.1))) (x + total adv a) b := by
  induction a with
  | nil => intro off x; simp [sideBySide, byteLength, total]
  | cons c a ih =>
    intro off x
    simp only [List.cons_append, sideBySide, ih, List.map_cons, byteLength, total, Nat.add_assoc, Rat.add_assoc]

theorem scan_before (adv : Char → TextStyle → Rat) (start stop : Nat) (hs : start ≤ stop) (a : List Cell) (rest) : ∀ off x w,
    off + byteLength (a.map (·.1)) ≤ start → scan start stop (sideBySide adv off x a ++ rest) none w = scan start stop rest none w := by
  induction a with
  | nil => intro off x w _; rfl
  | cons c a ih =>
    intro off x w h
    have hp := c.1.utf8Size_pos
    simp only [List.map_cons, byteLength] at h
    simp only [sideBySide, List.cons_append, scan]
    rw [if_neg (by omega), if_neg (by omega)]
    exact ih _ _ _ (by omega)

theorem scan_inside (adv : Char → TextStyle → Rat) (start stop : Nat) (a : List Cell) (rest) (y : Rat) : ∀ off x w,
    start ≤ off → off + byteLength (a.map (·.1)) ≤ stop →
    scan start stop (sideBySide adv off x a ++ rest) (some y) w = scan start stop rest (some y) (w + total adv a) := by
  induction a with
  | nil => intro off x w _ _; simp [sideBySide, total]
  | cons c a ih =>
    intro off x w h1 h2
    have hp := c.1.utf8Size_pos
    simp only [List.map_cons, byteLength] at h2
    simp only [sideBySide, List.cons_append, scan]
    rw [if_pos (by omega), ih _ _ _ (by omega) (by omega)]
    simp only [total, Rat.add_assoc]

theorem scan_behind (adv : Char → TextStyle → Rat) (start stop : Nat) (a : List Cell) (y : Option Rat) (off : Nat) (x w : Rat) (h : stop ≤ off) :
    scan start stop (sideBySide adv off x a) y w = .ok (y, w) := by
  cases a with
  | nil => rfl
  | cons c a =>
    simp only [sideBySide, scan]
    rw [if_neg (by omega), if_pos (by omega)]

/-- The loop gives the position and the width of the characters between the two bytes. -/
theorem scan_section (adv : Char → TextStyle → Rat) (before sec rest : List Cell) (hne : sec ≠ []) :
    scan (byteLength (before.map (·.1))) (byteLength (before.map (·.1)) + byteLength (sec.map (·.1))) (sideBySide adv 0 0 (before ++ sec ++ rest)) none 0 =
      .ok (some (total adv before), total adv sec) := by
  rw [List.append_assoc, sideBySide_append, scan_before _ _ _ (by omega) _ _ _ _ _ (by omega), sideBySide_append]
  cases sec with
  | nil => exact absurd rfl hne
  | cons c cs =>
    have hp := c.1.utf8Size_pos
    simp only [sideBySide, List.cons_append, scan, List.map_cons, byteLength]
    rw [if_pos (by omega), if_pos (by omega), scan_inside _ _ _ _ _ _ _ _ _ (by omega) (by omega), scan_behind _ _ _ _ _ _ _ _ (by omega)]
    simp [total]

/-- Without characters the loop finds no position. -/
theorem scan_empty (adv : Char → TextStyle → Rat) (before rest : List Cell) :
    scan (byteLength (before.map (·.1))) (byteLength (before.map (·.1))) (sideBySide adv 0 0 (before ++ rest)) none 0 = .ok (none, 0) := by
  rw [sideBySide_append, scan_before _ _ _ (by omega) _ _ _ _ _ (by omega), scan_behind _ _ _ _ _ _ _ _ (by omega)]

/-! ### the styles of a text -/

/-- The styles that are open behind some tokens. -/
def stk (styles : Str → Option TextStyle) (base : TextStyle) : List (Option TextStyle) → List Tok → List (Option TextStyle)
  | st, [] => st
  | st, .opn n :: ts => stk styles base ((styles n).bind (applied (st ++ [some base])) :: st) ts
  | st, .close :: ts => stk styles base st.tail ts
  | st, .text _ :: ts => stk styles base st ts
  | st, .newline _ :: ts => stk styles base st ts

/-- Is the line empty behind some tokens? -/
def emp : Bool → List Tok → Bool
  | e, [] => e
  | e, .text s :: ts => emp (e && s.isEmpty) ts
  | e, .newline n :: ts => emp (if n = 0 then e else true) ts
  | e, .opn _ :: ts => emp e ts
  | e, .close :: ts => emp e ts

variable {styles : Str → Option TextStyle} {base : TextStyle}

theorem styledChars_append (st : List (Option TextStyle)) (e : Bool) (a b : List Tok) :
    styledChars styles base st e (a ++ b) = styledChars styles base st e a ++ styledChars styles base (stk styles base st a) (emp e a) b := by
  induction a generalizing st e with
  | nil => rfl
  | cons t a ih => cases t <;> simp [styledChars, stk, emp, ih]

theorem stk_append (st : List (Option TextStyle)) (a b : List Tok) : stk styles base st (a ++ b) = stk styles base (stk styles base st a) b := by
  induction a generalizing st with
  | nil => rfl
  | cons t a ih => cases t <;> simp [stk, ih]

theorem emp_append (e : Bool) (a b : List Tok) : emp e (a ++ b) = emp (emp e a) b := by
  induction a generalizing e with
  | nil => rfl
  | cons t a ih => cases t <;> simp [emp, ih]

/-- The stack of a list of open names, innermost first. -/
def stackOfNames (styles : Str → Option TextStyle) (base : TextStyle) : List Str → List (Option TextStyle)
  | [] => []
  | n :: ns => (styles n).bind (applied (stackOfNames styles base ns ++ [some base])) :: stackOfNames styles base ns

theorem stk_names (ns : List Str) (ts : List Tok) : stk styles base (stackOfNames styles base ns) ts = stackOfNames styles base (stackAfter ns ts) := by
  induction ts generalizing ns with
  | nil => rfl
  | cons t ts ih =>
    cases t with
    | text s => exact ih ns
    | newline n => exact ih ns
    | opn n => exact ih (n :: ns)
    | close => cases ns with
      | nil => exact ih []
      | cons n ns => exact ih ns

theorem stackAfter_opens (l : List Str) : ∀ ns, stackAfter ns (l.map .opn) = l.reverse ++ ns := by
  induction l with
  | nil => intro ns; rfl
  | cons a l ih => intro ns; simp only [List.map_cons, stackAfter, ih]; simp

theorem styledChars_opens (l : List Str) (st e) : styledChars styles base st e (l.map .opn) = [] := by
  induction l generalizing st with
  | nil => rfl
  | cons a l ih => exact ih _

theorem emp_opens (l : List Str) (e) : emp e (l.map .opn) = e := by
  induction l with
  | nil => rfl
  | cons a l ih => exact ih

theorem styledChars_closes (k : Nat) (st e) : styledChars styles base st e (List.replicate k .close) = [] := by
  induction k generalizing st with
  | zero => rfl
  | succ k ih => exact ih _

/-- Without line breaks it does not matter whether the line was empty. -/
theorem styledChars_nobreak (ts : List Tok) (h : ∀ k, Tok.newline k ∉ ts) : ∀ st e e', styledChars styles base st e ts = styledChars styles base st e' ts := by
  induction ts with
  | nil => intro st e e'; rfl
  | cons t ts ih =>
    have h' : ∀ k, Tok.newline k ∉ ts := fun k hk => h k (List.mem_cons_of_mem _ hk)
    intro st e e'
    cases t with
    | text s => simp only [styledChars]; rw [ih h']
    | newline n => exact absurd (by simp) (h n)
    | opn n => exact ih h' _ _ _
    | close => exact ih h' _ _ _

theorem emp_nobreak (ts : List Tok) (h : ∀ k, Tok.newline k ∉ ts) : ∀ e, emp e ts = (e && (textsOf ts).isEmpty) := by
  induction ts with
  | nil => intro e; simp [emp, textsOf]
  | cons t ts ih =>
    have h' : ∀ k, Tok.newline k ∉ ts := fun k hk => h k (List.mem_cons_of_mem _ hk)
    intro e
    cases t with
    | text s => simp only [emp, textsOf, ih h']; cases e <;> cases s <;> simp
    | newline n => exact absurd (by simp) (h n)
    | opn n => exact ih h' _
    | close => exact ih h' _

/-! ### layouts can be built -/

/-- A style from which attributes can be made. -/
def Sound (x : Ext) (s : TextStyle) : Prop := s.size.isSome = true ∧ s.font.isSome = true ∧ ∃ c, s.color = some c ∧ x.known c = true

theorem Sound.attributes {x : Ext} {s : TextStyle} (h : Sound x s) : attributes x s = .ok () := by
  obtain ⟨h1, h2, c, h3, h4⟩ := h
  obtain ⟨a, ha⟩ := Option.isSome_iff_exists.mp h1
  obtain ⟨b, hb⟩ := Option.isSome_iff_exists.mp h2
  simp [Verif.Scene.attributes, ha, hb, h3, h4]

theorem sound_over {x : Ext} {s t : TextStyle} (hs : Sound x s) (ht : ∀ c, t.color = some c → x.known c = true) : Sound x (over t s) := by
  obtain ⟨h1, h2, c, h3, h4⟩ := hs
  refine ⟨?_, ?_, ?_⟩
  · simp only [over]; cases t.size <;> simp [h1]
  · simp only [over]; cases t.font <;> simp [h2]
  · cases hc : t.color with
    | none => exact ⟨c, by simp [over, hc, h3], h4⟩
    | some d => exact ⟨d, by simp [over, hc], ht d hc⟩

theorem allAttributes_ok {x : Ext} {l : List (TextStyle × Nat × Nat)} (h : ∀ r ∈ l, Sound x r.1) : allAttributes x l = .ok () := by
  induction l with
  | nil => rfl
  | cons r l ih =>
    simp only [allAttributes, (h r (by simp)).attributes]
    exact ih (fun r hr => h r (List.mem_cons_of_mem _ hr))

/-- What the loop keeps. -/
structure AllSound (x : Ext) (st : St) : Prop where
  ranges : ∀ r ∈ st.ranges, Sound x r.1
  stack : ∀ s, some s ∈ st.base → Sound x s

theorem active_mem {l : List (Option TextStyle)} {s : TextStyle} (h : activeStyle l = .ok s) : some s ∈ l := by
  induction l with
  | nil => cases h
  | cons a l ih =>
    cases a with
    | none => exact List.mem_cons_of_mem _ (ih h)
    | some t => injection h with h; subst h; simp

theorem AllSound.push {x : Ext} {st : St} (h : AllSound x st) {s : TextStyle} (hs : Sound x s) : AllSound x (st.push s) where
  ranges := by
    intro r hr
    rcases List.mem_append.mp hr with hr | hr
    · exact h.ranges r hr
    · simp only [List.mem_singleton] at hr; subst hr; exact hs
  stack := h.stack

theorem loop_sound {x : Ext} {table : Str → Option TextStyle} (hc : ∀ n s c, table n = some s → s.color = some c → x.known c = true) (ts : List Tok) :
    ∀ st st', AllSound x st → loop table st ts = .ok st' → AllSound x st' := by
  induction ts with
  | nil => intro st st' h e; injection e with e; subst e; exact h
  | cons t ts ih =>
    intro st st' h e
    rw [loop] at e
    cases hst : stepTok table st t with
    | error err => rw [hst] at e; cases e
    | ok s1 =>
      rw [hst] at e
      refine ih s1 st' ?_ e
      cases t with
      | text s => injection hst with hst; subst hst; exact ⟨h.ranges, h.stack⟩
      | newline n =>
        injection hst with hst; subst hst
        rw [newlines_eq]
        exact ⟨h.ranges, h.stack⟩
      | opn n =>
        simp only [stepTok] at hst
        cases ha : activeStyle st.base with
        | error err => rw [ha] at hst; cases hst
        | ok cur =>
          rw [ha] at hst
          have hcur := h.stack cur (active_mem ha)
          have hp := h.push hcur
          dsimp only at hst
          have hnone : AllSound x { (st.push cur) with base := none :: (st.push cur).base } :=
            ⟨hp.ranges, by intro s hs; rcases List.mem_cons.mp hs with hs | hs; · cases hs
                           · exact hp.stack s hs⟩
          split at hst
          · injection hst with hst; subst hst; exact hnone
          · cases ht : table n with
            | none => rw [ht] at hst; cases hst
            | some this =>
              rw [ht] at hst
              dsimp only at hst
              split at hst
              · injection hst with hst; subst hst; exact hnone
              · injection hst with hst; subst hst
                refine ⟨hp.ranges, ?_⟩
                intro s hs
                rcases List.mem_cons.mp hs with hs | hs
                · injection hs with hs; subst hs
                  rw [compose_over]
                  exact sound_over hcur (hc n this · ht)
                · exact hp.stack s hs
      | close =>
        simp only [stepTok] at hst
        cases ha : activeStyle st.base with
        | error err => rw [ha] at hst; cases hst
        | ok cur =>
          rw [ha] at hst
          have hp := h.push (h.stack cur (active_mem ha))
          dsimp only at hst
          cases hb : (st.push cur).base with
          | nil => rw [hb] at hst; cases hst
          | cons a l =>
            rw [hb] at hst
            injection hst with hst; subst hst
            exact ⟨hp.ranges, fun s hs => hp.stack s (by rw [hb]; exact List.mem_cons_of_mem _ hs)⟩

theorem attributes_sound {x : Ext} {table : Str → Option TextStyle} {d style : TextStyle} {ts : List Tok} {text : Str} {ranges}
    (hc : ∀ n s c, table n = some s → s.color = some c → x.known c = true) (hs : Sound x (d.compose style))
    (h : getTextAndAttributes table d style ts = .ok (text, ranges)) : ∀ r ∈ ranges, Sound x r.1 := by
  unfold getTextAndAttributes at h
  cases hl : loop table { base := [some (d.compose style)] } ts with
  | error e => rw [hl] at h; cases h
  | ok st =>
    have hk := loop_sound hc ts _ st ⟨by simp, by intro s h; simp only [List.mem_singleton, Option.some.injEq] at h; subst h; exact hs⟩ hl
    rw [hl] at h
    dsimp only at h
    cases hg : st.base.getLast? with
    | none => rw [hg] at h; cases h
    | some o =>
      rw [hg] at h
      dsimp only at h
      have hmem : o ∈ st.base := List.mem_of_getLast? hg
      split at h
      · cases h
      · rename_i r hr
        split at h
        · cases h
        · split at h
          · cases h
          · injection h with h
            injection h with h1 h2
            subst h2
            split at hr
            · cases o with
              | none => cases hr
              | some s =>
                injection hr with hr; subst hr
                intro r hr
                rcases List.mem_append.mp hr with hr | hr
                · exact hk.ranges r hr
                · simp only [List.mem_singleton] at hr; subst hr; exact hk.stack s hmem
            · injection hr with hr; subst hr; exact hk.ranges

/-- The layout of a line. -/
theorem line_layout {x : Ext} {style : TextStyle} (hs : Settable x style styles base) (toks : List Tok) (hb : Balanced toks)
    (hk : ∀ n, Tok.opn n ∈ toks → n.head? = some '#' ∨ styles n ≠ none) :
    ∃ l : Layout, buildLayout x toks style styles 1 (some 1) (-1) = .ok l ∧ l.scale = some 1 ∧
      l.text = (cells styles base toks).map (·.1) ∧ bytesOfRanges l.ranges = bytesOf (cells styles base toks) := by
  obtain ⟨d, hd, hbase⟩ := hs.default
  obtain ⟨text, ranges, h1, h2, -, h3⟩ := C60_ranges styles d style toks hb hk
  rw [← hbase] at h2 h3
  have hcomp : d.compose style = base := by rw [compose_over, hbase]
  have hsound : Sound x base := ⟨hs.size, hs.font, hs.color⟩
  have hattr := allAttributes_ok (attributes_sound hs.colors (by rw [hcomp]; exact hsound) h1)
  have halign : base.align ∈ alignments := by
    rw [hbase]
    rcases hs.align with h | h | h <;> simp [over, h, alignments]
  -- the composed style composed again
  obtain ⟨sp, hsp, hsp1⟩ := hs.spacing
  obtain ⟨sz, hsz⟩ := Option.isSome_iff_exists.mp hs.size
  obtain ⟨ft, hft⟩ := Option.isSome_iff_exists.mp hs.font
  have hagain : over base d = base := by
    rw [hbase]
    unfold over
    congr 1
    · cases style.font <;> cases d.font <;> rfl
    · cases style.size <;> cases d.size <;> rfl
    · cases style.align <;> cases d.align <;> rfl
    · cases style.lineSpacing <;> cases d.lineSpacing <;> rfl
    · cases style.color <;> cases d.color <;> rfl
    · cases style.bold <;> cases d.bold <;> rfl
    · cases style.italic <;> cases d.italic <;> rfl
    · cases style.variantNumeric <;> cases d.variantNumeric <;> rfl
    · cases style.opacity <;> cases d.opacity <;> rfl
  have hcomp2 : d.compose base = base := by rw [compose_over, hagain]
  have h1' : getTextAndAttributes styles d base toks = .ok (text, ranges) := by
    rw [← h1]; unfold getTextAndAttributes; rw [hcomp, hcomp2]
  refine ⟨{ text := text, ranges := ranges, align := base.align, scale := some 1, spacing := (sp * sz - x.fontHeight base) * 1, width := -1 }, ?_, rfl, h2, h3⟩
  unfold buildLayout
  rw [hd]
  dsimp only
  rw [hcomp, if_neg (not_not.mpr halign), h1', ]
  dsimp only
  rw [hattr]
  dsimp only
  rw [hft, hsz, hsp]
  dsimp only
  rw [if_neg (not_lt.mpr hsp1)]

/-! ### the line of a section -/

open Verif.TextQuery.Spec (sectionLine)

theorem textsOf_opens (l : List Str) : textsOf (l.map .opn) = [] := by
  induction l with
  | nil => rfl
  | cons a l ih => exact ih

theorem textsOf_closes (k : Nat) : textsOf (List.replicate k .close) = [] := by
  induction k with
  | zero => rfl
  | succ k ih => exact ih

/-- The text of a section that ends in its line. -/
theorem sectionLine_ends_here (inner rest : List Tok) (h : ∀ k, Tok.newline k ∉ inner) : ∀ d, depth d inner = some 0 →
    sectionLine d (inner ++ .close :: rest) = textsOf inner := by
  induction inner with
  | nil => intro d hd; simp only [depth_nil, Option.some.injEq] at hd; subst hd; rfl
  | cons t ts ih =>
    have h' : ∀ k, Tok.newline k ∉ ts := fun k hk => h k (List.mem_cons_of_mem _ hk)
    intro d hd
    cases t with
    | text s => simp only [List.cons_append, sectionLine, textsOf]; rw [ih h' d (by simpa using hd)]
    | newline n => exact absurd (by simp) (h n)
    | opn n => simp only [List.cons_append, sectionLine, textsOf]; exact ih h' _ (by simpa using hd)
    | close =>
      cases d with
      | zero => cases hd
      | succ d => simp only [List.cons_append, sectionLine, textsOf]; exact ih h' _ (by simpa using hd)

/-- The text of a section that goes on behind its line. -/
theorem sectionLine_breaks (l : List Tok) (k : Nat) (rest : List Tok) (h : ∀ k, Tok.newline k ∉ l) : ∀ d d', depth d l = some d' →
    sectionLine d (l ++ .newline k :: rest) = textsOf l := by
  induction l with
  | nil => intro d d' _; cases d <;> rfl
  | cons t ts ih =>
    have h' : ∀ k, Tok.newline k ∉ ts := fun k hk => h k (List.mem_cons_of_mem _ hk)
    intro d d' hd
    cases t with
    | text s => simp only [List.cons_append, sectionLine, textsOf]; rw [ih h' d d' (by simpa using hd)]
    | newline n => exact absurd (by simp) (h n)
    | opn n => simp only [List.cons_append, sectionLine, textsOf]; exact ih h' _ d' (by simpa using hd)
    | close =>
      cases d with
      | zero => cases hd
      | succ d => simp only [List.cons_append, sectionLine, textsOf]; exact ih h' _ d' (by simpa using hd)

/-- The open names that `extract_line` puts before the line. -/
theorem opened_names {pre0 : List Tok} {opened : List Str}
    (h : ∀ rest, shown [] (pre0 ++ rest) = shown [] pre0 ++ shown [] (opened.map .opn ++ rest)) : stackAfter [] pre0 = opened.reverse := by
  have h := h [.text ['x']]
  rw [shown_append, shown_append] at h
  have h := List.append_cancel_left h
  have h0 : ∀ st, shown st (opened.map Tok.opn) = [] := by
    clear * -
    induction opened with
    | nil => intro st; rfl
    | cons a l ih => intro st; exact ih _
  rw [h0, stackAfter_opens] at h
  simpa [shown, mark] using h

theorem stackAfter_mem {n : Str} (ts : List Tok) : ∀ st, n ∈ stackAfter st ts → n ∈ st ∨ Tok.opn n ∈ ts := by
  induction ts with
  | nil => intro st h; exact .inl h
  | cons t ts ih =>
    intro st h
    cases t with
    | text s => rcases ih st h with h | h; exacts [.inl h, .inr (List.mem_cons_of_mem _ h)]
    | newline s => rcases ih st h with h | h; exacts [.inl h, .inr (List.mem_cons_of_mem _ h)]
    | opn m =>
      rcases ih _ h with h | h
      · rcases List.mem_cons.mp h with rfl | h
        · exact .inr (by simp)
        · exact .inl h
      · exact .inr (List.mem_cons_of_mem _ h)
    | close =>
      rcases ih _ h with h | h
      · exact .inl (List.mem_of_mem_tail h)
      · exact .inr (List.mem_cons_of_mem _ h)

/-- The tokens of the extracted line: the line of the text between what was open and what remains open. -/
theorem section_tokens {pre : List Tok} {n : Str} {inner post : List Tok} (hb : Balanced (pre ++ .opn n :: inner ++ .close :: post)) (hpre : Balanced pre) (hin : Balanced inner) :
    ∃ (pre0 l1 : List Tok) (opened : List Str) (I T : List Tok),
      pre = pre0 ++ l1 ∧ (pre0 = [] ∨ ∃ p k, pre0 = p ++ [.newline k]) ∧ (∀ k, Tok.newline k ∉ l1) ∧ opened.reverse = stackAfter [] pre0 ∧
      extractLine (pre ++ .opn n :: inner ++ .close :: post) pre.length =
        .ok ((opened.map .opn ++ l1) ++ .opn n :: I ++ .close :: T, (((opened.map Tok.opn ++ l1).length : Nat) : Int)) ∧
      Balanced ((opened.map .opn ++ l1) ++ .opn n :: I ++ .close :: T) ∧ Balanced (opened.map .opn ++ l1) ∧ Balanced I ∧
      ((∃ l3 post0 k, I = inner ∧ (∀ k, Tok.newline k ∉ inner) ∧ T = l3 ++ List.replicate k .close ∧ (∀ k, Tok.newline k ∉ l3) ∧ post = l3 ++ post0 ∧
          (post0 = [] ∨ ∃ k q, post0 = .newline k :: q)) ∨
        ∃ l2 k q d, inner = l2 ++ .newline k :: q ∧ (∀ k, Tok.newline k ∉ l2) ∧ depth 0 l2 = some d ∧ I = l2 ++ List.replicate d .close ∧ T = []) := by
  have hi : (pre ++ .opn n :: inner ++ .close :: post)[pre.length]? = some (.opn n) := by simp
  obtain ⟨pre0, line, post0, opened, result, j, htoks, hp0, hnl, hpost, hle, hlt, hex, hres, hbal, hrj, hj, hsh, -⟩ :=
    C10_extract_line _ hb pre.length (.opn n) hi (by intro n h; cases h)
  generalize hm : result.length - opened.length - line.length = m at hres
  have hst := opened_names hsh
  -- the beginning of the line
  obtain ⟨l1, hl1⟩ : ∃ l1, pre = pre0 ++ l1 := by
    have h1 : pre0 <+: pre ++ (.opn n :: inner ++ .close :: post) := ⟨line ++ post0, by rw [← List.append_assoc, ← htoks]; simp⟩
    obtain ⟨l1, h⟩ := List.prefix_of_prefix_length_le h1 (List.prefix_append _ _) hle
    exact ⟨l1, h.symm⟩
  subst hl1
  have htoks : l1 ++ (.opn n :: (inner ++ .close :: post)) = line ++ post0 := by
    have : pre0 ++ (l1 ++ (.opn n :: (inner ++ .close :: post))) = pre0 ++ (line ++ post0) := by simpa using htoks
    exact List.append_cancel_left this
  simp only [List.length_append] at hlt hj
  obtain ⟨l2, rfl⟩ : ∃ l2, line = l1 ++ .opn n :: l2 := by
    have h1 : l1 ++ [.opn n] <+: line ++ post0 := ⟨inner ++ .close :: post, by rw [← htoks]; simp⟩
    obtain ⟨l2, h⟩ := List.prefix_of_prefix_length_le h1 (List.prefix_append _ _) (by simp; omega)
    exact ⟨l2, by rw [← h]; simp⟩
  have htoks : inner ++ .close :: post = l2 ++ post0 := by
    have h1 : (l1 ++ [.opn n]) ++ (inner ++ .close :: post) = (l1 ++ [.opn n]) ++ (l2 ++ post0) := by simpa using htoks
    exact List.append_cancel_left h1
  have hj' : j = (opened.map Tok.opn ++ l1).length := by simp; omega
  have hnl1 : ∀ k, Tok.newline k ∉ l1 := fun k h => hnl k (by simp [h])
  have hnl2 : ∀ k, Tok.newline k ∉ l2 := fun k h => hnl k (by simp [h])
  -- depths
  have hdpre := depth_of_balanced hpre 0
  rw [depth_append] at hdpre
  obtain ⟨d0, hd0⟩ : ∃ d0, depth 0 pre0 = some d0 := by
    cases h : depth 0 pre0 with
    | none => rw [h] at hdpre; cases hdpre
    | some d => exact ⟨d, rfl⟩
  have hlen : opened.length = d0 := by
    have := stackAfter_length pre0 [] d0 hd0
    rw [hst] at this; simpa using this
  rw [hd0, Option.bind_some] at hdpre
  have hP : depth 0 (opened.map Tok.opn ++ l1) = some 0 := by
    rw [depth_append, depth_opens]
    simp [hlen, hdpre]
  have hPb := balanced_of_depth _ hP
  have hdres := depth_of_balanced hbal 0
  rw [hres] at hdres
  have hdin := depth_of_balanced hin
  refine ⟨pre0, l1, opened, ?_⟩
  rcases List.append_eq_append_iff.mp htoks with ⟨x, hx1, hx2⟩ | ⟨x, hx1, hx2⟩
  · -- the section ends in the line
    cases x with
    | nil =>
      -- then the rest begins with the end of the section
      rw [List.nil_append] at hx2
      rcases hpost with h | ⟨k, q, h⟩
      · rw [h] at hx2; cases hx2
      · rw [h] at hx2; cases hx2
    | cons t x =>
      rw [List.cons_append] at hx2
      injection hx2 with ht hx2
      subst ht hx2 hx1
      have hr : result = (opened.map .opn ++ l1) ++ .opn n :: inner ++ .close :: (x ++ List.replicate m .close) := by rw [hres]; simp
      refine ⟨inner, x ++ List.replicate m .close, rfl, hp0, hnl1, hst.symm, ?_, ?_, hPb, hin, .inl ⟨x, post0, m, rfl, ?_, rfl, ?_, rfl, hpost⟩⟩
      · rw [hex, hr, hj']
      · rw [← hr]; exact hbal
      · intro k h; exact hnl2 k (by simp [h])
      · intro k h; exact hnl2 k (by simp [h])
  · -- it goes on
    obtain ⟨k, q, rfl⟩ : ∃ k q, x = .newline k :: q := by
      cases x with
      | nil =>
        rw [List.nil_append] at hx2
        rcases hpost with h | ⟨k, q, h⟩
        · rw [h] at hx2; cases hx2
        · rw [h] at hx2; cases hx2
      | cons t x =>
        rcases hpost with h | ⟨k, q, h⟩
        · rw [h] at hx2; cases hx2
        · rw [h, List.cons_append] at hx2; injection hx2 with ht _; exact ⟨k, x, by rw [ht]⟩
    subst hx1
    have hdl := hdin 0
    rw [depth_append] at hdl
    obtain ⟨d, hd⟩ : ∃ d, depth 0 l2 = some d := by
      cases h : depth 0 l2 with
      | none => rw [h] at hdl; cases hdl
      | some d => exact ⟨d, rfl⟩
    have hdm : m = d + 1 := by
      rw [List.append_assoc, depth_append, depth_opens, Option.bind_some, List.append_assoc, depth_append] at hdres
      rw [show 0 + opened.length = d0 by omega, hdpre] at hdres
      simp only [Option.bind_some, List.cons_append, depth_opn] at hdres
      rw [depth_append, depth_add l2 0 d 1 hd, Option.bind_some] at hdres
      have hcl : ∀ m d, depth d (List.replicate m Tok.close) = some 0 → m = d := by
        clear * -
        intro m
        induction m with
        | zero => intro d h; simpa using h.symm
        | succ m ih =>
          intro d h
          cases d with
          | zero => cases h
          | succ d => rw [ih d (by simpa [List.replicate_succ] using h)]
      exact hcl _ _ hdres
    have hr : result = (opened.map .opn ++ l1) ++ .opn n :: (l2 ++ List.replicate d .close) ++ .close :: [] := by
      rw [hres, hdm, List.replicate_succ']; simp
    have hI : Balanced (l2 ++ List.replicate d .close) := by
      apply balanced_of_depth
      rw [depth_append, hd, Option.bind_some]
      clear * -
      induction d with
      | zero => simp
      | succ d ih => simpa [List.replicate_succ] using ih
    refine ⟨l2 ++ List.replicate d .close, [], rfl, hp0, hnl1, hst.symm, ?_, ?_, hPb, hI, .inr ⟨l2, k, q, d, rfl, hnl2, hd, rfl, rfl⟩⟩
    · rw [hex, hr, hj']
    · rw [← hr]; exact hbal

/-- The characters of the extracted line are those of the line of the text, with the same looks; the part of the section in it is what `InLine` says. -/
theorem section_cells {pre : List Tok} {n : Str} {inner post : List Tok} (hs : Stream styles (pre ++ .opn n :: inner ++ .close :: post)) (hpre : Balanced pre) (hin : Balanced inner) :
    ∃ P I T before sec rest, extractLine (pre ++ .opn n :: inner ++ .close :: post) pre.length = .ok (P ++ .opn n :: I ++ .close :: T, ((P.length : Nat) : Int)) ∧
      Balanced (P ++ .opn n :: I ++ .close :: T) ∧ Balanced P ∧ Balanced I ∧
      (∀ t ∈ P ++ .opn n :: I ++ .close :: T, t = .close ∨ t ∈ pre ++ .opn n :: inner ++ .close :: post) ∧
      (∀ k, Tok.newline k ∉ P ++ .opn n :: I ++ .close :: T) ∧
      cells styles base (P ++ .opn n :: I ++ .close :: T) = before ++ sec ++ rest ∧
      before.map (·.1) = textsOf P ∧ sec.map (·.1) = textsOf I ∧
      textsOf I = sectionLine 0 (inner ++ .close :: post) ∧
      (textsOf I ≠ [] → InLine styles base pre n inner post before sec rest) := by
  obtain ⟨pre0, l1, opened, I, T, rfl, hp0, hnl1, hst, hex, hbal, hPb, hIb, hcase⟩ := section_tokens hs.balanced hpre hin
  have hdin := depth_of_balanced hin
  -- what is in the line
  have hmem : ∀ t ∈ (opened.map .opn ++ l1) ++ .opn n :: I ++ .close :: T, t = .close ∨ t ∈ (pre0 ++ l1) ++ .opn n :: inner ++ .close :: post := by
    intro t ht
    simp only [List.mem_append, List.mem_cons, List.mem_map] at ht ⊢
    rcases ht with ((⟨m, hm, rfl⟩ | ht) | rfl | ht) | rfl | ht
    · right
      have : m ∈ stackAfter [] pre0 := by rw [← hst]; simpa using hm
      rcases stackAfter_mem _ _ this with h | h
      · cases h
      · simp [h]
    · right; simp [ht]
    · right; simp
    · rcases hcase with ⟨l3, post0, k, rfl, -, rfl, -, rfl, -⟩ | ⟨l2, k, q, d, rfl, -, -, rfl, rfl⟩
      · right; simp [ht]
      · rcases List.mem_append.mp ht with ht | ht
        · right; simp [ht]
        · left; exact List.eq_of_mem_replicate ht
    · left; rfl
    · rcases hcase with ⟨l3, post0, k, rfl, -, rfl, -, rfl, -⟩ | ⟨l2, k, q, d, rfl, -, -, rfl, rfl⟩
      · rcases List.mem_append.mp ht with ht | ht
        · right; simp [ht]
        · left; exact List.eq_of_mem_replicate ht
      · cases ht
  have hnlI : ∀ k, Tok.newline k ∉ I := by
    rcases hcase with ⟨l3, post0, k, rfl, h, rfl, -, rfl, -⟩ | ⟨l2, k, q, d, rfl, h, -, rfl, rfl⟩
    · exact h
    · intro k hk
      rcases List.mem_append.mp hk with hk | hk
      · exact h k hk
      · cases List.eq_of_mem_replicate hk
  have hnlT : ∀ k, Tok.newline k ∉ T := by
    rcases hcase with ⟨l3, post0, k, rfl, -, rfl, h, rfl, -⟩ | ⟨l2, k, q, d, rfl, -, -, rfl, rfl⟩
    · intro k hk
      rcases List.mem_append.mp hk with hk | hk
      · exact h k hk
      · cases List.eq_of_mem_replicate hk
    · intro k hk; cases hk
  have hnlP : ∀ k, Tok.newline k ∉ opened.map Tok.opn ++ l1 := by
    intro k hk
    rcases List.mem_append.mp hk with hk | hk
    · obtain ⟨_, _, h⟩ := List.mem_map.mp hk; cases h
    · exact hnl1 k hk
  have hnl : ∀ k, Tok.newline k ∉ (opened.map .opn ++ l1) ++ .opn n :: I ++ .close :: T := by
    intro k hk
    rcases List.mem_append.mp hk with hk | hk
    · rcases List.mem_append.mp hk with hk | hk
      · exact hnlP k hk
      · rcases List.mem_cons.mp hk with hk | hk
        · cases hk
        · exact hnlI k hk
    · rcases List.mem_cons.mp hk with hk | hk
      · cases hk
      · exact hnlT k hk
  -- the states
  let S := styledChars (noMarkers styles) base
  let st0 := stk (noMarkers styles) base [] pre0
  have hst0 : stk (noMarkers styles) base [] (opened.map .opn) = st0 := by
    have h1 := stk_names (styles := noMarkers styles) (base := base) [] (opened.map .opn)
    have h2 := stk_names (styles := noMarkers styles) (base := base) [] pre0
    rw [stackAfter_opens, List.append_nil, hst] at h1
    exact h1.trans h2.symm
  have he0 : emp true pre0 = true := by
    rcases hp0 with rfl | ⟨p, k, rfl⟩
    · rfl
    · rw [emp_append]
      have := hs.breaks k (by simp)
      simp [emp, this]
  let st1 := stk (noMarkers styles) base st0 l1
  let st2 := (noMarkers styles n).bind (applied (st1 ++ [some base])) :: st1
  let st3 := (stk (noMarkers styles) base st2 I).tail
  have hbefore : cells styles base (opened.map .opn ++ l1) = S st0 true l1 := by
    show styledChars _ _ _ _ _ = _
    rw [styledChars_append, styledChars_opens, hst0, emp_opens]; rfl
  have hline : cells styles base ((opened.map .opn ++ l1) ++ .opn n :: I ++ .close :: T) = S st0 true l1 ++ S st2 true I ++ S st3 true T := by
    show styledChars _ _ _ _ _ = _
    rw [List.append_assoc, styledChars_append, stk_append, hst0, show styledChars (noMarkers styles) base [] true (opened.map .opn ++ l1) = _ from hbefore,
      List.append_assoc]
    congr 1
    simp only [List.cons_append, styledChars]
    rw [styledChars_append]
    congr 1
    · exact styledChars_nobreak I hnlI _ _ _
    · simp only [styledChars]
      exact styledChars_nobreak T hnlT _ _ _
  refine ⟨opened.map .opn ++ l1, I, T, S st0 true l1, S st2 true I, S st3 true T, hex, hbal, hPb, hIb, hmem, hnl, hline, ?_, ?_, ?_, ?_⟩
  · rw [C60_text _ _ _ hnl1, textsOf_append, textsOf_opens]; rfl
  · exact C60_text _ _ _ hnlI _ _
  · rcases hcase with ⟨l3, post0, k, rfl, h, rfl, -, rfl, -⟩ | ⟨l2, k, q, d, rfl, h, hd, rfl, rfl⟩
    · rw [sectionLine_ends_here _ _ h 0 (hdin 0)]
    · rw [List.append_assoc, List.cons_append, sectionLine_breaks _ _ _ h 0 d hd, textsOf_append, textsOf_closes, List.append_nil]
  · intro hne
    have hpreC : cells styles base (pre0 ++ l1) = cells styles base pre0 ++ S st0 true l1 := by
      show styledChars _ _ _ _ _ = _
      rw [styledChars_append, he0]; rfl
    have hemp : ∀ e ts, (∀ k, Tok.newline k ∉ ts) → textsOf ts ≠ [] → emp e ts = false := by
      intro e ts h1 h2
      rw [emp_nobreak ts h1]
      cases h : textsOf ts with
      | nil => exact absurd h h2
      | cons a b => simp
    have hfirst : cells styles base pre0 = [] ∨ ∃ A' t, cells styles base pre0 = A' ++ [('\n', t)] := by
      rcases hp0 with h | ⟨p, k, h⟩
      · left; rw [h]; rfl
      · right
        have hk := hs.breaks k (by rw [h]; simp)
        have hbt : ∀ k e, k ≠ 0 → ∃ s, breakText k e = s ++ ['\n'] := by
          clear * -
          intro k
          induction k with
          | zero => intro e h; exact absurd rfl h
          | succ k ih =>
            intro e _
            by_cases hk : k = 0
            · subst hk; cases e
              · exact ⟨[], rfl⟩
              · exact ⟨['⠀'], rfl⟩
            · obtain ⟨s, hs⟩ := ih true hk
              cases e
              · exact ⟨'\n' :: s, by simp [breakText, hs]⟩
              · exact ⟨'⠀' :: '\n' :: s, by simp [breakText, hs]⟩
        have : cells styles base pre0 = styledChars (noMarkers styles) base [] true p ++ (breakText k (emp true p)).map (fun c => (c, look base (stk (noMarkers styles) base [] p))) := by
          rw [h]
          show styledChars _ _ _ _ _ = _
          rw [styledChars_append]
          simp [styledChars]
        obtain ⟨s, hs⟩ := hbt k (emp true p) hk
        exact ⟨_, _, by rw [this, hs, List.map_append, ← List.append_assoc]; rfl⟩
    have hbreak : ∀ st k q, k ≠ 0 → ∃ t m, S st false (.newline k :: q) = ('\n', t) :: m := by
      intro st k q hk
      cases k with
      | zero => exact absurd rfl hk
      | succ k => exact ⟨_, _, by simp only [S, styledChars, breakText, List.map_cons, List.cons_append]; rfl⟩
    have hmemL : ∀ c ∈ S st0 true l1 ++ S st2 true I ++ S st3 true T, c.1 ≠ '\n' := by
      intro c hc hcn
      rw [← hline] at hc
      have h1 : c.1 ∈ (cells styles base ((opened.map .opn ++ l1) ++ .opn n :: I ++ .close :: T)).map (·.1) := List.mem_map_of_mem hc
      have h2 : c.1 ∈ textsOf ((opened.map .opn ++ l1) ++ .opn n :: I ++ .close :: T) := by
        rw [← C60_text (noMarkers styles) base _ hnl [] true]; exact h1
      have hto : ∀ (l : List Tok) (c : Char), c ∈ textsOf l → ∃ s, Tok.text s ∈ l ∧ c ∈ s := by
        clear * -
        intro l
        induction l with
        | nil => intro c h; cases h
        | cons t l ih =>
          intro c h
          cases t with
          | text s =>
            rcases List.mem_append.mp h with h | h
            · exact ⟨s, by simp, h⟩
            · obtain ⟨s', h1, h2⟩ := ih c h; exact ⟨s', List.mem_cons_of_mem _ h1, h2⟩
          | newline k => obtain ⟨s', h1, h2⟩ := ih c h; exact ⟨s', List.mem_cons_of_mem _ h1, h2⟩
          | opn k => obtain ⟨s', h1, h2⟩ := ih c h; exact ⟨s', List.mem_cons_of_mem _ h1, h2⟩
          | close => obtain ⟨s', h1, h2⟩ := ih c h; exact ⟨s', List.mem_cons_of_mem _ h1, h2⟩
      obtain ⟨s, h3, h4⟩ := hto _ _ h2
      rcases hmem _ h3 with h | h
      · cases h
      · refine hs.texts s h c.1 h4 ?_
        rw [hcn]; decide
    rcases hcase with ⟨l3, post0, k, rfl, hni, rfl, hn3, rfl, hpost⟩ | ⟨l2, k, q, d, rfl, hn2, hd, rfl, rfl⟩
    · -- the section ends in this line
      have hT : S st3 true (l3 ++ List.replicate k .close) = S st3 true l3 := by
        show styledChars _ _ _ _ _ = _
        rw [styledChars_append, styledChars_closes, List.append_nil]
      have e1 : emp (emp true l1) I = false := hemp _ _ hni hne
      refine ⟨cells styles base pre0, S (stk (noMarkers styles) base st3 l3) false post0, [], ?_, hfirst, ?_, hmemL, hpreC, ?_, .inl rfl⟩
      · show styledChars _ _ _ _ _ = _
        rw [List.append_assoc, styledChars_append, show styledChars (noMarkers styles) base [] true (pre0 ++ l1) = _ from hpreC, hT]
        have e2 : stk (noMarkers styles) base [] (pre0 ++ l1) = st1 := by rw [stk_append]
        have e3 : emp true (pre0 ++ l1) = emp true l1 := by rw [emp_append, he0]
        rw [e2, e3]
        simp only [List.cons_append, styledChars]
        rw [styledChars_append, e1]
        simp only [styledChars]
        rw [styledChars_append, emp_nobreak l3 hn3]
        rw [styledChars_nobreak I hni _ (emp true l1) true, styledChars_nobreak l3 hn3 _ false true]
        simp only [Bool.false_and, List.append_assoc]
        rfl
      · rcases hpost with rfl | ⟨k', q, rfl⟩
        · exact .inl rfl
        · exact .inr (hbreak _ _ _ (hs.breaks k' (by simp)))
      · show styledChars _ _ _ _ _ = _
        rw [styledChars_append, show styledChars (noMarkers styles) base [] true (pre0 ++ l1) = _ from hpreC]
        have e2 : stk (noMarkers styles) base [] (pre0 ++ l1) = st1 := by rw [stk_append]
        rw [e2]
        simp only [styledChars]
        rw [styledChars_nobreak I hni _ _ true, List.append_nil]
    · -- the section goes on behind this line
      have hI : S st2 true (l2 ++ List.replicate d .close) = S st2 true l2 := by
        show styledChars _ _ _ _ _ = _
        rw [styledChars_append, styledChars_closes, List.append_nil]
      have hne2 : textsOf l2 ≠ [] := by
        rw [textsOf_append, textsOf_closes, List.append_nil] at hne; exact hne
      have e1 : emp (emp true l1) l2 = false := hemp _ _ hn2 hne2
      have e2 : stk (noMarkers styles) base [] (pre0 ++ l1) = st1 := by rw [stk_append]
      have e3 : emp true (pre0 ++ l1) = emp true l1 := by rw [emp_append, he0]
      have hk := hs.breaks k (by simp)
      refine ⟨cells styles base pre0, S (stk (noMarkers styles) base st2 l2) false (.newline k :: (q ++ .close :: post)), S (stk (noMarkers styles) base st2 l2) false (.newline k :: q), ?_, hfirst,
        .inr (hbreak _ _ _ hk), hmemL, hpreC, ?_, .inr (hbreak _ _ _ hk)⟩
      · show styledChars _ _ _ _ _ = _
        rw [List.append_assoc, styledChars_append, show styledChars (noMarkers styles) base [] true (pre0 ++ l1) = _ from hpreC, hI, e2, e3]
        simp only [List.cons_append]
        rw [styledChars, show l2 ++ Tok.newline k :: q ++ Tok.close :: post = l2 ++ (Tok.newline k :: (q ++ Tok.close :: post)) by simp, styledChars_append, e1,
          styledChars_nobreak l2 hn2 _ (emp true l1) true]
        simp only [List.append_assoc]
        rfl
      · show styledChars _ _ _ _ _ = _
        rw [styledChars_append, show styledChars (noMarkers styles) base [] true (pre0 ++ l1) = _ from hpreC, hI, e2, e3]
        rw [styledChars, styledChars_append, e1, styledChars_nobreak l2 hn2 _ (emp true l1) true]
        simp only [List.append_assoc]
        rfl

end Verif.CairoInline
