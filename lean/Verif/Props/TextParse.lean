import Verif.Proofs.TextAdj
import Mathlib.Data.List.Infix
import Mathlib.Data.List.DropRight
import Mathlib.Logic.Equiv.Basic

/-!
# Properties C01-C08: parsing inline markup

Python: `parse_text`, reached through `box.text` and `box.code`.
`parseText esc b e s` is `parse_text(s, escape_char=esc, begin_char=b, end_char=e)`.
-/

namespace Verif.Text
open Spec

/-- **C01.** A document written with inline styles is parsed to its token stream, simplified
to the normal form: the result is reached from the document's tokens by simplification steps
and is a normal form without adjacent runs. -/
theorem C01_parse_source (x b e : Char) (hxe : x ≠ e) (hx : x ≠ '\n') (he : e ≠ '\n') (d : Doc)
    (hd : d.Writable x b e) :
    ∃ toks, parseText (some x) b e (d.source x b e) = .ok toks ∧
      Simplifies d.tokens toks ∧ NormalForm toks ∧
      ∀ a s t b, toks ≠ a ++ .text s :: .text t :: b := by
  obtain ⟨pre, cur, hcur, h1, h2, h3⟩ := doc_scan x b e hxe hx he d hd [] 0 [] (by simp)
  simp only [List.append_nil] at h1 h2
  rw [scan_nil] at h1 h2
  simp only at h2
  have h3' := h3 [] []
  simp [pend] at h3'
  have hdep := scan_depth (some x) b e (d.source x b e) [] 0
  obtain ⟨toks, ht⟩ := normalize_ok hdep
  have hp : parseText (some x) b e (d.source x b e) = .ok toks := by
    simp [parseText, h2, ht]
  refine ⟨toks, hp, ?_, normalize_nf ht, parse_no_adjacent hp⟩
  have hs := normalize_simplifies (by rw [← normalize_de] at ht; exact ht)
  refine Simplifies.trans ?_ hs
  rw [h1]
  have : de (splitTexts (if cur = [] then [] else [Tok.text cur.reverse])) = pend cur := by
    by_cases hc : cur = []
    · simp [hc, splitTexts, de, pend]
    · have := de_splitText_pend hcur
      simpa [hc, splitTexts] using this
  rw [this]
  simpa [pend] using h3'

/-- A non-trivial document: nested styles, line breaks inside and at the end of a style. -/
example : (Doc.run "a".toList (.styled "s".toList (.run "b".toList (.styled "t".toList
    (.run "c".toList (.lineBreak .nil)) .nil)) (.run "d".toList .nil))).Writable '~' '{' '}' := by
  simp [Doc.Writable]
example : parseText (some '~') '{' '}' "a~s{b~t{c\n}}d".toList =
    .ok [.text ['a'], .opn ['s'], .text ['b'], .opn ['t'], .text ['c'], .close, .close,
      .newline 1, .text ['d']] := by decide +kernel

/-- **C02.** Whenever the text is accepted, what is displayed, each character with the styles
in force, is what the source says (reading it one character at a time, dropping markup), except
that line breaks at the very end may be missing. -/
theorem C02_shown_is_source (esc : Option Char) (b e : Char) (s : Str) (toks : List Tok)
    (h : parseText esc b e s = .ok toks) :
    ∃ k, shown [] toks ++ List.replicate k ('\n', []) = readSource esc b e [] none s := by
  have h1 := (parseText_ok h).2
  have h2 := simplifies_shown (normalize_simplifies h1) []
  rw [scan_shown esc b e s [] 0 [] rfl] at h2
  simpa using h2

example : parseText (some '~') '{' '}' "~a{x}}\n".toList = .ok [.opn ['a'], .text ['x'], .close, .text ['}']] ∧
    readSource (some '~') '{' '}' [] none "~a{x}}\n".toList = [('x', [['a']]), ('}', []), ('\n', [])] := by
  decide +kernel

/-- **C03.** The text is rejected exactly when a style is still open at its end, always with
the same error, and an accepted text has properly nested styles. -/
theorem C03_rejected_iff_unclosed (esc : Option Char) (b e : Char) (s : Str) :
    (unclosed esc b e 0 false s = true ↔
        parseText esc b e s = .error (.user "Invalid format, unclosed command")) ∧
    (unclosed esc b e 0 false s = false ↔ ∃ toks, parseText esc b e s = .ok toks ∧ Balanced toks) := by
  have hu := scan_unclosed esc b e s [] 0
  have hd := scan_depth esc b e s [] 0
  by_cases h0 : 0 < (scan esc b e [] 0 s).2
  · have hp : parseText esc b e s = .error (.user "Invalid format, unclosed command") := by
      simp [parseText, h0]
    simp [hp, hu.mp h0]
  · have hz : (scan esc b e [] 0 s).2 = 0 := by omega
    obtain ⟨toks, ht⟩ := normalize_ok hd
    have hp : parseText esc b e s = .ok toks := by simp [parseText, hz, ht]
    have hun : unclosed esc b e 0 false s = false := by
      cases h : unclosed esc b e 0 false s
      · rfl
      · exact absurd (hu.mpr h) h0
    rw [hz] at hd
    have hb := balanced_of_depth _ (simplifies_depth (normalize_simplifies ht) 0 0 hd)
    simp [hp, hun, hb]

example : parseText (some '~') '{' '}' "~a{x".toList = .error (.user "Invalid format, unclosed command") ∧
    parseText (some '~') '{' '}' "x~a".toList = .error (.user "Invalid format, unclosed command") ∧
    unclosed (some '~') '{' '}' 0 false "~a{x}}".toList = false := by decide +kernel

/-- **C04.** Parsed text is in normal form; runs contain no line break, newline tokens stand for
at least one, no two runs are adjacent, and normalising again changes nothing. -/
theorem C04_parse_normal (esc : Option Char) (b e : Char) (s : Str) (toks : List Tok)
    (h : parseText esc b e s = .ok toks) :
    NormalForm toks ∧ (∀ r, Tok.text r ∈ toks → '\n' ∉ r) ∧ (∀ n, Tok.newline n ∈ toks → 1 ≤ n) ∧
      (∀ a s t b, toks ≠ a ++ .text s :: .text t :: b) ∧ normalizeTokens toks = .ok toks := by
  have h1 := (parseText_ok h).2
  have hprop := simplifies_forall (P := Tok.Proper) (by intro n m h _; simp [Tok.Proper] at *; omega)
    (by intro s t h1 h2; simp [Tok.Proper] at *; exact ⟨h1, h2⟩) (normalize_simplifies h1)
    (splitTexts_proper _ (scan_no_newline esc b e s [] 0))
  have hd := simplifies_depth (normalize_simplifies h1) 0 _ (scan_depth esc b e s [] 0)
  exact ⟨normalize_nf h1, fun r hr => hprop _ hr, fun n hn => hprop _ hn, parse_no_adjacent h,
    normalize_of_nf (normalize_nf h1) hd⟩

/-- **C04.** Normalisation of any balanced stream succeeds, gives a balanced normal form with the
same display (up to line breaks at the end), and is idempotent. -/
theorem C04_normalize (ts : List Tok) (h : Balanced ts) :
    ∃ r, normalizeTokens ts = .ok r ∧ NormalForm r ∧ Balanced r ∧ normalizeTokens r = .ok r ∧
      ∃ k, shown [] r ++ List.replicate k ('\n', []) = shown [] ts := by
  have hd := depth_of_balanced h 0
  obtain ⟨r, hr⟩ := normalize_ok hd
  have hs := normalize_simplifies hr
  have hd' := simplifies_depth hs 0 0 hd
  exact ⟨r, hr, normalize_nf hr, balanced_of_depth _ hd', normalize_of_nf (normalize_nf hr) hd',
    simplifies_shown hs []⟩

example : normalizeTokens [.opn ['a'], .newline 1, .text [], .newline 2, .close, .newline 1, .text ['x'], .newline 1] =
    .ok [.opn ['a'], .close, .newline 4, .text ['x']] := by decide +kernel

/-- Without an escape character in the source, everything is displayed unstyled. -/
theorem readSource_plain (esc : Option Char) (b e : Char) (s : Str) (h : ∀ c ∈ s, some c ≠ esc) :
    readSource esc b e [] none s = s.map (fun c => (c, [])) := by
  induction s with
  | nil => simp [readSource]
  | cons c s ih =>
    have hc := h c (by simp)
    simp [readSource, hc, mark, ih (fun c hc => h c (by simp [hc]))]

theorem unclosed_plain (esc : Option Char) (b e : Char) (s : Str) (h : ∀ c ∈ s, some c ≠ esc) :
    unclosed esc b e 0 false s = false := by
  induction s with
  | nil => simp [unclosed]
  | cons c s ih =>
    have hc := h c (by simp)
    simp [unclosed, hc, ih (fun c hc => h c (by simp [hc]))]

theorem scan_plain (esc : Option Char) (b e : Char) (s : Str) (h : ∀ c ∈ s, some c ≠ esc) :
    ∀ cur, scan esc b e cur 0 s = scan esc b e (s.reverse ++ cur) 0 [] := by
  induction s with
  | nil => intro cur; simp
  | cons c s ih =>
    intro cur
    have hc := h c (by simp)
    rw [scan_cons, if_neg hc, if_neg (by simp), ih (fun c hc => h c (by simp [hc]))]
    simp

/-- A stream without styles that does not end in a line-break token does not end in a line break. -/
theorem chars_no_trailing (ts : List Tok) (hn : NormalForm ts)
    (hp : ∀ t ∈ ts, t.Proper) (hs : ∀ t ∈ ts, (∃ s, t = Tok.text s) ∨ (∃ n, t = Tok.newline n)) :
    ∀ a, chars ts ≠ a ++ ['\n'] := by
  intro a h
  rcases List.eq_nil_or_concat ts with rfl | ⟨init, t, rfl⟩
  · simp [chars] at h
  · rcases hs t (by simp) with ⟨s, rfl⟩ | ⟨n, rfl⟩
    · rw [List.concat_eq_append, chars_append] at h
      have hne : s ≠ [] := by
        intro he; subst he
        exact hn.noEmpty (by simp)
      have hnl : '\n' ∉ s := hp (.text s) (by simp)
      rcases List.eq_nil_or_concat s with rfl | ⟨s', c, rfl⟩
      · exact hne rfl
      · simp only [chars, List.append_nil, List.concat_eq_append] at h
        rw [← List.append_assoc] at h
        have := List.append_inj_right' h rfl
        simp at this
        subst this
        simp at hnl
    · exact hn.noTrailing init n (by simp)

/-- **C05.** Text without the escape character (in particular with styles disabled) is
displayed verbatim and unstyled, except that all line breaks at the end are dropped. -/
theorem C05_verbatim (esc : Option Char) (b e : Char) (s : Str) (h : ∀ c ∈ s, some c ≠ esc) :
    ∃ toks, parseText esc b e s = .ok toks ∧
      shown [] toks = (s.rdropWhile (· == '\n')).map (fun c => (c, [])) ∧
      ∀ t ∈ toks, (∃ r, t = .text r) ∨ (∃ n, t = .newline n) := by
  obtain ⟨toks, hp, _⟩ := (C03_rejected_iff_unclosed esc b e s).2.mp (unclosed_plain esc b e s h)
  obtain ⟨k, hk⟩ := C02_shown_is_source esc b e s toks hp
  rw [readSource_plain esc b e s h] at hk
  have h1 := (parseText_ok hp).2
  have hform : ∀ t ∈ toks, (∃ s, t = Tok.text s) ∨ (∃ n, t = Tok.newline n) := by
    refine simplifies_forall (P := fun t => (∃ s, t = Tok.text s) ∨ (∃ n, t = Tok.newline n))
      ?_ ?_ (normalize_simplifies h1) ?_
    · intro n m _ _; right; exact ⟨_, rfl⟩
    · intro s t _ _; left; exact ⟨_, rfl⟩
    · rw [scan_plain esc b e s h, scan_nil]
      intro t ht
      split at ht
      · simp [splitTexts] at ht
      · simp [splitTexts] at ht
        rcases splitText_mem ht with ⟨l, rfl, _⟩ | rfl
        · left; exact ⟨_, rfl⟩
        · right; exact ⟨_, rfl⟩
  obtain ⟨hn, hp1, hp2, _, _⟩ := C04_parse_normal esc b e s toks hp
  have hproper : ∀ t ∈ toks, t.Proper := by
    intro t ht
    rcases hform t ht with ⟨r, rfl⟩ | ⟨n, rfl⟩
    · exact hp1 _ ht
    · exact hp2 _ ht
  have hnt := chars_no_trailing toks hn hproper hform
  refine ⟨toks, hp, ?_, hform⟩
  have hchars : chars toks ++ List.replicate k '\n' = s := by
    have := congrArg (List.map Prod.fst) hk
    simpa [shown_fst, Function.comp_def] using this
  have hrd : s.rdropWhile (· == '\n') = chars toks := by
    rw [← hchars]
    clear hk hchars
    induction k with
    | zero =>
      simp only [List.replicate_zero, List.append_nil]
      rw [List.rdropWhile_eq_self_iff]
      intro hne hlast
      apply hnt (chars toks).dropLast
      have := List.dropLast_append_getLast hne
      simp at hlast
      rw [hlast] at this
      exact this.symm
    | succ k ih =>
      rw [List.replicate_succ', ← List.append_assoc, List.rdropWhile_concat_pos _ _ _ (by simp)]
      exact ih
  rw [hrd]
  have hlen : (shown [] toks).length = (chars toks).length := by rw [← shown_fst []]; simp
  have := congrArg (List.take (chars toks).length) hk
  rw [← hlen] at this
  simp only [List.take_left'] at this
  rw [this, ← List.map_take, ← hchars]
  congr 1
  rw [hlen]; simp

example : parseText none '{' '}' "a{\nb}\n\n".toList = .ok [.text "a{".toList, .newline 1, .text "b}".toList] := by
  decide +kernel

/-- **C06.** The number of lines of any token stream is one plus the number of line breaks it
displays, provided text runs contain none (as parsed text, by `C04_parse_normal`). -/
theorem C06_number_of_lines (ts : List Tok) (h : ∀ r, Tok.text r ∈ ts → '\n' ∉ r) :
    numberOfLines ts = 1 + (chars ts).count '\n' := by
  have aux : ∀ (ts : List Tok) (a : Nat), (∀ r, Tok.text r ∈ ts → '\n' ∉ r) →
      ts.foldl (fun lines t => match t with | Tok.newline n => lines + n | _ => lines) a =
        a + (chars ts).count '\n' := by
    intro ts
    induction ts with
    | nil => intro a _; simp [chars]
    | cons t ts ih =>
      intro a h
      have ih' := fun a => ih a (fun r hr => h r (by simp [hr]))
      cases t with
      | text s =>
        have := h s (by simp)
        simp [chars, ih', List.count_eq_zero.mpr this]
      | newline n => simp [chars, ih']; omega
      | opn s => simp [chars, ih']
      | close => simp [chars, ih']
  exact aux ts 1 h

/-- For parsed text. -/
theorem C06_number_of_lines_parsed (esc : Option Char) (b e : Char) (s : Str) (toks : List Tok)
    (h : parseText esc b e s = .ok toks) : numberOfLines toks = 1 + (chars toks).count '\n' :=
  C06_number_of_lines toks (C04_parse_normal esc b e s toks h).2.1

example : numberOfLines [.text ['a'], .newline 2, .opn ['s'], .text ['b'], .newline 1, .close] = 4 := by
  decide

/-- **C07 is false.** docs/userguide/text.md says a doubled escape character is a literal one;
the parser reads a style name instead, and `"~~"` is even rejected. -/
theorem C07_doubled_escape_false :
    ¬ ∀ (s t : Str), (∀ c ∈ s ++ t, c ≠ '~' ∧ c ≠ '{' ∧ c ≠ '}' ∧ c ≠ '\n') →
      ∃ toks, parseText (some '~') '{' '}' (s ++ "~~".toList ++ t) = .ok toks ∧
        chars toks = s ++ ['~'] ++ t := by
  intro h
  obtain ⟨toks, h1, h2⟩ := h "a".toList "b".toList (by decide)
  revert h1
  have : parseText (some '~') '{' '}' ("a".toList ++ "~~".toList ++ "b".toList) =
      .error (.user "Invalid format, unclosed command") := by decide +kernel
  rw [this]; intro h; cases h

/-- **C07.** What the code does instead: whatever surrounds it, a doubled escape character opens a
style whose name starts with the escape character, so the escape character is never displayed and
without a later opening bracket the text is rejected. -/
theorem C07_doubled_escape_partial (x b e : Char) (hxb : x ≠ b) (s t : Str) (hs : ∀ c ∈ s, c ≠ x) :
    readSource (some x) b e [] none (s ++ x :: x :: t) =
        s.map (fun c => (c, [])) ++ readSource (some x) b e [] (some [x]) t ∧
    (b ∉ t → parseText (some x) b e (s ++ x :: x :: t) =
        .error (.user "Invalid format, unclosed command")) := by
  have hu : b ∉ t → unclosed (some x) b e 0 false (s ++ x :: x :: t) = true := by
    intro hb
    have ht : unclosed (some x) b e 0 true t = true := by
      clear hs
      induction t with
      | nil => simp [unclosed]
      | cons c t ih =>
        simp at hb
        simp [unclosed, Ne.symm hb.1, ih hb.2]
    induction s with
    | nil => simp [unclosed, hxb, ht]
    | cons c s ih =>
      have := hs c (by simp)
      simp [unclosed, this, ih (fun c h => hs c (by simp [h]))]
  refine ⟨?_, fun hb => (C03_rejected_iff_unclosed _ _ _ _).1.mp (hu hb)⟩
  clear hu
  induction s with
  | nil => simp [readSource, hxb]
  | cons c s ih =>
    have := hs c (by simp)
    simp [readSource, this, mark, ih (fun c h => hs c (by simp [h]))]

example : parseText (some '~') '{' '}' "a~~b{c}".toList =
    .ok [.text ['a'], .opn "~b".toList, .text ['c'], .close] := by decide +kernel

/-- Renaming the characters of a token. -/
def Tok.rename (f : Char → Char) : Tok → Tok
  | .text s => .text (s.map f)
  | .newline n => .newline n
  | .opn s => .opn (s.map f)
  | .close => .close

theorem scan_rename (f : Char → Char) (hf : Function.Injective f)
    (esc : Option Char) (b e : Char) (s : Str) : ∀ cur k,
    scan (esc.map f) (f b) (f e) (cur.map f) k (s.map f) =
      ((scan esc b e cur k s).1.map (Tok.rename f), (scan esc b e cur k s).2) := by
  intro cur k
  have hesc : ∀ c, (some (f c) = esc.map f ↔ some c = esc) := by
    intro c
    cases esc with
    | none => simp
    | some x => simp [hf.eq_iff]
  refine scan_induct esc b e (fun cur k s =>
    scan (esc.map f) (f b) (f e) (cur.map f) k (s.map f) =
      ((scan esc b e cur k s).1.map (Tok.rename f), (scan esc b e cur k s).2)) ?_ ?_ ?_ ?_ s cur k
  · intro cur k
    rw [List.map_nil, scan_nil, scan_nil]
    by_cases h : cur = []
    · simp [h]
    · simp [h, Tok.rename]
  · intro cur k c cs h ih
    have hd : ∀ cs : Str, (cs.map f).takeWhile (· ≠ f b) = (cs.takeWhile (· ≠ b)).map f ∧
        (cs.map f).dropWhile (· ≠ f b) = (cs.dropWhile (· ≠ b)).map f := by
      intro cs
      induction cs with
      | nil => simp
      | cons y ys ih => by_cases hy : y = b <;> simp_all [hf.eq_iff]
    rw [List.map_cons, scan_cons, if_pos ((hesc c).mpr h), scan_cons, if_pos h, (hd cs).1, (hd cs).2,
      ← List.map_tail]
    simp only [List.map_nil] at ih
    rw [ih]
    simp [Tok.rename]
  · intro cur k c cs h1 h2 h3 ih
    rw [List.map_cons, scan_cons, if_neg (fun h => h1 ((hesc c).mp h)), if_pos ⟨by rw [h2], h3⟩, scan_cons, if_neg h1,
      if_pos ⟨h2, h3⟩]
    simp only [List.map_nil] at ih
    rw [ih]
    simp [Tok.rename]
  · intro cur k c cs h1 h2 ih
    rw [List.map_cons, scan_cons, if_neg (fun h => h1 ((hesc c).mp h)),
      if_neg (fun h => h2 ⟨hf h.1, h.2⟩), scan_cons, if_neg h1, if_neg h2]
    simpa using ih

theorem splitText_rename (f : Char → Char) (hf : Function.Injective f) (hnl : f '\n' = '\n') (s : Str) :
    splitText (s.map f) = (splitText s).map (Tok.rename f) := by
  induction s with
  | nil => rfl
  | cons c s ih =>
    by_cases hc : c = '\n'
    · subst hc
      simp only [List.map_cons, hnl, splitText_cons_nl, ih]
      simp [Tok.rename]
    · obtain ⟨l, us, hs⟩ := splitText_head s
      have hfc : f c ≠ '\n' := fun h => hc (hf (h.trans hnl.symm))
      rw [hs] at ih
      rw [List.map_cons, splitText_cons hfc (s.map f) (l.map f) (us.map (Tok.rename f)) (by rw [ih]; rfl),
        splitText_cons hc s l us hs]
      rfl

theorem splitTexts_rename (f : Char → Char) (hf : Function.Injective f) (hnl : f '\n' = '\n')
    (ts : List Tok) : splitTexts (ts.map (Tok.rename f)) = (splitTexts ts).map (Tok.rename f) := by
  induction ts with
  | nil => rfl
  | cons t ts ih =>
    cases t <;> simp [splitTexts, Tok.rename, ih, splitText_rename f hf hnl]

theorem normStep_rename (f : Char → Char) (res : List Tok) (t : Tok) :
    normStep (res.map (Tok.rename f)) (t.rename f) = (normStep res t).map (List.map (Tok.rename f)) := by
  cases t with
  | text s =>
    cases s <;> rfl
  | newline n => cases res with
    | nil => rfl
    | cons u res => cases u <;> rfl
  | opn s => rfl
  | close => cases res with
    | nil => rfl
    | cons u res => cases u <;> rfl

theorem normLoop_rename (f : Char → Char) (ts : List Tok) : ∀ res,
    normLoop (res.map (Tok.rename f)) (ts.map (Tok.rename f)) =
      (normLoop res ts).map (List.map (Tok.rename f)) := by
  induction ts with
  | nil => intro res; rfl
  | cons t ts ih =>
    intro res
    simp only [List.map_cons, normLoop, normStep_rename]
    cases normStep res t with
    | error e => rfl
    | ok r => exact ih r

theorem normalize_rename (f : Char → Char) (ts : List Tok) :
    normalizeTokens (ts.map (Tok.rename f)) = (normalizeTokens ts).map (List.map (Tok.rename f)) := by
  have := normLoop_rename f ts []
  simp only [List.map_nil] at this
  simp only [normalizeTokens, this]
  cases normLoop [] ts with
  | error e => rfl
  | ok r =>
    cases r with
    | nil => rfl
    | cons u r => cases u <;> simp [Except.map, popNewline, Tok.rename]

/-- **C08.** Parsing commutes with every injective renaming of characters that fixes the line
break: renaming the delimiters in the call and in the text gives the renamed result. -/
theorem C08_rename (f : Char → Char) (hf : Function.Injective f) (hnl : f '\n' = '\n')
    (esc : Option Char) (b e : Char) (s : Str) :
    parseText (esc.map f) (f b) (f e) (s.map f) =
      (parseText esc b e s).map (List.map (Tok.rename f)) := by
  have := scan_rename f hf esc b e s [] 0
  simp only [List.map_nil] at this
  simp only [parseText, this]
  by_cases h : (scan esc b e [] 0 s).2 > 0
  · simp [h, Except.map]
  · simp only [h, if_false]
    rw [splitTexts_rename f hf hnl, normalize_rename]

/-- Swapping `~` and `!` is such a renaming. -/
example : Function.Injective (Equiv.swap '~' '!') ∧ Equiv.swap '~' '!' '\n' = '\n' :=
  ⟨(Equiv.swap '~' '!').injective, by decide⟩

end Verif.Text
