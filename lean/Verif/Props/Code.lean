import Verif.Proofs.CodeNested
import Verif.Spec.Code
import Verif.Props.Merge

/-!
# Properties C14, C15: syntax highlighting and `code()`
-/

namespace Verif.Text
open Spec

theorem normalize_proper {ts r : List Tok} (h : normalizeTokens ts = .ok r) (hp : ∀ t ∈ ts, t.Proper) :
    ∀ t ∈ r, t.Proper :=
  simplifies_forall (P := Tok.Proper) (by intro n m h _; simp [Tok.Proper] at *; omega)
    (by intro s t h1 h2; simp [Tok.Proper] at *; exact ⟨h1, h2⟩) (normalize_simplifies h) hp

theorem normalForm_clean {ts : List Tok} (h : NormalForm ts) (hp : ∀ t ∈ ts, t.Proper) : Clean ts :=
  ⟨fun _ hs => ⟨fun he => h.noEmpty (he ▸ hs), hp _ hs⟩, fun _ hn => hp _ hn⟩

/-- **C14.** Whatever the lexer produces, the highlighted stream displays exactly the values, each
under the style of its token type, up to line breaks at the end; it is balanced, in normal form,
and styles are not nested. -/
theorem C14_highlight (vals : List (Str × Str)) :
    ∃ r k, normalizeTokens (formatStream vals) = .ok r ∧ Balanced r ∧ NormalForm r ∧ Clean r ∧
      maxNesting 0 r ≤ 1 ∧
      shown [] r ++ List.replicate k ('\n', []) =
        vals.flatMap (fun v => v.2.map (mark ["pygments-".toList ++ v.1])) := by
  obtain ⟨h1, h2, h3⟩ := formatStream_shown vals
  obtain ⟨r, hr⟩ := normalize_ok h2
  have hs := normalize_simplifies hr
  obtain ⟨k, hk⟩ := simplifies_shown hs []
  refine ⟨r, k, hr, balanced_of_depth _ (simplifies_depth hs 0 0 h2), normalize_nf hr, ?_,
    Nat.le_trans (simplifies_nesting hs 0) h3, ?_⟩
  · rw [← normalize_de] at hr
    exact normalForm_clean (normalize_nf hr) (fun t ht => normalize_proper hr (formatStream_proper vals) t ht)
  · rw [hk, h1]; rfl

example : normalizeTokens (formatStream [("Token.Keyword".toList, "if".toList), ("Token.Text".toList, ['\n']),
      ("Token.Comment".toList, "# a\n\n# b\n".toList)]) =
    .ok [.opn "pygments-Token.Keyword".toList, .text "if".toList, .close, .newline 1,
      .opn "pygments-Token.Comment".toList, .text "# a".toList, .newline 2, .text "# b".toList, .close] := by
  decide +kernel

theorem expandTabs_eq (n : Nat) (s : Str) : expandTabs n s = untab n s := by
  unfold expandTabs
  induction s with
  | nil => rfl
  | cons c s ih =>
    unfold untab
    split
    · rename_i h; cases h
    · rename_i h; injection h with h1 h2; subst h1; subst h2; simp [ih]
    · rename_i h1 h; injection h with h2 h3; subst h2; subst h3
      have : c ≠ '\t' := fun h => h1 h
      simp [ih, this]

theorem rdropWhile_nl_last (s : Str) (c : Char) (l : Str) : s.rdropWhile (· == '\n') = l ++ [c] → c ≠ '\n' := by
  intro h hc
  have hne : s.rdropWhile (· == '\n') ≠ [] := by rw [h]; simp
  have := List.rdropWhile_last_not (p := (· == '\n')) s hne
  simp only [h, List.getLast_append, List.getLast_singleton] at this
  simp [hc] at this

theorem stripNl_last (s : Str) (c : Char) (l : Str) (h : stripNl s = l ++ [c]) : c ≠ '\n' :=
  rdropWhile_nl_last _ c l h

/-- The highlighted code displays the stripped code. -/
theorem highlight_chars (lx : Lexer) (hx : Honours lx) (code : Str) (hcr : '\r' ∉ code)
    (hbom : code.head? ≠ some '﻿') :
    ∃ r, highlightCode lx code = .ok r ∧ Balanced r ∧ NormalForm r ∧ Clean r ∧ maxNesting 0 r ≤ 1 ∧
      chars r = stripNl code ∧
      shown [] r ++ [('\n', [])] =
        (lx code).flatMap (fun v => v.2.map (mark ["pygments-".toList ++ v.1])) := by
  obtain ⟨r, k, hr, hb, hn, hc, hm, hs⟩ := C14_highlight (lx code)
  have ht := hx.text code hcr hbom
  have key : shown [] r ++ [('\n', [])] =
        (lx code).flatMap (fun v => v.2.map (mark ["pygments-".toList ++ v.1])) := by
    obtain ⟨h1, h2, h3⟩ := formatStream_shown (lx code)
    -- the last value ends in a line break
    have hne : lx code ≠ [] := by
      intro h; rw [h] at ht; simp at ht
    obtain ⟨vals, ⟨tt, v⟩, hv⟩ := (List.eq_nil_or_concat (lx code)).resolve_left hne
    have hv0 : v ≠ [] := hx.nonempty code (tt, v) (by rw [hv]; simp)
    obtain ⟨w, c, hw⟩ := (List.eq_nil_or_concat v).resolve_left hv0
    have hcnl : c = '\n' := by
      rw [hv, hw] at ht
      simp only [List.concat_eq_append, List.flatMap_append, List.flatMap_cons, List.flatMap_nil,
        List.append_nil, ← List.append_assoc] at ht
      have := List.append_inj_right' ht rfl
      simpa using this
    subst hcnl
    rw [List.concat_eq_append] at hw hv
    obtain ⟨X, tail, hX, htail⟩ := formatStream_tail vals tt w
    rw [hv, hw] at hr
    rw [← normalize_de, hX] at hr
    obtain ⟨k', hk', hsh⟩ := normalize_drops htail hr
    rw [← hX, shown_de, ← hw, ← hv, h1] at hsh
    have hvs : valsShown (lx code) = (lx code).flatMap (fun v => v.2.map (mark ["pygments-".toList ++ v.1])) := rfl
    rw [hvs] at hsh
    -- at most one line break was dropped
    have hk1 : k' = 1 := by
      by_contra hk1
      obtain ⟨j, rfl⟩ : ∃ j, k' = j + 2 := ⟨k' - 2, by omega⟩
      have h4 := congrArg (List.map Prod.fst) hsh
      simp only [List.map_append, shown_fst, List.map_replicate, List.map_flatMap, List.map_map] at h4
      have hfst : ∀ st, (Prod.fst ∘ mark st) = (id : Char → Char) := by intro st; funext c; rfl
      simp only [hfst, List.map_id_fun, id] at h4
      have h5 : (lx code).flatMap (fun v => v.2) = (lx code).flatMap Prod.snd := rfl
      rw [h5, ht, show j + 2 = (j + 1) + 1 from rfl, List.replicate_succ', ← List.append_assoc] at h4
      have h6 := List.append_inj_left' h4 rfl
      rw [List.replicate_succ', ← List.append_assoc] at h6
      exact stripNl_last _ _ _ h6.symm rfl
    rw [hk1] at hsh
    exact hsh
  refine ⟨r, hr, hb, hn, hc, hm, ?_, key⟩
  have h4 := congrArg (List.map Prod.fst) key
  simp only [List.map_append, shown_fst, List.map_flatMap, List.map_map, List.map_cons, List.map_nil] at h4
  have hfst : ∀ st, (Prod.fst ∘ mark st) = (id : Char → Char) := by intro st; funext c; rfl
  simp only [hfst, List.map_id_fun, id] at h4
  have h5 : (lx code).flatMap (fun v => v.2) = (lx code).flatMap Prod.snd := rfl
  rw [h5, ht] at h4
  exact List.append_cancel_right h4

theorem parse_balanced_clean {esc : Option Char} {b e : Char} {s : Str} {toks : List Tok}
    (hp : parseText esc b e s = .ok toks) : Balanced toks ∧ Clean toks := by
  have hnf := C04_parse_normal _ _ _ _ _ hp
  refine ⟨?_, ⟨fun r hr => ⟨?_, hnf.2.1 r hr⟩, hnf.2.2.1⟩⟩
  · have h3 := (C03_rejected_iff_unclosed esc b e s)
    cases hu : unclosed esc b e 0 false s
    · obtain ⟨t, h4, h5⟩ := h3.2.mp hu
      rw [hp] at h4; injection h4 with h4; rw [h4]; exact h5
    · have := h3.1.mp hu; rw [hp] at this; cases this
  · intro he; subst he; exact hnf.1.noEmpty hr

theorem delims_ok {escapeChar : Str} {x b e : Char} (h : Delims escapeChar x b e) :
    delimiters escapeChar = .ok (x, b, e) := by
  cases h <;> rfl

theorem delims_of {escapeChar : Str} {x b e : Char} (h : delimiters escapeChar = .ok (x, b, e)) :
    Delims escapeChar x b e := by
  unfold delimiters at h
  split at h
  · cases h; exact .three ..
  · cases h; exact .one _
  · cases h

/-- **C15, no language.** The code is displayed as written, with tabs replaced and, if styles are in
use, the markup removed; up to line breaks at the end. -/
theorem C15_code_plain (tabsize : Nat) (escapeChar : Str) (x b e : Char)
    (hd : Delims escapeChar x b e) (text : Str) :
    (∃ r k, boxCode none false false tabsize escapeChar text = .ok r ∧
      chars r ++ List.replicate k '\n' = untab tabsize text) ∧
    (unclosed (some x) b e 0 false (untab tabsize text) = false →
      ∃ r k, boxCode none true false tabsize escapeChar text = .ok r ∧
        shown [] r ++ List.replicate k ('\n', []) =
          readSource (some x) b e [] none (untab tabsize text)) := by
  constructor
  · obtain ⟨toks, h1, h2, h3⟩ := C05_verbatim none b e (untab tabsize text) (by simp)
    obtain ⟨k, hk⟩ := C02_shown_is_source _ _ _ _ _ h1
    rw [readSource_plain none b e _ (by simp)] at hk
    refine ⟨toks, k, ?_, ?_⟩
    · simp [boxCode, delims_ok hd, expandTabs_eq, h1]
    · have := congrArg (List.map Prod.fst) hk
      simpa [shown_fst, Function.comp_def] using this
  · intro hu
    obtain ⟨toks, h1, h2⟩ := (C03_rejected_iff_unclosed (some x) b e (untab tabsize text)).2.mp hu
    obtain ⟨k, hk⟩ := C02_shown_is_source _ _ _ _ _ h1
    exact ⟨toks, k, by simp [boxCode, delims_ok hd, expandTabs_eq, h1], hk⟩

/-- **C15, language without styles.** For every lexer that honours its contract, exactly the text
without its leading and trailing line breaks is displayed, with tabs replaced. -/
theorem C15_code_highlight (lx : Lexer) (hx : Honours lx) (tabsize : Nat) (escapeChar : Str) (x b e : Char)
    (hd : Delims escapeChar x b e) (text : Str)
    (hcr : '\r' ∉ untab tabsize text) (hbom : (untab tabsize text).head? ≠ some '\uFEFF') :
    ∃ r, boxCode (some lx) false false tabsize escapeChar text = .ok r ∧ Balanced r ∧
      chars r = stripNl (untab tabsize text) := by
  obtain ⟨r, h1, h2, _, _, _, h3, _⟩ := highlight_chars lx hx _ hcr hbom
  exact ⟨r, by simp [boxCode, delims_ok hd, expandTabs_eq, h1], h2, h3⟩

theorem stripNl_eq_of_length {s : Str} (h : (stripNl s).length = s.length) : stripNl s = s := by
  unfold stripNl at *
  have h1 := (List.rdropWhile_prefix (· == '\n') (s.dropWhile (· == '\n')))
  have h2 := (List.dropWhile_sublist (p := (· == '\n')) (l := s))
  have h3 := h1.length_le
  have h4 := h2.length_le
  rw [h1.eq_of_length (by omega), h2.eq_of_length (by omega)]

/-- What `code` with a language and styles does: with `lead` the leading line breaks and `body` the
rest of the text, it raises if the body's markup is wrong or the body without markup begins or ends
with a line break, and otherwise displays the leading line breaks and the body without markup. -/
theorem code_styles (lx : Lexer) (hx : Honours lx) (tabsize : Nat) (escapeChar : Str) (x b e : Char)
    (hd : Delims escapeChar x b e) (text : Str)
    (lead : Nat) (body : Str) (p : List Tok)
    (ht : untab tabsize text = List.replicate lead '\n' ++ body) (hb : body.head? ≠ some '\n')
    (hp : parseText (some x) b e body = .ok p)
    (hcr : '\r' ∉ chars p) (hbom : (chars p).head? ≠ some '\uFEFF') :
    (stripNl (chars p) ≠ chars p → ¬ ∃ r, boxCode (some lx) true false tabsize escapeChar text = .ok r) ∧
    (stripNl (chars p) = chars p → ∃ h m k, Balanced h ∧ Clean h ∧ maxNesting 0 h ≤ 1 ∧
      chars h = chars p ∧
      shown [] h ++ [('\n', [])] =
        (lx (chars p)).flatMap (fun v => v.2.map (mark ["pygments-".toList ++ v.1])) ∧
      tokensMerge h p = .ok m ∧ Balanced m ∧ chars m ++ List.replicate k '\n' = chars p ∧
      boxCode (some lx) true false tabsize escapeChar text =
        .ok (if lead = 0 then m else .newline lead :: m) ∧
      highlightCode lx (chars p) = .ok h ∧
      ∀ x ∈ sections 0 [] h, ∃ y ∈ pieces 0 (lx (chars p)), y.1 = x.1 ∧ x.2 ≤ y.2) := by
  obtain ⟨h, h1, h2, h3, h4, h5, h6, h7⟩ := highlight_chars lx hx _ hcr hbom
  obtain ⟨b2, c2⟩ := parse_balanced_clean hp
  have hlead : ∀ (n : Nat), ((List.replicate n '\n' ++ body).takeWhile (· == '\n')).length = n ∧
      (List.replicate n '\n' ++ body).dropWhile (· == '\n') = body := by
    intro n
    induction n with
    | zero =>
      cases body with
      | nil => simp
      | cons c body =>
        have : c ≠ '\n' := by simpa using hb
        simp [this]
    | succ n ih => simpa [List.replicate_succ] using ih
  have hbc : boxCode (some lx) true false tabsize escapeChar text =
      (match tokensMerge h p with
        | .error err => .error err
        | .ok m => .ok (if lead = 0 then m else .newline lead :: m)) := by
    simp only [boxCode, delims_ok hd, expandTabs_eq, ht, (hlead lead).1, (hlead lead).2, hp,
      plainText_eq_chars, h1, if_true]
    cases tokensMerge h p <;> simp
  have hiff := C13_merge_rejects_partial h p h4 c2 h2 b2
  constructor
  · rintro hne ⟨r, hr⟩
    apply hne
    rw [hbc] at hr
    cases hm : tokensMerge h p with
    | error e => rw [hm] at hr; cases hr
    | ok m =>
      have := congrArg List.length (hiff.mp ⟨m, hm⟩)
      rw [h6] at this
      exact stripNl_eq_of_length (by simpa [outline] using this)
  · intro heq
    rw [heq] at h6
    obtain ⟨m, hm, hmb, _, k, hk⟩ := C11_merge_text h p h4 c2 h2 b2 h6
    exact ⟨h, m, k, h2, h4, h5, h6, h7, hm, hmb, by rw [hk, h6], by rw [hbc, hm], h1, sections_highlight h1⟩

/-- The simplest lexer honouring the contract: one token for everything. -/
theorem honours_exists : Honours (fun code => [("Token.Text".toList, stripNl code ++ ['\n'])]) :=
  ⟨fun code _ _ => by simp, fun code v hv => by simp at hv; subst hv; simp⟩

/-- **C15 is false** with a language and styles: well-formed markup such as `~b{⏎x}`, whose text starts
with a line break inside a style, is rejected whatever the lexer. -/
theorem C15_code_false :
    ¬ ∀ (lx : Lexer), Honours lx → ∀ (tabsize : Nat) (text : Str), '\r' ∉ text →
      unclosed (some '~') '{' '}' 0 false (untab tabsize text) = false →
      ∃ r, boxCode (some lx) true false tabsize ['~'] text = .ok r := by
  intro h
  have hp : parseText (some '~') '{' '}' "~b{\nx}".toList =
    .ok [.opn ['b'], .newline 1, .text ['x'], .close] := by decide +kernel
  exact (code_styles _ honours_exists 4 ['~'] '~' '{' '}' (.one '~') "~b{\nx}".toList 0 "~b{\nx}".toList _ rfl (by decide) hp
    (by decide) (by decide)).1 (by decide) (h _ honours_exists 4 _ (by decide) (by decide))

/-- **C15, language and styles.** Let `p` be the parsed text without the leading line breaks.  If what
it displays neither begins nor ends with a line break, `code` succeeds and displays the leading line
breaks followed by that text; if the styles of `p` are compatible with the tokens of the lexer (not nested, or no two of them overlapping
and beginning inside the same token), every character carries the highlighting style of its lexer token together with its styles in `p`.
Otherwise `code` raises.
Missing from the full property: it should not raise, and should keep all nested styles. -/
theorem C15_code_styles_partial (lx : Lexer) (hx : Honours lx) (tabsize : Nat) (escapeChar : Str) (x b e : Char)
    (hd : Delims escapeChar x b e) (text : Str)
    (lead : Nat) (body : Str) (p : List Tok)
    (ht : untab tabsize text = List.replicate lead '\n' ++ body) (hb : body.head? ≠ some '\n')
    (hp : parseText (some x) b e body = .ok p)
    (hcr : '\r' ∉ chars p) (hbom : (chars p).head? ≠ some '\uFEFF') :
    (stripNl (chars p) ≠ chars p → ¬ ∃ r, boxCode (some lx) true false tabsize escapeChar text = .ok r) ∧
    (stripNl (chars p) = chars p → ∃ r, boxCode (some lx) true false tabsize escapeChar text = .ok r ∧
      Balanced r ∧ chars r = List.replicate lead '\n' ++ chars p ∧
      (Compatible (lx (chars p)) p → ∃ hl,
        hl ++ [('\n', [])] =
          (lx (chars p)).flatMap (fun v => v.2.map (mark ["pygments-".toList ++ v.1])) ∧
        Merged (shown [] r) (List.replicate lead ('\n', []) ++ hl)
          (List.replicate lead ('\n', []) ++ shown [] p))) := by
  obtain ⟨q1, q2⟩ := code_styles lx hx tabsize escapeChar x b e hd text lead body p ht hb hp hcr hbom
  refine ⟨q1, fun heq => ?_⟩
  obtain ⟨h, m, k, h2, h4, h5, h6, h7, hm, hmb, hk, hbc, _, hsec⟩ := q2 heq
  obtain ⟨b2, c2⟩ := parse_balanced_clean hp
  have hk0 : k = 0 := by
    cases k with
    | zero => rfl
    | succ k =>
      rw [List.replicate_succ', ← List.append_assoc, ← heq] at hk
      exact absurd rfl (stripNl_last _ _ _ hk.symm)
  subst hk0
  simp only [List.replicate_zero, List.append_nil] at hk
  refine ⟨_, hbc, ?_, ?_, fun hn => ⟨shown [] h, h7, ?_⟩⟩
  · split
    · exact hmb
    · exact .newline _ _ hmb
  · split
    · rename_i h0; subst h0; simpa using hk
    · simp [chars, hk]
  · obtain ⟨r, k, e1, e2⟩ : ∃ r k, tokensMerge h p = .ok r ∧
        Merged (shown [] r ++ List.replicate k ('\n', [])) (shown [] h) (shown [] p) := by
      rcases hn with hn | ⟨n2, n3⟩
      · exact C12_merge_styles_partial h p h4 c2 h2 b2 h6 h5 hn
      · refine C12_merge_nested_partial h p h4 c2 h2 b2 h6 h5 n2 (fun x hx => ?_)
        obtain ⟨y, k1, k2, k3⟩ := hsec x hx
        have := n3 y k1 x.2 k3
        rwa [k2] at this
    rw [hm] at e1; injection e1 with e1; subst e1
    have hlen : ∀ {a b c}, Merged a b c → a.length = c.length := by
      intro a b c h
      induction h with
      | nil => rfl
      | cons _ _ _ _ _ _ ih => simp [ih]
    have hl := hlen e2
    have hl1 : (shown [] m).length = (chars m).length := by rw [← shown_fst []]; simp
    have hl2 : (shown [] p).length = (chars p).length := by rw [← shown_fst []]; simp
    rw [List.length_append, List.length_replicate, hl1, hl2, hk] at hl
    have : k = 0 := by omega
    subst this
    simp only [List.replicate_zero, List.append_nil] at e2
    have hlead : ∀ n, Merged (List.replicate n ('\n', []) ++ shown [] m)
        (List.replicate n ('\n', []) ++ shown [] h) (List.replicate n ('\n', []) ++ shown [] p) := by
      intro n
      induction n with
      | zero => simpa using e2
      | succ n ih => exact .cons _ _ _ _ (.refl _) ih
    split
    · rename_i h0; subst h0; exact hlead 0
    · simpa [shown, mark] using hlead lead

/-- The hypotheses hold for a typical code block, and the conclusion is not trivial. -/
example : ∃ p, untab 4 "\n\tint ~a{x} = 1;\n".toList = List.replicate 1 '\n' ++ "    int ~a{x} = 1;\n".toList ∧
    parseText (some '~') '{' '}' "    int ~a{x} = 1;\n".toList = .ok p ∧ '\r' ∉ chars p ∧
    stripNl (chars p) = chars p ∧ maxNesting 0 p ≤ 1 ∧ chars p = "    int x = 1;".toList :=
  ⟨[.text "    int ".toList, .opn ['a'], .text ['x'], .close, .text " = 1;".toList], by decide +kernel⟩

/-- Nested styles compatible with the tokens `int`, ` `, `x`, …: the inner style begins inside `int`, the outer one before. -/
example : Compatible [("T".toList, "int".toList), ("T".toList, " ".toList), ("T".toList, "x".toList), ("T".toList, ['\n'])]
    [.opn ['a'], .text "i".toList, .opn ['b'], .text "nt ".toList, .close, .text "x".toList, .close] := by
  right; decide +kernel

/-- Styles that are not: both begin inside `int` and share its end. -/
example : ¬ Compatible [("T".toList, "int".toList), ("T".toList, ['\n'])]
    [.text "i".toList, .opn ['a'], .opn ['b'], .text "n".toList, .close, .text "t".toList, .close] := by
  rintro (h | ⟨_, h⟩)
  · exact absurd h (by decide)
  · exact absurd (h (0, 3) (by decide) 2 (by decide)) (by decide +kernel)

end Verif.Text
