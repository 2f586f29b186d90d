import Verif.Props.Code
import Verif.Props.TextLines

/-!
# Properties C02, C03, C05, C08, C09, C14 for the methods of a box

The properties of the parser carried over to `box.text(text, escape_char=…)` and `box.code(…)`.
-/

namespace Verif.Text
open Spec

/-- **C02, for `text()`.** Whatever `text()` accepts is displayed as the source says, with the delimiters
of the `escape_char` argument. -/
theorem C02_box_text (escapeChar s : Str) (toks : List Tok) (h : boxText escapeChar s = .ok toks) :
    ∃ x b e, Delims escapeChar x b e ∧
      ∃ k, shown [] toks ++ List.replicate k ('\n', []) = readSource (some x) b e [] none s := by
  unfold boxText at h
  split at h
  · cases h
  · rename_i x b e hd
    exact ⟨x, b, e, delims_of hd, C02_shown_is_source _ _ _ _ _ h⟩

/-- **C03, for `text()`.** `text()` accepts a text exactly if `escape_char` has length 1 or 3 and no inline
style is open at the end; the result is balanced. -/
theorem C03_box_text (escapeChar s : Str) :
    ((∃ toks, boxText escapeChar s = .ok toks) ↔
      ∃ x b e, Delims escapeChar x b e ∧ unclosed (some x) b e 0 false s = false) ∧
    (∀ toks, boxText escapeChar s = .ok toks → Balanced toks) ∧
    ((∃ x b e, Delims escapeChar x b e) ↔ escapeChar.length = 1 ∨ escapeChar.length = 3) := by
  refine ⟨⟨?_, ?_⟩, ?_, ?_⟩
  · rintro ⟨toks, h⟩
    unfold boxText at h
    split at h
    · cases h
    · rename_i x b e hd
      refine ⟨x, b, e, delims_of hd, ?_⟩
      cases hu : unclosed (some x) b e 0 false s
      · rfl
      · rw [(C03_rejected_iff_unclosed _ _ _ _).1.mp hu] at h; cases h
  · rintro ⟨x, b, e, hd, hu⟩
    obtain ⟨toks, h1, -⟩ := (C03_rejected_iff_unclosed _ _ _ _).2.mp hu
    exact ⟨toks, by simp [boxText, delims_ok hd, h1]⟩
  · intro toks h
    unfold boxText at h
    split at h
    · cases h
    · exact (parse_balanced_clean h).1
  · constructor
    · rintro ⟨x, b, e, h⟩
      cases h <;> simp
    · intro h
      match escapeChar, h with
      | [], h => simp at h
      | [x], _ => exact ⟨_, _, _, .one x⟩
      | [x, b], h => simp at h
      | [x, b, e], _ => exact ⟨_, _, _, .three x b e⟩
      | _ :: _ :: _ :: _ :: _, h => simp at h

/-- **C05, for `text()`.** -/
theorem C05_box_text (escapeChar s : Str) (x b e : Char) (hd : Delims escapeChar x b e) (h : x ∉ s) :
    ∃ toks, boxText escapeChar s = .ok toks ∧
      shown [] toks = (s.rdropWhile (· == '\n')).map (fun c => (c, [])) := by
  obtain ⟨toks, h1, h2, -⟩ := C05_verbatim (some x) b e s (fun c hc he => h (by injection he with he; exact he ▸ hc))
  exact ⟨toks, by simp [boxText, delims_ok hd, h1], h2⟩

/-- **C08, for `text()`.** Renaming the characters of the text and all three delimiters in the call gives the
renamed result; a single escape character goes with curly brackets. -/
theorem C08_box_text (f : Char → Char) (hf : Function.Injective f) (hnl : f '\n' = '\n') (x b e : Char) (s : Str) :
    boxText [f x, f b, f e] (s.map f) = (boxText [x, b, e] s).map (List.map (Tok.rename f)) ∧
    boxText [x] s = boxText [x, '{', '}'] s :=
  ⟨C08_rename f hf hnl (some x) b e s, rfl⟩

example : boxText "!<>".toList "a !b<c> {d}".toList = (boxText "~{}".toList "a ~b{c} <d>".toList).map
    (List.map (Tok.rename (fun c => if c = '~' then '!' else if c = '{' then '<' else if c = '}' then '>' else
      if c = '<' then '{' else if c = '>' then '}' else c))) ∧
    ∃ toks, boxText ['~'] "a ~b{c} <d>".toList = .ok toks := by
  refine ⟨by decide +kernel, [.text "a ".toList, .opn ['b'], .text ['c'], .close, .text " <d>".toList], by decide +kernel⟩

/-- **C09, for `code()`.** With `line_numbers=True` every call of `code` gives what it gives without, each line
preceded by its label as in `C09_line_numbers`, and raises exactly if it raises without. -/
theorem C09_code (lexer : Option Lexer) (useStyles : Bool) (tabsize : Nat) (escapeChar text : Str) :
    (∀ r, boxCode lexer useStyles false tabsize escapeChar text = .ok r →
      ∃ (r' : List Tok) (label : Nat → Str), boxCode lexer useStyles true tabsize escapeChar text = .ok r' ∧
        lines r' = (lines r).mapIdx (fun i l =>
          .opn "code_lineno".toList :: .text (label i ++ [' ']) :: .close :: l) ∧
        (∀ i, i < (lines r).length →
          (label i).length = (Nat.toDigits 10 (lines r).length).length ∧
          (∀ c ∈ label i, c.isDigit = true) ∧ Nat.ofDigitChars 10 (label i) 0 = i + 1) ∧
        (Balanced r → Balanced r')) ∧
    (∀ err, boxCode lexer useStyles false tabsize escapeChar text = .error err →
      boxCode lexer useStyles true tabsize escapeChar text = .error err) := by
  have key : boxCode lexer useStyles true tabsize escapeChar text =
      (boxCode lexer useStyles false tabsize escapeChar text).map addLineNumbers := by
    unfold boxCode
    cases delimiters escapeChar with
    | error err => rfl
    | ok d =>
      obtain ⟨x, b, e⟩ := d
      dsimp only
      split <;> rfl
  rw [key]
  constructor
  · intro r h
    obtain ⟨label, h1, h2, h3⟩ := C09_line_numbers r
    exact ⟨addLineNumbers r, label, by rw [h]; rfl, h1, h2, h3⟩
  · intro err h
    rw [h]; rfl

/-- Ten lines of code: the labels have two digits. -/
example : ∃ r', boxCode none false true 4 ['~'] "a\nb\nc\nd\ne\nf\ng\nh\ni\n\tj".toList = .ok r' ∧
    (lines r')[0]? = some [.opn "code_lineno".toList, .text "01 ".toList, .close, .text ['a']] ∧
    (lines r')[9]? = some [.opn "code_lineno".toList, .text "10 ".toList, .close, .text "    j".toList] :=
  ⟨addLineNumbers [.text ['a'], .newline 1, .text ['b'], .newline 1, .text ['c'], .newline 1, .text ['d'], .newline 1,
    .text ['e'], .newline 1, .text ['f'], .newline 1, .text ['g'], .newline 1, .text ['h'], .newline 1, .text ['i'],
    .newline 1, .text "    j".toList], by decide +kernel⟩

/-- **C14, for `code()`.** With a language and without inline styles, `code` shows the values of the lexer, each
under the style of its token type, up to line breaks at the end. -/
theorem C14_code (lexer : Lexer) (tabsize : Nat) (escapeChar : Str) (x b e : Char) (hd : Delims escapeChar x b e)
    (text : Str) :
    ∃ r k, boxCode (some lexer) false false tabsize escapeChar text = .ok r ∧ Balanced r ∧
      shown [] r ++ List.replicate k ('\n', []) =
        (lexer (untab tabsize text)).flatMap (fun v => v.2.map (mark ["pygments-".toList ++ v.1])) := by
  obtain ⟨r, k, h1, h2, -, -, -, h3⟩ := C14_highlight (lexer (untab tabsize text))
  exact ⟨r, k, by simp [boxCode, delims_ok hd, expandTabs_eq, highlightCode, h1], h2, h3⟩

end Verif.Text
