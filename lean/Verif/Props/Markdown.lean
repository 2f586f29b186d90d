import Verif.Model.Markdown
import Verif.Props.TextParse

/-! # Properties C80 and C92: Markdown -/

namespace Verif.Markdown

open Text Text.Spec

/-- What a Markdown text shows: every character with its styles, innermost first. -/
def display (st : List Str) : Inlines → List (Char × List Str)
  | .nil => []
  | .raw s rest => s.map (mark st) ++ display st rest
  | .emphasis kids rest => display ("md-italic".toList :: st) kids ++ display st rest
  | .strong kids rest => display ("md-bold".toList :: st) kids ++ display st rest
  | .link kids rest => display ("md-link".toList :: st) kids ++ display st rest
  | .lineBreak rest => ('\n', []) :: display st rest
  | .other s rest => s.map (mark st) ++ display st rest

/-- All pieces of text. -/
def texts : Inlines → List Str
  | .nil => []
  | .raw s rest => s :: texts rest
  | .emphasis kids rest => texts kids ++ texts rest
  | .strong kids rest => texts kids ++ texts rest
  | .link kids rest => texts kids ++ texts rest
  | .lineBreak rest => texts rest
  | .other s rest => s :: texts rest

/-- Only text, emphasis, links and line breaks. -/
def Supported : Inlines → Prop
  | .nil => True
  | .raw _ rest => Supported rest
  | .emphasis kids rest => Supported kids ∧ Supported rest
  | .strong kids rest => Supported kids ∧ Supported rest
  | .link kids rest => Supported kids ∧ Supported rest
  | .lineBreak rest => Supported rest
  | .other _ _ => False

theorem read_name (x : Char) (st : List Str) : ∀ (name acc rest : Str), '{' ∉ name →
    readSource (some x) '{' '}' st (some acc) (name ++ '{' :: rest) = readSource (some x) '{' '}' ((acc.reverse ++ name) :: st) none rest
  | [], acc, rest, _ => by simp [readSource]
  | c :: name, acc, rest, h => by
    have hc : c ≠ '{' := fun he => h (by simp [he])
    rw [List.cons_append, readSource, if_neg hc, read_name x st name (c :: acc) rest (fun hm => h (List.mem_cons_of_mem _ hm))]
    simp

theorem read_text (x : Char) (st : List Str) : ∀ (s rest : Str), (∀ c ∈ s, c ≠ x ∧ c ≠ '}') →
    readSource (some x) '{' '}' st none (s ++ rest) = s.map (mark st) ++ readSource (some x) '{' '}' st none rest
  | [], _, _ => rfl
  | c :: s, rest, h => by
    have hc := h c (by simp)
    rw [List.cons_append, readSource, if_neg (by simp [hc.1]), if_neg (by simp [hc.2]), read_text x st s rest (fun d hd => h d (List.mem_cons_of_mem _ hd))]
    rfl

theorem unclosed_name (x : Char) (d : Nat) : ∀ (name rest : Str), '{' ∉ name →
    unclosed (some x) '{' '}' d true (name ++ '{' :: rest) = unclosed (some x) '{' '}' (d + 1) false rest
  | [], rest, _ => by simp [unclosed]
  | c :: name, rest, h => by
    have hc : c ≠ '{' := fun he => h (by simp [he])
    rw [List.cons_append, unclosed, if_neg hc, unclosed_name x d name rest (fun hm => h (List.mem_cons_of_mem _ hm))]

theorem unclosed_text (x : Char) (d : Nat) : ∀ (s rest : Str), (∀ c ∈ s, c ≠ x ∧ c ≠ '}') →
    unclosed (some x) '{' '}' d false (s ++ rest) = unclosed (some x) '{' '}' d false rest
  | [], _, _ => rfl
  | c :: s, rest, h => by
    have hc := h c (by simp)
    rw [List.cons_append, unclosed, if_neg (by simp [hc.1]), if_neg (by simp [hc.2]), unclosed_text x d s rest (fun e he => h e (List.mem_cons_of_mem _ he))]

theorem read_wrap (x : Char) (hx : x ≠ '}') (st : List Str) (name text rest : Str) (out : List (Char × List Str)) (hn : '{' ∉ name)
    (ih : ∀ rest, readSource (some x) '{' '}' (name :: st) none (text ++ rest) = out ++ readSource (some x) '{' '}' (name :: st) none rest) :
    readSource (some x) '{' '}' st none (wrap x text name ++ rest) = out ++ readSource (some x) '{' '}' st none rest := by
  have h1 : wrap x text name ++ rest = x :: (name ++ '{' :: (text ++ '}' :: rest)) := by simp [wrap]
  rw [h1, readSource, if_pos rfl, read_name x st name [] _ hn, List.reverse_nil, List.nil_append, ih, readSource, if_neg (by simp [Ne.symm hx]), if_pos (by simp)]
  rfl

theorem unclosed_wrap (x : Char) (hx : x ≠ '}') (d : Nat) (name text rest : Str) (hn : '{' ∉ name)
    (ih : ∀ rest, unclosed (some x) '{' '}' (d + 1) false (text ++ rest) = unclosed (some x) '{' '}' (d + 1) false rest) :
    unclosed (some x) '{' '}' d false (wrap x text name ++ rest) = unclosed (some x) '{' '}' d false rest := by
  have h1 : wrap x text name ++ rest = x :: (name ++ '{' :: (text ++ '}' :: rest)) := by simp [wrap]
  rw [h1, unclosed, if_pos rfl, unclosed_name x d name _ hn, ih, unclosed, if_neg (by simp [Ne.symm hx]), if_pos (by simp)]
  rfl

theorem read_raw (x : Char) (hx : x ≠ '}') (hn : x ≠ '\n') (t : Inlines) : ∀ (st : List Str) (rest : Str), Supported t → (∀ s ∈ texts t, ∀ c ∈ s, c ≠ x ∧ c ≠ '}') →
    readSource (some x) '{' '}' st none (getRawText x t ++ rest) = display st t ++ readSource (some x) '{' '}' st none rest := by
  induction t with
  | nil => intro st rest _ _; rfl
  | raw s r ih =>
    intro st rest hs ht
    rw [getRawText, List.append_assoc, read_text x st s _ (ht s (by simp [texts])), ih st rest hs (fun s' h => ht s' (by simp [texts, h])), display, List.append_assoc]
  | emphasis k r ihk ihr =>
    intro st rest hs ht
    rw [getRawText, List.append_assoc, read_wrap x hx st _ _ _ _ (by decide) (fun rest => ihk _ rest hs.1 (fun s h => ht s (by simp [texts, h]))),
      ihr st rest hs.2 (fun s h => ht s (by simp [texts, h])), display, List.append_assoc]
    rfl
  | strong k r ihk ihr =>
    intro st rest hs ht
    rw [getRawText, List.append_assoc, read_wrap x hx st _ _ _ _ (by decide) (fun rest => ihk _ rest hs.1 (fun s h => ht s (by simp [texts, h]))),
      ihr st rest hs.2 (fun s h => ht s (by simp [texts, h])), display, List.append_assoc]
    rfl
  | link k r ihk ihr =>
    intro st rest hs ht
    rw [getRawText, List.append_assoc, read_wrap x hx st _ _ _ _ (by decide) (fun rest => ihk _ rest hs.1 (fun s h => ht s (by simp [texts, h]))),
      ihr st rest hs.2 (fun s h => ht s (by simp [texts, h])), display, List.append_assoc]
    rfl
  | lineBreak r ih =>
    intro st rest hs ht
    rw [getRawText, List.append_assoc, read_text x st _ _ (by simp [Ne.symm hn]), ih st rest hs ht, display]
    rfl
  | other s r ih => intro st rest hs; exact absurd hs id

theorem unclosed_raw (x : Char) (hx : x ≠ '}') (hn : x ≠ '\n') (t : Inlines) : ∀ (d : Nat) (rest : Str), Supported t → (∀ s ∈ texts t, ∀ c ∈ s, c ≠ x ∧ c ≠ '}') →
    unclosed (some x) '{' '}' d false (getRawText x t ++ rest) = unclosed (some x) '{' '}' d false rest := by
  induction t with
  | nil => intro st rest _ _; rfl
  | raw s r ih =>
    intro d rest hs ht
    rw [getRawText, List.append_assoc, unclosed_text x d s _ (ht s (by simp [texts])), ih d rest hs (fun s' h => ht s' (by simp [texts, h]))]
  | emphasis k r ihk ihr =>
    intro d rest hs ht
    rw [getRawText, List.append_assoc, unclosed_wrap x hx d _ _ _ (by decide) (fun rest => ihk _ rest hs.1 (fun s h => ht s (by simp [texts, h]))),
      ihr d rest hs.2 (fun s h => ht s (by simp [texts, h]))]
  | strong k r ihk ihr =>
    intro d rest hs ht
    rw [getRawText, List.append_assoc, unclosed_wrap x hx d _ _ _ (by decide) (fun rest => ihk _ rest hs.1 (fun s h => ht s (by simp [texts, h]))),
      ihr d rest hs.2 (fun s h => ht s (by simp [texts, h]))]
  | link k r ihk ihr =>
    intro d rest hs ht
    rw [getRawText, List.append_assoc, unclosed_wrap x hx d _ _ _ (by decide) (fun rest => ihk _ rest hs.1 (fun s h => ht s (by simp [texts, h]))),
      ihr d rest hs.2 (fun s h => ht s (by simp [texts, h]))]
  | lineBreak r ih =>
    intro d rest hs ht
    rw [getRawText, List.append_assoc, unclosed_text x d _ _ (by simp [Ne.symm hn]), ih d rest hs ht]
  | other s r ih => intro d rest hs; exact absurd hs id

/-- **C80**: text, emphasis, links and line breaks in any nesting, whose texts avoid the escape character and the closing bracket, are accepted, and what is shown is, character by character
and with the styles of Markdown, what was written (line breaks at the very end may be missing). -/
theorem C80_inline (x : Char) (hx : x ≠ '}') (hn : x ≠ '\n') (t : Inlines) (hs : Supported t) (ht : ∀ s ∈ texts t, ∀ c ∈ s, c ≠ x ∧ c ≠ '}') :
    ∃ toks, buildText x t = .ok toks ∧ Balanced toks ∧ ∃ k, shown [] toks ++ List.replicate k ('\n', []) = display [] t := by
  have h1 := read_raw x hx hn t [] [] hs ht
  have h2 := unclosed_raw x hx hn t 0 [] hs ht
  simp only [List.append_nil, readSource] at h1 h2
  obtain ⟨toks, h3, h4⟩ := (C03_rejected_iff_unclosed (some x) '{' '}' (getRawText x t)).2.mp (h2.trans rfl)
  obtain ⟨k, h5⟩ := C02_shown_is_source _ _ _ _ _ h3
  exact ⟨toks, h3, h4, k, h5.trans h1⟩

/-- `a **b *c*** [d](…)`. -/
def exampleText : Inlines := .raw "a ".toList (.strong (.raw "b ".toList (.emphasis (.raw "c".toList .nil) .nil)) (.raw " ".toList (.link (.raw "d".toList .nil) .nil)))

example : Supported exampleText ∧ texts exampleText = ["a ".toList, "b ".toList, "c".toList, " ".toList, "d".toList] ∧ display [] exampleText =
    [('a', []), (' ', []), ('b', ["md-bold".toList]), (' ', ["md-bold".toList]), ('c', ["md-italic".toList, "md-bold".toList]), (' ', []), ('d', ["md-link".toList])] := by
  exact ⟨by simp [exampleText, Supported], by decide +kernel, by decide +kernel⟩

/-! ### C92 -/

/-- **C92 is false of the code**: an unsupported element is left out together with its text, … -/
theorem C92_dropped_false : ¬ ∀ t : Inlines, (∀ s ∈ texts t, ∀ c ∈ s, c ≠ '~' ∧ c ≠ '}') → ∀ toks, buildText '~' t = .ok toks → ∃ k, chars toks ++ List.replicate k '\n' = (display [] t).map (·.1) := by
  intro h
  obtain ⟨k, hk⟩ := h (.raw "run ".toList (.other "ls".toList .nil)) (by decide +kernel) [.text "run ".toList] (by decide +kernel)
  cases k with
  | zero => exact absurd hk (by decide +kernel)
  | succ k => cases k <;> revert hk <;> simp [chars, display, mark, List.replicate_succ]

/-- … and the escape character and brackets in the Markdown text are read as markup of Elsie. -/
theorem C92_tilde_false : ¬ ∀ t : Inlines, Supported t → ∃ toks, buildText '~' t = .ok toks := by
  intro h
  obtain ⟨toks, ht⟩ := h (.raw "~5 {km}, ~6".toList .nil) trivial
  revert ht
  have : buildText '~' (.raw "~5 {km}, ~6".toList .nil) = .error (.user "Invalid format, unclosed command") := by decide +kernel
  rw [this]
  exact fun h => by cases h

theorem C92_bracket_false : ¬ ∀ t : Inlines, Supported t → (∀ s ∈ texts t, '~' ∉ s) → ∀ toks, buildText '~' t = .ok toks → ∃ k, shown [] toks ++ List.replicate k ('\n', []) = display [] t := by
  intro h
  obtain ⟨k, hk⟩ := h (.strong (.raw "a}b".toList .nil) .nil) ⟨trivial, trivial⟩ (by decide +kernel) [.opn "md-bold".toList, .text "a".toList, .close, .text "b}".toList] (by decide +kernel)
  have := congrArg List.head? (congrArg List.tail hk)
  revert this
  simp [shown, display, mark]

/-- **C92, the part that holds**: the characters shown are the characters of the Markdown text, for texts of the supported elements without the two characters. -/
theorem C92_shown_partial (x : Char) (hx : x ≠ '}') (hn : x ≠ '\n') (t : Inlines) (hs : Supported t) (ht : ∀ s ∈ texts t, ∀ c ∈ s, c ≠ x ∧ c ≠ '}') :
    ∃ toks, buildText x t = .ok toks ∧ ∃ k, (shown [] toks).map (·.1) ++ List.replicate k '\n' = (display [] t).map (·.1) := by
  obtain ⟨toks, h1, _, k, h2⟩ := C80_inline x hx hn t hs ht
  refine ⟨toks, h1, k, ?_⟩
  rw [← h2]
  simp

end Verif.Markdown
