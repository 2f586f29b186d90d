import Verif.Model.Inkscape
import Mathlib.Data.List.Infix

/-! # Properties C83 and C93: replies of Inkscape -/

namespace Verif.Inkscape

/-! ### Specification -/

/-- A prompt `> ` at the beginning of a line, just at the end of what was read. -/
def Prompt (read : Str) : Prop := read = "> ".toList ∨ "\n> ".toList <:+ read

instance (read : Str) : Decidable (Prompt read) := inferInstanceAs (Decidable (_ ∨ _))

/-- `reply` was written before the first prompt, and `rest` after it. -/
def FirstPrompt (stream reply rest : Str) : Prop :=
  ((stream = reply ++ "\n> ".toList ++ rest) ∨ (reply = [] ∧ stream = "> ".toList ++ rest)) ∧
  ∀ read later, stream = read ++ later → Prompt read → rest.length ≥ later.length

/-! ### C83 -/

theorem prompt_iff (chars : Str) (c : Char) : Prompt ((c :: chars).reverse) ↔ ∃ before, chars = '>' :: before ∧ c = ' ' ∧ (before = [] ∨ before.head? = some '\n') := by
  constructor
  · rintro (h | h)
    · have := congrArg List.reverse h
      rw [List.reverse_reverse] at this
      cases this
      exact ⟨[], rfl, rfl, .inl rfl⟩
    · have := List.reverse_prefix.mpr h
      rw [List.reverse_reverse] at this
      obtain ⟨t, ht⟩ := this
      cases ht
      exact ⟨_, rfl, rfl, .inr rfl⟩
  · rintro ⟨before, rfl, rfl, h | h⟩
    · subst h; exact .inl rfl
    · cases before with
      | nil => cases h
      | cons d before =>
        simp only [List.head?_cons, Option.some.injEq] at h
        subst h
        right
        exact ⟨before.reverse, by simp⟩

theorem waitLoop_cons (chars : Str) (c : Char) (rest : Str) :
    waitLoop chars (c :: rest) = if Prompt ((c :: chars).reverse) then some ((chars.tail.tail).reverse, rest) else waitLoop (c :: chars) rest := by
  cases chars with
  | nil =>
    rw [if_neg]
    · rfl
    · intro h
      obtain ⟨_, h, _⟩ := (prompt_iff _ _).mp h
      cases h
  | cons d before =>
    by_cases hd : d = '>'
    · subst hd
      simp only [waitLoop]
      by_cases h : c = ' ' ∧ (before = [] ∨ before.head? = some '\n')
      · rw [if_pos h, if_pos ((prompt_iff _ _).mpr ⟨before, rfl, h⟩)]
        simp
      · rw [if_neg h, if_neg]
        intro hp
        obtain ⟨b, hb, h'⟩ := (prompt_iff _ _).mp hp
        cases hb
        exact h h'
    · rw [if_neg]
      · simp only [waitLoop]
        split
        · rename_i h
          cases h
          exact absurd rfl hd
        · rfl
      · intro hp
        obtain ⟨b, hb, h'⟩ := (prompt_iff _ _).mp hp
        cases hb
        exact hd rfl

/-- What the loop finds: the first position after which there is a prompt. -/
theorem waitLoop_spec : ∀ (stream chars : Str),
    (∀ reply rest, waitLoop chars stream = some (reply, rest) ↔
      ∃ new, stream = new ++ rest ∧ new ≠ [] ∧ Prompt (chars.reverse ++ new) ∧ reply = (((chars.reverse ++ new).dropLast).dropLast).dropLast ∧
        ∀ new' later, stream = new' ++ later → new' ≠ [] → Prompt (chars.reverse ++ new') → rest.length ≥ later.length)
  | [], chars, reply, rest => by
    simp only [waitLoop]
    constructor
    · intro h; cases h
    · rintro ⟨new, h1, h2, _⟩
      have := List.append_eq_nil_iff.mp h1.symm
      exact absurd this.1 h2
  | c :: stream, chars, reply, rest => by
    rw [waitLoop_cons]
    have hrev : (c :: chars).reverse = chars.reverse ++ [c] := by simp
    by_cases hp : Prompt ((c :: chars).reverse)
    · rw [if_pos hp]
      constructor
      · intro h
        cases h
        refine ⟨[c], rfl, by simp, by rw [← hrev]; exact hp, ?_, ?_⟩
        · rw [List.dropLast_concat]
          simp [List.dropLast_reverse]
        · intro new' later h1 h2 _
          have := congrArg List.length h1
          cases new' with
          | nil => exact absurd rfl h2
          | cons d new' => simp at this ⊢; omega
      · rintro ⟨new, h1, h2, h3, h4, h5⟩
        have h6 := h5 [c] stream rfl (by simp) (by rw [← hrev]; exact hp)
        cases new with
        | nil => exact absurd rfl h2
        | cons d new =>
          have hlen := congrArg List.length h1
          simp at hlen
          have : new = [] := List.length_eq_zero_iff.mp (by omega)
          subst this
          simp only [List.cons_append, List.nil_append, List.cons.injEq] at h1
          obtain ⟨rfl, rfl⟩ := h1
          rw [h4, List.dropLast_concat]
          simp [List.dropLast_reverse]
    · rw [if_neg hp, waitLoop_spec stream (c :: chars) reply rest]
      constructor
      · rintro ⟨new, h1, h2, h3, h4, h5⟩
        refine ⟨c :: new, by rw [h1]; rfl, by simp, by rw [hrev] at h3; simpa using h3, by rw [hrev] at h4; simpa using h4, ?_⟩
        intro new' later e1 e2 e3
        cases new' with
        | nil => exact absurd rfl e2
        | cons d new' =>
          simp only [List.cons_append, List.cons.injEq] at e1
          obtain ⟨rfl, e1⟩ := e1
          cases new' with
          | nil => rw [hrev] at hp; exact absurd e3 hp
          | cons d' new' => exact h5 (d' :: new') later e1 (by simp) (by rw [hrev]; simpa using e3)
      · rintro ⟨new, h1, h2, h3, h4, h5⟩
        cases new with
        | nil => exact absurd rfl h2
        | cons d new =>
          simp only [List.cons_append, List.cons.injEq] at h1
          obtain ⟨rfl, h1⟩ := h1
          cases new with
          | nil => rw [hrev] at hp; exact absurd h3 hp
          | cons d' new =>
            refine ⟨d' :: new, h1, by simp, by rw [hrev]; simpa using h3, by rw [hrev]; simpa using h4, ?_⟩
            intro new' later e1 e2 e3
            exact h5 (c :: new') later (by rw [e1]; rfl) (by simp) (by rw [hrev] at e3; simpa using e3)

/-- **C83, the part that holds**: reading up to the prompt returns a reply exactly if there is a prompt at the beginning of a line; it then returns exactly what was written before the first one and leaves the
stream just after it. (Missing: when Inkscape ends without a prompt.) -/
theorem C83_prompt_partial (stream reply rest : Str) : waitForPrompt stream = some (reply, rest) ↔ FirstPrompt stream reply rest := by
  rw [waitForPrompt, waitLoop_spec]
  constructor
  · rintro ⟨new, h1, h2, h3, h4, h5⟩
    simp only [List.reverse_nil, List.nil_append] at h3 h4 h5
    refine ⟨?_, ?_⟩
    · rcases h3 with h3 | ⟨t, h3⟩
      · right
        rw [h3] at h4
        exact ⟨h4, by rw [h1, h3]⟩
      · left
        rw [← h3] at h4
        have : reply = t := by
          rw [h4]
          change (((t ++ ['\n', '>', ' ']).dropLast).dropLast).dropLast = t
          simp [List.dropLast_append]
        rw [h1, ← h3, this]
    · intro read later e1 e2
      exact h5 read later e1 (by rintro rfl; rcases e2 with e | ⟨t, e⟩; cases e; simp at e) e2
  · rintro ⟨h1, h2⟩
    rcases h1 with h1 | ⟨rfl, h1⟩
    · refine ⟨reply ++ "\n> ".toList, h1, by simp, .inr ⟨reply, rfl⟩, ?_, fun new' later e1 _ e3 => h2 new' later e1 e3⟩
      change reply = (((reply ++ ['\n', '>', ' ']).dropLast).dropLast).dropLast
      simp [List.dropLast_append]
    · exact ⟨"> ".toList, h1, by simp, .inl rfl, rfl, fun new' later e1 _ e3 => h2 new' later e1 e3⟩

example : FirstPrompt "12.5\n> 3\n> ".toList "12.5".toList "3\n> ".toList := by
  rw [← C83_prompt_partial]
  decide +kernel

/-- **C83 is false of the code**: when Inkscape ends without a prompt, reading never returns. -/
theorem C83_end_false : ¬ ∀ stream, waitForPrompt stream ≠ none := fun h => h "Segmentation fault\n".toList (by decide +kernel)

/-- And this is so for every stream without a prompt. -/
theorem C83_end_exact (stream : Str) (h : ¬ ∃ read later, stream = read ++ later ∧ Prompt read) : waitForPrompt stream = none := by
  cases hw : waitForPrompt stream with
  | none => rfl
  | some x =>
    obtain ⟨reply, rest⟩ := x
    obtain ⟨h1, _⟩ := (C83_prompt_partial _ _ _).mp hw
    rcases h1 with h1 | ⟨_, h1⟩
    · exact absurd ⟨_, _, h1, .inr ⟨reply, rfl⟩⟩ h
    · exact absurd ⟨_, _, h1, .inl rfl⟩ h

/-! ### C93 -/

/-- A reply that does not look like a prompt: no line of it begins with `> `. -/
def NoPrompt (reply : Str) : Prop := ¬ "> ".toList <+: reply ∧ ¬ "\n> ".toList <:+: reply

theorem firstPrompt_of_noPrompt {reply rest : Str} (h : NoPrompt reply) : FirstPrompt (reply ++ "\n> ".toList ++ rest) reply rest := by
  refine ⟨.inl rfl, ?_⟩
  intro read later he hp
  refine Classical.byContradiction fun hlt => ?_
  have hlt : rest.length < later.length := by omega
  -- `read` is shorter than the reply with its prompt
  have hpre : read <+: reply ++ "\n> ".toList := by
    have h1 : read <+: reply ++ "\n> ".toList ++ rest := ⟨later, he.symm⟩
    have h2 : reply ++ "\n> ".toList <+: reply ++ "\n> ".toList ++ rest := List.prefix_append _ _
    refine List.prefix_of_prefix_length_le h1 h2 ?_
    have := congrArg List.length he
    simp only [List.length_append] at this ⊢
    omega
  have hlen : read.length < (reply ++ "\n> ".toList).length := by
    have := congrArg List.length he
    simp only [List.length_append] at this ⊢
    omega
  obtain ⟨t, ht⟩ := hpre
  have htne : t ≠ [] := by
    rintro rfl
    rw [List.append_nil] at ht
    rw [ht] at hlen
    omega
  have ht' : read ++ t = reply ++ ['\n', '>', ' '] := ht
  -- hence it ends in the reply, or just before its prompt
  have hlast : read <+: reply ++ ['\n', '>'] := by
    refine ⟨t.dropLast, ?_⟩
    rw [← List.dropLast_append_of_ne_nil htne, ht']
    simp [List.dropLast_append]
  have hends : ∃ w, read = w ++ [' '] := by
    rcases hp with hp | ⟨w, hw⟩
    · exact ⟨['>'], hp⟩
    · exact ⟨w ++ ['\n', '>'], by rw [← hw]; simp⟩
  obtain ⟨w, hw⟩ := hends
  have hin : read <+: reply := by
    obtain ⟨t2, ht2⟩ := hlast
    rcases List.eq_nil_or_concat t2 with rfl | ⟨t3, c, rfl⟩
    · rw [List.append_nil, hw] at ht2
      have : w ++ [' '] = (reply ++ ['\n']) ++ ['>'] := by rw [ht2]; simp
      exact absurd (List.append_inj' this rfl).2 (by decide)
    · have e1 : (read ++ t3) ++ [c] = (reply ++ ['\n']) ++ ['>'] := by simpa using ht2
      have e2 := (List.append_inj' e1 rfl).1
      rcases List.eq_nil_or_concat t3 with rfl | ⟨t4, c', rfl⟩
      · rw [List.append_nil, hw] at e2
        exact absurd (List.append_inj' e2 rfl).2 (by decide)
      · have e3 : (read ++ t4) ++ [c'] = reply ++ ['\n'] := by simpa using e2
        exact ⟨t4, (List.append_inj' e3 rfl).1⟩
  rcases hp with hp | hp
  · exact h.1 (hp ▸ hin)
  · exact h.2 (hp.isInfix.trans hin.isInfix)

/-- The last line of some text is what `run_command` should return. -/
def LastLine (reply value : Str) : Prop :=
  (∀ c ∈ value, isLineSep c = false) ∧ (∀ c, value.head? = some c → isSpace c = false) ∧ (∀ c, value.getLast? = some c → isSpace c = false) ∧ value ≠ [] ∧
  ∃ before after, reply = before ++ value ++ after ∧ (∀ c ∈ after, isSpace c = true) ∧ (before = [] ∨ ∃ b c, before = b ++ [c] ∧ isLineSep c = true)

theorem dropWhile_all {p : Char → Bool} : ∀ {a b : Str}, (∀ c ∈ a, p c = true) → (a ++ b).dropWhile p = b.dropWhile p
  | [], _, _ => rfl
  | c :: a, b, h => by
    rw [List.cons_append, List.dropWhile_cons_of_pos (h c (by simp)), dropWhile_all fun d hd => h d (List.mem_cons_of_mem _ hd)]

theorem dropWhile_head {p : Char → Bool} {a : Str} (h : ∀ c, a.head? = some c → p c = false) : a.dropWhile p = a := by
  cases a with
  | nil => rfl
  | cons c a => rw [List.dropWhile_cons_of_neg (by simp [h c rfl])]

theorem takeWhile_stop {p : Char → Bool} {a b : Str} (ha : ∀ c ∈ a, p c = true) (hb : b = [] ∨ ∃ c b', b = c :: b' ∧ p c = false) : (a ++ b).takeWhile p = a := by
  rw [List.takeWhile_append_of_pos ha]
  rcases hb with rfl | ⟨c, b', rfl, hc⟩
  · simp
  · rw [List.takeWhile_cons_of_neg (by simp [hc]), List.append_nil]

/-- The answer to a command is the last line of the reply, without the blanks around it. -/
theorem answer_last {reply value : Str} (h : LastLine reply value) : answer reply = value := by
  obtain ⟨h1, h2, h3, h4, before, after, rfl, h5, h6⟩ := h
  -- what `strip` leaves
  have hstrip : ∃ b', strip (before ++ value ++ after) = b' ++ value ∧ (b' = [] ∨ ∃ b c, b' = b ++ [c] ∧ isLineSep c = true) := by
    have hvw : ((before ++ value ++ after).dropWhile isSpace) = before.dropWhile isSpace ++ (value ++ after) := by
      rw [List.append_assoc]
      have hva : (value ++ after).dropWhile isSpace = value ++ after := by
        apply dropWhile_head
        intro c hc
        cases value with
        | nil => exact absurd rfl h4
        | cons d v => exact h2 c hc
      rw [List.dropWhile_append]
      split
      · rename_i he
        rw [List.isEmpty_iff.mp he, hva]
        rfl
      · rfl
    refine ⟨before.dropWhile isSpace, ?_, ?_⟩
    · unfold strip
      rw [hvw, List.reverse_append, List.reverse_append, List.append_assoc, dropWhile_all (by intro c hc; exact h5 c (List.mem_reverse.mp hc))]
      rw [dropWhile_head]
      · simp
      · intro c hc
        rw [List.head?_append] at hc
        cases hr : value.reverse.head? with
        | none => rw [List.head?_eq_none_iff] at hr; exact absurd (List.reverse_eq_nil_iff.mp hr) h4
        | some d =>
          rw [hr] at hc
          simp only [Option.some_or, Option.some.injEq] at hc
          subst hc
          rw [List.head?_reverse] at hr
          exact h3 _ hr
    · by_cases he : before.dropWhile isSpace = []
      · exact .inl he
      · right
        rcases h6 with rfl | ⟨b, c, rfl, hc⟩
        · exact absurd rfl he
        · rw [List.dropWhile_append] at he ⊢
          split at he
          · rename_i hb
            rw [if_pos hb]
            by_cases hcs : isSpace c = true
            · exact absurd (by rw [List.dropWhile_cons_of_pos hcs]; rfl) he
            · rw [List.dropWhile_cons_of_neg hcs]
              exact ⟨[], c, rfl, hc⟩
          · rename_i hb
            rw [if_neg hb]
            exact ⟨_, c, rfl, hc⟩
  obtain ⟨b', hb', hb2⟩ := hstrip
  unfold answer
  simp only [hb']
  rw [if_neg (by simp [h4])]
  unfold lastLine
  have hlast : (b' ++ value).getLast?.any isLineSep = false := by
    rw [List.getLast?_append]
    cases hg : value.getLast? with
    | none => rw [List.getLast?_eq_none_iff] at hg; exact absurd hg h4
    | some c => simp [h1 c (List.mem_of_getLast? hg)]
  simp only [hlast, Bool.false_eq_true, if_false]
  rw [List.reverse_append, takeWhile_stop, List.reverse_reverse]
  · intro c hc
    simp [h1 c (List.mem_reverse.mp hc)]
  · rcases hb2 with rfl | ⟨b, c, rfl, hc⟩
    · exact .inl rfl
    · exact .inr ⟨c, b.reverse, by simp, by simp [hc]⟩

/-- **C93**: if every reply has no line that looks like a prompt, every command gets the last line of its own reply, whatever was written before it (such as warnings), and never a line of the reply to another
command. -/
theorem C93_answers (replies : List (Str × Str)) (h : ∀ r ∈ replies, NoPrompt r.1 ∧ LastLine r.1 r.2) (rest : Str) :
    runCommands replies.length ((replies.flatMap fun r => r.1 ++ "\n> ".toList) ++ rest) = some (replies.map (·.2), rest) := by
  induction replies with
  | nil => rfl
  | cons r replies ih =>
    have hr := h r (by simp)
    have hw := (C83_prompt_partial _ _ _).mpr (firstPrompt_of_noPrompt (rest := (replies.flatMap fun r => r.1 ++ "\n> ".toList) ++ rest) hr.1)
    rw [List.flatMap_cons, List.append_assoc, List.length_cons]
    simp only [runCommands]
    rw [hw]
    simp only [ih fun r' hr' => h r' (List.mem_cons_of_mem _ hr'), answer_last hr.2, List.map_cons]

example : NoPrompt "Warning: no font\n12.5".toList ∧ LastLine "Warning: no font\n12.5".toList "12.5".toList := by
  refine ⟨⟨?_, ?_⟩, by decide +kernel, by decide +kernel, by decide +kernel, by decide +kernel, "Warning: no font\n".toList, [], by decide +kernel, by decide +kernel, .inr ⟨"Warning: no font".toList, '\n', by decide +kernel, by decide +kernel⟩⟩
  · rw [← List.isPrefixOf_iff_prefix]; decide +kernel
  · decide +kernel

end Verif.Inkscape
