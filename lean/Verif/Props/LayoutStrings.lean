import Verif.Spec.LayoutStrings
import Verif.Proofs.Show

/-! # Properties C38, C39: size and position strings -/

namespace Verif.Layout
open Spec Verif.Show Verif.Show.Spec

theorem allDigits_iff (s : Str) : allDigits s = true ↔ Numeral s := by
  rw [numeral_iff]
  unfold allDigits
  cases s <;> simp

theorem chomp_of_last {s : Str} {c : Char} (h : s.getLast? = some c) (hc : c ≠ '\n') : chomp s = s := by
  unfold chomp
  rw [if_neg]
  rw [h]
  intro he
  injection he with he
  exact hc he

theorem numeral_last {ds : Str} (h : Numeral ds) : ∃ c, ds.getLast? = some c ∧ isDigit c = true := by
  obtain ⟨c, hc⟩ : ∃ c, ds.getLast? = some c := by
    cases hl : ds.getLast? with
    | none => exact absurd (List.getLast?_eq_none_iff.mp hl) h.1
    | some c => exact ⟨c, rfl⟩
  exact ⟨c, hc, (isDigit_iff c).mpr (h.2 c (List.mem_of_getLast? hc))⟩

theorem digit_not {c : Char} (h : isDigit c = true) : c ≠ '\n' ∧ c ≠ '%' ∧ c ≠ ')' ∧ c ≠ ']' ∧ c ≠ '[' ∧ c ≠ 'f' := by
  refine ⟨?_, ?_, ?_, ?_, ?_, ?_⟩ <;> rintro rfl <;> revert h <;> decide

theorem not_numeral_of_mem {s : Str} {c : Char} (h : c ∈ s) (hc : isDigit c = false) : allDigits s = false := by
  rw [← Bool.not_eq_true, allDigits_iff]
  intro hn
  have := (isDigit_iff c).mpr (hn.2 c h)
  rw [this] at hc; cases hc

theorem chomp_inv (s : Str) : s = chomp s ∨ s = chomp s ++ ['\n'] := by
  unfold chomp
  split
  · right
    rename_i h
    have hne : s ≠ [] := by rintro rfl; cases h
    conv_lhs => rw [← List.dropLast_append_getLast hne]
    rw [List.getLast?_eq_getLast_of_ne_nil hne] at h
    injection h with h
    rw [h]
  · left; rfl

theorem drop_last_inv {s : Str} {c : Char} (h : s.getLast? = some c) : s = s.dropLast ++ [c] := by
  have hne : s ≠ [] := by rintro rfl; cases h
  conv_lhs => rw [← List.dropLast_append_getLast hne]
  rw [List.getLast?_eq_getLast_of_ne_nil hne] at h
  injection h with h
  rw [h]

/-! ### C38 -/

/-- **C38** is false: more strings are accepted than documented. -/
theorem C38_size_strings_false :
    parseSize (.str "fill(3))".toList) = .ok { fill := 3 } ∧ parseSize (.str "10\n".toList) = .ok { minSize := 10 } := by
  constructor
  · rfl
  · simp only [parseSize]
    have : intOfDigits (chomp "10\n".toList) = 10 := by decide
    rw [if_pos (by decide), this]; rfl

/-- **C38**, acceptance: every documented size string is accepted with the documented meaning. -/
theorem C38_size_strings_accepted (s : Str) (v : Size) (h : SizeText s v) : parseSize (.str s) = .ok v := by
  cases h with
  | number hn =>
    obtain ⟨c, hc, hd⟩ := numeral_last hn
    simp only [parseSize]
    rw [chomp_of_last hc (digit_not hd).1, if_pos ((allDigits_iff _).mpr hn), intOfDigits_eq]
  | @percent ds hn =>
    simp only [parseSize]
    rw [chomp_of_last (c := '%') (by simp) (by decide),
      if_neg (by rw [not_numeral_of_mem (c := '%') (by simp) (by decide)]; decide),
      if_pos (by simpa using (allDigits_iff _).mpr hn)]
    simp [intOfDigits_eq]
  | fill => rfl
  | @fillN ds hn =>
    have hlast : (['f', 'i', 'l', 'l', '('] ++ ds ++ [')']).getLast? = some ')' := by rw [List.getLast?_append]; rfl
    have htw : (ds ++ [')']).takeWhile isDigit = ds ∧ (ds ++ [')']).dropWhile isDigit = [')'] :=
      ⟨(takeWhile_digits ds [')'] ((numeral_iff ds).mp hn).2 (by simp; decide)).1,
       (takeWhile_digits ds [')'] ((numeral_iff ds).mp hn).2 (by simp; decide)).2⟩
    simp only [parseSize]
    rw [chomp_of_last hlast (by decide),
      if_neg (by rw [not_numeral_of_mem (c := 'f') (by simp) (by decide)]; decide),
      if_neg (by rw [hlast]; simp), if_neg (by simp), if_pos (by simp [List.isPrefixOf])]
    have hfn : fillNumber ((['f', 'i', 'l', 'l', '('] ++ ds ++ [')']).drop 5) = some (numeralValue ds) := by
      have : (['f', 'i', 'l', 'l', '('] ++ ds ++ [')']).drop 5 = ds ++ [')'] := rfl
      rw [this]
      unfold fillNumber
      simp only [htw.1, htw.2]
      rw [if_pos ⟨hn.1, by simp, by simp⟩, intOfDigits_eq]
    rw [hfn]

/-- **C38**, rejection, up to the deviations of `C38_size_strings_false`: an accepted string is a
documented one, possibly followed by further closing parentheses (if it ends with one) and a line
break; everything else raises an exception with a message. -/
theorem C38_size_strings_partial (s : Str) :
    (∃ v t k nl, parseSize (.str s) = .ok v ∧ s = t ++ List.replicate k ')' ++ nl ∧ SizeText t v ∧
      (k = 0 ∨ t.getLast? = some ')') ∧ (nl = [] ∨ nl = ['\n'])) ∨
    (∃ msg, parseSize (.str s) = .error (.user msg) ∧ ∀ v, ¬ SizeText s v) := by
  cases hp : parseSize (.str s) with
  | error e =>
    right
    have hmsg : ∃ msg, e = .user msg := by
      simp only [parseSize] at hp
      split at hp
      · cases hp
      · split at hp
        · cases hp
        · split at hp
          · cases hp
          · split at hp
            · split at hp
              · cases hp
              · injection hp with hp; exact ⟨_, hp.symm⟩
            · injection hp with hp; exact ⟨_, hp.symm⟩
    obtain ⟨msg, rfl⟩ := hmsg
    refine ⟨msg, rfl, fun v hv => ?_⟩
    rw [C38_size_strings_accepted s v hv] at hp; cases hp
  | ok v =>
    left
    have key : ∃ t k, chomp s = t ++ List.replicate k ')' ∧ SizeText t v ∧ (k = 0 ∨ t.getLast? = some ')') := by
      simp only [parseSize] at hp
      generalize chomp s = s' at hp
      split at hp
      · rename_i hd
        injection hp with hp; subst hp
        refine ⟨s', 0, by simp, ?_, Or.inl rfl⟩
        rw [intOfDigits_eq]
        exact .number ((allDigits_iff _).mp hd)
      · split at hp
        · rename_i hd
          injection hp with hp; subst hp
          refine ⟨s', 0, by simp, ?_, Or.inl rfl⟩
          rw [intOfDigits_eq]
          have := SizeText.percent ((allDigits_iff _).mp hd.2)
          rwa [← drop_last_inv hd.1] at this
        · split at hp
          · rename_i hd
            injection hp with hp; subst hp
            exact ⟨s', 0, by simp, by rw [hd]; exact .fill, Or.inl rfl⟩
          · split at hp
            · rename_i hpre
              split at hp
              · rename_i n hn
                injection hp with hp; subst hp
                obtain ⟨t, rfl⟩ := List.isPrefixOf_iff_prefix.mp hpre
                have hdrop : (("fill(".toList) ++ t).drop 5 = t := rfl
                rw [hdrop] at hn
                unfold fillNumber at hn
                simp only at hn
                split at hn
                · rename_i hc
                  obtain ⟨hc1, hc2, hc3⟩ := hc
                  injection hn with hn; subst hn
                  have hds : Numeral (t.takeWhile isDigit) := by
                    rw [numeral_iff]
                    refine ⟨hc1, ?_⟩
                    rw [List.all_eq_true]
                    intro c hcm
                    exact List.mem_takeWhile_imp hcm
                  obtain ⟨k, hk⟩ : ∃ k, t.dropWhile isDigit = List.replicate (k + 1) ')' := by
                    have hall : ∀ c ∈ t.dropWhile isDigit, c = ')' := by
                      intro c hcm
                      have := List.all_eq_true.mp hc3 c hcm
                      simpa using this
                    have := List.eq_replicate_of_mem hall
                    cases hlen : (t.dropWhile isDigit).length with
                    | zero => exact absurd (List.length_eq_zero_iff.mp hlen) hc2
                    | succ k => exact ⟨k, by rw [hlen] at this; exact this⟩
                  refine ⟨['f', 'i', 'l', 'l', '('] ++ t.takeWhile isDigit ++ [')'], k, ?_, ?_, Or.inr (by rw [List.getLast?_append]; rfl)⟩
                  · have ht : t = t.takeWhile isDigit ++ (')' :: List.replicate k ')') := by
                      conv_lhs => rw [← List.takeWhile_append_dropWhile (p := isDigit) (l := t), hk, List.replicate_succ]
                    conv_lhs => rw [ht]
                    simp
                  · rw [intOfDigits_eq]; exact .fillN hds
                · cases hn
              · cases hp
            · cases hp
    obtain ⟨t, k, h1, h2, h3⟩ := key
    rcases chomp_inv s with hs | hs
    · exact ⟨v, t, k, [], rfl, by rw [hs, h1]; simp, h2, h3, Or.inl rfl⟩
    · exact ⟨v, t, k, ['\n'], rfl, by rw [hs, h1], h2, h3, Or.inr rfl⟩

example : SizeText "fill(12)".toList { fill := 12 } :=
  SizeText.fillN (ds := ['1', '2']) ⟨by simp, by decide⟩
example : ∃ msg, parseSize (.str "12px".toList) = .error (.user msg) := ⟨_, rfl⟩

/-! ### C39 -/

/-- **C39** is false: a string ending with a line break is accepted. -/
theorem C39_position_strings_false : ∃ v, parsePos (.str "[50%]\n".toList) = .ok v := by
  simp only [parsePos]
  exact ⟨_, rfl⟩

theorem bracket_drop (ds : Str) : (ds ++ ['%', ']']).drop ((ds ++ ['%', ']']).length - 2) = ['%', ']'] ∧
    (ds ++ ['%', ']']).take ((ds ++ ['%', ']']).length - 2) = ds := by
  have : (ds ++ ['%', ']']).length - 2 = ds.length := by simp
  rw [this]; simp

/-- **C39**, acceptance: every documented position string is accepted with the documented meaning. -/
theorem C39_position_strings_accepted (s : Str) (v : Pos) (h : PosText s v) : parsePos (.str s) = .ok v := by
  cases h with
  | number hn =>
    obtain ⟨c, hc, hd⟩ := numeral_last hn
    simp only [parsePos]
    rw [chomp_of_last hc (digit_not hd).1, if_pos ((allDigits_iff _).mpr hn), intOfDigits_eq]
  | @percent ds hn =>
    simp only [parsePos]
    rw [chomp_of_last (c := '%') (by simp) (by decide),
      if_neg (by rw [not_numeral_of_mem (c := '%') (by simp) (by decide)]; decide),
      if_pos (by simpa using (allDigits_iff _).mpr hn)]
    simp [intOfDigits_eq]
  | @align ds hn =>
    have hlast : (['['] ++ ds ++ ['%', ']']).getLast? = some ']' := by rw [List.getLast?_append]; rfl
    simp only [parsePos]
    rw [chomp_of_last hlast (by decide),
      if_neg (by rw [not_numeral_of_mem (c := '[') (by simp) (by decide)]; decide),
      if_neg (by rw [hlast]; simp)]
    have he : ['['] ++ ds ++ ['%', ']'] = '[' :: (ds ++ ['%', ']']) := by simp
    rw [he]
    simp only
    rw [(bracket_drop ds).1, (bracket_drop ds).2, if_pos ⟨rfl, (allDigits_iff _).mpr hn⟩, intOfDigits_eq]

/-- **C39**, rejection up to a final line break: an accepted string is a documented one, possibly
followed by a line break; everything else raises an exception with a message. -/
theorem C39_position_strings_partial (s : Str) :
    (∃ v t nl, parsePos (.str s) = .ok v ∧ s = t ++ nl ∧ PosText t v ∧ (nl = [] ∨ nl = ['\n'])) ∨
    (∃ msg, parsePos (.str s) = .error (.user msg) ∧ ∀ v, ¬ PosText s v) := by
  cases hp : parsePos (.str s) with
  | error e =>
    right
    have hmsg : ∃ msg, e = .user msg := by
      simp only [parsePos] at hp
      split at hp
      · cases hp
      · split at hp
        · cases hp
        · split at hp
          · split at hp
            · cases hp
            · injection hp with hp; exact ⟨_, hp.symm⟩
          · injection hp with hp; exact ⟨_, hp.symm⟩
    obtain ⟨msg, rfl⟩ := hmsg
    refine ⟨msg, rfl, fun v hv => ?_⟩
    rw [C39_position_strings_accepted s v hv] at hp; cases hp
  | ok v =>
    left
    have key : PosText (chomp s) v := by
      simp only [parsePos] at hp
      generalize chomp s = s' at hp
      split at hp
      · rename_i hd
        injection hp with hp; subst hp
        rw [intOfDigits_eq]
        exact .number ((allDigits_iff _).mp hd)
      · split at hp
        · rename_i hd
          injection hp with hp; subst hp
          rw [intOfDigits_eq]
          have := PosText.percent ((allDigits_iff _).mp hd.2)
          rwa [← drop_last_inv hd.1] at this
        · split at hp
          · rename_i t _ _
            split at hp
            · rename_i hd
              injection hp with hp; subst hp
              rw [intOfDigits_eq]
              have := PosText.align ((allDigits_iff _).mp hd.2)
              rw [← hd.1, List.append_assoc, List.take_append_drop] at this
              exact this
            · cases hp
          · cases hp
    rcases chomp_inv s with hs | hs
    · exact ⟨v, chomp s, [], rfl, by rw [← hs]; simp, key, Or.inl rfl⟩
    · exact ⟨v, chomp s, ['\n'], rfl, hs, key, Or.inr rfl⟩

example : PosText "[25%]".toList (.align ((numeralValue ['2', '5'] : Rat) / 100)) :=
  PosText.align (ds := ['2', '5']) ⟨by simp, by decide⟩
example : ∃ msg, parsePos (.str "-5".toList) = .error (.user msg) := ⟨_, rfl⟩

end Verif.Layout
