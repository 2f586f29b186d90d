import Verif.Proofs.CodeStyles
import Verif.Props.Theme

/-! # C130: styles of the user in highlighted code -/

namespace Verif.Highlight
open Spec Verif.Text Verif.Text.Spec Verif.Style Verif.Xml Verif.Xml.Spec Verif.Cairo Verif.Cairo.Spec

/-- Cairo is given code in which the styles of the user (in the parsed text `p`) are on top of the colours of the theme. -/
def CairoDressed (theme : Theme) (styles : Str → Option TextStyle) (default style : TextStyle) (vals : List (Str × Str)) (p : List Tok)
    (toks : List Tok) : Prop :=
  ∃ text ranges L, getTextAndAttributes styles default style toks = .ok (text, ranges) ∧
    text = L.map (·.1) ∧ Covers 0 ranges (utf8Length text) ∧ bytesOfRanges ranges = bytesOf L ∧
    Dressed theme styles (over style default) (seen L) (seen (typed vals)) (seen (shown [] p))

/-- Code with a language and styles that are not nested, exist, and of which `wins` holds. The code neither begins nor ends
with a line break (C15) and all its tokens have types that the theme knows (C129). -/
def StylesWin (wins : TextStyle → Prop) : Prop :=
  ∀ (lx : Lexer) (theme : Theme) (styles : Str → Option TextStyle) (default style : TextStyle) (tabsize : Nat) (escapeChar : Str)
    (x b e : Char) (text : Str) (p : List Tok), Honours lx → Delims escapeChar x b e → (theme.map Prod.fst).Nodup → Themed theme styles →
    style.priority = 0 → parseText (some x) b e (untab tabsize text) = .ok p → '\r' ∉ chars p → (chars p).head? ≠ some '﻿' →
    stripNl (chars p) = chars p → (untab tabsize text).head? ≠ some '\n' → maxNesting 0 p ≤ 1 → Known theme (lx (chars p)) →
    (∀ n, Tok.opn n ∈ p → n.head? = some '#' ∨ ∃ s, styles n = some s ∧ wins s) →
    ∃ toks, boxCode (some lx) true false tabsize escapeChar text = .ok toks ∧ CairoDressed theme styles default style (lx (chars p)) p toks

/-- A lexer for which everything is a keyword. -/
def kwLexer : Lexer := fun code => [("Token.Keyword".toList, stripNl code ++ ['\n'])]

theorem kwLexer_honours : Honours kwLexer :=
  ⟨fun code _ _ => by simp [kwLexer], fun code v hv => by simp only [kwLexer, List.mem_singleton] at hv; subst hv; simp⟩

/-- A character with a style of the user has its colour. -/
theorem dressed_color {theme : Theme} {styles : Str → Option TextStyle} {base : TextStyle} {c c' : Char} {l s : TextStyle} {A : Str}
    {L : List (Char × TextStyle)} {T : List (Char × Str)} {U : List (Char × List Str)} {v : Str}
    (h : Dressed theme styles base ((c, l) :: L) T ((c', [A]) :: U)) (hA : A.head? ≠ some '#') (hs : styles A = some s)
    (hv : s.color = some v) : l.color = some v := by
  cases h with
  | plain _ _ _ hσ _ =>
    rcases hσ with h | ⟨m, h⟩
    · cases h
    · injection h with h _
      subst h
      exact absurd rfl hA
  | styled _ _ _ s' _ _ hs' hlook _ =>
    rw [hs] at hs'
    injection hs' with hs'
    subst hs'
    rcases hlook with h | h <;> rw [h] <;> simp [over, hv]

theorem two_of_map {α : Type} {L : List (Char × α)} {a b : Char} (h : [a, b] = L.map (·.1)) : ∃ x y, L = [(a, x), (b, y)] := by
  match L, h with
  | [(_, x), (_, y)], h =>
    injection h with h1 h2
    injection h2 with h2 _
    simp only at h1 h2
    subst h1; subst h2
    exact ⟨x, y, rfl⟩

/-- **C130 is false.** With the styles of a new deck, `~alert{if}` is not red: the keyword has the colour of the theme. -/
theorem C130_styles_false : ¬ StylesWin (fun _ => True) := by
  intro h
  obtain ⟨toks, h1, text, ranges, L, h2, h3, h4, h5, h6⟩ := h kwLexer demoTheme (deckStyles demoTheme).get defaultStyle
    (defaultStyle.compose codeStyle) 4 ['~'] '~' '{' '}' "~alert{if}".toList [.opn "alert".toList, .text "if".toList, .close]
    kwLexer_honours (.one '~') (by decide +kernel) (fun _ => rfl) rfl (by decide +kernel) (by decide) (by decide) (by decide +kernel)
    (by decide) (by decide) (by
      intro v hv _
      have : kwLexer (chars [.opn "alert".toList, .text "if".toList, .close]) = [("Token.Keyword".toList, "if\n".toList)] := by decide +kernel
      rw [this, List.mem_singleton] at hv
      subst hv
      exact ⟨_, by simp [demoTheme]; rfl⟩) (by
      intro n hn
      simp only [List.mem_cons, Tok.opn.injEq, reduceCtorEq, List.not_mem_nil, or_false] at hn
      subst hn
      exact .inr ⟨construct { bold := some true, color := some "red".toList }, by decide +kernel, trivial⟩)
  have e : boxCode (some kwLexer) true false 4 ['~'] "~alert{if}".toList =
    .ok [.opn "alert".toList, .opn "pygments-Token.Keyword".toList, .text "if".toList, .close, .close,
      .opn "pygments-Token.Keyword".toList, .close] := by decide +kernel
  rw [e] at h1
  injection h1 with h1
  subst h1
  have e2 : (getTextAndAttributes (deckStyles demoTheme).get defaultStyle (defaultStyle.compose codeStyle)
      [.opn "alert".toList, .opn "pygments-Token.Keyword".toList, .text "if".toList, .close, .close,
        .opn "pygments-Token.Keyword".toList, .close]).toOption.map
        (fun r => (r.1, (bytesOfRanges r.2).head?.map (·.color))) = some ("if".toList, some (some "#008000".toList)) := by decide +kernel
  rw [h2] at e2
  simp only [Except.toOption, Option.map_some, Option.some.injEq, Prod.mk.injEq] at e2
  obtain ⟨e3, e4⟩ := e2
  rw [h5] at e4
  rw [e3] at h3
  obtain ⟨l0, l1, rfl⟩ := two_of_map (a := 'i') (b := 'f') h3
  have hs2 : Spec.seen (shown [] [.opn "alert".toList, .text "if".toList, .close]) = [('i', ["alert".toList]), ('f', ["alert".toList])] := by
    decide +kernel
  rw [hs2] at h6
  have halert : (deckStyles demoTheme).get "alert".toList = some (construct { bold := some true, color := some "red".toList }) := by
    decide +kernel
  have hred := dressed_color (L := [('f', l1)]) h6 (by decide) halert (v := "red".toList) rfl
  have e5 : (bytesOf [('i', l0), ('f', l1)]).head? = some l0 := rfl
  rw [e5, Option.map_some, hred] at e4
  revert e4
  decide

theorem dressed_of_merged (theme : Theme) (hn : (theme.map Prod.fst).Nodup) (styles : Str → Option TextStyle) (ht : Themed theme styles)
    (base : TextStyle) (hb : base.priority = 0) (T : List (Char × Str)) : ∀ (A U : List (Char × List Str)),
    Merged A (T.map (fun p => (p.1, ["pygments-".toList ++ p.2]))) U →
    (∀ q ∈ T, ∃ e, (q.2, e) ∈ theme) → (∀ q ∈ U, q.2.length ≤ 1) →
    (∀ q ∈ U, ∀ n ∈ q.2, n.head? = some '#' ∨ ∃ s, styles n = some s ∧ 0 < s.priority) →
    Dressed theme styles base (A.map (fun p => (p.1, look base (stackOf (noMarkers styles) base p.2)))) T U := by
  induction T with
  | nil => intro A U h _ _ _; cases h; exact .nil
  | cons t T ih =>
    intro A U h hk hf hw
    obtain ⟨c, τ⟩ := t
    cases h with
    | @cons a _ d _ σ _ σ2 hperm hrest =>
      have ih := ih _ _ hrest (fun q hq => hk q (List.mem_cons_of_mem _ hq)) (fun q hq => hf q (List.mem_cons_of_mem _ hq))
        (fun q hq => hw q (List.mem_cons_of_mem _ hq))
      have hkτ := hk (c, τ) (by simp)
      have hlen := hf (c, σ2) (by simp)
      have hws := hw (c, σ2) (by simp)
      obtain ⟨en, hen⟩ := hkτ
      have hl := lookup_of_nodup theme τ en hn hen
      have hpyg : noMarkers styles ("pygments-".toList ++ τ) = some (entryStyle en) := by
        rw [noMarkers_pygments, ht, deck_token theme hn, hl]; rfl
      have hcol : colours theme base τ = over (entryStyle en) base := by
        simp only [colours, hl]; exact (over_entry en base hb).symm
      have hz := entryStyle_priority en
      simp only at hlen hws
      generalize hP : "pygments-".toList ++ τ = P at *
      have hlook1 : look base (stackOf (noMarkers styles) base [P]) = colours theme base τ := by
        rw [← hP]; exact look_token theme hn styles ht base hb τ ⟨en, hen⟩
      match σ2, hlen, hws, hperm with
      | [], _, _, hperm =>
        have hσ : σ = [P] := List.perm_singleton.mp (by simpa using hperm)
        subst hσ
        simp only [List.map_cons, hlook1]
        exact .plain c τ [] (.inl rfl) ih
      | [u], _, hws, hperm =>
        have hσ : σ = [P, u] ∨ σ = [u, P] := by
          have h1 : σ.length = 2 := hperm.length_eq
          match σ, h1 with
          | [a1, a2], _ =>
            have hm1 : a1 = P ∨ a1 = u := by
              have := hperm.mem_iff.mp (show a1 ∈ [a1, a2] by simp)
              simpa using this
            rcases hm1 with rfl | rfl
            · left
              have := (List.perm_cons _).mp hperm
              rw [List.perm_singleton.mp this]
            · right
              have h2 : List.Perm [a1, a2] [a1, P] := hperm.trans (List.Perm.swap _ _ _)
              have := (List.perm_cons _).mp h2
              rw [List.perm_singleton.mp this]
        rcases hws u (by simp) with hm | ⟨s, hs, hpos⟩
        · -- a marker
          have hnone : noMarkers styles u = none := by unfold noMarkers; rw [if_pos hm]
          obtain ⟨m, rfl⟩ : ∃ m, u = '#' :: m := by
            cases u with
            | nil => cases hm
            | cons a m => injection hm with hm; subst hm; exact ⟨m, rfl⟩
          have : look base (stackOf (noMarkers styles) base σ) = colours theme base τ := by
            rcases hσ with rfl | rfl
            · simp [stackOf, hpyg, hnone, applied, innermost, hb, hz, look, hcol]
            · simp [stackOf, hpyg, hnone, applied, innermost, hb, hz, look, hcol]
          simp only [List.map_cons, this]
          exact .plain c τ _ (.inr ⟨m, rfl⟩) ih
        · by_cases hm : u.head? = some '#'
          · -- a marker that is also a style
            have hnone : noMarkers styles u = none := by unfold noMarkers; rw [if_pos hm]
            obtain ⟨m, rfl⟩ : ∃ m, u = '#' :: m := by
              cases u with
              | nil => cases hm
              | cons a m => injection hm with hm; subst hm; exact ⟨m, rfl⟩
            have : look base (stackOf (noMarkers styles) base σ) = colours theme base τ := by
              rcases hσ with rfl | rfl
              · simp [stackOf, hpyg, hnone, applied, innermost, hb, hz, look, hcol]
              · simp [stackOf, hpyg, hnone, applied, innermost, hb, hz, look, hcol]
            simp only [List.map_cons, this]
            exact .plain c τ _ (.inr ⟨m, rfl⟩) ih
          · have hsome : noMarkers styles u = some s := by unfold noMarkers; rw [if_neg hm]; exact hs
            have hnot : ¬ s.priority ≤ 0 := not_le.mpr hpos
            have hle : 0 ≤ s.priority := le_of_lt hpos
            refine .styled c τ u s _ hm hs ?_ ih
            rcases hσ with rfl | rfl
            · left
              simp [stackOf, hpyg, hsome, applied, innermost, hb, hz, look, hnot, hle]
            · right
              simp [stackOf, hpyg, hsome, applied, innermost, hb, hz, look, hcol, hle]

/-- **C130 (partial).** Styles with a positive priority win. Missing: styles with priority 0 (the default), where the claim is
false, and nested styles. -/
theorem C130_styles_partial : StylesWin (fun s => 0 < s.priority) := by
  intro lx theme styles default style tabsize escapeChar x b e text p hx hd hn ht hp hparse hcr hbom hstrip hhead hflat hk hwin
  obtain ⟨_, q⟩ := C15_code_styles_partial lx hx tabsize escapeChar x b e hd text 0 (untab tabsize text) p (by simp) hhead hparse hcr hbom
  obtain ⟨r, hr, hb, _, hmerged⟩ := q hstrip
  obtain ⟨hl, hhl, hM⟩ := hmerged (.inl hflat)
  obtain ⟨_, q2⟩ := code_styles lx hx tabsize escapeChar x b e hd text 0 (untab tabsize text) p (by simp) hhead hparse hcr hbom
  obtain ⟨h, m, k, _, _, _, _, _, hm, _, _, hbc, hh, _⟩ := q2 hstrip
  rw [hr] at hbc
  injection hbc with hbc
  rw [if_pos rfl] at hbc
  subst hbc
  refine ⟨r, hr, ?_⟩
  have hopn : ∀ n, Tok.opn n ∈ r → n.head? = some '#' ∨ styles n ≠ none := by
    intro n hnr
    rcases merge_opn hm n hnr with h0 | h0
    · obtain ⟨v, hv, hv2, rfl⟩ := opened_highlight hh n h0
      obtain ⟨en, hen⟩ := hk v hv hv2
      right
      rw [ht, deck_token theme hn, lookup_of_nodup theme v.1 en hn hen]
      simp
    · rcases hwin n h0 with h1 | ⟨s, h1, _⟩
      · exact .inl h1
      · right; rw [h1]; simp
  obtain ⟨text', ranges, h1, h2, h3, h4⟩ := C60_ranges styles default style r hb hopn
  refine ⟨text', ranges, _, h1, h2, h3, h4, ?_⟩
  rw [show ([] : List (Option TextStyle)) = stackOf (noMarkers styles) (over style default) [] from rfl,
    styled_shown _ _ r [] true (depth_of_balanced hb 0)]
  have hM2 := merged_seen hM
  simp only [List.replicate_zero, List.nil_append] at hM2
  have ehl : seen hl = (seen (typed (lx (chars p)))).map (fun p => (p.1, ["pygments-".toList ++ p.2])) := by
    rw [← seen_typed, ← hhl, seen_append]
    rw [show seen [('\n', ([] : List Str))] = [] from rfl, List.append_nil]
  rw [ehl] at hM2
  refine dressed_of_merged theme hn styles ht (over style default) hp _ _ _ hM2 ?_ ?_ ?_
  · intro q hq
    obtain ⟨v, hv, hv2, e⟩ := typed_mem hq
    rw [e]; exact hk v hv hv2
  · intro q hq
    exact flat_shown p [] 0 (by simp) hflat q (List.mem_of_mem_filter hq)
  · intro q hq n hnq
    exact hwin n (shown_opened p [] q (List.mem_of_mem_filter hq) n hnq |>.resolve_left (by simp))

/-- The table of a deck with a style of the user that has a priority. -/
def hotStyles (n : Str) : Option TextStyle :=
  if n = "hot".toList then some { color := some "red".toList, priority := 1 } else (deckStyles demoTheme).get n

/-- `if ~hot{x} ~#m{y}` -/
def hotToks : List Tok :=
  [.text "if ".toList, .opn "hot".toList, .text "x".toList, .close, .text " ".toList, .opn "#m".toList, .text "y".toList, .close]

/-- The hypotheses of the partial theorem are met. -/
example : Honours kwLexer ∧ (demoTheme.map Prod.fst).Nodup ∧ Themed demoTheme hotStyles ∧
    parseText (some '~') '{' '}' (untab 4 "if ~hot{x} ~#m{y}".toList) = .ok hotToks ∧ '\r' ∉ chars hotToks ∧
    (chars hotToks).head? ≠ some '﻿' ∧ stripNl (chars hotToks) = chars hotToks ∧
    (untab 4 "if ~hot{x} ~#m{y}".toList).head? ≠ some '\n' ∧ maxNesting 0 hotToks ≤ 1 ∧ Known demoTheme (kwLexer (chars hotToks)) ∧
    (∀ n, Tok.opn n ∈ hotToks → n.head? = some '#' ∨ ∃ s, hotStyles n = some s ∧ 0 < s.priority) := by
  refine ⟨kwLexer_honours, by decide +kernel, ?_, by decide +kernel, by decide, by decide, by decide +kernel, by decide +kernel, by decide, ?_, ?_⟩
  · intro τ
    unfold hotStyles
    rw [if_neg]
    intro h
    have := congrArg List.head? h
    rw [show ("pygments-".toList ++ τ).head? = some 'p' from rfl] at this
    revert this; decide
  · intro v hv _
    simp only [kwLexer, List.mem_singleton] at hv
    subst hv
    exact ⟨{ color := some "008000".toList, bold := true }, by decide +kernel⟩
  · intro n hn
    simp only [hotToks, List.mem_cons, Tok.opn.injEq, reduceCtorEq, List.not_mem_nil, or_false, false_or] at hn
    rcases hn with rfl | rfl
    · exact .inr ⟨{ color := some "red".toList, priority := 1 }, by decide +kernel, by decide +kernel⟩
    · exact .inl rfl

/-- Here `x` is red, everything else has the colour of the theme. -/
example : ((boxCode (some kwLexer) true false 4 ['~'] "if ~hot{x} ~#m{y}".toList).bind
      (getTextAndAttributes hotStyles defaultStyle (defaultStyle.compose codeStyle))).toOption.map
        (fun r => (r.1, (bytesOfRanges r.2).map (·.color))) =
    some ("if x y".toList, [some "#008000".toList, some "#008000".toList, some "#008000".toList, some "red".toList, some "#008000".toList,
      some "#008000".toList]) := by decide +kernel

end Verif.Highlight
