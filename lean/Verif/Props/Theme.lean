import Verif.Proofs.Theme
import Verif.Props.DrawStyle
import Verif.Props.Code

/-! # C129: highlighted code has the colours of the theme -/

namespace Verif.Highlight
open Spec Verif.Text Verif.Text.Spec Verif.Style Verif.Xml Verif.Xml.Spec Verif.Cairo Verif.Cairo.Spec

/-- Cairo is given the characters of the tokens, each with the look that the theme says on top of the look of the code: `L`
are the characters that are laid out and their looks. -/
def CairoShows (theme : Theme) (styles : Str → Option TextStyle) (default style : TextStyle) (vals : List (Str × Str))
    (toks : List Tok) : Prop :=
  ∃ text ranges L, getTextAndAttributes styles default style toks = .ok (text, ranges) ∧
    text = L.map (·.1) ∧ Covers 0 ranges (utf8Length text) ∧ bytesOfRanges ranges = bytesOf L ∧
    seen L = seen (inColours theme (over style default) vals)

/-- The SVG has the characters of the tokens (except line breaks), each in an element with the attributes that the theme says,
which is in a line with nothing or the attributes of the code, in a text with the attributes of the code. -/
def SvgShows (theme : Theme) (env : Env) (vals : List (Str × Str)) (toks : List Tok) : Prop :=
  ∃ x s attrs F, drawText env {} toks = .ok x ∧ x.toString = .ok s ∧ readXml s = some (.elem "text".toList attrs F .nil) ∧
    fontOnly attrs = (styleAttrs env.fmt env.style).map (fun a => (a.1, attrText a.2)) ∧
    (F.chars []).map (fun p => (p.1, p.2.take 1)) =
      asRead ((inColours theme {} vals).filter (fun p => p.1 != '\n') |>.map (fun p => (p.1, [styleAttrs env.fmt p.2]))) ∧
    ∀ p ∈ F.chars [], p.2.drop 1 = [[]] ∨ p.2.drop 1 = [fontOnly attrs]

/-- The full claim: for every theme and every lexer, whatever its token types. -/
def CodeInColours : Prop :=
  ∀ (lx : Lexer) (theme : Theme) (styles : Str → Option TextStyle) (default style : TextStyle) (tabsize : Nat) (code : Str),
    Honours lx → (theme.map Prod.fst).Nodup → Themed theme styles → style.priority = 0 →
    ∃ toks, boxCode (some lx) false false tabsize ['~'] code = .ok toks ∧
      CairoShows theme styles default style (lx (untab tabsize code)) toks

/-- A lexer with a token type of its own, as some lexers of pygments have. A theme of pygments knows only the standard types. -/
def oddLexer : Lexer := fun code => [("Token.Name.Builtin.Type".toList, stripNl code ++ ['\n'])]

def oddTheme : Theme := [("Token".toList, {}), ("Token.Name".toList, {}), ("Token.Name.Builtin".toList, { color := some "008000".toList })]

theorem oddLexer_honours : Honours oddLexer :=
  ⟨fun code _ _ => by simp [oddLexer], fun code v hv => by simp only [oddLexer, List.mem_singleton] at hv; subst hv; simp⟩

/-- **C129 is false.** The code `x` has a token whose type is not in the theme: drawing raises `AttributeError`. -/
theorem C129_colours_false : ¬ CodeInColours := by
  intro h
  obtain ⟨toks, h1, text, ranges, L, h2, _⟩ := h oddLexer oddTheme (deckStyles oddTheme).get defaultStyle
    (defaultStyle.compose codeStyle) 4 ['x'] oddLexer_honours (by decide +kernel) (fun _ => rfl) rfl
  have e : boxCode (some oddLexer) false false 4 ['~'] ['x'] =
    .ok [.opn "pygments-Token.Name.Builtin.Type".toList, .text ['x'], .close] := by decide +kernel
  rw [e] at h1
  injection h1 with h1
  subst h1
  revert h2
  have e2 : getTextAndAttributes (deckStyles oddTheme).get defaultStyle (defaultStyle.compose codeStyle)
      [.opn "pygments-Token.Name.Builtin.Type".toList, .text ['x'], .close] = .error .attribute := by decide +kernel
  rw [e2]
  intro h2; cases h2

/-- The strings of a style can be written into an attribute. -/
def plainStyle (s : TextStyle) : Bool :=
  let ok : Option Str → Bool := fun o => o.all (fun f => f.all (fun c => xmlChar c && c != '\r' && c != '\''))
  ok s.font && ok s.color && ok s.variantNumeric

theorem plainStyle_ok {s : TextStyle} (h : plainStyle s = true) : StyleOk s := by
  simp only [plainStyle, Bool.and_eq_true] at h
  obtain ⟨⟨h1, h2⟩, h3⟩ := h
  refine ⟨?_, ?_, ?_⟩
  · intro f hf; rw [hf] at h1; exact okStr_of_decide h1
  · intro f hf; rw [hf] at h2; exact okStr_of_decide h2
  · intro f hf; rw [hf] at h3; exact okStr_of_decide h3

theorem mem_of_lookup {β : Type} {l : List (Str × β)} {n : Str} {b : β} (h : l.lookup n = some b) : (n, b) ∈ l := by
  induction l with
  | nil => cases h
  | cons p l ih =>
    obtain ⟨a, c⟩ := p
    rw [List.lookup_cons] at h
    by_cases ha : n = a
    · subst ha
      simp at h; subst h; simp
    · have : (n == a) = false := by simpa using ha
      rw [this] at h
      exact List.mem_cons_of_mem _ (ih h)

/-- A text in the style of the code, with the table of a new deck. -/
def codeEnv (theme : Theme) : Env := { sampleEnv with style := defaultStyle.compose codeStyle, styles := (deckStyles theme).get }

theorem codeEnv_ok (theme : Theme) (h : ∀ p ∈ deckStyles theme, plainStyle p.2 = true) : EnvOk (codeEnv theme) where
  fmt := sampleEnv_ok.fmt
  x := sampleEnv_ok.x
  y := sampleEnv_ok.y
  transform := sampleEnv_ok.transform
  id := sampleEnv_ok.id
  style := plainStyle_ok (s := defaultStyle.compose codeStyle) (by decide +kernel)
  styles := fun _ _ hs => plainStyle_ok (h _ (mem_of_lookup hs))

/-- The same with the SVG backend. -/
theorem C129_svg_false : ¬ ∀ (lx : Lexer) (theme : Theme) (env : Env) (tabsize : Nat) (code : Str),
    Honours lx → (theme.map Prod.fst).Nodup → Themed theme env.styles → EnvOk env → env.style.priority = 0 →
    env.style.align = some "left".toList → (∀ v ∈ lx (untab tabsize code), Plain v.2) →
    ∃ toks, boxCode (some lx) false false tabsize ['~'] code = .ok toks ∧ SvgShows theme env (lx (untab tabsize code)) toks := by
  intro h
  obtain ⟨toks, h1, x, s, attrs, F, h2, _⟩ := h oddLexer oddTheme (codeEnv oddTheme) 4 ['x'] oddLexer_honours (by decide +kernel)
    (fun _ => rfl) (codeEnv_ok _ (by decide +kernel)) rfl rfl (by
      intro v hv
      have : oddLexer (untab 4 ['x']) = [("Token.Name.Builtin.Type".toList, ['x', '\n'])] := by decide +kernel
      rw [this, List.mem_singleton] at hv
      subst hv
      exact (okStr_of_decide (by decide)).1)
  have e : boxCode (some oddLexer) false false 4 ['~'] ['x'] =
    .ok [.opn "pygments-Token.Name.Builtin.Type".toList, .text ['x'], .close] := by decide +kernel
  rw [e] at h1
  injection h1 with h1
  subst h1
  have e2 : (drawText (codeEnv oddTheme) {} [.opn "pygments-Token.Name.Builtin.Type".toList, .text ['x'], .close]).toOption.isSome = false := by
    decide +kernel
  rw [h2] at e2
  cases e2

/-- **C129 (partial), Cairo.** If the theme knows the types of the tokens, the code is shown in its colours. -/
theorem C129_cairo_partial (lx : Lexer) (theme : Theme) (styles : Str → Option TextStyle) (default style : TextStyle)
    (tabsize : Nat) (escapeChar : Str) (x b e : Char) (hd : Delims escapeChar x b e) (code : Str)
    (hn : (theme.map Prod.fst).Nodup) (ht : Themed theme styles) (hp : style.priority = 0)
    (hk : Known theme (lx (untab tabsize code))) :
    ∃ toks, boxCode (some lx) false false tabsize escapeChar code = .ok toks ∧
      CairoShows theme styles default style (lx (untab tabsize code)) toks := by
  obtain ⟨r, k, hr, hb, _, hc, _, hs⟩ := C14_highlight (lx (untab tabsize code))
  refine ⟨r, by simp [boxCode, delims_ok hd, expandTabs_eq, highlightCode, hr], ?_⟩
  have hsty : ∀ n, Tok.opn n ∈ r → n.head? = some '#' ∨ styles n ≠ none := by
    intro n hnr
    obtain ⟨v, hv, hv2, rfl⟩ := opened_highlight hr n hnr
    obtain ⟨en, he⟩ := hk v hv hv2
    right
    rw [ht, deck_token theme hn, lookup_of_nodup theme v.1 en hn he]
    simp
  obtain ⟨text, ranges, h1, h2, h3, h4⟩ := C60_ranges styles default style r hb hsty
  refine ⟨text, ranges, _, h1, h2, h3, h4, ?_⟩
  have hbp : (over style default).priority = 0 := hp
  rw [show ([] : List (Option TextStyle)) = stackOf (noMarkers styles) (over style default) [] from rfl,
    styled_shown _ _ r [] true (depth_of_balanced hb 0)]
  have e : seen (shown [] r) =
      seen ((lx (untab tabsize code)).flatMap (fun v => v.2.map (mark ["pygments-".toList ++ v.1]))) := by
    rw [← hs, seen_append, seen_replicate_nl, List.append_nil]
  rw [e, seen_vals (fun ns => look (over style default) (stackOf (noMarkers styles) (over style default) ns))
    (fun τ => ["pygments-".toList ++ τ])]
  exact seen_congr (fun τ => look (over style default) (stackOf (noMarkers styles) (over style default) ["pygments-".toList ++ τ]))
    (colours theme (over style default)) _
    (fun v hv hv2 => look_token theme hn styles ht _ hbp v.1 (hk v hv hv2))

/-- **C129 (partial), SVG.** The same for the SVG, if the texts can be written in XML. -/
theorem C129_svg_partial (lx : Lexer) (theme : Theme) (env : Env) (tabsize : Nat) (escapeChar : Str) (x b e : Char)
    (hd : Delims escapeChar x b e) (code : Str)
    (hn : (theme.map Prod.fst).Nodup) (ht : Themed theme env.styles) (he : EnvOk env) (hp : env.style.priority = 0)
    (hal : env.style.align = some "left".toList ∨ env.style.align = some "middle".toList ∨ env.style.align = some "right".toList)
    (hplain : ∀ v ∈ lx (untab tabsize code), Plain v.2) (hk : Known theme (lx (untab tabsize code))) :
    ∃ toks, boxCode (some lx) false false tabsize escapeChar code = .ok toks ∧ SvgShows theme env (lx (untab tabsize code)) toks := by
  obtain ⟨r, k, hr, hb, _, hc, _, hs⟩ := C14_highlight (lx (untab tabsize code))
  refine ⟨r, by simp [boxCode, delims_ok hd, expandTabs_eq, highlightCode, hr], ?_⟩
  have hsty : ∀ n, Tok.opn n ∈ r → ∃ s, env.styles n = some s ∧ s.priority = 0 := by
    intro n hnr
    obtain ⟨v, hv, hv2, rfl⟩ := opened_highlight hr n hnr
    obtain ⟨en, hen⟩ := hk v hv hv2
    exact ⟨entryStyle en, by rw [ht, deck_token theme hn, lookup_of_nodup theme v.1 en hn hen]; rfl, entryStyle_priority en⟩
  obtain ⟨hcalm, hbr⟩ := calm_of_zero env.styles r [some env.style] (by
    intro o ho
    rw [List.mem_singleton] at ho
    exact ⟨env.style, ho, hp⟩) hsty
  have hpl : ∀ s, Tok.text s ∈ r → Plain s := by
    intro s hsr c hcs
    have h1 : ∃ st, (c, st) ∈ shown [] r := mem_shown_text hcs (hc.1 s hsr).2 hsr []
    obtain ⟨st, h1⟩ := h1
    have h2 : (c, st) ∈ (lx (untab tabsize code)).flatMap (fun v => v.2.map (mark ["pygments-".toList ++ v.1])) := by
      rw [← hs]; exact List.mem_append_left _ h1
    simp only [List.mem_flatMap, List.mem_map] at h2
    obtain ⟨v, hv, d, hd', hmk⟩ := h2
    have : d = c := congrArg Prod.fst hmk
    subst this
    exact hplain v hv d hd'
  obtain ⟨xml, s, attrs, F, h1, h2, h3, h4, h5⟩ := C59_priority_svg_partial env r he hb
    (fun n hnr hno => by obtain ⟨s, hs, _⟩ := hsty n hnr; rw [hno] at hs; cases hs) hpl hal hcalm hbr
  obtain ⟨e1, e2⟩ := expected_shown env.fmt env.styles env.style r (fun s hsr => (hc.1 s hsr).2) [] [] (depth_of_balanced hb 0)
  rw [show stackOf env.styles env.style [] ++ [some env.style] = [some env.style] from rfl] at e1 e2
  have e3 : unbroken (shown [] r) = unbroken ((lx (untab tabsize code)).flatMap (fun v => v.2.map (mark ["pygments-".toList ++ v.1]))) := by
    rw [← hs, unbroken_append, unbroken_nl, List.append_nil]
  change _ = (unbroken (shown [] r)).map _ at e1
  rw [e3] at e1
  have hlook : ∀ v ∈ lx (untab tabsize code), v.2 ≠ ['\n'] →
      (stackOf env.styles env.style ["pygments-".toList ++ v.1]).map (optAttrs env.fmt) =
        [styleAttrs env.fmt (colours theme {} v.1)] := by
    intro v hv hv2
    obtain ⟨en, hen⟩ := hk v hv hv2
    have hl := lookup_of_nodup theme v.1 en hn hen
    simp only [stackOf, List.nil_append]
    rw [ht, deck_token theme hn, hl, Option.map_some, Option.bind_some, applied_zero _ _ hp (entryStyle_priority en)]
    simp only [List.map_cons, List.map_nil, optAttrs, colours, hl, entry_painted]
  have htwo : ∀ p ∈ expected env.fmt env.styles env.style [some env.style] [] r, ∃ a l, p.2 = [a, l] ∧ (l = [] ∨ l = styleAttrs env.fmt env.style) := by
    intro p hpE
    have hm := List.mem_map_of_mem (f := fun p : Char × List Attrs => (p.1, p.2.dropLast)) hpE
    rw [e1, List.mem_map] at hm
    obtain ⟨q, hq, hqe⟩ := hm
    obtain ⟨v, hv, hv2, hst⟩ := shown_stack (g := fun τ => ["pygments-".toList ++ τ]) hq
    have hdl : p.2.dropLast = [styleAttrs env.fmt (colours theme {} v.1)] := by
      have := congrArg Prod.snd hqe
      simp only at this
      rw [← this, hst]
      exact hlook v hv hv2
    have hl := e2 p hpE
    obtain ⟨l, hl1, hl2⟩ : ∃ l, p.2.getLast? = some l ∧ (l = [] ∨ l = styleAttrs env.fmt env.style) := by
      rcases hl with h | h
      · exact ⟨_, h, .inl rfl⟩
      · exact ⟨_, h, .inr rfl⟩
    refine ⟨styleAttrs env.fmt (colours theme {} v.1), l, ?_, hl2⟩
    have := List.dropLast_append_getLast? l (by rw [hl1]; rfl)
    rw [← this, hdl]
    rfl
  refine ⟨xml, s, attrs, F, h1, h2, h3, h4, ?_, ?_⟩
  · rw [h5, asRead_take]
    congr 1
    rw [show (expected env.fmt env.styles env.style [some env.style] [] r).map (fun p => (p.1, p.2.take 1)) =
      (expected env.fmt env.styles env.style [some env.style] [] r).map (fun p => (p.1, p.2.dropLast)) from by
        apply List.map_congr_left
        intro p hpE
        obtain ⟨a, l, h, _⟩ := htwo p hpE
        rw [h]; rfl, e1, unbroken_vals (fun ns => (stackOf env.styles env.style ns).map (optAttrs env.fmt))
          (fun τ => ["pygments-".toList ++ τ]) (fun τ => [styleAttrs env.fmt (colours theme {} τ)]) _ hlook]
    unfold inColours unbroken
    have : ∀ l : List (Char × TextStyle), (l.filter (fun p => p.1 != '\n')).map (fun p => (p.1, [styleAttrs env.fmt p.2])) =
        (l.map (fun p => (p.1, [styleAttrs env.fmt p.2]))).filter (fun p => p.1 != '\n') := by
      intro l
      rw [List.filter_map]; rfl
    rw [this, List.map_flatMap]
    simp only [List.map_map, Function.comp_def]
  · intro p hpF
    rw [h5] at hpF
    simp only [asRead, List.mem_map] at hpF
    obtain ⟨q, hq, rfl⟩ := hpF
    obtain ⟨a, l, h, hl⟩ := htwo q hq
    rw [h]
    rcases hl with rfl | rfl
    · left; rfl
    · right; rw [h4]; rfl

/-- A theme and the tokens of `if x: # é⏎⏎  y` as Python. -/
def demoTheme : Theme :=
  [("Token".toList, {}), ("Token.Keyword".toList, { color := some "008000".toList, bold := true }),
   ("Token.Comment.Single".toList, { color := some "408080".toList, italic := true }), ("Token.Name".toList, {}),
   ("Token.Text.Whitespace".toList, { color := some "bbbbbb".toList }), ("Token.Punctuation".toList, {}), ("Token.Text".toList, {})]

def demoVals : List (Str × Str) :=
  [("Token.Keyword".toList, "if".toList), ("Token.Text".toList, " ".toList), ("Token.Name".toList, "x".toList),
   ("Token.Punctuation".toList, ":".toList), ("Token.Text".toList, " ".toList), ("Token.Comment.Single".toList, "# é".toList),
   ("Token.Text.Whitespace".toList, "\n\n".toList), ("Token.Text".toList, "  ".toList), ("Token.Name".toList, "y".toList),
   ("Token.Text.Whitespace".toList, "\n".toList)]

/-- The hypotheses of C129 are met. -/
example : (demoTheme.map Prod.fst).Nodup ∧ Themed demoTheme (deckStyles demoTheme).get ∧ Known demoTheme demoVals ∧
    fullStyle (deckStyles demoTheme) "code".toList = .ok (defaultStyle.compose codeStyle) ∧
    (defaultStyle.compose codeStyle).priority = 0 ∧ EnvOk (codeEnv demoTheme) ∧ (∀ v ∈ demoVals, Plain v.2) := by
  refine ⟨by decide +kernel, fun _ => rfl, ?_, by decide +kernel, rfl, codeEnv_ok _ (by decide +kernel), ?_⟩
  · have : ∀ v ∈ demoVals, ∃ p ∈ demoTheme, p.1 = v.1 := by decide +kernel
    intro v hv _
    obtain ⟨p, hp, h⟩ := this v hv
    exact ⟨p.2, by rw [← h]; exact hp⟩
  · have : ∀ v ∈ demoVals, (v.2.all (fun c => xmlChar c && c != '\r' && c != '\'')) = true := by decide +kernel
    intro v hv
    exact (okStr_of_decide (this v hv)).1

set_option synthInstance.maxSize 1000 in
set_option synthInstance.maxHeartbeats 200000 in
/-- What Cairo gets for it: colours, bold and italic by the bytes. -/
example : ((boxCode (some (fun _ => demoVals)) false false 4 ['~'] []).bind
      (getTextAndAttributes (deckStyles demoTheme).get defaultStyle (defaultStyle.compose codeStyle))).toOption.map
        (fun r => (r.1, (r.2.filter (fun x => x.2.1 != x.2.2)).map (fun x => (x.1.color, x.1.bold, x.1.italic, x.2)))) =
    some ("if x: # é\n⠀\n  y".toList,
      [(some "#008000".toList, some true, none, 0, 2), (some "#222".toList, none, none, 2, 3), (some "#222".toList, none, none, 3, 4),
       (some "#222".toList, none, none, 4, 5), (some "#222".toList, none, none, 5, 6), (some "#408080".toList, none, some true, 6, 10),
       (some "#222".toList, none, none, 10, 15), (some "#222".toList, none, none, 15, 17), (some "#222".toList, none, none, 17, 18)]) := by
  decide +kernel

end Verif.Highlight
