import Verif.Proofs.DrawStyle
import Verif.Proofs.CairoText
import Verif.Props.DrawText

/-! # Properties C59–C61: styles of drawn text in both backends -/

namespace Verif.Xml
open Spec Verif.Text Verif.Text.Spec Verif.Style

/-! ### C59, SVG -/

/-- The content of a `text` element. -/
def contentOf : Forest → Option Forest
  | .elem _ _ k .nil => some k
  | _ => none

/-- The full claim for SVG: around every character of a text that is drawn are the attributes of exactly the styles that
are applied. -/
def StylesBySpec : Prop :=
  ∀ (env : Env) (toks : List Tok), EnvOk env → Balanced toks → (∀ s, Tok.text s ∈ toks → Plain s) →
    ∀ x s F, drawText env {} toks = .ok x → x.toString = .ok s → (readXml s).bind contentOf = some F →
      F.chars [] = asRead (expected env.fmt env.styles env.style [some env.style] [] toks)

/-- Styles with priorities 5, 1, 10 and 7. -/
def prioEnv : Env :=
  { sampleEnv with
    styles := fun n =>
      if n = ['A'] then some { font := some ['A'], priority := 5 }
      else if n = ['B'] then some { font := some ['B'], priority := 1 }
      else if n = ['C'] then some { font := some ['C'], priority := 10 }
      else if n = ['D'] then some { font := some ['D'], priority := 7 }
      else none }

theorem prioEnv_ok : EnvOk prioEnv where
  fmt := sampleEnv_ok.fmt
  x := sampleEnv_ok.x
  y := sampleEnv_ok.y
  transform := sampleEnv_ok.transform
  id := sampleEnv_ok.id
  style := sampleEnv_ok.style
  styles := by
    intro n s h
    simp only [prioEnv] at h
    have key : ∀ (c : Char), xmlChar c = true → c ≠ '\r' → c ≠ '\'' → ∀ p, StyleOk { font := some [c], priority := p } := by
      intro c h1 h2 h3 p
      refine ⟨?_, (by intro f h; cases h), (by intro f h; cases h)⟩
      intro f hf
      injection hf with hf; subst hf
      exact ⟨(by intro d hd; rw [List.mem_singleton] at hd; subst hd; exact ⟨h1, h2⟩), (by simpa using h3.symm)⟩
    split at h
    · injection h with h; subst h; exact key 'A' (by decide) (by decide) (by decide) 5
    · split at h
      · injection h with h; subst h; exact key 'B' (by decide) (by decide) (by decide) 1
      · split at h
        · injection h with h; subst h; exact key 'C' (by decide) (by decide) (by decide) 10
        · split at h
          · injection h with h; subst h; exact key 'D' (by decide) (by decide) (by decide) 7
          · cases h

/-- `~A{~B{~C{x}~D{y}}}`: `D` has a higher priority than `A`, the style in force, but is dropped, because the priority
of `C` is not forgotten. -/
def prioToks : List Tok :=
  [.opn ['A'], .opn ['B'], .opn ['C'], .text ['x'], .close, .opn ['D'], .text ['y'], .close, .close, .close]

theorem C59_priority_svg_false : ¬ StylesBySpec := by
  intro h
  have hx : ∃ x s F, drawText prioEnv {} prioToks = .ok x ∧ x.toString = .ok s ∧ (readXml s).bind contentOf = some F ∧
      F.chars [] ≠ asRead (expected prioEnv.fmt prioEnv.styles prioEnv.style [some prioEnv.style] [] prioToks) := by
    have : ((drawText prioEnv {} prioToks).toOption.bind (fun x => x.toString.toOption.bind (fun s => ((readXml s).bind contentOf).map
        (fun F => decide (F.chars [] ≠ asRead (expected prioEnv.fmt prioEnv.styles prioEnv.style [some prioEnv.style] [] prioToks)))))) = some true := by
      decide +kernel
    cases h1 : drawText prioEnv {} prioToks with
    | error e => rw [h1] at this; cases this
    | ok x =>
      rw [h1] at this
      simp only [Except.toOption, Option.bind_some] at this
      cases h2 : x.toString with
      | error e => rw [h2] at this; cases this
      | ok s =>
        rw [h2] at this
        simp only [Option.bind_some] at this
        cases h3 : (readXml s).bind contentOf with
        | none => rw [h3] at this; cases this
        | some F =>
          rw [h3] at this
          simp only [Option.map_some, Option.some.injEq, decide_eq_true_eq] at this
          exact ⟨x, s, F, rfl, h2, h3, this⟩
  obtain ⟨x, s, F, h1, h2, h3, h4⟩ := hx
  refine h4 (h prioEnv prioToks prioEnv_ok ?_ ?_ x s F h1 h2 h3)
  · have b1 : Balanced [Tok.text ['x']] := .text _ _ .nil
    have b2 : Balanced [Tok.text ['y']] := .text _ _ .nil
    have b3 : Balanced [.opn ['C'], .text ['x'], .close, .opn ['D'], .text ['y'], .close] :=
      .block ['C'] _ _ b1 (.block ['D'] _ _ b2 .nil)
    have b4 : Balanced (.opn ['B'] :: [.opn ['C'], .text ['x'], .close, .opn ['D'], .text ['y'], .close] ++ .close :: []) :=
      .block ['B'] _ _ b3 .nil
    exact .block ['A'] _ _ b4 .nil
  · intro s hs
    simp only [prioToks, List.mem_cons, Tok.text.injEq, List.not_mem_nil, or_false, reduceCtorEq, false_or] at hs
    rcases hs with rfl | rfl
    · exact (okStr_of_decide (by decide)).1
    · exact (okStr_of_decide (by decide)).1

/-- **C59, SVG (partial).** The text is drawn and around every character are the attributes of exactly the open styles
that are applied by the rule, if every style applied directly inside a style that is not applied has the priority of the
style in force there (`Calm`). Missing: other nestings, for which the claim is false. (Line breaks inside styles that are
not applied fail, see C58.) -/
theorem C59_priority_svg_partial (env : Env) (toks : List Tok) (he : EnvOk env) (hb : Balanced toks)
    (hsty : ∀ n, Tok.opn n ∈ toks → env.styles n = none → n.head? = some '#') (hplain : ∀ s, Tok.text s ∈ toks → Plain s)
    (hal : env.style.align = some "left".toList ∨ env.style.align = some "middle".toList ∨ env.style.align = some "right".toList)
    (hcalm : Calm env.styles [some env.style] toks) (hbr : BreaksApplied env.styles [some env.style] toks) :
    ∃ x s attrs F, drawText env {} toks = .ok x ∧ x.toString = .ok s ∧
      readXml s = some (.elem "text".toList attrs F .nil) ∧
      fontOnly attrs = (styleAttrs env.fmt env.style).map (fun a => (a.1, attrText a.2)) ∧
      F.chars [] = asRead (expected env.fmt env.styles env.style [some env.style] [] toks) := by
  obtain ⟨an, han, hanok⟩ : ∃ an, anchor env.style.align = .ok an ∧ OkStr an := by
    unfold anchor
    rcases hal with h | h | h <;> rw [h]
    · exact ⟨_, rfl, okStr_of_decide (by decide)⟩
    · exact ⟨_, rfl, okStr_of_decide (by decide)⟩
    · exact ⟨_, rfl, okStr_of_decide (by decide)⟩
  have hv := headOps_valid he hanok
  have ha : arun {} (headOps env an) = some { cur := .nil, up := [(.nil, "tspan".toList, (lineSets env).map toAttr),
      (.nil, "text".toList, (textSets env an).map toAttr)], isOpen := true } := by
    rw [headOps_eq, arun_append, arun_element, Option.bind_some, arun_element]
  obtain ⟨x0, hx0, hg0⟩ := good_init.go hv.1 (hv.2 _) ha
  obtain ⟨st', a', done', la', ab', t', h1, h2, h3, h4, h5⟩ := drawLoop_sty he ((textSets env an).map toAttr) toks 0
    { xml := x0, active := [some env.style], prio := env.style.priority } _ [] ((lineSets env).map toAttr) _ []
    hsty hplain hcalm hbr (depth_of_balanced hb 0)
    (by intro u hu; injection hu with hu; subst hu; rfl) ⟨(by intro u t _ h; cases h), trivial⟩
    (by intro s hs; simp at hs; subst hs; exact he.style) rfl
    hg0 (.base _ _)
  rw [h3] at h4
  obtain ⟨cur, up, op⟩ := a'
  obtain ⟨k, hk, hcl⟩ := h4.closeAll op
  have ha2 : arun { cur := cur, up := up, isOpen := op } ([.close (some "tspan".toList), .close (some "text".toList)]) =
      some { cur := .elem "text".toList ((textSets env an).map toAttr) (linesForest (done' ++ [(la', k)])) .nil, up := [], isOpen := false } := by
    have : ([.close (some "tspan".toList), .close (some "text".toList)] : List Op) =
      [some env.style].map (fun _ => Op.close (some "tspan".toList)) ++ [.close (some "text".toList)] := rfl
    rw [this, arun_append, hcl]
    simp only [Option.bind_some, arun, aexec, or_true, if_true]
    rfl
  obtain ⟨x2, hx2, hg2⟩ := h2.go (os := [.close (some "tspan".toList), .close (some "text".toList)]) (by
    intro o ho
    simp only [List.mem_cons, List.not_mem_nil, or_false] at ho
    rcases ho with rfl | rfl <;> trivial) (by trivial) ha2
  have hst0 : x2.stack = [] := by
    have := hg2.stack
    simpa using this
  obtain ⟨s, hs⟩ : ∃ s, x2.toString = .ok s := by
    unfold Xml.toString; rw [hst0]; exact ⟨_, rfl⟩
  obtain ⟨_, hread⟩ := hg2.toString hs
  refine ⟨x2, s, ((textSets env an).map toAttr).map (fun y => (y.1, attrText y.2)), norm [] (linesForest (done' ++ [(la', k)])), ?_, hs, hread, ?_, ?_⟩
  · simp only [drawText, han, hx0, h1, h3]
    exact hx2
  · rw [fontOnly_attrText]
    congr 1
    exact fontOnly_text env an
  · have := chars_norm [] [] (linesForest (done' ++ [(la', k)]))
    simp only [List.map_nil, List.nil_append] at this
    rw [this, linesChars_append]
    have e : (linesForest [(la', k)]).chars [] = t' := by
      simp only [linesForest, Forest.chars, List.append_nil]; exact hk
    rw [e, h5, fontOnly_line]
    rfl

/-- The hypotheses are met by a text with a style that is not applied, another one inside it, and a line break. -/
def calmToks : List Tok :=
  [.opn ['A'], .text ['p'], .newline 1, .opn ['B'], .text ['q'], .opn ['A'], .text ['r'], .close, .close, .close]

example : Calm prioEnv.styles [some prioEnv.style] calmToks ∧ BreaksApplied prioEnv.styles [some prioEnv.style] calmToks := by
  have hA : prioEnv.styles ['A'] = some { font := some ['A'], priority := 5 } := by decide +kernel
  have hB : prioEnv.styles ['B'] = some { font := some ['B'], priority := 1 } := by decide +kernel
  have a0 : applied [some prioEnv.style] { font := some ['A'], priority := 5 } = some { font := some ['A'], priority := 5 } := by decide +kernel
  have a1 : applied [some { font := some ['A'], priority := 5 }, some prioEnv.style] { font := some ['B'], priority := 1 } = none := by decide +kernel
  have a2 : applied [none, some { font := some ['A'], priority := 5 }, some prioEnv.style] { font := some ['A'], priority := 5 } =
    some { font := some ['A'], priority := 5 } := by decide +kernel
  simp [calmToks, Calm, BreaksApplied, hA, hB, a0, a1, a2, innermost]

end Verif.Xml

namespace Verif.Cairo
open Spec Verif.Text Verif.Text.Spec Verif.Style Verif.Xml.Spec

/-! ### C60 and C59 for Cairo -/

/-- **C60, and C59 for Cairo.** For every balanced stream whose styles exist, the ranges cover the text from the first
to the last byte without gaps and overlaps, and each byte has the look of the style of the text with the applied open
styles on top; applied are, by the priority rule, the styles whose priority is at least that of the innermost applied
one. -/
theorem C60_ranges (styles : Str → Option TextStyle) (default style : TextStyle) (toks : List Tok) (hb : Balanced toks)
    (hs : ∀ n, Tok.opn n ∈ toks → n.head? = some '#' ∨ styles n ≠ none) :
    ∃ text ranges, getTextAndAttributes styles default style toks = .ok (text, ranges) ∧
      text = (styledChars (noMarkers styles) (over style default) [] true toks).map (·.1) ∧
      Covers 0 ranges (utf8Length text) ∧
      bytesOfRanges ranges = bytesOf (styledChars (noMarkers styles) (over style default) [] true toks) := by
  rw [← compose_over]
  simp only [utf8Length_eq]
  obtain ⟨st, h1, h2⟩ := loop_ok styles (default.compose style) toks [] [] { base := [some (default.compose style)] }
    ⟨rfl, rfl, rfl, Nat.zero_le _, rfl⟩ (depth_of_balanced hb 0) hs
  simp only [List.nil_append, List.isEmpty_nil] at h2
  have hbase : st.base = [some (default.compose style)] := h2.stackEq
  by_cases hlt : st.start < byteLength st.text
  · refine ⟨st.text, st.ranges ++ [(default.compose style, st.start, byteLength st.text)], ?_, h2.text, ?_, ?_⟩
    · simp only [getTextAndAttributes, h1, hbase, List.getLast?_singleton, if_pos hlt]
      rfl
    · exact covers_append h2.covers ⟨rfl, h2.le, rfl⟩
    · rw [h2.bytes, bytesOfRanges_append]
      simp [bytesOfRanges, look]
  · have heq : st.start = byteLength st.text := Nat.le_antisymm h2.le (Nat.not_lt.mp hlt)
    refine ⟨st.text, st.ranges, ?_, h2.text, ?_, ?_⟩
    · simp only [getTextAndAttributes, h1, hbase, List.getLast?_singleton, if_neg hlt]
      rfl
    · have := h2.covers; rw [heq] at this; exact this
    · rw [h2.bytes, heq]; simp

/-- The example on which the SVG backend goes wrong: here `D` is applied. -/
example : (getTextAndAttributes Verif.Xml.prioEnv.styles {} Verif.Xml.prioEnv.style Verif.Xml.prioToks).toOption.map
    (fun r => (r.1, r.2.map (fun x => (x.1.font, x.2)))) =
    some ("xy".toList, [(some "Arial".toList, 0, 0), (some ['A'], 0, 0), (some ['A'], 0, 0), (some ['C'], 0, 1), (some ['A'], 1, 1),
      (some ['D'], 1, 2), (some ['A'], 2, 2), (some ['A'], 2, 2)]) := by decide +kernel

/-- **C60 (texts).** Without line breaks the text of the ranges is the text of the stream. -/
theorem C60_text (styles : Str → Option TextStyle) (base : TextStyle) (toks : List Tok) (hn : ∀ n, Tok.newline n ∉ toks) (stack e) :
    (styledChars styles base stack e toks).map (·.1) = textsOf toks := by
  induction toks generalizing stack e with
  | nil => rfl
  | cons t toks ih =>
    have hn' : ∀ n, Tok.newline n ∉ toks := fun n h => hn n (List.mem_cons_of_mem _ h)
    cases t with
    | text s => simp [styledChars, textsOf, ih hn', Function.comp_def]
    | newline n => exact absurd (by simp) (hn n)
    | opn n => simp [styledChars, textsOf, ih hn']
    | close => simp [styledChars, textsOf, ih hn']

/-! ### C61 -/

/-- The full claim: the range of a section. -/
def MeasuresSection : Prop :=
  ∀ (pre inner post : List Tok) (n : Str), Balanced inner → Balanced (pre ++ .opn n :: inner ++ .close :: post) →
    (∀ k, Tok.newline k ∉ pre ++ .opn n :: inner ++ .close :: post) →
    getByteRange (pre ++ .opn n :: inner ++ .close :: post) pre.length =
      .ok (utf8Length (textsOf pre), utf8Length (textsOf pre) + utf8Length (textsOf inner))

/-- `~a{~b{x}y}`: for `b` the range also has the `y`. -/
theorem C61_section_false : ¬ MeasuresSection := by
  intro h
  have := h [.opn ['a']] [.text ['x']] [.text ['y'], .close] ['b'] (.text _ _ .nil) (by
    have b1 : Balanced (.opn ['b'] :: [Tok.text ['x']] ++ .close :: [.text ['y']]) := .block ['b'] _ _ (.text _ _ .nil) (.text _ _ .nil)
    exact .block ['a'] _ [] b1 .nil) (by intro k hk; simp at hk)
  simp only [utf8Length_eq] at this
  revert this
  decide +kernel

/-- **C61 (partial).** The range starts where the section starts and ends where the outermost section around it ends:
`a` is everything before that outermost section, which is `~m{p ~n{inner} q}`. -/
theorem C61_section_partial (a p inner q post : List Tok) (m n : Str) (ha : Balanced a)
    (hp : Balanced (p ++ .opn n :: inner ++ .close :: q))
    (hn : ∀ k, Tok.newline k ∉ a ++ .opn m :: p ++ .opn n :: inner ++ .close :: q) :
    getByteRange (a ++ .opn m :: p ++ .opn n :: inner ++ .close :: q ++ .close :: post) (a ++ .opn m :: p).length =
      .ok (utf8Length (textsOf (a ++ p)), utf8Length (textsOf (a ++ p ++ inner ++ q))) := by
  simp only [utf8Length_eq]
  unfold getByteRange
  have hda := depth_of_balanced ha 0
  have hdp := depth_of_balanced hp 0
  rw [List.append_assoc, depth_append] at hdp
  cases hd0 : depth 0 p with
  | none => rw [hd0] at hdp; cases hdp
  | some d0 =>
    rw [hd0] at hdp
    simp only [Option.bind_some, List.cons_append, depth_opn] at hdp
    have hd1 := depth_add p 0 d0 1 hd0
    have e : a ++ .opn m :: p ++ .opn n :: inner ++ .close :: q ++ .close :: post =
        (a ++ .opn m :: p) ++ (.opn n :: ((inner ++ .close :: q) ++ .close :: post)) := by simp
    rw [e, byteRange_before _ (a ++ .opn m :: p) _ 0 0 (d0 + 1) 0 (by omega) (by
      intro k hk; exact hn k (by simp only [List.mem_append] at hk ⊢; tauto)) (by
      rw [depth_append, hda]; exact hd1)]
    simp only [byteRange]
    rw [if_pos (by omega), byteRange_after _ _ _ _ (d0 + 1) _ _ (by omega) (by
      intro k hk; apply hn k
      simp only [List.mem_append, List.mem_cons] at hk ⊢
      tauto) hdp]
    simp only [textsOf_append, textsOf, byteLength_append, Nat.zero_add, Nat.add_assoc]

/-- **C61 (partial, outermost sections).** For a section that is not inside another one the claim holds. -/
theorem C61_outermost_partial (pre inner post : List Tok) (n : Str) (ha : Balanced pre) (hi : Balanced inner)
    (hn : ∀ k, Tok.newline k ∉ pre ++ .opn n :: inner) :
    getByteRange (pre ++ .opn n :: inner ++ .close :: post) pre.length =
      .ok (utf8Length (textsOf pre), utf8Length (textsOf pre) + utf8Length (textsOf inner)) := by
  simp only [utf8Length_eq]
  unfold getByteRange
  have e : pre ++ .opn n :: inner ++ .close :: post = pre ++ (.opn n :: (inner ++ .close :: post)) := by simp
  rw [e, byteRange_before _ pre _ 0 0 0 0 (by omega) (by
    intro k hk; exact hn k (by simp only [List.mem_append] at hk ⊢; tauto)) (depth_of_balanced ha 0)]
  simp only [byteRange]
  rw [if_pos (by omega), byteRange_after _ _ _ _ 0 _ _ (by omega) (by
      intro k hk; apply hn k
      simp only [List.mem_append, List.mem_cons] at hk ⊢
      tauto) (depth_of_balanced hi 0)]
  simp

example : getByteRange [.text "ab".toList, .opn "#x".toList, .text "é".toList, .close, .text ['c']] 1 = .ok (2, 4) := by decide +kernel
example : getByteRange [.opn ['m'], .text "ab".toList, .opn "#x".toList, .text "é".toList, .close, .text ['c'], .close] 2 = .ok (2, 5) := by
  decide +kernel

end Verif.Cairo
