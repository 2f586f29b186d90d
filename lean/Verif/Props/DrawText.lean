import Verif.Proofs.DrawText

/-! # Property C58: texts drawn in SVG -/

namespace Verif.Xml
open Spec Verif.Text Verif.Text.Spec Verif.Style

/-! ### C58 -/

/-- The full claim: every balanced stream whose styles exist (or are the `#name` markers) is drawn. -/
def DrawsAll : Prop :=
  ∀ (env : Env) (toks : List Tok), EnvOk env → Balanced toks →
    (∀ n, Tok.opn n ∈ toks → env.styles n = none → n.head? = some '#') → (∀ s, Tok.text s ∈ toks → Plain s) →
    (env.style.align = some "left".toList ∨ env.style.align = some "middle".toList ∨ env.style.align = some "right".toList) →
    ∃ x, drawText env {} toks = .ok x

/-- A call with one style and one `#name` section. -/
def sampleEnv : Env where
  fmt := fun r => natStr r.num.toNat
  x := "10".toList
  y := "20".toList
  style := { font := some "Arial".toList, size := some 20, align := some "left".toList, color := some "black".toList }
  styles := fun n => if n = "em".toList then some { italic := some true } else none
  id := none
  idIndex := none
  transform := none
  lineSize := 24

theorem sampleEnv_ok : EnvOk sampleEnv where
  fmt := by
    intro r
    refine ⟨?_, ?_⟩
    · intro c hc
      have := Nat.isDigit_of_mem_toDigits (b := 10) (by decide) (by decide) hc
      refine ⟨?_, ?_⟩
      · simp only [Char.isDigit, Bool.and_eq_true, decide_eq_true_eq, UInt32.le_iff_toNat_le] at this
        simp only [xmlChar]
        have h1 : 32 ≤ c.toNat := Nat.le_trans (by decide) this.1
        have h2 : c.toNat ≤ 57 := this.2
        simp
        omega
      · rintro rfl; revert this; decide
    · intro hc
      have := Nat.isDigit_of_mem_toDigits (b := 10) (by decide) (by decide) hc
      revert this; decide
  x := okStr_of_decide (by decide)
  y := okStr_of_decide (by decide)
  transform := by intro t h; cases h
  id := by intro t h; cases h
  style := ⟨(by intro f h; injection h with h; subst h; exact okStr_of_decide (by decide)),
    (by intro f h; injection h with h; subst h; exact okStr_of_decide (by decide)), (by intro f h; cases h)⟩
  styles := by
    intro n s h
    simp only [sampleEnv] at h
    split at h
    · injection h with h; subst h
      exact ⟨(by intro f h; cases h), (by intro f h; cases h), (by intro f h; cases h)⟩
    · cases h

/-- `~#a{x⏎y}`, as used for `inline_box` on a text of two lines. -/
def sampleToks : List Tok := [.opn "#a".toList, .text ['x'], .newline 1, .text ['y'], .close]

theorem C58_drawn_false : ¬ DrawsAll := by
  intro h
  obtain ⟨x, hx⟩ := h sampleEnv sampleToks sampleEnv_ok (by
    have := Balanced.block "#a".toList [.text ['x'], .newline 1, .text ['y']] [] (.text _ _ (.newline _ _ (.text _ _ .nil))) .nil
    exact this) (by
      intro n hn _
      simp only [sampleToks, List.mem_cons, Tok.opn.injEq, List.not_mem_nil, or_false, reduceCtorEq, false_or] at hn
      subst hn; rfl) (by
      intro s hs
      simp only [sampleToks, List.mem_cons, Tok.text.injEq, List.not_mem_nil, or_false, reduceCtorEq, false_or] at hs
      rcases hs with rfl | rfl
      · exact (okStr_of_decide (by decide)).1
      · exact (okStr_of_decide (by decide)).1) (.inl rfl)
  have : (drawText sampleEnv {} sampleToks).toOption.isSome = false := by decide +kernel
  rw [hx] at this
  cases this

/-- The attributes of a line after a break of size `n`, as read. -/
def ReadLineAttrs (env : Env) (n : Nat) (as : Attrs) : Prop :=
  as.lookup "x".toList = some (attrText env.x) ∧ as.lookup "dy".toList = some (attrText (env.fmt (env.lineSize * n)))

/-- The anchor of a text with this alignment (SVG 1.1, §10.9.1). -/
def Anchored (align anchor : Option Str) : Prop :=
  (align = some "left".toList ∧ anchor = some "start".toList) ∨ (align = some "middle".toList ∧ anchor = some "middle".toList) ∨
  (align = some "right".toList ∧ anchor = some "end".toList)

/-- Drawing a text anywhere in a document adds one element. -/
theorem drawText_at (env : Env) (toks : List Tok) (he : EnvOk env) (hb : Balanced toks)
    (hsty : ∀ n, Tok.opn n ∈ toks → env.styles n = none → n.head? = some '#') (hplain : ∀ s, Tok.text s ∈ toks → Plain s)
    (hal : env.style.align = some "left".toList ∨ env.style.align = some "middle".toList ∨ env.style.align = some "right".toList)
    (hsafe : SafeBreaks env.styles [env.style.priority] [true] toks) {x0 : Xml} {a0 : A} (hg : Good x0 a0) :
    ∃ x as K attrs first lines, drawText env x0 toks = .ok x ∧
      Good x { cur := a0.cur ++ Forest.elem "text".toList as K .nil, up := a0.up, isOpen := false } ∧
      norm [] (.elem "text".toList as K .nil) = .elem "text".toList attrs (linesForest (first :: lines)) .nil ∧
      (first :: lines).map (fun l => l.2.textOf) = (lineTexts toks).map nbsp ∧
      List.Forall₂ (fun n l => ReadLineAttrs env n l.1) (breaks toks) lines ∧
      attrs.lookup "x".toList = some (attrText env.x) ∧ attrs.lookup "y".toList = some (attrText env.y) ∧
      attrs.lookup "transform".toList = env.transform.map attrText ∧ Anchored env.style.align (attrs.lookup "text-anchor".toList) := by
  obtain ⟨an, han, hanok, hanc⟩ : ∃ an, anchor env.style.align = .ok an ∧ OkStr an ∧ Anchored env.style.align (some (attrText an)) := by
    unfold anchor
    rcases hal with h | h | h <;> rw [h]
    · exact ⟨_, rfl, okStr_of_decide (by decide), .inl ⟨rfl, by decide⟩⟩
    · exact ⟨_, rfl, okStr_of_decide (by decide), .inr (.inl ⟨rfl, by decide⟩)⟩
    · exact ⟨_, rfl, okStr_of_decide (by decide), .inr (.inr ⟨rfl, by decide⟩)⟩
  have hv := headOps_valid he hanok
  have ha : arun a0 (headOps env an) = some { cur := .nil, up := (.nil, "tspan".toList, (lineSets env).map toAttr) ::
      (a0.cur, "text".toList, (textSets env an).map toAttr) :: a0.up, isOpen := true } := by
    rw [headOps_eq, arun_append, arun_element, Option.bind_some, arun_element]
  obtain ⟨x0, hx0, hg0⟩ := hg.go hv.1 (hv.2 _) ha
  obtain ⟨st', a', done', la', t', news, h1, h2, h3, h4, h5, h6, h7⟩ := drawLoop_ok he (bot := (a0.cur, a0.up)) ((textSets env an).map toAttr) toks 0
    [env.style.priority] [true] { xml := x0, active := [some env.style], prio := env.style.priority } _ [] ((lineSets env).map toAttr) []
    hsty hplain hsafe (depth_of_balanced hb 0)
    ⟨.cons (by simp) .nil, by simp, (by intro s hs; simp at hs; subst hs; simp), (by intro s hs; simp at hs; subst hs; exact he.style), rfl⟩
    hg0 (.base _ _)
  rw [h3] at h4
  obtain ⟨cur, up, op⟩ := a'
  obtain ⟨k, hk, hcl⟩ := h4.closeAll op
  have ha2 : arun { cur := cur, up := up, isOpen := op } ([.close (some "tspan".toList), .close (some "text".toList)]) =
      some { cur := a0.cur ++ Forest.elem "text".toList ((textSets env an).map toAttr) (linesForest (done' ++ [(la', k)])) .nil, up := a0.up, isOpen := false } := by
    have : ([.close (some "tspan".toList), .close (some "text".toList)] : List Op) =
      [some env.style].map (fun _ => Op.close (some "tspan".toList)) ++ [.close (some "text".toList)] := rfl
    rw [this, arun_append, hcl]
    simp only [Option.bind_some, arun, aexec, or_true, if_true]
  obtain ⟨x2, hx2, hg2⟩ := h2.go (os := [.close (some "tspan".toList), .close (some "text".toList)]) (by
    intro o ho
    simp only [List.mem_cons, List.not_mem_nil, or_false] at ho
    rcases ho with rfl | rfl <;> trivial) (by trivial) ha2
  have hfirst : ∃ k0 lines0, done' ++ [(la', k)] = ((lineSets env).map toAttr, k0) :: lines0 ∧ lines0.map (·.1) = news := by
    have : (done' ++ [(la', k)]).map (·.1) = (lineSets env).map toAttr :: news := by simpa using h6
    cases hd : done' ++ [(la', k)] with
    | nil => simp at hd
    | cons p l =>
      rw [hd] at this
      simp only [List.map_cons, List.cons.injEq] at this
      exact ⟨p.2, l, by rw [← this.1], this.2⟩
  obtain ⟨k0, lines0, hd, hl0⟩ := hfirst
  refine ⟨x2, (textSets env an).map toAttr, linesForest (done' ++ [(la', k)]), ((textSets env an).map toAttr).map (fun y => (y.1, attrText y.2)),
    (((lineSets env).map toAttr).map (fun y => (y.1, attrText y.2)), norm [] k0),
    lines0.map (fun x => (x.1.map (fun y => (y.1, attrText y.2)), norm [] x.2)), ?_, hg2, ?_, ?_, ?_, ?_, ?_, ?_, ?_⟩
  · simp only [drawText, han, hx0, h1, h3]
    exact hx2
  · show textNode [] ++ Forest.elem _ _ (norm [] (linesForest (done' ++ [(la', k)]))) (norm [] .nil) = _
    rw [norm_linesForest, hd]
    rfl
  · have e : (done' ++ [(la', k)]).map (fun x => x.2.textOf) = lineTexts toks := by
      rw [List.map_append, List.map_cons, List.map_nil, hk, h5]
      simp only [List.map_nil, List.nil_append]
      cases hlt : lineTexts toks with
      | nil => exact absurd hlt (lineTexts_ne_nil toks)
      | cons l ls => rfl
    rw [← e, hd]
    simp only [List.map_cons, List.map_map, Function.comp_def, textOf_norm, List.nil_append]
  · rw [← hl0] at h7
    have h8 := forall₂_of_map h7
    refine forall₂_to_map (forall₂_imp ?_ h8)
    rintro n l ⟨rest, hr⟩
    constructor
    · simp only [hr, List.map_cons]
      rfl
    · simp only [hr, List.map_cons]
      rfl
  · exact (textSets_lookup env an).1
  · exact (textSets_lookup env an).2
  · exact (textSets_lookup2 env an).1
  · rw [(textSets_lookup2 env an).2]; exact hanc

/-- **C58 (partial).** If line breaks are only inside styles that are certainly applied (`SafeBreaks`), the text is
drawn, the output is well-formed and shows the text line by line: a `text` element at the given position, in it one
`tspan` per line with the text of the line, and every line but the first starts at the given `x`, as many line sizes
below as its line break says; the text is turned and scaled as asked and anchored by its alignment. Missing: line breaks inside styles that are not applied (the code raises). -/
theorem C58_drawn_partial (env : Env) (toks : List Tok) (he : EnvOk env) (hb : Balanced toks)
    (hsty : ∀ n, Tok.opn n ∈ toks → env.styles n = none → n.head? = some '#') (hplain : ∀ s, Tok.text s ∈ toks → Plain s)
    (hal : env.style.align = some "left".toList ∨ env.style.align = some "middle".toList ∨ env.style.align = some "right".toList)
    (hsafe : SafeBreaks env.styles [env.style.priority] [true] toks) :
    ∃ x s attrs first lines, drawText env {} toks = .ok x ∧ x.toString = .ok s ∧
      readXml s = some (.elem "text".toList attrs (linesForest (first :: lines)) .nil) ∧
      (first :: lines).map (fun l => l.2.textOf) = (lineTexts toks).map nbsp ∧
      List.Forall₂ (fun n l => ReadLineAttrs env n l.1) (breaks toks) lines ∧
      attrs.lookup "x".toList = some (attrText env.x) ∧ attrs.lookup "y".toList = some (attrText env.y) ∧
      attrs.lookup "transform".toList = env.transform.map attrText ∧ Anchored env.style.align (attrs.lookup "text-anchor".toList) := by
  obtain ⟨x, as, K, attrs, first, lines, h1, hg, h2, h3⟩ := drawText_at env toks he hb hsty hplain hal hsafe good_init
  have hst0 : x.stack = [] := by
    have := hg.stack
    simpa using this
  obtain ⟨s, hs⟩ : ∃ s, x.toString = .ok s := by
    unfold Xml.toString; rw [hst0]; exact ⟨_, rfl⟩
  obtain ⟨_, hread⟩ := hg.toString hs
  refine ⟨x, s, attrs, first, lines, h1, hs, ?_, h3⟩
  rw [hread, ← h2]
  rfl

/-- **C58 (what is missing).** A line break inside a section whose name is not in the style table (such as the `#name`
sections of `inline_box`) always makes drawing fail, whatever the rest of the text is. -/
theorem C58_break_in_marker_fails (env : Env) (pre post : List Tok) (n : Nat) (hb : Balanced (pre ++ .newline n :: post))
    (name : Str) (hname : name ∈ openNames [] pre) (hs : env.styles name = none) (x : Xml) :
    drawText env {} (pre ++ .newline n :: post) ≠ .ok x := by
  intro h
  unfold drawText at h
  split at h
  · cases h
  rename_i an _
  split at h
  · cases h
  rename_i x0 hx0
  have hst0 : StackIs x0 1 := by
    rw [headOps_eq, run_append] at hx0
    split at hx0
    · cases hx0
    · rename_i y hy
      unfold StackIs
      rw [run_block_stack _ _ hx0, run_block_stack _ _ hy]
      rfl
  split at h
  · cases h
  rename_i st hloop
  have hdep := depth_of_balanced hb 0
  have hloop' := hloop
  rw [drawLoop_append] at hloop
  split at hloop
  · cases hloop
  rename_i st1 hpre
  rw [depth_append] at hdep
  have hpred : (depth 0 pre).isSome := by
    cases hd : depth 0 pre with
    | none => rw [hd] at hdep; cases hdep
    | some _ => rfl
  obtain ⟨d1, a1, a2, _⟩ := drawLoop_stack hpre hst0 (by simp)
  have hnames := (drawLoop_names hpre (names := []) hst0 (by simp) .nil (by simp) hpred).1
  have hnone : none ∈ st1.active := by
    have : ∀ {l : List Str} {m : List (Option TextStyle)}, List.Forall₂ (fun n s => env.styles n = none → s = none) l m → name ∈ l → none ∈ m := by
      intro l m hf
      induction hf with
      | nil => intro h; cases h
      | cons h1 _ ih =>
        intro h
        rcases List.mem_cons.mp h with rfl | h
        · rw [h1 hs]; simp
        · exact List.mem_cons_of_mem _ (ih h)
    exact List.dropLast_subset _ (this hnames hname)
  simp only [drawLoop] at hloop
  split at hloop
  · cases hloop
  rename_i st2 hnl
  obtain ⟨d2, b1, b2, _, b4, _⟩ := drawTok_stack hnl a1 a2
  obtain ⟨d3, c1, c2, c3⟩ := drawLoop_stack hloop b1 b2
  have hlt := c3 (b4 n rfl hnone)
  have hlen := drawLoop_names hloop' (names := []) hst0 (by simp) .nil (by simp) (by simp [depth_of_balanced hb 0])
  have hopen : (openNames [] (pre ++ .newline n :: post)) = [] := by
    have : ∀ (ts : List Tok) (names : List Str), ∀ k, depth names.length ts = some k → (openNames names ts).length = k := by
      intro ts
      induction ts with
      | nil => intro names k h; rw [depth_nil] at h; injection h
      | cons t ts ih =>
        intro names k h
        cases t with
        | text s => exact ih _ _ (by rw [depth_text] at h; exact h)
        | newline s => exact ih _ _ (by rw [depth_newline] at h; exact h)
        | opn s => exact ih (s :: names) _ (by rw [depth_opn] at h; exact h)
        | close =>
          cases names with
          | nil => simp at h
          | cons a names => exact ih names _ (by simpa using h)
    exact List.eq_nil_of_length_eq_zero (this _ [] 0 (depth_of_balanced hb 0))
  obtain ⟨_, hlen2, hlast⟩ := hlen
  rw [hopen] at hlen2
  have hact : st.active = [some env.style] := by
    match hst : st.active with
    | [] => rw [hst] at hlen2; simp at hlen2
    | [s] => rw [hst] at hlast; simpa using hlast
    | _ :: _ :: _ => rw [hst] at hlen2; simp at hlen2
  rw [hact] at hlt h
  have hd3 : d3 = 0 := by simpa using hlt
  subst hd3
  have e : List.map (fun _ => Op.close (some "tspan".toList)) (List.filter Option.isSome [some env.style].reverse) ++
      [Op.close (some "text".toList)] = [Op.close (some "tspan".toList)] ++ [Op.close (some "text".toList)] := rfl
  rw [e, run_append] at h
  split at h
  · cases h
  rename_i y hy
  obtain ⟨d', hd', _⟩ := run_close_stack c1 hy
  omega

/-- The hypotheses are met by a two-line text with a style across the line break. -/
def sampleToks2 : List Tok := [.opn "em".toList, .text "a b".toList, .newline 2, .text ['c'], .close, .opn "#z".toList, .text ['d'], .close]

example : Balanced sampleToks2 := by
  have h1 : Balanced [Tok.text "a b".toList, .newline 2, .text ['c']] := .text _ _ (.newline _ _ (.text _ _ .nil))
  have h2 : Balanced [Tok.text ['d']] := .text _ _ .nil
  exact .block "em".toList _ _ h1 (.block "#z".toList _ _ h2 .nil)

example : SafeBreaks sampleEnv.styles [sampleEnv.style.priority] [true] sampleToks2 := by
  simp [SafeBreaks, sampleToks2, sampleEnv]

example : (lineTexts sampleToks2).map nbsp = ["a\xa0b".toList, "cd".toList] := by decide +kernel

example : ((drawText sampleEnv {} sampleToks2).toOption.bind (fun x => x.toString.toOption)) = some (
    "<text x='10' y='20' text-anchor='start' font-family='Arial' font-size='20' style='fill:black;'>".toList ++
    "<tspan><tspan xml:space='preserve' style='font-style: italic;'>a&#160;b</tspan></tspan>".toList ++
    "<tspan xml:space='preserve' x='10' dy='48' font-family='Arial' font-size='20' style='fill:black;'>".toList ++
    "<tspan xml:space='preserve' style='font-style: italic;'>c</tspan><tspan xml:space='preserve'>d</tspan></tspan></text>".toList) := by
  decide +kernel

example : "#a".toList ∈ openNames [] [.opn "#a".toList, .text ['x']] := by decide

end Verif.Xml
