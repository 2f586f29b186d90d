import Verif.Spec.MarkdownBlocks
import Verif.Props.Code
import Verif.Props.TextCalls
import Verif.Props.SvgDraw

/-! # Proofs for the blocks of Markdown -/

namespace Verif.Markdown
open Spec
open Verif.ExtList (Family ListB BoxRec Label newList ulLabel olLabel bump arabic)
open Verif.Text (Tok Lexer boxText boxCode)
open Verif.Text.Spec (shown chars)

/-! ### order -/

theorem before_cons {a b : Nat} {p q : List Nat} : Before (a :: p) (b :: q) ↔ a < b ∨ (a = b ∧ Before p q) := by
  constructor
  · rintro ⟨common, i, j, p', q', h1, h2, h⟩
    cases common with
    | nil =>
      injection h1 with h3 _
      injection h2 with h4 _
      left
      rw [h3, h4]
      exact h
    | cons c cs =>
      injection h1 with h3 h5
      injection h2 with h4 h6
      exact .inr ⟨h3.trans h4.symm, cs, i, j, p', q', h5, h6, h⟩
  · rintro (h | ⟨rfl, c, i, j, p', q', rfl, rfl, h⟩)
    · exact ⟨[], a, b, p, q, rfl, rfl, h⟩
    · exact ⟨a :: c, i, j, p', q', rfl, rfl, h⟩

theorem not_before_nil {p : List Nat} : ¬ Before p [] := by
  rintro ⟨c, i, j, p', q', -, h, -⟩
  simp at h

/-- In a child of `P` with a number in the range. -/
def Between (P : List Nat) (lo hi : Nat) (p : List Nat) : Prop := ∃ k rest, p = P ++ k :: rest ∧ lo < k ∧ k ≤ hi

def depth (q p : List Nat) : Nat := (p.filter (· ∈ q)).length

theorem depth_append (q a b : List Nat) : depth q (a ++ b) = depth q a + depth q b := by simp [depth]

/-! ### states -/

/-- The number of boxes. -/
abbrev St.len (s : St) : Nat := s.fam.boxes.length

/-- Texts were added, with boxes in these places; nothing was taken away. -/
structure Grown (s s' : St) (es : List (TextRec × List Nat)) : Prop where
  boxes : ∃ more, s'.fam.boxes = s.fam.boxes ++ more
  texts : s'.texts = s.texts ++ es.map (·.1)
  paths : ∀ e ∈ es, Path s'.fam.boxes e.1.box e.2
  quotes : ∃ Q, s'.quotes = s.quotes ++ Q ∧ ∀ q ∈ Q, s.len < q ∧ q ≤ s'.len

def Good (s : St) : Prop := ∀ q ∈ s.quotes, q ≤ s.len

theorem path_mono {bs more : List BoxRec} {u : Nat} {p : List Nat} (h : Path bs u p) : Path (bs ++ more) u p := by
  induction h with
  | root => exact .root
  | child hk _ ih => exact .child ((List.getElem?_append_left (List.getElem?_eq_some_iff.mp hk).1).trans hk) ih

theorem path_le {bs : List BoxRec} {u : Nat} {p : List Nat} (h : Path bs u p) : ∀ x ∈ p, x ≤ bs.length := by
  induction h with
  | root => simp
  | child hk _ ih =>
    intro x hx
    rcases List.mem_append.mp hx with hx | hx
    · exact ih x hx
    · rw [List.mem_singleton.mp hx]
      exact (List.getElem?_eq_some_iff.mp hk).1

theorem Grown.len_le {s s' : St} {es} (h : Grown s s' es) : s.len ≤ s'.len := by
  obtain ⟨more, h⟩ := h.boxes
  show s.fam.boxes.length ≤ s'.fam.boxes.length
  rw [h]
  simp

theorem Grown.path {s s' : St} {es} (h : Grown s s' es) {u : Nat} {p : List Nat} (hp : Path s.fam.boxes u p) : Path s'.fam.boxes u p := by
  obtain ⟨more, h⟩ := h.boxes
  rw [h]
  exact path_mono hp

theorem Grown.good {s s' : St} {es} (h : Grown s s' es) (hg : Good s) : Good s' := by
  obtain ⟨Q, h1, h2⟩ := h.quotes
  intro q hq
  rw [h1] at hq
  rcases List.mem_append.mp hq with hq | hq
  · exact (hg q hq).trans h.len_le
  · exact (h2 q hq).2

theorem Grown.depth {s s' : St} {es} (h : Grown s s' es) {p : List Nat} (hp : ∀ x ∈ p, x ≤ s.len) : depth s'.quotes p = depth s.quotes p := by
  obtain ⟨Q, h1, h2⟩ := h.quotes
  unfold Markdown.depth
  congr 1
  refine List.filter_congr ?_
  intro x hx
  rw [h1]
  have : x ∉ Q := fun hq => absurd (h2 x hq).1 (by have := hp x hx; omega)
  simp [this]

theorem Grown.trans {s s' s'' : St} {e1 e2} (h1 : Grown s s' e1) (h2 : Grown s' s'' e2) : Grown s s'' (e1 ++ e2) := by
  obtain ⟨m1, b1⟩ := h1.boxes
  obtain ⟨m2, b2⟩ := h2.boxes
  obtain ⟨Q1, q1, q1'⟩ := h1.quotes
  obtain ⟨Q2, q2, q2'⟩ := h2.quotes
  refine ⟨⟨m1 ++ m2, by rw [b2, b1, List.append_assoc]⟩, by rw [h2.texts, h1.texts]; simp, ?_, ⟨Q1 ++ Q2, by rw [q2, q1, List.append_assoc], ?_⟩⟩
  · intro e he
    rcases List.mem_append.mp he with he | he
    · exact h2.path (h1.paths e he)
    · exact h2.paths e he
  · have l1 := h1.len_le
    have l2 := h2.len_le
    intro q hq
    rcases List.mem_append.mp hq with hq | hq
    · have := q1' q hq; omega
    · have := q2' q hq; omega

/-- What a part of a document gives. -/
structure Res (P : List Nat) (lo hi : Nat) (s s' : St) (es : List (TextRec × List Nat)) (ps : List (Nat × Piece)) : Prop where
  grown : Grown s s' es
  inside : ∀ e ∈ es, Between P lo hi e.2
  order : (es.map (·.2)).Pairwise Before
  shows : List.Forall₂ (fun e p => Shows e.1 p.2 ∧ depth s'.quotes e.2 = p.1) es ps

theorem Res.mono {P lo hi s s' es ps} (h : Res P lo hi s s' es ps) {lo' hi' : Nat} (h1 : lo' ≤ lo) (h2 : hi ≤ hi') : Res P lo' hi' s s' es ps :=
  ⟨h.grown, fun e he => by obtain ⟨k, r, e1, e2, e3⟩ := h.inside e he; exact ⟨k, r, e1, by omega, by omega⟩, h.order, h.shows⟩

theorem Res.append {P a b b' c s s' s'' e1 e2 p1 p2} (h1 : Res P a b s s' e1 p1) (h2 : Res P b' c s' s'' e2 p2) (hab : a ≤ b') (hb : b ≤ b') (hc : b ≤ c) :
    Res P a c s s'' (e1 ++ e2) (p1 ++ p2) := by
  refine ⟨h1.grown.trans h2.grown, ?_, ?_, ?_⟩
  · intro e he
    rcases List.mem_append.mp he with he | he
    · obtain ⟨k, r, x1, x2, x3⟩ := h1.inside e he
      exact ⟨k, r, x1, x2, by omega⟩
    · obtain ⟨k, r, x1, x2, x3⟩ := h2.inside e he
      exact ⟨k, r, x1, by omega, x3⟩
  · rw [List.map_append, List.pairwise_append]
    refine ⟨h1.order, h2.order, ?_⟩
    intro p hp q hq
    obtain ⟨e, he, rfl⟩ := List.mem_map.mp hp
    obtain ⟨e', he', rfl⟩ := List.mem_map.mp hq
    obtain ⟨k, r, x1, x2, x3⟩ := h1.inside e he
    obtain ⟨k', r', y1, y2, y3⟩ := h2.inside e' he'
    exact ⟨P, k, k', r, r', x1, y1, by omega⟩
  · refine List.rel_append ?_ h2.shows
    have := h1.shows
    have hp := h1.grown.paths
    clear h1
    induction this with
    | nil => exact .nil
    | @cons e p es ps h _ ih =>
      refine .cons ⟨h.1, ?_⟩ (ih (fun e he => hp e (.tail _ he)))
      rw [h2.grown.depth (path_le (hp e (List.mem_cons_self ..)))]
      exact h.2

theorem Res.under {P : List Nat} {k lo hi s s' es ps} (h : Res (P ++ [k]) lo hi s s' es ps) {lo' hi' : Nat} (h1 : lo' < k) (h2 : k ≤ hi') : Res P lo' hi' s s' es ps :=
  ⟨h.grown, fun e he => by
    obtain ⟨j, r, e1, -, -⟩ := h.inside e he
    exact ⟨k, j :: r, by rw [e1]; simp, h1, h2⟩, h.order, h.shows⟩

theorem Grown.refl (s : St) : Grown s s [] := ⟨⟨[], by simp⟩, by simp, by simp, ⟨[], by simp, by simp⟩⟩

theorem Res.nil (P : List Nat) (lo hi : Nat) (s : St) : Res P lo hi s s [] [] := ⟨.refl s, by simp, .nil, .nil⟩

/-- Something without texts before. -/
theorem Res.skip {P lo hi s s' s'' es ps} (h1 : Grown s s' []) (h2 : Res P lo hi s' s'' es ps) : Res P lo hi s s'' es ps :=
  ⟨by simpa using h1.trans h2.grown, h2.inside, h2.order, h2.shows⟩

/-- Lists stay as they are. -/
def Kept (X : Nat → Prop) (s s' : St) : Prop :=
  s.fam.lists.length ≤ s'.fam.lists.length ∧ ∀ i, i < s.fam.lists.length → ¬ X i → s'.fam.lists[i]? = s.fam.lists[i]?

theorem Kept.trans {X s s' s''} (h1 : Kept X s s') (h2 : Kept X s' s'') : Kept X s s'' :=
  ⟨h1.1.trans h2.1, fun i hi hx => (h2.2 i (by have := h1.1; omega) hx).trans (h1.2 i hi hx)⟩

theorem Kept.weaken {X Y : Nat → Prop} {s s'} (h : Kept X s s') (hxy : ∀ i, i < s.fam.lists.length → X i → Y i) : Kept Y s s' :=
  ⟨h.1, fun i hi hy => h.2 i hi (fun hx => hy (hxy i hi hx))⟩

theorem Kept.refl (X s) : Kept X s s := ⟨le_refl _, fun _ _ _ => rfl⟩

/-! ### single steps -/

theorem sbox_grown {s : St} (p : Nat) : Grown s (sbox s p).2 [] :=
  ⟨⟨_, rfl⟩, by simp [sbox], by simp, ⟨[], by simp [sbox], by simp⟩⟩

theorem sbox_path {s : St} {p : Nat} {P : List Nat} (hp : Path s.fam.boxes p P) : Path (sbox s p).2.fam.boxes (sbox s p).1 (P ++ [(sbox s p).1]) := by
  refine .child (b := { parent := p, width := some "fill".toList }) ?_ (path_mono hp)
  simp [sbox]

theorem sbox_len (s : St) (p : Nat) : (sbox s p).2.len = s.len + 1 ∧ (sbox s p).1 = s.len + 1 := by simp [sbox, St.len]

theorem sbox_kept (X) (s : St) (p : Nat) : Kept X s (sbox s p).2 := ⟨le_refl _, fun _ _ _ => rfl⟩

theorem fresh_depth {s : St} (hg : Good s) (P : List Nat) {n : Nat} (hn : s.len < n) : depth s.quotes (P ++ [n]) = depth s.quotes P := by
  have h0 : n ∉ s.quotes := fun h => absurd (hg n h) (by omega)
  rw [depth_append]
  simp [depth, h0]

/-- A new box with a text. -/
theorem put_res {s : St} (hg : Good s) {p : Nat} {P : List Nat} (hp : Path s.fam.boxes p P) {toks : List Tok} {style : Str} {piece : Piece}
    (hs : Shows ⟨(sbox s p).1, toks, style⟩ piece) :
    ∃ s' es, (sbox s p).2.put (sbox s p).1 toks style = s' ∧ Res P s.len s'.len s s' es [(depth s.quotes P, piece)] ∧ ∀ X, Kept X s s' := by
  obtain ⟨l1, l2⟩ := sbox_len s p
  have hpath := sbox_path hp
  refine ⟨_, [(⟨(sbox s p).1, toks, style⟩, P ++ [(sbox s p).1])], rfl, ⟨⟨⟨_, rfl⟩, rfl, ?_, ⟨[], by simp [sbox, St.put], by simp⟩⟩, ?_, by simp, ?_⟩, fun X => sbox_kept X s p⟩
  · intro e he
    rw [List.mem_singleton.mp he]
    exact hpath
  · intro e he
    rw [List.mem_singleton.mp he]
    exact ⟨_, [], rfl, by omega, by show _ ≤ (sbox s p).2.len; omega⟩
  · refine .cons ⟨hs, ?_⟩ .nil
    show depth s.quotes (P ++ [(sbox s p).1]) = _
    exact fresh_depth hg P (by omega)

theorem addText_res {escape : Char} (hx : escape ≠ '}') (hn : escape ≠ '\n') {s : St} (hg : Good s) {ctx : Ctx} {P : List Nat} (hp : Path s.fam.boxes ctx.box P) {t : Inlines}
    (ht : Fine escape t) (style : Str) :
    ∃ s' es, addText escape s ctx (getRawText escape t) style = .ok s' ∧ Res P s.len s'.len s s' es [(depth s.quotes P, .text style t)] ∧ ∀ X, Kept X s s' := by
  obtain ⟨toks, h1, -, k, h2⟩ := C80_inline escape hx hn t ht.1 ht.2
  obtain ⟨s', es, h3, h4, h5⟩ := put_res hg hp (toks := toks) (style := style) (piece := .text style t) ⟨rfl, k, h2⟩
  refine ⟨s', es, ?_, h4, h5⟩
  unfold addText
  rw [show boxText [escape] (getRawText escape t) = .ok toks from h1]
  exact congrArg Except.ok h3

theorem blank_res {escape : Char} (hn : escape ≠ '\n') {s : St} (hg : Good s) {ctx : Ctx} {P : List Nat} (hp : Path s.fam.boxes ctx.box P) :
    ∃ s' es, addText escape s ctx "\n".toList paragraphStyle = .ok s' ∧ Res P s.len s'.len s s' es [(depth s.quotes P, .blank)] ∧ ∀ X, Kept X s s' := by
  obtain ⟨toks, h1, h2⟩ := Verif.Text.C05_box_text [escape] "\n".toList escape '{' '}' (.one _) (by simpa using hn)
  obtain ⟨s', es, h3, h4, h5⟩ := put_res hg hp (toks := toks) (style := paragraphStyle) (piece := .blank) ⟨rfl, by rw [h2]; rfl⟩
  refine ⟨s', es, ?_, h4, h5⟩
  unfold addText
  rw [h1]
  exact congrArg Except.ok h3

theorem addCode_res {lexers : Str → Option Lexer} {s : St} (hg : Good s) {ctx : Ctx} {P : List Nat} (hp : Path s.fam.boxes ctx.box P) {lang text : Str}
    (hl : lang ≠ [] → (∃ lx, lexers lang = some lx ∧ Verif.Text.Spec.Honours lx) ∧ '\r' ∉ Verif.Text.Spec.untab 4 text ∧ (Verif.Text.Spec.untab 4 text).head? ≠ some '\uFEFF') :
    ∃ s' es, addCode lexers s ctx lang text = .ok s' ∧ Res P s.len s'.len s s' es [(depth s.quotes P, .code lang text)] ∧ ∀ X, Kept X s s' := by
  have main : ∃ lx toks, lexerFor lexers lang = .ok lx ∧ boxCode lx false false 4 "~".toList text = .ok toks ∧
      if lang = [] then ∃ k, chars toks ++ List.replicate k '\n' = Verif.Text.Spec.untab 4 text
      else chars toks = Verif.Text.Spec.stripNl (Verif.Text.Spec.untab 4 text) := by
    by_cases h : lang = []
    · obtain ⟨⟨toks, k, h1, h2⟩, -⟩ := Verif.Text.C15_code_plain 4 "~".toList '~' '{' '}' (.one _) text
      exact ⟨none, toks, by rw [lexerFor, if_pos h], h1, by rw [if_pos h]; exact ⟨k, h2⟩⟩
    · obtain ⟨⟨lx, h1, h2⟩, h3, h4⟩ := hl h
      obtain ⟨toks, h5, -, h6⟩ := Verif.Text.C15_code_highlight lx h2 4 "~".toList '~' '{' '}' (.one _) text h3 h4
      exact ⟨some lx, toks, by rw [lexerFor, if_neg h, h1], h5, by rw [if_neg h]; exact h6⟩
  obtain ⟨lx, toks, h1, h2, h3⟩ := main
  obtain ⟨s', es, h4, h5, h6⟩ := put_res hg hp (toks := toks) (style := "code".toList) (piece := .code lang text) ⟨rfl, h3⟩
  refine ⟨s', es, ?_, h5, h6⟩
  unfold addCode
  rw [h1]
  dsimp only
  rw [h2]
  exact congrArg Except.ok h4

/-- The list number `l`: its box, and the labels it gives. -/
def ListAt (s : St) (l b : Nat) (ordered : Bool) (start : Nat) (bullet : Str) (k : Nat) : Prop :=
  ∃ lb, s.fam.lists[l]? = some lb ∧ lb.parent = b ∧ (if ordered then lb.label = olLabel ∧ lb.level = [(start : Int) - 1 + k] else lb.label = .text bullet)

theorem ListAt.kept {s s' : St} {X} (h : Kept X s s') {l b ordered start bullet k} (hx : ¬ X l) (hl : ListAt s l b ordered start bullet k) : ListAt s' l b ordered start bullet k := by
  obtain ⟨lb, h1, h2⟩ := hl
  exact ⟨lb, (h.2 l (List.getElem?_eq_some_iff.mp h1).1 hx).trans h1, h2⟩

theorem openList_top {s : St} {ctx : Ctx} (hc : ctx.list = none) {P : List Nat} (hp : Path s.fam.boxes ctx.box P) (ordered : Bool) (start : Nat) {bullet : Str}
    (hb : ordered = false → bullet ∈ ["-".toList, "*".toList, "+".toList]) :
    ∃ l s' b c, openList s ctx ordered start bullet = .ok (l, s') ∧ Grown s s' [] ∧ (∀ X, Kept X s s') ∧ l = s.fam.lists.length ∧
      c = s.len + 1 ∧ Path s'.fam.boxes b (P ++ [c] ++ [b]) ∧ s.len + 1 < b ∧ b ≤ s'.len ∧ s'.quotes = s.quotes ∧ ListAt s' l b ordered start bullet 0 := by
  have g1 := sbox_grown (s := s) ctx.box
  have g2 := sbox_grown (s := (sbox s ctx.box).2) (sbox s ctx.box).1
  have p1 := sbox_path hp
  have p2 := sbox_path p1
  obtain ⟨l1, l2⟩ := sbox_len s ctx.box
  obtain ⟨l3, l4⟩ := sbox_len (sbox s ctx.box).2 (sbox s ctx.box).1
  unfold openList
  rw [hc]
  refine ⟨_, _, (sbox (sbox s ctx.box).2 (sbox s ctx.box).1).1, (sbox s ctx.box).1, rfl, ?_, ?_, rfl, l2, p2, by omega, by show _ ≤ (sbox (sbox s ctx.box).2 (sbox s ctx.box).1).2.len; omega, rfl, ?_⟩
  · obtain ⟨more, h⟩ := (g1.trans g2).boxes
    exact ⟨⟨more, h⟩, by simp [sbox], by simp, ⟨[], by simp [sbox], by simp⟩⟩
  · intro X
    refine ⟨by simp [sbox], ?_⟩
    intro i hi _
    exact List.getElem?_append_left hi
  · refine ⟨_, List.getElem?_concat_length, ?_⟩
    cases ordered with
    | true => exact ⟨rfl, rfl, by simp [newList]⟩
    | false =>
      refine ⟨rfl, ?_⟩
      have := hb rfl
      simp only [List.mem_cons, List.not_mem_nil, or_false] at this
      rcases this with rfl | rfl | rfl <;> rfl

theorem openList_sub {s : St} {ctx : Ctx} {l0 : Nat} (hc : ctx.list = some l0) {ordered0 start0 bullet0 k0} {L : Nat} (hl : ListAt s l0 L ordered0 start0 bullet0 k0)
    {PL : List Nat} (hL : Path s.fam.boxes L PL) (ordered : Bool) (start : Nat) {bullet : Str}
    (hb : if ordered then 1 ≤ start else bullet ∈ ["-".toList, "*".toList, "+".toList]) :
    ∃ l s' b, openList s ctx ordered start bullet = .ok (l, s') ∧ Grown s s' [] ∧ (∀ X, Kept X s s') ∧ l = s.fam.lists.length ∧
      Path s'.fam.boxes b (PL ++ [b]) ∧ s.len < b ∧ b ≤ s'.len ∧ s'.quotes = s.quotes ∧ ListAt s' l b ordered start bullet 0 := by
  obtain ⟨lb, h1, h2, -⟩ := hl
  obtain ⟨l1, l2⟩ := sbox_len s ctx.box
  have g1 := sbox_grown (s := s) ctx.box
  have hL1 := g1.path hL
  have hlb : (sbox s ctx.box).2.fam.lists[l0]? = some lb := h1
  unfold openList
  rw [hc]
  dsimp only
  generalize ht : (sbox s ctx.box).2 = t at *
  have step : ∃ nb, nb = t.len + 1 ∧ ∃ box : BoxRec, box.parent = L ∧ ∃ new : ListB, new.parent = nb ∧
      (if ordered then new.label = olLabel ∧ new.level = [(start : Int) - 1] else new.label = .text bullet) ∧
      Verif.ExtList.step t.fam (if ordered = true then .ol l0 (some []) (some (start : Int)) none none [] else .ul l0 none (some (.text bullet)) []) =
        (.list t.fam.lists.length, { lists := t.fam.lists ++ [new], boxes := t.fam.boxes ++ [box] }) := by
    cases ordered with
    | true =>
      have hs : ¬ ((start : Int) < 1) := by simp only [if_true] at hb; omega
      refine ⟨_, rfl, { parent := lb.parent, x := some "[0%]".toList, pLeft := some (lb.totalIndent + lb.defaultIndent), horizontal := false, extra := Verif.ExtList.update lb.args [] }, h2,
        newList (t.len + 1) olLabel lb.defaultIndent lb.labelPadding [] start (lb.totalIndent + lb.defaultIndent) (Verif.ExtList.update lb.args []), rfl, ⟨rfl, rfl⟩, ?_⟩
      simp only [if_true, Verif.ExtList.step, hlb, Verif.ExtList.createSublist, Option.getD_some, Option.getD_none, if_neg hs, Verif.ExtList.createBox]
      rfl
    | false =>
      refine ⟨_, rfl, { parent := lb.parent, x := some "[0%]".toList, pLeft := some (lb.totalIndent + lb.defaultIndent), horizontal := false, extra := Verif.ExtList.update lb.args [] }, h2,
        newList (t.len + 1) (Label.orDefault ulLabel (some (.text bullet))) lb.defaultIndent lb.labelPadding lb.level 1 (lb.totalIndent + lb.defaultIndent) (Verif.ExtList.update lb.args []), rfl, ?_, ?_⟩
      · simp only [Bool.false_eq_true, if_false, List.mem_cons, List.not_mem_nil, or_false] at hb
        rcases hb with rfl | rfl | rfl <;> rfl
      · simp only [Bool.false_eq_true, if_false, Verif.ExtList.step, hlb, Verif.ExtList.createSublist, Option.getD_none]
        rfl
  obtain ⟨nb, hnb, box, hbox, new, hnew, hlab, hstep⟩ := step
  rw [hstep]
  have hlen : t.len = s.len + 1 := l1
  have hlists : t.fam.lists = s.fam.lists := by rw [← ht]; rfl
  refine ⟨_, _, nb, rfl, ?_, ?_, by rw [hlists], ?_, by omega, ?_, by rw [← ht]; rfl, ?_⟩
  · refine (g1.trans (s'' := _) ⟨⟨[box], rfl⟩, by simp, by simp, ⟨[], by simp, by simp⟩⟩)
  · intro X
    refine ⟨?_, ?_⟩
    · show _ ≤ (t.fam.lists ++ [new]).length
      rw [hlists]
      simp
    · intro i hi _
      show (t.fam.lists ++ [new])[i]? = _
      rw [List.getElem?_append_left (by rw [hlists]; exact hi), hlists]
  · rw [hnb]
    refine .child (b := box) ?_ ?_
    · show (t.fam.boxes ++ [box])[t.fam.boxes.length]? = some box
      simp
    · rw [hbox]
      exact path_mono hL1
  · show nb ≤ (t.fam.boxes ++ [box]).length
    simp [hnb, St.len]
  · refine ⟨new, ?_, hnew, ?_⟩
    · show (t.fam.lists ++ [new])[t.fam.lists.length]? = some new
      simp
    · cases ordered
      · exact hlab
      · exact ⟨hlab.1, by rw [hlab.2]; simp⟩

theorem label_text {label : Str} (h1 : '~' ∉ label) (h2 : '\n' ∉ label) : ∃ toks, boxText "~".toList label = .ok toks ∧ shown [] toks = label.map fun c => (c, []) := by
  obtain ⟨toks, h3, h4⟩ := Verif.Text.C05_box_text "~".toList label '~' '{' '}' (.one _) h1
  refine ⟨toks, h3, h4.trans ?_⟩
  rw [List.rdropWhile_eq_self_iff.mpr]
  intro hne
  simp only [beq_iff_eq]
  intro he
  exact h2 (he ▸ List.getLast_mem hne)

theorem openItem_res {s : St} (hg : Good s) {l L : Nat} {ordered : Bool} {start : Nat} {bullet : Str} {k : Nat} (hl : ListAt s l L ordered start bullet k)
    (hb : ordered = false → bullet ∈ ["-".toList, "*".toList, "+".toList]) {PL : List Nat} (hL : Path s.fam.boxes L PL) :
    ∃ box s' es, openItem s l = .ok (box, s') ∧
      Res (PL ++ [s.len + 1]) (s.len + 1) (s.len + 2) s s' es [(depth s.quotes PL, .label (labelOf ordered start bullet k))] ∧ Kept (· = l) s s' ∧ s'.len = s.len + 3 ∧ box = s.len + 3 ∧
      Path s'.fam.boxes box (PL ++ [s.len + 1] ++ [s.len + 3]) ∧ s'.quotes = s.quotes ∧ ListAt s' l L ordered start bullet (k + 1) := by
  obtain ⟨lb, h1, h2, h3⟩ := hl
  have hll := (List.getElem?_eq_some_iff.mp h1).1
  have lab : Verif.ExtList.showLabel lb.label (bump lb.level) = .ok (.text (labelOf ordered start bullet k)) ∧ '~' ∉ labelOf ordered start bullet k ∧ '\n' ∉ labelOf ordered start bullet k := by
    cases ordered with
    | true =>
      obtain ⟨e1, e2⟩ := h3
      have e3 : (start : Int) - 1 + k + 1 = ((start + k : Nat) : Int) := by push_cast; ring
      refine ⟨?_, ?_, ?_⟩
      · rw [e1, e2]
        show Except.ok (Verif.ExtList.Shown.text (arabic [(start : Int) - 1 + k + 1])) = _
        rw [e3]
        rfl
      · intro h
        rcases List.mem_append.mp h with h | h
        · have := Verif.SvgDraw.natStr_digits h
          revert this; decide
        · revert h; decide
      · intro h
        rcases List.mem_append.mp h with h | h
        · have := Verif.SvgDraw.natStr_digits h
          revert this; decide
        · revert h; decide
    | false =>
      have h3 : lb.label = .text bullet := h3
      rw [h3]
      refine ⟨rfl, ?_⟩
      show '~' ∉ bullet ∧ '\n' ∉ bullet
      have := hb rfl
      simp only [List.mem_cons, List.not_mem_nil, or_false] at this
      rcases this with rfl | rfl | rfl <;> decide
  obtain ⟨toks, t1, t2⟩ := label_text lab.2.1 lab.2.2
  generalize labelOf ordered start bullet k = label at *
  let row : BoxRec := { parent := lb.parent, x := some "[0%]".toList, pLeft := some (lb.totalIndent + 0), horizontal := true, extra := Verif.ExtList.update lb.args [] }
  let lbox : BoxRec := { parent := s.len + 1, y := some "[0%]".toList }
  let cbox : BoxRec := { parent := s.len + 1, pLeft := some lb.labelPadding, width := some "fill".toList }
  let fam : Family := { lists := s.fam.lists.set l { lb with level := bump lb.level }, boxes := s.fam.boxes ++ [row] ++ [lbox] ++ [cbox] }
  have hstep : Verif.ExtList.step s.fam (.item l none none []) = (.item (s.len + 3) (s.len + 1) (s.len + 2) (.text label), fam) := by
    simp only [Verif.ExtList.step, h1, Verif.ExtList.item, Verif.ExtList.createBox, Option.getD_none, lab.1]
    simp [fam, row, lbox, cbox, St.len]
  have hopen : openItem s l = .ok (s.len + 3, { s with fam := fam }.put (s.len + 2) toks "default".toList) := by
    unfold openItem
    rw [hstep]
    dsimp only
    rw [t1]
  have hbx : fam.boxes = s.fam.boxes ++ [row, lbox, cbox] := by simp [fam]
  have prow : Path fam.boxes (s.len + 1) (PL ++ [s.len + 1]) := by
    refine .child (b := row) ?_ ?_
    · rw [hbx]; simp [St.len]
    · show Path fam.boxes lb.parent PL
      rw [h2, hbx]
      exact path_mono hL
  have plab : Path fam.boxes (s.len + 2) (PL ++ [s.len + 1] ++ [s.len + 2]) := by
    refine .child (b := lbox) ?_ prow
    rw [hbx]; simp [St.len]
  have pcon : Path fam.boxes (s.len + 3) (PL ++ [s.len + 1] ++ [s.len + 3]) := by
    refine .child (b := cbox) ?_ prow
    rw [hbx]; simp [St.len]
  refine ⟨_, _, [(⟨s.len + 2, toks, "default".toList⟩, PL ++ [s.len + 1] ++ [s.len + 2])], hopen, ⟨⟨⟨_, hbx⟩, rfl, ?_, ⟨[], by simp [St.put], by simp⟩⟩, ?_, by simp, ?_⟩, ?_, ?_, rfl, pcon, rfl, ?_⟩
  · intro e he
    rw [List.mem_singleton.mp he]
    exact plab
  · intro e he
    rw [List.mem_singleton.mp he]
    exact ⟨_, [], rfl, by omega, by omega⟩
  · refine .cons ⟨⟨rfl, t2⟩, ?_⟩ .nil
    show depth s.quotes (PL ++ [s.len + 1] ++ [s.len + 2]) = _
    rw [fresh_depth hg _ (by omega), fresh_depth hg _ (by omega)]
  · refine ⟨?_, ?_⟩
    · show _ ≤ (s.fam.lists.set l _).length
      simp
    · intro i hi hx
      exact List.getElem?_set_ne (fun h => hx h.symm)
  · show fam.boxes.length = _
    rw [hbx]
    simp [St.len]
  · refine ⟨{ lb with level := bump lb.level }, ?_, h2, ?_⟩
    · show (s.fam.lists.set l _)[l]? = _
      simp [hll]
    · cases ordered with
      | true =>
        obtain ⟨e1, e2⟩ := h3
        refine ⟨e1, ?_⟩
        show bump lb.level = _
        rw [e2]
        show [(start : Int) - 1 + k + 1] = _
        push_cast
        congr 1
        ring
      | false => exact h3

/-! ### documents -/

theorem Res.then {P s s1 s2 e1 e2 p1 p2} (h1 : Res P s.len s1.len s s1 e1 p1) (h2 : Res P s1.len s2.len s1 s2 e2 p2) : Res P s.len s2.len s s2 (e1 ++ e2) (p1 ++ p2) :=
  h1.append h2 h1.grown.len_le (le_refl _) h2.grown.len_le

section
variable {escape : Char} {lexers : Str → Option Lexer}

theorem headingStyle_ok {n : Nat} (h : 1 ≤ n ∧ n ≤ 6) : headingStyle n = .ok ("md-h".toList ++ natStr n) := if_pos h

/-- The state in which the blocks of a quotation are made. -/
def quoteSt (s : St) (p : Nat) : St := { (sbox s p).2 with quotes := s.quotes ++ [(sbox s p).1] }

theorem quoteSt_grown {s : St} (p : Nat) : Grown s (quoteSt s p) [] :=
  ⟨⟨_, rfl⟩, by simp [sbox, quoteSt], by simp, ⟨[(sbox s p).1], rfl, by
    obtain ⟨l1, l2⟩ := sbox_len s p
    intro q hq
    rw [List.mem_singleton.mp hq]
    exact ⟨by omega, by show _ ≤ (sbox s p).2.len; omega⟩⟩⟩

theorem quoteSt_depth {s : St} {p : Nat} {P : List Nat} (hp : Path s.fam.boxes p P) : depth (quoteSt s p).quotes (P ++ [(sbox s p).1]) = depth s.quotes P + 1 := by
  rw [depth_append, (quoteSt_grown p).depth (path_le hp)]
  congr 1
  simp [depth, quoteSt]

/-- From the blocks of a quotation to the quotation. -/
theorem quote_res {s s1 : St} {p : Nat} {P : List Nat} {es ps} (h : Res (P ++ [(sbox s p).1]) (quoteSt s p).len s1.len (quoteSt s p) s1 es ps) : Res P s.len s1.len s s1 es ps := by
  obtain ⟨l1, l2⟩ := sbox_len s p
  have : (quoteSt s p).len = s.len + 1 := l1
  have := h.grown.len_le
  exact (h.under (lo' := s.len) (hi' := s1.len) (by omega) (by omega)).skip (quoteSt_grown p)

/-- Without lists. -/
theorem blocks_n (hx : escape ≠ '}') (hn : escape ≠ '\n') {inItem : Bool} : ∀ (doc : Blocks) (ctx : Ctx) (s : St) (P : List Nat), Good s → Path s.fam.boxes ctx.box P →
    Proper escape lexers inItem doc → NoLists doc →
    ∃ s' es, buildBlocks escape lexers doc ctx s = .ok s' ∧ Res P s.len s'.len s s' es (pieces (depth s.quotes P) doc) ∧ Kept (fun _ => False) s s'
  | .nil, ctx, s, P, _, _, _, _ => ⟨s, [], by rw [buildBlocks], .nil P _ _ s, .refl _ _⟩
  | .heading n t rest, ctx, s, P, hg, hp, hd, hl => by
    rw [Proper] at hd
    obtain ⟨s1, e1, h1, r1, k1⟩ := addText_res hx hn hg hp hd.2.1 ("md-h".toList ++ natStr n)
    obtain ⟨s2, e2, h2, r2, k2⟩ := blocks_n hx hn rest ctx s1 P (r1.grown.good hg) (r1.grown.path hp) hd.2.2 (by simpa only [NoLists] using hl)
    rw [r1.grown.depth (path_le hp)] at r2
    exact ⟨s2, e1 ++ e2, by rw [buildBlocks, headingStyle_ok hd.1]; dsimp only; rw [h1]; exact h2, by rw [pieces]; exact r1.then r2, (k1 _).trans k2⟩
  | .paragraph t rest, ctx, s, P, hg, hp, hd, hl => by
    rw [Proper] at hd
    obtain ⟨s1, e1, h1, r1, k1⟩ := addText_res hx hn hg hp hd.1 paragraphStyle
    obtain ⟨s2, e2, h2, r2, k2⟩ := blocks_n hx hn rest ctx s1 P (r1.grown.good hg) (r1.grown.path hp) hd.2 (by simpa only [NoLists] using hl)
    rw [r1.grown.depth (path_le hp)] at r2
    exact ⟨s2, e1 ++ e2, by rw [buildBlocks, h1]; exact h2, by rw [pieces]; exact r1.then r2, (k1 _).trans k2⟩
  | .blank rest, ctx, s, P, hg, hp, hd, hl => by
    rw [Proper] at hd
    obtain ⟨s1, e1, h1, r1, k1⟩ := blank_res hn hg hp
    obtain ⟨s2, e2, h2, r2, k2⟩ := blocks_n hx hn rest ctx s1 P (r1.grown.good hg) (r1.grown.path hp) hd (by simpa only [NoLists] using hl)
    rw [r1.grown.depth (path_le hp)] at r2
    exact ⟨s2, e1 ++ e2, by rw [buildBlocks, h1]; exact h2, by rw [pieces]; exact r1.then r2, (k1 _).trans k2⟩
  | .quote kids rest, ctx, s, P, hg, hp, hd, hl => by
    rw [Proper] at hd
    rw [NoLists] at hl
    have g := quoteSt_grown (s := s) ctx.box
    obtain ⟨s1, e1, h1, r1, k1⟩ := blocks_n hx hn kids { ctx with box := (sbox s ctx.box).1 } (quoteSt s ctx.box) (P ++ [(sbox s ctx.box).1]) (g.good hg) (sbox_path hp) hd.1 hl.1
    rw [quoteSt_depth hp] at r1
    have r1 := quote_res r1
    obtain ⟨s2, e2, h2, r2, k2⟩ := blocks_n hx hn rest ctx s1 P (r1.grown.good hg) (r1.grown.path hp) hd.2 hl.2
    rw [r1.grown.depth (path_le hp)] at r2
    refine ⟨s2, e1 ++ e2, ?_, by rw [pieces]; exact r1.then r2, Kept.trans ⟨k1.1, k1.2⟩ k2⟩
    rw [buildBlocks]
    unfold quoteSt at h1
    rw [h1]
    exact h2
  | .code lang text rest, ctx, s, P, hg, hp, hd, hl => by
    rw [Proper] at hd
    obtain ⟨s1, e1, h1, r1, k1⟩ := addCode_res hg hp hd.1
    obtain ⟨s2, e2, h2, r2, k2⟩ := blocks_n hx hn rest ctx s1 P (r1.grown.good hg) (r1.grown.path hp) hd.2 (by simpa only [NoLists] using hl)
    rw [r1.grown.depth (path_le hp)] at r2
    exact ⟨s2, e1 ++ e2, by rw [buildBlocks, h1]; exact h2, by rw [pieces]; exact r1.then r2, (k1 _).trans k2⟩
  | .list .., ctx, s, P, _, _, _, hl => by
    rw [NoLists] at hl
    exact hl.elim
  | .other rest, ctx, s, P, hg, hp, hd, hl => by
    rw [Proper] at hd
    rw [pieces, buildBlocks]
    exact blocks_n hx hn rest ctx s P hg hp hd (by simpa only [NoLists] using hl)

/-- The blocks of an item: first the ones in the item itself, then the lists, in the box of the list of the item. -/
def ItemPart (P PL : List Nat) (s : St) (r : Except Err St) (ps : List (Nat × Piece)) (only : Prop) : Prop :=
  ∃ s1 s' e1 e2 p1 p2, r = .ok s' ∧ ps = p1 ++ p2 ∧ Res P s.len s1.len s s1 e1 p1 ∧ Res PL s1.len s'.len s1 s' e2 p2 ∧ Kept (fun _ => False) s s' ∧ (only → s1 = s ∧ e1 = [] ∧ p1 = [])

theorem ItemPart.before {P PL s s1} {r : Except Err St} {e1 p1 ps only} (h1 : Res P s.len s1.len s s1 e1 p1) (k : ∀ X, Kept X s s1) (h2 : ItemPart P PL s1 r ps only) :
    ItemPart P PL s r (p1 ++ ps) False := by
  obtain ⟨t, t', f1, f2, q1, q2, a1, a2, a3, a4, a5, -⟩ := h2
  exact ⟨t, t', _, f2, _, q2, a1, by rw [a2, List.append_assoc], h1.then a3, a4, (k _).trans a5, False.elim⟩

theorem ItemPart.only {P PL s} {r : Except Err St} {ps A B} (h : ItemPart P PL s r ps A) (hb : B → A) : ItemPart P PL s r ps B := by
  obtain ⟨t, t', f1, f2, q1, q2, a1, a2, a3, a4, a5, a6⟩ := h
  exact ⟨t, t', f1, f2, q1, q2, a1, a2, a3, a4, a5, fun h => a6 (hb h)⟩

mutual
theorem blocks_c (hx : escape ≠ '}') (hn : escape ≠ '\n') : ∀ (doc : Blocks) (box l L : Nat) (s : St) (P PL : List Nat), Good s → Path s.fam.boxes box P → Path s.fam.boxes L PL →
    depth s.quotes P = depth s.quotes PL → (∃ o a b k, ListAt s l L o a b k) → Proper escape lexers true doc → ListsLast doc →
    ItemPart P PL s (buildBlocks escape lexers doc ⟨box, some l⟩ s) (pieces (depth s.quotes PL) doc) (OnlyLists doc)
  | .nil, box, l, L, s, P, PL, _, _, _, _, _, _, _ => ⟨s, s, [], [], [], [], by rw [buildBlocks], by rw [pieces]; rfl, .nil P _ _ s, .nil PL _ _ s, .refl _ _, fun _ => ⟨rfl, rfl, rfl⟩⟩
  | .heading n t rest, box, l, L, s, P, PL, hg, hp, hL, he, ha, hd, hl => by
    rw [Proper] at hd
    obtain ⟨s1, e1, h1, r1, k1⟩ := addText_res hx hn hg (ctx := ⟨box, some l⟩) hp hd.2.1 ("md-h".toList ++ natStr n)
    obtain ⟨o, a, b, k, ha⟩ := ha
    have d1 := r1.grown.depth (path_le hp)
    have d2 := r1.grown.depth (path_le hL)
    have ih := blocks_c hx hn rest box l L s1 P PL (r1.grown.good hg) (r1.grown.path hp) (r1.grown.path hL) (by rw [d1, d2, he]) ⟨o, a, b, k, ha.kept (k1 fun _ => False) id⟩ hd.2.2
      (by simpa only [ListsLast] using hl)
    rw [d2] at ih
    rw [he] at r1
    rw [buildBlocks, headingStyle_ok hd.1, pieces]
    dsimp only
    rw [h1]
    exact (ItemPart.before r1 k1 ih).only (by simp [OnlyLists])
  | .paragraph t rest, box, l, L, s, P, PL, hg, hp, hL, he, ha, hd, hl => by
    rw [Proper] at hd
    obtain ⟨s1, e1, h1, r1, k1⟩ := addText_res hx hn hg (ctx := ⟨box, some l⟩) hp hd.1 paragraphStyle
    obtain ⟨o, a, b, k, ha⟩ := ha
    have d1 := r1.grown.depth (path_le hp)
    have d2 := r1.grown.depth (path_le hL)
    have ih := blocks_c hx hn rest box l L s1 P PL (r1.grown.good hg) (r1.grown.path hp) (r1.grown.path hL) (by rw [d1, d2, he]) ⟨o, a, b, k, ha.kept (k1 fun _ => False) id⟩ hd.2
      (by simpa only [ListsLast] using hl)
    rw [d2] at ih
    rw [he] at r1
    rw [buildBlocks, h1, pieces]
    exact (ItemPart.before r1 k1 ih).only (by simp [OnlyLists])
  | .blank rest, box, l, L, s, P, PL, hg, hp, hL, he, ha, hd, hl => by
    rw [Proper] at hd
    obtain ⟨s1, e1, h1, r1, k1⟩ := blank_res hn hg (ctx := ⟨box, some l⟩) hp
    obtain ⟨o, a, b, k, ha⟩ := ha
    have d1 := r1.grown.depth (path_le hp)
    have d2 := r1.grown.depth (path_le hL)
    have ih := blocks_c hx hn rest box l L s1 P PL (r1.grown.good hg) (r1.grown.path hp) (r1.grown.path hL) (by rw [d1, d2, he]) ⟨o, a, b, k, ha.kept (k1 fun _ => False) id⟩ hd
      (by simpa only [ListsLast] using hl)
    rw [d2] at ih
    rw [he] at r1
    rw [buildBlocks, h1, pieces]
    exact (ItemPart.before r1 k1 ih).only (by simp [OnlyLists])
  | .quote kids rest, box, l, L, s, P, PL, hg, hp, hL, he, ha, hd, hl => by
    rw [Proper] at hd
    rw [ListsLast] at hl
    have g := quoteSt_grown (s := s) box
    obtain ⟨s1, e1, h1, r1, k1⟩ := blocks_n hx hn kids ⟨(sbox s box).1, some l⟩ (quoteSt s box) (P ++ [(sbox s box).1]) (g.good hg) (sbox_path hp) hd.1 hl.1
    rw [quoteSt_depth hp] at r1
    have r1 := quote_res r1
    have k1 : ∀ X, Kept X s s1 := fun X => Kept.weaken (X := fun _ => False) ⟨k1.1, k1.2⟩ (fun _ _ h => h.elim)
    obtain ⟨o, a, b, k, ha⟩ := ha
    have d1 := r1.grown.depth (path_le hp)
    have d2 := r1.grown.depth (path_le hL)
    have ih := blocks_c hx hn rest box l L s1 P PL (r1.grown.good hg) (r1.grown.path hp) (r1.grown.path hL) (by rw [d1, d2, he]) ⟨o, a, b, k, ha.kept (k1 fun _ => False) id⟩ hd.2 hl.2
    rw [d2] at ih
    rw [he] at r1
    rw [buildBlocks, pieces]
    unfold quoteSt at h1
    rw [h1]
    exact (ItemPart.before r1 k1 ih).only (by simp [OnlyLists])
  | .code lang text rest, box, l, L, s, P, PL, hg, hp, hL, he, ha, hd, hl => by
    rw [Proper] at hd
    obtain ⟨s1, e1, h1, r1, k1⟩ := addCode_res hg (ctx := ⟨box, some l⟩) hp hd.1
    obtain ⟨o, a, b, k, ha⟩ := ha
    have d1 := r1.grown.depth (path_le hp)
    have d2 := r1.grown.depth (path_le hL)
    have ih := blocks_c hx hn rest box l L s1 P PL (r1.grown.good hg) (r1.grown.path hp) (r1.grown.path hL) (by rw [d1, d2, he]) ⟨o, a, b, k, ha.kept (k1 fun _ => False) id⟩ hd.2
      (by simpa only [ListsLast] using hl)
    rw [d2] at ih
    rw [he] at r1
    rw [buildBlocks, h1, pieces]
    exact (ItemPart.before r1 k1 ih).only (by simp [OnlyLists])
  | .list ordered start bullet items rest, box, l, L, s, P, PL, hg, hp, hL, he, ha, hd, hl => by
    rw [Proper] at hd
    rw [ListsLast] at hl
    obtain ⟨o, a, b, k, ha⟩ := ha
    obtain ⟨l1, s1, nb, h1, g1, k1, hl1, p1, b1, b2, q1, a1⟩ := openList_sub (ctx := ⟨box, some l⟩) rfl ha hL ordered start (bullet := bullet) (by
      cases ordered
      · exact hd.1
      · exact hd.1 rfl)
    have hlt : l < s.fam.lists.length := by
      obtain ⟨lb, h, -⟩ := ha
      exact (List.getElem?_eq_some_iff.mp h).1
    obtain ⟨s2, e2, h2, r2, k2⟩ := items_ok hx hn items l1 nb ordered start bullet 0 s1 (PL ++ [nb]) (g1.good hg) p1 a1 (by intro h; subst h; exact hd.1) hd.2.1 hl.1
    have dp : depth s1.quotes (PL ++ [nb]) = depth s.quotes PL := by rw [q1]; exact fresh_depth hg PL b1
    rw [dp] at r2
    have g2 := g1.trans r2.grown
    have r2' : Res PL s.len s2.len s s2 e2 _ := (r2.under (lo' := s.len) (hi' := s2.len) b1 (b2.trans r2.grown.len_le)).skip g1
    have k2' : Kept (fun _ => False) s s2 := (k1 _).trans (k2.weaken (X := (· = l1)) (Y := (· = l1)) (fun _ _ h => h)) |>.weaken (fun i hi h => by omega)
    have d1 := g2.depth (path_le hp)
    have d2 := g2.depth (path_le hL)
    obtain ⟨t, s', e3, e4, p3, p4, c1, c2, c3, c4, c5, c6⟩ := blocks_c hx hn rest box l L s2 P PL (g2.good hg) (g2.path hp) (g2.path hL) (by rw [d1, d2, he])
      ⟨o, a, b, k, ha.kept k2' id⟩ hd.2.2 hl.2.2
    obtain ⟨rfl, rfl, rfl⟩ := c6 hl.2.1
    rw [d2] at c2
    refine ⟨s, s', [], e2 ++ e4, [], itemPieces (depth s.quotes PL) ordered start bullet 0 items ++ p4, ?_, ?_, .nil P _ _ s, r2'.then c4, k2'.trans c5, fun _ => ⟨rfl, rfl, rfl⟩⟩
    · rw [buildBlocks, h1]
      dsimp only
      rw [h2]
      exact c1
    · rw [pieces, c2]
      rfl
  | .other rest, box, l, L, s, P, PL, hg, hp, hL, he, ha, hd, hl => by
    rw [Proper] at hd
    rw [pieces, buildBlocks]
    exact (blocks_c hx hn rest box l L s P PL hg hp hL he ha hd (by simpa only [ListsLast] using hl)).only (by simp [OnlyLists])
theorem items_ok (hx : escape ≠ '}') (hn : escape ≠ '\n') : ∀ (items : Items) (l L : Nat) (ordered : Bool) (start : Nat) (bullet : Str) (k : Nat) (s : St) (PL : List Nat), Good s →
    Path s.fam.boxes L PL → ListAt s l L ordered start bullet k → (ordered = false → bullet ∈ ["-".toList, "*".toList, "+".toList]) → ProperItems escape lexers items → ItemsOk items →
    ∃ s' es, buildItems escape lexers items l s = .ok s' ∧ Res PL s.len s'.len s s' es (itemPieces (depth s.quotes PL) ordered start bullet k items) ∧ Kept (· = l) s s'
  | .nil, l, L, ordered, start, bullet, k, s, PL, _, _, _, _, _, _ => ⟨s, [], by rw [buildItems], .nil PL _ _ s, .refl _ _⟩
  | .cons kids rest, l, L, ordered, start, bullet, k, s, PL, hg, hL, ha, hb, hd, hl => by
    rw [ProperItems] at hd
    rw [ItemsOk] at hl
    obtain ⟨box, s1, e1, h1, r1, k1, n1, rfl, p1, q1, a1⟩ := openItem_res hg ha hb hL
    have hg1 := r1.grown.good hg
    have hL1 := r1.grown.path hL
    have d1 : depth s1.quotes (PL ++ [s.len + 1] ++ [s.len + 3]) = depth s1.quotes PL := by
      rw [q1, fresh_depth hg _ (by omega), fresh_depth hg _ (by omega)]
    obtain ⟨s2, s3, e2, e3, p2, p3, c1, c2, c3, c4, c5, -⟩ := blocks_c hx hn kids (s.len + 3) l L s1 _ PL hg1 p1 hL1 d1 ⟨_, _, _, _, a1⟩ hd.1 hl.1
    have n2 := c3.grown.len_le
    have n3 := c4.grown.len_le
    have r2 : Res (PL ++ [s.len + 1]) (s.len + 1) (s.len + 3) s s2 _ _ := r1.append (c3.under (lo' := s.len + 2) (hi' := s.len + 3) (by omega) (by omega)) (by omega) (by omega) (by omega)
    have r3 : Res PL s.len s3.len s s3 _ _ := (r2.under (lo' := s.len) (hi' := s.len + 1) (by omega) (by omega)).append c4 (by omega) (by omega) (by omega)
    have hL3 := r3.grown.path hL
    obtain ⟨s4, e4, h4, r4, k4⟩ := items_ok hx hn rest l L ordered start bullet (k + 1) s3 PL (r3.grown.good hg) hL3 (a1.kept c5 id) hb hd.2 hl.2
    rw [r3.grown.depth (path_le hL)] at r4
    refine ⟨s4, e1 ++ e2 ++ e3 ++ e4, ?_, ?_, (k1.trans (c5.weaken (fun _ _ h => h.elim))).trans k4⟩
    · rw [buildItems, h1]
      dsimp only
      rw [c1]
      exact h4
    · have := r3.then r4
      rw [List.append_assoc [_] p2 p3, ← c2, q1] at this
      rw [itemPieces]
      exact this
end

/-- Outside of lists. -/
theorem blocks_a (hx : escape ≠ '}') (hn : escape ≠ '\n') : ∀ (doc : Blocks) (box : Nat) (s : St) (P : List Nat), Good s → Path s.fam.boxes box P →
    Proper escape lexers false doc → Placed doc →
    ∃ s' es, buildBlocks escape lexers doc ⟨box, none⟩ s = .ok s' ∧ Res P s.len s'.len s s' es (pieces (depth s.quotes P) doc)
  | .nil, box, s, P, _, _, _, _ => ⟨s, [], by rw [buildBlocks], .nil P _ _ s⟩
  | .heading n t rest, box, s, P, hg, hp, hd, hl => by
    rw [Proper] at hd
    obtain ⟨s1, e1, h1, r1, k1⟩ := addText_res hx hn hg (ctx := ⟨box, none⟩) hp hd.2.1 ("md-h".toList ++ natStr n)
    obtain ⟨s2, e2, h2, r2⟩ := blocks_a hx hn rest box s1 P (r1.grown.good hg) (r1.grown.path hp) hd.2.2 (by simpa only [Placed] using hl)
    rw [r1.grown.depth (path_le hp)] at r2
    exact ⟨s2, e1 ++ e2, by rw [buildBlocks, headingStyle_ok hd.1]; dsimp only; rw [h1]; exact h2, by rw [pieces]; exact r1.then r2⟩
  | .paragraph t rest, box, s, P, hg, hp, hd, hl => by
    rw [Proper] at hd
    obtain ⟨s1, e1, h1, r1, k1⟩ := addText_res hx hn hg (ctx := ⟨box, none⟩) hp hd.1 paragraphStyle
    obtain ⟨s2, e2, h2, r2⟩ := blocks_a hx hn rest box s1 P (r1.grown.good hg) (r1.grown.path hp) hd.2 (by simpa only [Placed] using hl)
    rw [r1.grown.depth (path_le hp)] at r2
    exact ⟨s2, e1 ++ e2, by rw [buildBlocks, h1]; exact h2, by rw [pieces]; exact r1.then r2⟩
  | .blank rest, box, s, P, hg, hp, hd, hl => by
    rw [Proper] at hd
    obtain ⟨s1, e1, h1, r1, k1⟩ := blank_res hn hg (ctx := ⟨box, none⟩) hp
    obtain ⟨s2, e2, h2, r2⟩ := blocks_a hx hn rest box s1 P (r1.grown.good hg) (r1.grown.path hp) hd (by simpa only [Placed] using hl)
    rw [r1.grown.depth (path_le hp)] at r2
    exact ⟨s2, e1 ++ e2, by rw [buildBlocks, h1]; exact h2, by rw [pieces]; exact r1.then r2⟩
  | .quote kids rest, box, s, P, hg, hp, hd, hl => by
    rw [Proper] at hd
    rw [Placed] at hl
    have g := quoteSt_grown (s := s) box
    obtain ⟨s1, e1, h1, r1⟩ := blocks_a hx hn kids (sbox s box).1 (quoteSt s box) (P ++ [(sbox s box).1]) (g.good hg) (sbox_path hp) hd.1 hl.1
    rw [quoteSt_depth hp] at r1
    have r1 := quote_res r1
    obtain ⟨s2, e2, h2, r2⟩ := blocks_a hx hn rest box s1 P (r1.grown.good hg) (r1.grown.path hp) hd.2 hl.2
    rw [r1.grown.depth (path_le hp)] at r2
    refine ⟨s2, e1 ++ e2, ?_, by rw [pieces]; exact r1.then r2⟩
    rw [buildBlocks]
    unfold quoteSt at h1
    rw [h1]
    exact h2
  | .code lang text rest, box, s, P, hg, hp, hd, hl => by
    rw [Proper] at hd
    obtain ⟨s1, e1, h1, r1, k1⟩ := addCode_res hg (ctx := ⟨box, none⟩) hp hd.1
    obtain ⟨s2, e2, h2, r2⟩ := blocks_a hx hn rest box s1 P (r1.grown.good hg) (r1.grown.path hp) hd.2 (by simpa only [Placed] using hl)
    rw [r1.grown.depth (path_le hp)] at r2
    exact ⟨s2, e1 ++ e2, by rw [buildBlocks, h1]; exact h2, by rw [pieces]; exact r1.then r2⟩
  | .list ordered start bullet items rest, box, s, P, hg, hp, hd, hl => by
    rw [Proper] at hd
    rw [Placed] at hl
    have hb : ordered = false → bullet ∈ ["-".toList, "*".toList, "+".toList] := by intro h; subst h; exact hd.1
    obtain ⟨l, s1, b, c, h1, g1, k1, hl1, hc, p1, b1, b2, q1, a1⟩ := openList_top (ctx := ⟨box, none⟩) rfl hp ordered start hb
    obtain ⟨s2, e2, h2, r2, k2⟩ := items_ok hx hn items l b ordered start bullet 0 s1 _ (g1.good hg) p1 a1 hb hd.2.1 hl.1
    have dp : depth s1.quotes (P ++ [c] ++ [b]) = depth s.quotes P := by rw [q1, fresh_depth hg _ (by omega), fresh_depth hg _ (by omega)]
    rw [dp] at r2
    have g2 := g1.trans r2.grown
    have n2 := r2.grown.len_le
    have r2' : Res P s.len s2.len s s2 e2 _ := ((r2.under (lo' := s.len) (hi' := s2.len) (by omega) (by omega)).under (lo' := s.len) (hi' := s2.len) (by omega) (by omega)).skip g1
    obtain ⟨s3, e3, h3, r3⟩ := blocks_a hx hn rest box s2 P (g2.good hg) (g2.path hp) hd.2.2 hl.2
    rw [g2.depth (path_le hp)] at r3
    refine ⟨s3, e2 ++ e3, ?_, by rw [pieces]; exact r2'.then r3⟩
    rw [buildBlocks, h1]
    dsimp only
    rw [h2]
    exact h3
  | .other rest, box, s, P, hg, hp, hd, hl => by
    rw [Proper] at hd
    rw [pieces, buildBlocks]
    exact blocks_a hx hn rest box s P hg hp hd (by simpa only [Placed] using hl)

theorem markdown_ok (hx : escape ≠ '}') (hn : escape ≠ '\n') (doc : Blocks) (hd : Proper escape lexers false doc) (hl : Placed doc) :
    ∃ s, markdown escape lexers doc = .ok s ∧ InOrder s (pieces 0 doc) := by
  obtain ⟨s, es, h1, h2⟩ := blocks_a (lexers := lexers) hx hn doc 0 {} [] (by intro q hq; cases hq) .root hd hl
  refine ⟨s, h1, es.map (·.2), ?_, h2.order, ?_⟩
  · have ht : s.texts = es.map (·.1) := h2.grown.texts
    rw [ht]
    have := h2.grown.paths
    clear h2 ht
    induction es with
    | nil => exact .nil
    | cons e es ih => exact .cons (this e (List.mem_cons_self ..)) (ih (fun e he => this e (.tail _ he)))
  · have ht : s.texts = es.map (·.1) := h2.grown.texts
    rw [ht]
    have := h2.shows
    have h0 : (es.map (·.1)).zip (es.map (·.2)) = es := by
      clear * -
      induction es with
      | nil => rfl
      | cons e es ih => simp only [List.map_cons, List.zip_cons_cons, ih]
    rw [h0]
    exact this

end

end Verif.Markdown
