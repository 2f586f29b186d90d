import Verif.Spec.TextQuery
import Verif.Proofs.DrawText

/-! # Lemmas for C103 -/

namespace Verif.TextQuery
open Spec Verif.Text Verif.Text.Spec Verif.Xml Verif.Xml.Spec
open Verif.Style (TextStyle)

/-! ### reading a document inside an element -/

/-- A context inside open elements. -/
def under (U : List (Forest × Str × Attrs)) (st : RState) : RState := ({ cur := st.1.cur, up := st.1.up ++ U }, st.2)

theorem step_under (U : List (Forest × Str × Attrs)) {st st' : RState} {c : Char} (h : Xml.Spec.step st c = some st') :
    Xml.Spec.step (under U st) c = some (under U st') := by
  obtain ⟨⟨cur, up⟩, m⟩ := st
  unfold Xml.Spec.step at h ⊢
  by_cases hx : (!xmlChar c) = true
  · rw [if_pos hx] at h; cases h
  rw [if_neg hx] at h ⊢
  cases m <;> dsimp only [under] at h ⊢
  case endName n =>
    by_cases hc : c = '>'
    · rw [if_pos hc] at h ⊢
      cases up with
      | nil => cases h
      | cons p up =>
        obtain ⟨o, m, as⟩ := p
        dsimp only [List.cons_append] at h ⊢
        split at h
        · rename_i hm
          injection h with h; subst h
          rw [if_pos hm]
        · cases h
    · rw [if_neg hc] at h ⊢
      split at h
      · rename_i hn
        injection h with h; subst h
        rw [if_pos hn]
      · cases h
  all_goals
    repeat' split at h
    all_goals first
      | (cases h; done)
      | (injection h with h; subst h; simp_all [openElem])

theorem steps_under (U : List (Forest × Str × Attrs)) (s : Str) : ∀ {st st' : RState}, Xml.Spec.steps st s = some st' →
    Xml.Spec.steps (under U st) s = some (under U st') := by
  induction s with
  | nil => intro st st' h; injection h with h; subst h; rfl
  | cons c s ih =>
    intro st st' h
    unfold Xml.Spec.steps at h ⊢
    cases hs : Xml.Spec.step st c with
    | none => rw [hs] at h; cases h
    | some st1 =>
      rw [hs] at h
      rw [step_under U hs]
      exact ih h

theorem steps_append (st : RState) (s t : Str) :
    Xml.Spec.steps st (s ++ t) = (Xml.Spec.steps st s).bind (fun st => Xml.Spec.steps st t) := by
  induction s generalizing st with
  | nil => rfl
  | cons c s ih =>
    simp only [List.cons_append, Xml.Spec.steps]
    cases Xml.Spec.step st c with
    | none => rfl
    | some st => exact ih st

theorem eol_append (s t : Str) : eol (s ++ '<' :: t) = eol s ++ eol ('<' :: t) := by
  fun_induction eol s with
  | case1 s ih => simp only [List.cons_append, eol, ih]
  | case2 s h ih =>
    cases s with
    | nil => rfl
    | cons c s =>
      by_cases hc : c = '\n'
      · subst hc; exact absurd rfl (h s)
      · simp only [List.cons_append] at ih ⊢
        rw [eol, ih]
        intro _ hh; injection hh with hh _; exact hc hh
  | case3 c s h1 h2 ih =>
    simp only [List.cons_append]
    rw [eol, ih]
    · intro _ hc _; exact h2 hc
    · intro hc; exact h2 hc
  | case4 => rfl


theorem eol_plain {p : Str} (h : '\r' ∉ p) (d : Str) : eol (p ++ d) = p ++ eol d := by
  induction p with
  | nil => rfl
  | cons c p ih =>
    rw [List.mem_cons, not_or] at h
    simp only [List.cons_append]
    rw [eol, ih h.2]
    · intro _ hc _; exact h.1 hc.symm
    · intro hc; exact h.1 hc.symm

/-- Markup around a document. -/
theorem readXml_wrap {pre post data : Str} {U : Forest × Str × Attrs} {F G : Forest}
    (hpre : ∀ d, eol (pre ++ d) = pre ++ eol d) (hpost : eol ('<' :: post) = '<' :: post)
    (h1 : Xml.Spec.steps ({}, .content []) pre = some ({ cur := .nil, up := [U] }, .content []))
    (h2 : Xml.Spec.steps ({ cur := F, up := [U] }, .lt) post = some ({ cur := G, up := [] }, .content []))
    (hd : readXml data = some F) : readXml (pre ++ (data ++ '<' :: post)) = some G := by
  unfold readXml at hd ⊢
  rw [hpre, eol_append, hpost, steps_append, h1, Option.bind_some, steps_append]
  cases hs : Xml.Spec.steps ({}, .content []) (eol data) with
  | none => rw [hs] at hd; cases hd
  | some st =>
    rw [hs] at hd
    obtain ⟨⟨cur, up⟩, m⟩ := st
    have := steps_under [U] _ hs
    rw [show (({ cur := .nil, up := [U] }, Mode.content []) : RState) = under [U] ({}, .content []) from rfl, this, Option.bind_some]
    cases m <;> simp only [final] at hd <;> try (cases hd; done)
    rename_i txt
    split at hd
    · rename_i hu
      subst hu
      injection hd with hd
      have : Xml.Spec.step (under [U] ({ cur := cur, up := [] }, Mode.content txt)) '<' =
          some (({ cur := F, up := [U] }, .lt) : RState) := by
        subst hd; rfl
      rw [Xml.Spec.steps, this]
      dsimp only
      rw [h2]
      simp [final, textNode, Forest.append_nil]
    · cases hd

set_option maxRecDepth 20000 in
theorem queryDoc_reads {data : Str} {F : Forest} (hd : readXml data = some F) : ∃ doc, queryDoc data = .ok doc ∧ InSvg doc F := by
  refine ⟨"<svg xmlns='http://www.w3.org/2000/svg' xmlns:xlink='http://www.w3.org/1999/xlink'>".toList ++ (data ++ "</svg>".toList), ?_, ?_⟩
  · rfl
  · exact readXml_wrap (post := "/svg>".toList) (U := (.nil, "svg".toList, [("xmlns".toList, "http://www.w3.org/2000/svg".toList),
      ("xmlns:xlink".toList, "http://www.w3.org/1999/xlink".toList)])) (fun d => eol_plain (by decide +kernel) d) (by decide) rfl rfl hd

/-! ### the tree of a line -/

/-- The forest of a token stream without line breaks, the first token has index `i`. -/
inductive Tree (env : Env) : Nat → List Tok → Forest → Prop where
  | nil (i) : Tree env i [] .nil
  | text (i s ts F) : Tree env (i + 1) ts F → Tree env i (.text s :: ts) (.text s F)
  | block (i n inner ts as K F) : Tree env (i + 1) inner K → Tree env (i + 1 + inner.length + 1) ts F →
      as.lookup "id".toList = (if env.idIndex = some i then env.id else none) →
      Tree env i (.opn n :: inner ++ .close :: ts) (.elem "tspan".toList as K F)

theorem fontSets_id (fmt : Rat → Str) (s : TextStyle) : ((fontSets fmt s).map toAttr).lookup "id".toList = none := by
  apply lookup_none_of_names
  intro h
  have : "id".toList ∈ (fontSets fmt s).map (·.1) := by simpa [toAttr, Function.comp_def] using h
  have := (fontSets_names fmt s).subset this
  revert this; decide

theorem beginSets_id (env : Env) (i : Nat) (s : Option TextStyle) :
    ((beginSets env i s).map toAttr).lookup "id".toList = (if env.idIndex = some i then env.id else none) := by
  have hrest : (([("xml:space".toList, "preserve".toList, true)] ++
      (match s with | some s => fontSets env.fmt s | none => []) : List (Str × Str × Bool)).map toAttr).lookup "id".toList = none := by
    cases s with
    | none => rfl
    | some s => exact fontSets_id _ _
  unfold beginSets
  rw [List.append_assoc, List.map_append]
  cases env.id with
  | none => refine Eq.trans hrest ?_; split <;> rfl
  | some id =>
    by_cases h : env.idIndex = some i
    · simp only [h, if_true]; rfl
    · simp only [h, if_false]; exact hrest

theorem drawLoop_tree {env : Env} (he : EnvOk env) {toks : List Tok} (hb : Balanced toks) :
    ∀ (i : Nat) (st : DrawSt) (a : A), (∀ n, Tok.newline n ∉ toks) →
    (∀ n, Tok.opn n ∈ toks → env.styles n = none → n.head? = some '#') → (∀ s, Tok.text s ∈ toks → Plain s) →
    a.up ≠ [] → Good st.xml a →
    ∃ st' F o, drawLoop env i st toks = .ok st' ∧ st'.active = st.active ∧ Good st'.xml { cur := a.cur ++ F, up := a.up, isOpen := o } ∧
      Tree env i toks F := by
  induction hb with
  | nil =>
    intro i st a _ _ _ _ hg
    refine ⟨st, .nil, a.isOpen, rfl, rfl, ?_, .nil i⟩
    rw [Forest.append_nil]; exact hg
  | text s ts _ ih =>
    intro i st a hnl hsty hplain hup hg
    obtain ⟨cur, up, op⟩ := a
    have ha : arun { cur := cur, up := up, isOpen := op } [.text s] =
        some { cur := cur ++ Forest.text s .nil, up := up, isOpen := false } := rfl
    obtain ⟨x', hx', hg'⟩ := hg.go (by
      intro o ho; rw [List.mem_singleton] at ho; subst ho; exact hplain s (by simp)) (by trivial) ha
    obtain ⟨st', F, o, h1, h2, h3, h4⟩ := ih (i + 1) { st with xml := x' } { cur := cur ++ Forest.text s .nil, up := up, isOpen := false } (fun n hn => hnl n (List.mem_cons_of_mem _ hn))
      (fun n hn => hsty n (List.mem_cons_of_mem _ hn)) (fun n hn => hplain n (List.mem_cons_of_mem _ hn)) hup hg'
    refine ⟨st', .text s F, o, ?_, h2, ?_, .text _ _ _ _ h4⟩
    · simp only [drawLoop, drawTok, hx']; exact h1
    · rw [Forest.append_assoc] at h3; exact h3
  | newline n ts _ _ => intro i st a hnl; exact absurd (by simp) (hnl n)
  | block name inner ts _ _ ih1 ih2 =>
    intro i st a hnl hsty hplain hup hg
    obtain ⟨cur, up, op⟩ := a
    have hfound : ¬ (env.styles name = none ∧ name.head? ≠ some '#') := by
      rintro ⟨h1, h2⟩; exact h2 (hsty name (by simp) h1)
    obtain ⟨s, hsd⟩ : ∃ s, pick st.prio (env.styles name) = s := ⟨_, rfl⟩
    have hsok : ∀ u, s = some u → env.styles name = some u := by
      intro u hu
      rw [← hsd] at hu
      cases hw : env.styles name with
      | none => rw [hw] at hu; cases hu
      | some w =>
        rw [hw] at hu
        simp only [pick] at hu
        split at hu
        · cases hu
        · exact hu
    have hv := beginOps_valid he i s (fun u hu => he.styles name u (hsok u hu))
    have ha := arun_element { cur := cur, up := up, isOpen := op } "tspan".toList (beginSets env i s)
    rw [← beginOps_eq] at ha
    obtain ⟨x', hx', hg'⟩ := hg.go hv.1 (hv.2 _) ha
    have hb : drawTok env i st (.opn name) =
        .ok { xml := x', active := s :: st.active, prio := updPrio st.prio (some s) } := by
      simp only [drawTok]
      rw [if_neg hfound, hsd, hx']
    obtain ⟨st1, K, o1, h1, h2, h3, h4⟩ := ih1 (i + 1) { xml := x', active := s :: st.active, prio := updPrio st.prio (some s) } _
      (fun n hn => hnl n (by simp [hn])) (fun n hn => hsty n (by simp [hn])) (fun n hn => hplain n (by simp [hn])) (by simp) hg'
    have ha2 : arun { cur := Forest.nil ++ K, up := (cur, "tspan".toList, (beginSets env i s).map toAttr) :: up, isOpen := o1 }
        [.close (some "tspan".toList)] =
        some { cur := cur ++ Forest.elem "tspan".toList ((beginSets env i s).map toAttr) K .nil, up := up, isOpen := false } := by
      simp only [arun, aexec, or_true, if_true]; rfl
    obtain ⟨x2, hx2, hg2⟩ := h3.go (os := [.close (some "tspan".toList)]) (by
      intro o ho; rw [List.mem_singleton] at ho; subst ho; trivial) (by trivial) ha2
    have hc : drawTok env (i + 1 + inner.length) st1 .close =
        .ok { xml := x2, active := st.active, prio := updPrio st1.prio st.active.head? } := by
      simp only [drawTok, hx2, h2]
    obtain ⟨st', F, o, g1, g2, g3, g4⟩ := ih2 (i + 1 + inner.length + 1) { xml := x2, active := st.active, prio := updPrio st1.prio st.active.head? }
      { cur := cur ++ Forest.elem "tspan".toList ((beginSets env i s).map toAttr) K .nil, up := up, isOpen := false }
      (fun n hn => hnl n (by simp [hn])) (fun n hn => hsty n (by simp [hn])) (fun n hn => hplain n (by simp [hn])) hup hg2
    refine ⟨st', .elem "tspan".toList ((beginSets env i s).map toAttr) K F, o, ?_, g2, ?_, .block _ _ _ _ _ _ _ h4 g4 (beginSets_id _ _ _)⟩
    · simp only [List.cons_append, drawLoop, hb]
      rw [drawLoop_append, h1]
      simp only [drawLoop, hc]
      exact g1
    · rw [Forest.append_assoc] at g3; exact g3

/-- The characters of a token stream. -/
def texts : List Tok → Str
  | [] => []
  | .text s :: ts => s ++ texts ts
  | _ :: ts => texts ts

theorem texts_append (a b : List Tok) : texts (a ++ b) = texts a ++ texts b := by
  induction a with
  | nil => rfl
  | cons t a ih => cases t <;> simp [texts, ih]

theorem Tree.textOf {env : Env} {i : Nat} {toks : List Tok} {F : Forest} (h : Tree env i toks F) : F.textOf = texts toks := by
  induction h with
  | nil => rfl
  | text _ _ _ _ _ ih => simp [Forest.textOf, texts, ih]
  | block _ _ _ _ _ _ _ _ _ _ ih1 ih2 => simp [Forest.textOf, texts, texts_append, ih1, ih2]

theorem Tree.sectionLine {env : Env} {i : Nat} {toks : List Tok} {F : Forest} (h : Tree env i toks F) :
    ∀ (d : Nat) (r : List Tok), Spec.sectionLine d (toks ++ r) = texts toks ++ Spec.sectionLine d r := by
  induction h with
  | nil => intro d r; rfl
  | text _ _ _ _ _ ih => intro d r; simp [Spec.sectionLine, texts, ih]
  | block _ _ _ _ _ _ _ _ _ _ ih1 ih2 =>
    intro d r
    simp only [List.cons_append, List.append_assoc, Spec.sectionLine, texts, texts_append, ih1, ih2]

theorem Tree.found {env : Env} {i : Nat} {toks : List Tok} {F : Forest} (h : Tree env i toks F) {id : Str} {j : Nat}
    (hid : env.id = some id) (hj : env.idIndex = some j) :
    ((j < i ∨ i + toks.length ≤ j) → Spec.found id F = []) ∧
    (∀ n r, i ≤ j → toks[j - i]? = some (.opn n) → Spec.found id F = [Spec.sectionLine 0 (toks.drop (j - i + 1) ++ r)]) := by
  induction h with
  | nil => exact ⟨fun _ => rfl, fun n r _ h => by simp at h⟩
  | text i s ts F _ ih =>
    refine ⟨fun h => ih.1 (by simp only [List.length_cons] at h; omega), ?_⟩
    intro n r hij ht
    by_cases he : j = i
    · subst he; simp at ht
    have e : j - i = (j - (i + 1)) + 1 := by omega
    rw [e] at ht ⊢
    exact ih.2 n r (by omega) ht
  | block i n inner ts as K F h1 h2 has ih1 ih2 =>
    simp only [hj, Option.some.injEq, hid] at has
    constructor
    · intro h
      simp only [List.cons_append, List.length_cons, List.length_append] at h
      rw [Spec.found, has, ih1.1 (by omega), ih2.1 (by omega), if_neg (by rw [if_neg (by omega)]; simp)]
      rfl
    · intro m r hij ht
      by_cases he : j = i
      · subst he
        rw [Spec.found, has, ih1.1 (by omega), ih2.1 (by omega)]
        simp only [if_true, Nat.sub_self, List.cons_append, List.drop_succ_cons, List.drop_zero, List.append_nil, List.append_assoc]
        rw [h1.sectionLine, h1.textOf]
        simp [Spec.sectionLine]
      have e : j - i = (j - (i + 1)) + 1 := by omega
      rw [e] at ht ⊢
      rw [Spec.found, has, if_neg (by rw [if_neg he]; simp)]
      simp only [List.cons_append, List.getElem?_cons_succ, List.drop_succ_cons] at ht ⊢
      by_cases hin : j - (i + 1) < inner.length
      · rw [List.getElem?_append_left hin] at ht
        rw [ih2.1 (by omega), ih1.2 m (.close :: ts ++ r) (by omega) ht, List.drop_append_of_le_length (by omega)]
        simp
      · rw [List.getElem?_append_right (by omega)] at ht
        by_cases hcl : j - (i + 1) = inner.length
        · rw [hcl] at ht; simp at ht
        have e2 : j - (i + 1) - inner.length = (j - (i + 1 + inner.length + 1)) + 1 := by omega
        rw [e2, List.getElem?_cons_succ] at ht
        rw [ih1.1 (by omega), ih2.2 m r (by omega) ht]
        have e3 : j - (i + 1) + 1 = inner.length + (1 + (j - (i + 1 + inner.length + 1) + 1)) := by omega
        rw [e3, List.drop_append, List.drop_of_length_le (l := inner) (by omega), Nat.add_sub_cancel_left, Nat.add_comm 1, List.drop_succ_cons]
        rfl

/-! ### what a reader finds -/

theorem attrText_inj {s t : Str} (ht : ∀ c ∈ t, isWs c = false) : attrText s = t ↔ s = t := by
  constructor
  · intro h
    subst h
    induction s with
    | nil => rfl
    | cons c s ih =>
      simp only [attrText, List.map_cons, List.mem_cons, forall_eq_or_imp] at ht
      have h2 := ih ht.2
      simp only [attrText, List.map_cons]
      rw [← attrText, ← h2]
      by_cases hc : isWs c = true
      · rw [if_pos hc] at ht; exact absurd ht.1 (by decide)
      · rw [if_neg hc]
  · rintro rfl
    unfold attrText
    conv_rhs => rw [← List.map_id s]
    apply List.map_congr_left
    intro c hc
    rw [ht c hc]; rfl

theorem lookup_attrText (as : Attrs) (k : Str) :
    (as.map (fun x => (x.1, attrText x.2))).lookup k = (as.lookup k).map attrText := by
  induction as with
  | nil => rfl
  | cons a as ih =>
    obtain ⟨n, v⟩ := a
    simp only [List.map_cons, List.lookup_cons]
    cases (k == n)
    · exact ih
    · rfl

theorem found_append (id : Str) : ∀ f g : Forest, found id (f ++ g) = found id f ++ found id g
  | .nil, g => rfl
  | .text s r, g => by
    have := found_append id r g
    show found id (r ++ g) = _
    rw [this]; rfl
  | .elem n a k r, g => by
    have := found_append id r g
    show (if a.lookup "id".toList = some id then [k.textOf] else []) ++ found id k ++ found id (r ++ g) = _
    rw [this, found]; simp only [List.append_assoc]

theorem found_norm {id : Str} (hid : ∀ c ∈ id, isWs c = false) (p : Str) (f : Forest) :
    found id (norm p f) = (found id f).map nbsp := by
  induction f generalizing p with
  | nil => cases p <;> rfl
  | text s r ih => simp only [norm, ih, found]
  | elem n a k r ih1 ih2 =>
    have h0 : found id (textNode p) = [] := by cases p <;> rfl
    simp only [norm, found_append, h0, List.nil_append, found, ih1, ih2, List.map_append, lookup_attrText]
    have : ((a.lookup "id".toList).map attrText = some id) ↔ (a.lookup "id".toList = some id) := by
      cases a.lookup "id".toList with
      | none => simp
      | some v => simp only [Option.map_some, Option.some.injEq]; exact attrText_inj hid
    by_cases h : a.lookup "id".toList = some id
    · rw [if_pos h, if_pos (this.mpr h)]
      simp [textOf_norm]
    · rw [if_neg h, if_neg (fun hh => h (this.mp hh))]
      rfl

theorem lineSets_id (env : Env) : ((lineSets env).map toAttr).lookup "id".toList = none := by
  unfold lineSets
  split
  · split <;> rfl
  · rfl

theorem textSets_id (env : Env) (an : Str) :
    ((textSets env an).map toAttr).lookup "id".toList = (if env.idIndex = none then env.id else none) := by
  have hrest : ∀ (tr : Option Str), (([("x".toList, env.x, true), ("y".toList, env.y, true)] ++
      ((match tr with | some t => [("transform".toList, t, true)] | none => []) ++
      ([("text-anchor".toList, an, true)] ++ fontSets env.fmt env.style)) : List (Str × Str × Bool)).map toAttr).lookup "id".toList = none := by
    intro tr
    cases tr with
    | none => exact fontSets_id _ _
    | some s => exact fontSets_id _ _
  unfold textSets
  simp only [List.append_assoc]
  rw [List.map_append]
  cases env.id with
  | none => refine Eq.trans (hrest env.transform) ?_; split <;> rfl
  | some id =>
    by_cases h : env.idIndex = none
    · simp only [h, if_true]; rfl
    · simp only [h, if_false]; exact hrest env.transform

theorem anchor_ok {align : Option Str} (h : align = some "left".toList ∨ align = some "middle".toList ∨ align = some "right".toList) :
    ∃ an, anchor align = .ok an ∧ OkStr an := by
  unfold anchor
  rcases h with h | h | h <;> rw [h]
  · exact ⟨_, rfl, okStr_of_decide (by decide)⟩
  · exact ⟨_, rfl, okStr_of_decide (by decide)⟩
  · exact ⟨_, rfl, okStr_of_decide (by decide)⟩

/-- A text without line breaks. -/
theorem drawText_line {env : Env} (he : EnvOk env) {toks : List Tok} (hb : Balanced toks) (hnl : ∀ n, Tok.newline n ∉ toks)
    (hsty : ∀ n, Tok.opn n ∈ toks → env.styles n = none → n.head? = some '#') (hplain : ∀ s, Tok.text s ∈ toks → Plain s)
    (hal : env.style.align = some "left".toList ∨ env.style.align = some "middle".toList ∨ env.style.align = some "right".toList) :
    ∃ an F x s, drawText env {} toks = .ok x ∧ x.toString = .ok s ∧ Tree env 0 toks F ∧
      readXml s = some (norm [] (.elem "text".toList ((textSets env an).map toAttr)
        (.elem "tspan".toList ((lineSets env).map toAttr) F .nil) .nil)) := by
  obtain ⟨an, han, hanok⟩ := anchor_ok hal
  have hv := headOps_valid he hanok
  have ha : arun {} (headOps env an) = some { cur := .nil, up := [(.nil, "tspan".toList, (lineSets env).map toAttr),
      (.nil, "text".toList, (textSets env an).map toAttr)], isOpen := true } := by
    rw [headOps_eq, arun_append, arun_element, Option.bind_some, arun_element]
  obtain ⟨x0, hx0, hg0⟩ := good_init.go hv.1 (hv.2 _) ha
  obtain ⟨st', F, o, h1, h2, h3, h4⟩ := drawLoop_tree he hb 0 { xml := x0, active := [some env.style], prio := env.style.priority } _
    hnl hsty hplain (by simp) hg0
  have ha2 : arun { cur := Forest.nil ++ F, up := [(.nil, "tspan".toList, (lineSets env).map toAttr),
      (.nil, "text".toList, (textSets env an).map toAttr)], isOpen := o } ([.close (some "tspan".toList), .close (some "text".toList)]) =
      some { cur := .elem "text".toList ((textSets env an).map toAttr) (.elem "tspan".toList ((lineSets env).map toAttr) F .nil) .nil,
             up := [], isOpen := false } := by
    simp only [arun, aexec, or_true, if_true]
    rfl
  obtain ⟨x2, hx2, hg2⟩ := h3.go (os := [.close (some "tspan".toList), .close (some "text".toList)]) (by
    intro o ho
    simp only [List.mem_cons, List.not_mem_nil, or_false] at ho
    rcases ho with rfl | rfl <;> trivial) (by trivial) ha2
  have hst0 : x2.stack = [] := by
    have := hg2.stack
    simpa using this
  obtain ⟨s, hs⟩ : ∃ s, x2.toString = .ok s := by
    unfold Xml.toString; rw [hst0]; exact ⟨_, rfl⟩
  obtain ⟨_, hread⟩ := hg2.toString hs
  refine ⟨an, F, x2, s, ?_, hs, h4, hread⟩
  simp only [drawText, han, hx0, h1, h2]
  exact hx2

/-! ### no ids -/

/-- No element has an id. -/
def NoId : Forest → Prop
  | .nil => True
  | .text _ r => NoId r
  | .elem _ as k r => as.lookup "id".toList = none ∧ NoId k ∧ NoId r

theorem NoId.append {f g : Forest} (hf : NoId f) (hg : NoId g) : NoId (f ++ g) := by
  induction f with
  | nil => exact hg
  | text s r ih => exact ih hf
  | elem n as k r _ ih => exact ⟨hf.1, hf.2.1, ih hf.2.2⟩

theorem NoId.found {f : Forest} (hf : NoId f) (id : Str) : found id f = [] := by
  induction f with
  | nil => rfl
  | text s r ih => exact ih hf
  | elem n as k r ih1 ih2 => rw [Spec.found, hf.1, ih1 hf.2.1, ih2 hf.2.2]; rfl

/-- No id inside the outermost open element. -/
def NoIdIn : Forest → List (Forest × Str × Attrs) → Attrs → Prop
  | _, [], _ => False
  | cur, [(o, n, as)], ta => NoId cur ∧ o = .nil ∧ n = "text".toList ∧ as = ta
  | cur, (o, _, as) :: up, ta => NoId cur ∧ as.lookup "id".toList = none ∧ NoIdIn o up ta

theorem NoIdIn.cur {cur : Forest} {up ta} (h : NoIdIn cur up ta) : NoId cur ∧ up ≠ [] := by
  match up, h with
  | [(_, _, _)], h => exact ⟨h.1, by simp⟩
  | (_, _, _) :: _ :: _, h => exact ⟨h.1, by simp⟩

theorem NoIdIn.text {cur : Forest} {up ta} (h : NoIdIn cur up ta) (t : Str) : NoIdIn (cur ++ Forest.text t .nil) up ta := by
  have hc := h.cur.1.append (g := Forest.text t .nil) trivial
  match up, h with
  | [(_, _, _)], h => exact ⟨hc, h.2⟩
  | (_, _, _) :: _ :: _, h => exact ⟨hc, h.2⟩

theorem NoIdIn.push {cur : Forest} {up ta} (h : NoIdIn cur up ta) (n : Str) {as : Attrs} (has : as.lookup "id".toList = none) :
    NoIdIn .nil ((cur, n, as) :: up) ta := by
  match up, h with
  | [(_, _, _)], h => exact ⟨trivial, has, h⟩
  | (_, _, _) :: _ :: _, h => exact ⟨trivial, has, h⟩

theorem NoIdIn.pop {cur : Forest} {up : List (Forest × Str × Attrs)} {ta o n as} (h : NoIdIn cur ((o, n, as) :: up) ta)
    (hn : n ≠ "text".toList) : NoIdIn (o ++ Forest.elem n as cur .nil) up ta := by
  match up, h with
  | [], h => exact absurd h.2.2.1 hn
  | [(_, _, _)], h => exact ⟨h.2.2.1.append ⟨h.2.1, h.1, trivial⟩, h.2.2.2⟩
  | (_, _, _) :: _ :: _, h => exact ⟨h.2.2.1.append ⟨h.2.1, h.1, trivial⟩, h.2.2.2⟩

/-- Calls that set no id and do not close the text. -/
inductive Plainly : List Op → Prop where
  | nil : Plainly []
  | text (t ops) : Plainly ops → Plainly (.text t :: ops)
  | close (ops) : Plainly ops → Plainly (.close (some "tspan".toList) :: ops)
  | elem (n : Str) (sets : List (Str × Str × Bool)) (ops : List Op) : (sets.map toAttr).lookup "id".toList = none → Plainly ops →
      Plainly (.element n :: sets.map toSet ++ ops)

theorem Plainly.arun {ops : List Op} (h : Plainly ops) {ta : Attrs} : ∀ {a a' : A}, arun a ops = some a' → NoIdIn a.cur a.up ta →
    NoIdIn a'.cur a'.up ta := by
  induction h with
  | nil => intro a a' h hn; injection h with h; subst h; exact hn
  | text t ops _ ih =>
    intro a a' h hn
    exact ih h (hn.text t)
  | close ops _ ih =>
    intro a a' h hn
    simp only [Xml.arun] at h
    obtain ⟨cur, up, op⟩ := a
    match up with
    | [] => simp [aexec] at h
    | (o, n, as) :: up =>
      by_cases hn2 : n = "tspan".toList
      · subst hn2
        simp only [aexec, or_true, if_true] at h
        exact ih h (hn.pop (by decide))
      · have : aexec { cur := cur, up := (o, n, as) :: up, isOpen := op } (.close (some "tspan".toList)) = none := by
          simp only [aexec, Option.some.injEq, reduceCtorEq, false_or]
          rw [if_neg (fun hh => hn2 hh.symm)]
        rw [this] at h
        cases h
  | elem n sets ops hs _ ih =>
    intro a a' h hn
    rw [arun_append, arun_element, Option.bind_some] at h
    exact ih h (hn.push n hs)

theorem Plainly.append {a b : List Op} (ha : Plainly a) (hb : Plainly b) : Plainly (a ++ b) := by
  induction ha with
  | nil => exact hb
  | text t ops _ ih => exact .text _ _ ih
  | close ops _ ih => exact .close _ ih
  | elem n sets ops hs _ ih => rw [List.append_assoc]; exact .elem _ _ _ hs ih

theorem plainly_begin {env : Env} (hi : env.idIndex = none) (i : Nat) (s : Option TextStyle) : Plainly (beginOps env i s) := by
  rw [beginOps_eq]
  have := Plainly.elem "tspan".toList (beginSets env i s) [] (by rw [beginSets_id, hi]; rfl) .nil
  simpa using this

theorem plainly_newline (env : Env) (n : Nat) (act : List (Option TextStyle)) : Plainly (newlineOps env n act) := by
  unfold newlineOps
  apply Plainly.append
  · induction act with
    | nil => exact .nil
    | cons a act ih => exact .close _ ih
  · generalize enumerate act.reverse = l
    induction l with
    | nil => exact .nil
    | cons p l ih =>
      obtain ⟨j, s⟩ := p
      rw [List.flatMap_cons]
      cases s with
      | none => exact ih
      | some s =>
        rw [reopenOps_eq]
        refine .elem _ _ _ ?_ ih
        unfold reopenSets
        have := fontSets_id env.fmt s
        split
        · exact this
        · exact this

theorem drawLoop_noid {env : Env} (he : EnvOk env) (hi : env.idIndex = none) {ta : Attrs} (toks : List Tok) :
    ∀ (i : Nat) (st st' : DrawSt) (a : A), (∀ s, Tok.text s ∈ toks → Plain s) → (∀ s, some s ∈ st.active → StyleOk s) →
    Good st.xml a → NoIdIn a.cur a.up ta → drawLoop env i st toks = .ok st' →
    ∃ a', Good st'.xml a' ∧ NoIdIn a'.cur a'.up ta := by
  induction toks with
  | nil => intro i st st' a _ _ hg hn h; injection h with h; subst h; exact ⟨a, hg, hn⟩
  | cons tok toks ih =>
    intro i st st' a hplain hact hg hn h
    have hplain' : ∀ s, Tok.text s ∈ toks → Plain s := fun n hn => hplain n (List.mem_cons_of_mem _ hn)
    simp only [drawLoop] at h
    split at h
    · cases h
    rename_i st1 h1
    suffices hh : (∀ s, some s ∈ st1.active → StyleOk s) ∧ ∃ ops, run st.xml ops = .ok st1.xml ∧ (∀ o ∈ ops, Valid o) ∧ SD ops ∧ Plainly ops by
      obtain ⟨ha1, ops, hr, hv, hsd, hp⟩ := hh
      obtain ⟨a1, har, hg1⟩ := hg.run hv (hsd _) hr
      exact ih _ _ _ a1 hplain' ha1 hg1 (hp.arun har hn) h
    cases tok with
    | text s =>
      simp only [drawTok] at h1
      split at h1
      · cases h1
      rename_i x hx
      injection h1 with h1; subst h1
      refine ⟨hact, _, hx, ?_, fun _ => trivial, .text _ _ .nil⟩
      intro o ho; rw [List.mem_singleton] at ho; subst ho; exact hplain s (by simp)
    | newline n =>
      simp only [drawTok] at h1
      split at h1
      · cases h1
      rename_i x hx
      injection h1 with h1; subst h1
      have hv := newlineOps_valid he n st.active hact
      exact ⟨hact, _, hx, hv.1, hv.2, plainly_newline _ _ _⟩
    | opn name =>
      simp only [drawTok] at h1
      split at h1
      · cases h1
      split at h1
      · cases h1
      rename_i x hx
      injection h1 with h1; subst h1
      have hsok : ∀ u, pick st.prio (env.styles name) = some u → StyleOk u := by
        intro u hu
        cases hw : env.styles name with
        | none => rw [hw] at hu; cases hu
        | some w =>
          rw [hw] at hu
          simp only [pick] at hu
          split at hu
          · cases hu
          · injection hu with hu; subst hu; exact he.styles _ _ hw
      have hv := beginOps_valid he i _ hsok
      refine ⟨?_, _, hx, hv.1, hv.2, plainly_begin hi _ _⟩
      intro s hs
      rcases List.mem_cons.mp hs with hs | hs
      · exact hsok s hs.symm
      · exact hact s hs
    | close =>
      simp only [drawTok] at h1
      split at h1
      · cases h1
      rename_i x hx
      split at h1
      · cases h1
      rename_i s rest hst
      injection h1 with h1; subst h1
      refine ⟨fun s hs => hact s (by rw [hst]; exact List.mem_cons_of_mem _ hs), _, hx, ?_, fun _ => trivial, .close _ .nil⟩
      intro o ho; rw [List.mem_singleton] at ho; subst ho; trivial

theorem plainly_closes {α : Type} (l : List α) : Plainly (l.map (fun _ => Op.close (some "tspan".toList))) := by
  induction l with
  | nil => exact .nil
  | cons a act ih => exact .close _ ih

/-- The elements inside of a text that is drawn with an id for the whole text have no ids. -/
theorem drawText_noid {env : Env} (he : EnvOk env) (hi : env.idIndex = none) {toks : List Tok} {x : Xml} {s : Str}
    (hplain : ∀ s, Tok.text s ∈ toks → Plain s) (h : drawText env {} toks = .ok x) (hs : x.toString = .ok s) :
    ∃ an F, NoId F ∧ readXml s = some (norm [] (.elem "text".toList ((textSets env an).map toAttr) F .nil)) := by
  unfold drawText at h
  split at h
  · cases h
  rename_i an han
  split at h
  · cases h
  rename_i x0 hx0
  split at h
  · cases h
  rename_i st hst
  have hanok : OkStr an := by
    unfold anchor at han
    repeat' split at han
    all_goals first
      | (cases han; done)
      | (injection han with han; subst han; exact okStr_of_decide (by decide))
  have hv := headOps_valid he hanok
  have ha : arun {} (headOps env an) = some { cur := .nil, up := [(.nil, "tspan".toList, (lineSets env).map toAttr),
      (.nil, "text".toList, (textSets env an).map toAttr)], isOpen := true } := by
    rw [headOps_eq, arun_append, arun_element, Option.bind_some, arun_element]
  obtain ⟨a0, ha0, hg0⟩ := good_init.run hv.1 (hv.2 _) hx0
  rw [ha] at ha0
  injection ha0 with ha0; subst ha0
  obtain ⟨a1, hg1, hn1⟩ := drawLoop_noid he hi (ta := (textSets env an).map toAttr) toks 0 _ _ { cur := .nil, up := [(.nil, "tspan".toList, (lineSets env).map toAttr), (.nil, "text".toList, (textSets env an).map toAttr)], isOpen := true } hplain (by
    intro s hs; rw [List.mem_singleton] at hs; injection hs with hs; subst hs; exact he.style) hg0
    ⟨trivial, lineSets_id env, trivial, rfl, rfl, rfl⟩ hst
  obtain ⟨a2, ha2, hg2⟩ := hg1.run (by
    intro o ho
    rw [List.mem_append, List.mem_map, List.mem_singleton] at ho
    rcases ho with ⟨_, _, rfl⟩ | rfl <;> trivial) (by
    have := (closes_valid (st.active.reverse.filter Option.isSome) "tspan".toList (rest := [.close (some "text".toList)])
      ⟨by intro o ho; rw [List.mem_singleton] at ho; subst ho; trivial, fun _ => trivial⟩).2
    exact this _) h
  rw [arun_append] at ha2
  obtain ⟨a3, ha3, ha4⟩ := Option.bind_eq_some_iff.mp ha2
  have hn3 := (plainly_closes _).arun ha3 hn1
  obtain ⟨hup, hread⟩ := hg2.toString hs
  obtain ⟨cur, up, op⟩ := a3
  simp only [arun, aexec] at ha4
  match up, hn3 with
  | [(o, n, as)], hn3 =>
    obtain ⟨k1, rfl, rfl, rfl⟩ := hn3
    simp only [or_true, if_true] at ha4
    injection ha4 with ha4
    subst ha4
    exact ⟨an, cur, k1, hread⟩
  | (o, n, as) :: b :: up, hn3 =>
    simp only at ha4
    by_cases hc : n = "text".toList
    · subst hc
      simp only [or_true, if_true] at ha4
      injection ha4 with ha4
      subst ha4
      cases hup
    · rw [if_neg (by simp only [reduceCtorEq, Option.some.injEq, false_or]; exact fun hh => hc hh.symm)] at ha4
      cases ha4

end Verif.TextQuery
