import Verif.Proofs.XmlText

/-! # Properties C55–C57: the XML writer -/

namespace Verif.Xml
open Spec

/-- A document: a new writer, the calls, `to_string`. -/
def write (ops : List Op) : Except Err Str :=
  match run {} ops with
  | .error e => .error e
  | .ok x => x.toString

/-! ### C55 -/

/-- **C55.** If the calls (with strings XML can express and no attribute twice on an element) produce a string, the
calls are nested like a forest and an XML reader reads that forest. -/
theorem C55_well_formed (ops : List Op) (hv : ∀ o ∈ ops, Valid o) (hd : SetsDistinct [] ops) (s : Str) (hs : write ops = .ok s) :
    ∃ F, Nested ops F ∧ readXml s = some (norm [] F) := by
  unfold write at hs
  split at hs
  · cases hs
  · rename_i x hx
    obtain ⟨a, ha, hg⟩ := good_init.run hv hd hx
    obtain ⟨hup, hread⟩ := hg.toString hs
    refine ⟨a.cur, ?_, hread⟩
    have := OpsCtx.run (ops := []) (a := {}) (.base Nested.nil) ha
    rw [hup] at this
    generalize a.cur = c at this
    generalize a.isOpen = b at this
    cases this with
    | base h => exact h

/-- **C55 (acceptance).** The writer accepts exactly the nested sequences of calls, whatever the strings are. -/
theorem C55_accepts (ops : List Op) (hraw : ∀ o ∈ ops, ∀ t, o ≠ .raw t) :
    (∃ s, write ops = .ok s) ↔ ∃ F, Nested ops F := by
  constructor
  · rintro ⟨s, hs⟩
    unfold write at hs
    split at hs
    · cases hs
    · rename_i x hx
      obtain ⟨a, ha, hag⟩ := (run_agree (x := {}) (a := {}) ⟨rfl, rfl, by simp⟩ ops hraw).1 x hx
      have hup : a.up = [] := by
        unfold Xml.toString at hs
        split at hs
        · rename_i h0
          have := hag.stack
          rw [List.eq_nil_of_length_eq_zero h0] at this
          exact List.map_eq_nil_iff.mp this.symm
        · cases hs
      refine ⟨a.cur, ?_⟩
      have := OpsCtx.run (ops := []) (a := {}) (.base Nested.nil) ha
      rw [hup] at this
      generalize a.cur = c at this
      generalize a.isOpen = b at this
      cases this with
      | base h => exact h
  · rintro ⟨F, hF⟩
    obtain ⟨op, ha⟩ := hF.arun {}
    obtain ⟨r1, r2⟩ := run_agree (x := {}) (a := {}) ⟨rfl, rfl, by simp⟩ ops hraw
    obtain ⟨x, hx⟩ := r2 _ ha
    obtain ⟨a', ha', hag⟩ := r1 x hx
    rw [ha] at ha'
    injection ha' with ha'
    have hst : x.stack = [] := by rw [hag.stack, ← ha']; rfl
    exact ⟨x.chunks.flatten, by unfold write; rw [hx]; simp [Xml.toString, hst]⟩

/-- Two elements with attributes and text. -/
def exampleOps : List Op :=
  [.element "g".toList, .set "id".toList "a<b".toList true, .text "x & y".toList, .element "rect".toList, .close (some "rect".toList),
    .text "<z>".toList, .close none]

example : (∀ o ∈ exampleOps, Valid o) ∧ SetsDistinct [] exampleOps ∧
    write exampleOps = .ok "<g id='a&lt;b'>x&#160;&amp;&#160;y<rect />&lt;z&gt;</g>".toList ∧
    readXml "<g id='a&lt;b'>x&#160;&amp;&#160;y<rect />&lt;z&gt;</g>".toList =
      some (.elem "g".toList [("id".toList, "a<b".toList)]
        (.text "x & y".toList (.elem "rect".toList [] .nil (.text "<z>".toList .nil))) .nil) := by
  refine ⟨?_, ?_, by decide +kernel, by decide +kernel⟩
  · intro o ho
    simp only [exampleOps, List.mem_cons, List.not_mem_nil, or_false] at ho
    rcases ho with rfl | rfl | rfl | rfl | rfl | rfl | rfl
    · exact ⟨by decide, by decide⟩
    · refine ⟨⟨by decide, by decide⟩, ?_, by decide⟩
      unfold Plain; decide
    · show Plain _; unfold Plain; decide
    · exact ⟨by decide, by decide⟩
    · trivial
    · show Plain _; unfold Plain; decide
    · trivial
  · simp [exampleOps, SetsDistinct]

/-! ### C56 -/

/-- An element with one text. -/
def textDoc (a t : Str) : List Op := [.element a, .text t, .close none]

theorem write_textDoc (a t : Str) : write (textDoc a t) = .ok (('<' :: a ++ ['>']) ++ (t.flatMap tesc1 ++ '<' :: '/' :: (a ++ ['>']))) := by
  rw [← textEscape_eq]
  simp [write, textDoc, run, exec, Xml.closeTag, Xml.toString]

/-- **C56 is false**: a character that XML does not allow (such as a form feed) makes the document ill-formed. -/
theorem C56_text_false : ¬ ∀ (a t s : Str), ValidName a → write (textDoc a t) = .ok s →
    readXml s = some (.elem a [] (textNode (nbsp t)) .nil) := by
  intro h
  have := h ['a'] ['x', '\x0c'] "<a>x\x0c</a>".toList ⟨by decide, by simp⟩ (by decide +kernel)
  exact absurd this (by decide +kernel)

/-- **C56, what holds.** The document is read exactly when XML allows all characters of the run; then the element has no
markup, its text is the run with non-breaking spaces and with carriage returns as line feeds. So the run survives
exactly when it has only legal characters other than carriage return. -/
theorem C56_text_partial (a t : Str) (ha : ValidName a) : ∃ s, write (textDoc a t) = .ok s ∧
    (readXml s = if t.all xmlChar then some (.elem a [] (textNode (nbsp (eol t))) .nil) else none) ∧
    (readXml s = some (.elem a [] (textNode (nbsp t)) .nil) ↔ Plain t) := by
  refine ⟨_, write_textDoc a t, ?_⟩
  have hCR1 : '\r' ∉ '<' :: a ++ ['>'] := by
    simp only [List.cons_append, List.mem_cons, List.mem_append, List.not_mem_nil, or_false, not_or]
    exact ⟨by decide, ha.noCR, by decide⟩
  have hCR2 : '\r' ∉ '<' :: '/' :: (a ++ ['>']) := by
    simp only [List.mem_cons, List.mem_append, List.not_mem_nil, or_false, not_or]
    exact ⟨by decide, by decide, ha.noCR, by decide⟩
  have hread : readXml (('<' :: a ++ ['>']) ++ (t.flatMap tesc1 ++ '<' :: '/' :: (a ++ ['>']))) =
      if t.all xmlChar then some (.elem a [] (textNode (nbsp (eol t))) .nil) else none := by
    unfold readXml
    rw [eol_append_noCR hCR1, eol_flatMap tesc1_ok t '<' _ (by decide) hCR2]
    by_cases hall : t.all xmlChar = true
    · rw [if_pos hall]
      have hall' : ∀ c ∈ eol t, xmlChar c = true := by
        have := eol_all t
        rw [hall, List.all_eq_true] at this
        exact this
      have h1 : steps (({}, .content []) : RState) ('<' :: a ++ ['>']) = some ({ cur := .nil, up := [(.nil, a, [])] }, .content []) := by
        have hlt : xmlChar '<' = true := by decide
        have hgt1 : nameChar '>' = false := by decide
        have hgt2 : isWs '>' = false := by decide
        have hgt3 : xmlChar '>' = true := by decide
        rw [List.cons_append]
        simp only [steps, step, hlt, Bool.not_true, Bool.false_eq_true, if_false, if_true]
        rw [steps_append, steps_name _ _ ha, Option.bind_some]
        simp only [steps, step, hgt1, hgt2, hgt3, Bool.not_true, Bool.false_eq_true, if_false, if_true, openElem]
        rfl
      rw [steps_append, h1, Option.bind_some, steps_append, steps_text _ _ _ hall', Option.bind_some]
      have hlt : xmlChar '<' = true := by decide
      have hsl : xmlChar '/' = true := by decide
      have hgt3 : xmlChar '>' = true := by decide
      simp only [steps, step, hlt, hsl, Bool.not_true, Bool.false_eq_true, if_false, if_true]
      rw [steps_append, steps_endName _ _ _ ha.all, Option.bind_some]
      simp only [steps, step, hgt3, Bool.not_true, Bool.false_eq_true, if_false, if_true, List.nil_append]
      rfl
    · rw [if_neg hall]
      have hall : t.all xmlChar = false := by simpa using hall
      rw [← eol_all] at hall
      obtain ⟨c, hc, hx⟩ := bad_flatMap (f := tesc1) (fun c hx => (bad_esc hx).2) hall
      rw [steps_none (c := c) (by simp only [List.mem_append]; exact Or.inr (Or.inl hc)) hx]
  refine ⟨hread, ?_⟩
  rw [hread]
  constructor
  · intro h
    split at h
    · rename_i hall
      rw [List.all_eq_true] at hall
      intro c hc
      refine ⟨hall c hc, ?_⟩
      rintro rfl
      injection h with h
      injection h with _ _ h _
      have hne : ∀ u v : Str, textNode u = textNode v → u = v := by
        intro u v h
        cases u <;> cases v <;> simp_all [textNode]
      have := hne _ _ h
      have hm : '\r' ∈ nbsp t := List.mem_map.mpr ⟨'\r', hc, by decide⟩
      rw [← this] at hm
      obtain ⟨d, hd, he⟩ := List.mem_map.mp hm
      split at he
      · exact absurd he (by decide)
      · subst he; exact eol_noCR t hd
    · cases h
  · intro h
    rw [if_pos (List.all_eq_true.mpr (fun c hc => (h c hc).1)), eol_id (fun hm => (h _ hm).2 rfl)]

/-- A run with everything that needs escaping. -/
example : Plain "a <b> &amp; \"c\"'\n".toList ∧ write (textDoc "t".toList "a <&".toList) = .ok "<t>a&#160;&lt;&amp;</t>".toList := by
  constructor
  · unfold Plain; decide
  · decide +kernel

/-! ### C57 -/

/-- An element with one attribute. -/
def attrDoc (a k v : Str) (esc : Bool) : List Op := [.element a, .set k v esc, .close none]

theorem write_attrDoc (a k v : Str) (esc : Bool) : write (attrDoc a k v esc) =
    .ok (('<' :: a ++ ' ' :: k ++ "='".toList) ++
      ((if esc then replaceChar '\'' "\\'".toList v else v).flatMap esc1 ++ '\'' :: " />".toList)) := by
  simp [write, attrDoc, run, exec, Xml.closeTag, Xml.toString, escapeText_eq]

/-- **C57 is false**: a quote in the value ends the attribute. -/
theorem C57_attribute_false : ¬ ∀ (a k v s : Str), ValidName a → ValidName k → Plain v → write (attrDoc a k v true) = .ok s →
    readXml s = some (.elem a [(k, v)] .nil .nil) := by
  intro h
  have := h ['a'] ['k'] "it's".toList "<a k='it\\'s' />".toList ⟨by decide, by simp⟩ ⟨by decide, by simp⟩
    (by unfold Plain; decide) (by decide +kernel)
  exact absurd this (by decide +kernel)

theorem steps_attrHead (a k : Str) (ha : ValidName a) (hk : ValidName k) :
    steps (({}, .content []) : RState) ('<' :: a ++ ' ' :: k ++ "='".toList) = some ({}, .attrVal a [] k '\'' []) := by
  have hlt : xmlChar '<' = true := by decide
  have hsp1 : xmlChar ' ' = true := by decide
  have hsp2 : nameChar ' ' = false := by decide
  have hsp3 : isWs ' ' = true := by decide
  rw [List.cons_append, List.cons_append]
  simp only [steps, step, hlt, Bool.not_true, Bool.false_eq_true, if_false, if_true]
  rw [List.append_assoc, steps_append, steps_name _ _ ha, Option.bind_some, List.cons_append]
  simp only [steps, step, hsp1, hsp2, hsp3, Bool.not_true, Bool.false_eq_true, if_false, if_true]
  rw [steps_append, steps_attrName _ _ _ _ hk, Option.bind_some]
  rfl

theorem attrHead_noCR (a k : Str) (ha : ValidName a) (hk : ValidName k) : '\r' ∉ '<' :: a ++ ' ' :: k ++ "='".toList := by
  simp only [List.cons_append, List.mem_cons, List.mem_append, not_or]
  exact ⟨by decide, ⟨ha.noCR, by decide, hk.noCR⟩, by decide⟩

/-- **C57, what holds.** A value without `'` is read as the value, with line ends and tabs as spaces, exactly when XML
allows all its characters. A value with `'` is never read as it was (and may make the document ill-formed). -/
theorem C57_attribute_partial (a k v : Str) (esc : Bool) (ha : ValidName a) (hk : ValidName k) :
    ∃ s, write (attrDoc a k v esc) = .ok s ∧
      ('\'' ∉ v → readXml s = if v.all xmlChar then some (.elem a [(k, attrText (eol v))] .nil .nil) else none) ∧
      ('\'' ∈ v → readXml s ≠ some (.elem a [(k, v)] .nil .nil)) := by
  refine ⟨_, write_attrDoc a k v esc, ?_, ?_⟩
  · intro hq
    have hvv : (if esc = true then replaceChar '\'' "\\'".toList v else v) = v := by
      split
      · exact replaceChar_notin hq
      · rfl
    rw [hvv]
    unfold readXml
    rw [eol_append_noCR (attrHead_noCR a k ha hk), eol_flatMap esc1_ok v '\'' _ (by decide) (by decide)]
    have hq' : '\'' ∉ eol v := by
      intro hm
      have : ∀ s : Str, '\'' ∈ eol s → '\'' ∈ s := by
        intro s
        induction s using eol.induct with
        | case1 s ih => rw [eol]; intro h; simp at h ⊢; exact ih h
        | case2 s hs ih =>
          rw [eol]
          · intro h; simp at h ⊢; exact ih h
          · exact hs
        | case3 c s h1 h2 ih =>
          rw [eol]
          · intro h
            rcases List.mem_cons.mp h with h | h
            · exact h ▸ List.mem_cons_self
            · exact List.mem_cons_of_mem _ (ih h)
          · exact h1
          · exact h2
        | case4 => intro h; exact h
      exact hq (this v hm)
    by_cases hall : v.all xmlChar = true
    · rw [if_pos hall]
      have hall' : ∀ c ∈ eol v, xmlChar c = true := by
        have := eol_all v
        rw [hall, List.all_eq_true] at this
        exact this
      rw [steps_append, steps_attrHead a k ha hk, Option.bind_some, steps_append, steps_attr _ _ _ _ _ _ hall' hq', Option.bind_some]
      rfl
    · rw [if_neg hall]
      have hall : v.all xmlChar = false := by simpa using hall
      rw [← eol_all] at hall
      obtain ⟨c, hc, hx⟩ := bad_flatMap (f := esc1) (fun c hx => (bad_esc hx).1) hall
      rw [steps_none (c := c) (by simp only [List.mem_append]; exact Or.inr (Or.inl hc)) hx]
  · intro hq hread
    -- the value is `v1'v2`, the writer emits `v1` (and a backslash), a quote, and something
    obtain ⟨v1, v2, rfl, hv1⟩ : ∃ v1 v2, v = v1 ++ '\'' :: v2 ∧ '\'' ∉ v1 := by
      clear hread
      induction v with
      | nil => cases hq
      | cons c v ih =>
        by_cases hc : c = '\''
        · exact ⟨[], v, by rw [hc]; rfl, by simp⟩
        · rcases List.mem_cons.mp hq with h | h
          · exact absurd h.symm hc
          · obtain ⟨v1, v2, e, hn⟩ := ih h
            exact ⟨c :: v1, v2, by rw [e]; rfl, by simp only [List.mem_cons, not_or]; exact ⟨fun e => hc e.symm, hn⟩⟩
    obtain ⟨w, hwq, tail, htail⟩ : ∃ w : Str, '\'' ∉ w ∧
        ∃ tail, (if esc = true then replaceChar '\'' "\\'".toList (v1 ++ '\'' :: v2) else v1 ++ '\'' :: v2) = w ++ '\'' :: tail := by
      cases esc with
      | false => exact ⟨v1, hv1, v2, rfl⟩
      | true =>
        refine ⟨v1 ++ ['\\'], ?_, replaceChar '\'' "\\'".toList v2, ?_⟩
        · simp only [List.mem_append, List.mem_singleton, not_or]; exact ⟨hv1, by decide⟩
        · have : replaceChar '\'' "\\'".toList v1 = v1 := replaceChar_notin hv1
          simp only [if_true]
          unfold replaceChar at this ⊢
          rw [List.flatMap_append, this, List.flatMap_cons]
          simp
    rw [htail] at hread
    have hsplit : ('<' :: a ++ ' ' :: k ++ "='".toList) ++ ((w ++ '\'' :: tail).flatMap esc1 ++ '\'' :: " />".toList) =
        ('<' :: a ++ ' ' :: k ++ "='".toList) ++ (w.flatMap esc1 ++ '\'' :: (tail.flatMap esc1 ++ '\'' :: " />".toList)) := by
      have : esc1 '\'' = ['\''] := by decide
      simp [this]
    rw [hsplit] at hread
    unfold readXml at hread
    have heol : ∀ (u : Str) (t : Str), eol (u.flatMap esc1 ++ '\'' :: t) = (eol u).flatMap esc1 ++ '\'' :: eol t := by
      intro u t
      induction u using eol.induct with
      | case1 s ih =>
        have h1 : esc1 '\r' = ['\r'] := by decide
        have h2 : esc1 '\n' = ['\n'] := by decide
        rw [eol]
        simp only [List.flatMap_cons, h1, h2, List.cons_append, List.nil_append]
        rw [eol, ih]
      | case2 s hs ih =>
        have h1 : esc1 '\r' = ['\r'] := by decide
        have h2 : esc1 '\n' = ['\n'] := by decide
        have h3 : eol ('\r' :: s) = '\n' :: eol s := by
          apply eol_cons_cr
          intro h
          cases s with
          | nil => cases h
          | cons c s => simp at h; subst h; exact hs s rfl
        rw [h3]
        simp only [List.flatMap_cons, h1, h2, List.cons_append, List.nil_append]
        rw [eol_cons_cr, ih]
        cases s with
        | nil => simp
        | cons c s =>
          have hc : c ≠ '\n' := by rintro rfl; exact hs s rfl
          obtain ⟨e, r, he, hne⟩ := esc1_ok.head c hc
          simp only [List.flatMap_cons, he, List.cons_append, List.head?_cons]
          intro h; injection h with h; exact hne h
      | case3 c s h1 h2 ih =>
        have h3 : eol (c :: s) = c :: eol s := by
          rw [eol]
          · exact h1
          · exact h2
        rw [h3]
        simp only [List.flatMap_cons, List.append_assoc]
        rw [eol_append_noCR (esc1_ok.other c h2), ih]
      | case4 =>
        simp only [List.flatMap_nil, List.nil_append, eol]
        have := eol_append_noCR (u := ['\'']) (by decide) t
        simpa using this
    rw [eol_append_noCR (attrHead_noCR a k ha hk), heol] at hread
    rw [steps_append, steps_attrHead a k ha hk, Option.bind_some] at hread
    have hemem : ∀ s : Str, '\'' ∈ eol s → '\'' ∈ s := by
      intro s
      induction s using eol.induct with
      | case1 s ih => rw [eol]; intro h; simp at h ⊢; exact ih h
      | case2 s hs ih =>
        rw [eol]
        · intro h; simp at h ⊢; exact ih h
        · exact hs
      | case3 c s h1 h2 ih =>
        rw [eol]
        · intro h
          rcases List.mem_cons.mp h with h | h
          · exact h ▸ List.mem_cons_self
          · exact List.mem_cons_of_mem _ (ih h)
        · exact h1
        · exact h2
      | case4 => intro h; exact h
    by_cases hall : w.all xmlChar = true
    · have hall' : ∀ c ∈ eol w, xmlChar c = true := by
        have := eol_all w
        rw [hall, List.all_eq_true] at this
        exact this
      rw [steps_append, steps_attr _ _ _ _ _ _ hall' (fun h => hwq (hemem w h)), Option.bind_some] at hread
      have hq1 : xmlChar '\'' = true := by decide
      simp only [steps, step, hq1, Bool.not_true, Bool.false_eq_true, if_false, if_true, List.map_nil, List.not_mem_nil,
        List.nil_append] at hread
      split at hread
      · cases hread
      · rename_i st hst
        have h0 : FirstAttr (k, attrText (eol w)) (({}, .attrEnd a [(k, attrText (eol w))]) : RState) := by
          simp only [FirstAttr, List.getLast?_nil]
          exact Or.inr ⟨trivial, _, rfl, rfl⟩
        obtain ⟨n, as, kk, r, he, hh⟩ := final_firstAttr (steps_firstAttr h0 hst) hread
        injection he with _ he _ _
        subst he
        simp only [List.head?_cons, Option.some.injEq, Prod.mk.injEq, true_and] at hh
        have hmem : '\'' ∈ attrText (eol w) := by rw [← hh]; simp
        obtain ⟨c, hc, hce⟩ := List.mem_map.mp hmem
        split at hce
        · exact absurd hce (by decide)
        · subst hce; exact hwq (hemem w hc)
    · have hall : w.all xmlChar = false := by simpa using hall
      rw [← eol_all] at hall
      obtain ⟨c, hc, hx⟩ := bad_flatMap (f := esc1) (fun c hx => (bad_esc hx).1) hall
      rw [steps_none (c := c) (by simp only [List.mem_append]; exact Or.inl hc) hx] at hread
      cases hread

/-- Values with and without a quote. -/
example : write (attrDoc "a".toList "k".toList "x<&>\"".toList true) = .ok "<a k='x&lt;&amp;&gt;\"' />".toList ∧
    '\'' ∈ "it's".toList ∧ write (attrDoc "a".toList "k".toList "it's".toList true) = .ok "<a k='it\\'s' />".toList := by
  decide +kernel

end Verif.Xml
