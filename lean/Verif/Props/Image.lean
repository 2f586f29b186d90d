import Verif.Proofs.Image
import Verif.Props.Show
import Verif.Props.Slide

/-! # Properties C62 and C63: fragments of images -/

namespace Verif.Image
open Spec Verif.Show Verif.Show.Spec

/-- A document with its identities, `id`s given in order. -/
def elem (id : Nat) (tag : String) (label : Option String) (text tail : String) : Elem :=
  ⟨id, tag.toList, label.map String.toList, text.toList, tail.toList⟩

/-! ### C62 -/

/-- **C62**, full statement: the hidden elements are removed with everything inside and nothing else changes; the
documents in memory (the cached image among them) stay as they are. -/
def PrunesExactly : Prop :=
  ∀ (mem : List Root) (r : Root) (f : Int) (hid : Option Str → Bool), r.ids.Nodup →
    (∀ l, hid l = true ↔ HiddenIn f l) → GoodLabels hid r.kids →
    ∃ r', createImageData mem r f = .ok (mem ++ [r']) ∧
      Root.dom r' = (r.e.tag, r.e.label, (dom r.e.text r.kids).prune hid)

theorem hid_eq {f : Int} {hid : Option Str → Bool} (h : ∀ l, hid l = true ↔ HiddenIn f l) : hid = hiddenB f := by
  funext l
  have := (h l).trans (hiddenB_iff f l).symm
  cases h1 : hid l <;> cases h2 : hiddenB f l <;> simp_all

theorem createImageData_dom {mem : List Root} {r : Root} (hn : r.ids.Nodup) {f : Int} (hg : GoodLabels (hiddenB f) r.kids) :
    ∃ r', createImageData mem r f = .ok (mem ++ [r']) ∧
      Root.dom r' = (r.e.tag, r.e.label, dom r.e.text (pruneTails (hiddenB f) r.kids)) :=
  ⟨_, createImageData_eq hn f hg, by simp [Root.dom, Root.copy, dom_shift]⟩

/-- `<text>a<tspan inkscape:label="**2">b</tspan>c</text>` -/
def sampleTail : Root :=
  ⟨elem 0 "svg" none "" "", .node (elem 1 "text" none "a" "") (.node (elem 2 "tspan" (some "x **2") "b" "c") .nil .nil) .nil⟩

/-- **C62 is false of the code**: the text after a removed element is removed as well. -/
theorem C62_prune_false : ¬ PrunesExactly := by
  intro h
  have hg : GoodLabels (hiddenB 1) sampleTail.kids :=
    (createImageData_ok [] sampleTail (by decide) 1).mp ⟨_, rfl⟩
  obtain ⟨r', hc, hd⟩ := h [] sampleTail 1 (hiddenB 1) (by decide) (hiddenB_iff 1) hg
  rw [createImageData_eq (by decide) 1 hg] at hc
  simp only [List.nil_append, Except.ok.injEq, List.cons.injEq, and_true] at hc
  rw [← hc] at hd
  revert hd
  decide +kernel

/-- **C62 (partial).** The copy that is drawn consists of the elements that are neither hidden nor inside hidden ones,
in place; the documents in memory are unchanged; and it is exactly the pruned document if and only if no text
follows a removed element. Missing: text after a removed element is lost. -/
theorem C62_prune_partial (mem : List Root) (r : Root) (f : Int) (hid : Option Str → Bool) (hn : r.ids.Nodup)
    (hh : ∀ l, hid l = true ↔ HiddenIn f l) (hg : GoodLabels hid r.kids) :
    ∃ r', createImageData mem r f = .ok (mem ++ [r']) ∧
      Root.dom r' = (r.e.tag, r.e.label, dom r.e.text (pruneTails hid r.kids)) ∧
      (Root.dom r' = (r.e.tag, r.e.label, (dom r.e.text r.kids).prune hid) ↔ TailFree hid r.kids) := by
  obtain rfl := hid_eq hh
  obtain ⟨r', h1, h2⟩ := createImageData_dom (mem := mem) hn hg
  refine ⟨r', h1, h2, ?_⟩
  rw [h2, ← prune_iff' (hiddenB f) r.e.text]
  simp

/-- **C62 (failure).** It fails exactly if a label that is looked at cannot be understood. -/
theorem C62_failure (mem : List Root) (r : Root) (f : Int) (hid : Option Str → Bool) (hn : r.ids.Nodup)
    (hh : ∀ l, hid l = true ↔ HiddenIn f l) :
    (∃ e, createImageData mem r f = .error e) ↔ ¬ GoodLabels hid r.kids := by
  obtain rfl := hid_eq hh
  rw [← createImageData_ok mem r hn f]
  cases createImageData mem r f <;> simp

/-- Two layers, one hidden in fragment 1, and a nested hidden one. -/
def sampleImage : Root :=
  ⟨elem 0 "svg" none "" "",
    .node (elem 1 "g" (some "one **1+") "" "") (.node (elem 2 "rect" (some "**3**") "" "") .nil (.node (elem 3 "path" none "" "") .nil .nil))
      (.node (elem 4 "g" (some "**2-3") "" "") (.node (elem 5 "circle" none "" "") .nil .nil) .nil)⟩

/-- The example meets the hypotheses; fragment 1 has a `g` with a `path`, fragment 2 also has the second `g`. -/
example : sampleImage.ids.Nodup ∧ GoodLabels (hiddenB 1) sampleImage.kids ∧ TailFree (hiddenB 1) sampleImage.kids ∧
    pruneTails (hiddenB 1) sampleImage.kids =
      .node (elem 1 "g" (some "one **1+") "" "") (.node (elem 3 "path" none "" "") .nil .nil) .nil ∧
    pruneTails (hiddenB 2) sampleImage.kids =
      .node (elem 1 "g" (some "one **1+") "" "") (.node (elem 3 "path" none "" "") .nil .nil)
        (.node (elem 4 "g" (some "**2-3") "" "") (.node (elem 5 "circle" none "" "") .nil .nil) .nil) := by
  refine ⟨by decide, (createImageData_ok [] sampleImage (by decide) 1).mp ⟨_, rfl⟩, ?_, by decide +kernel, by decide +kernel⟩
  rw [← prune_iff]
  decide +kernel

/-- The labels mean what they say. -/
example : LabelShow "one **1+".toList "1+".toList ∧ LabelShow "**3**".toList "3".toList ∧ HiddenIn 1 (some "**3**".toList) ∧
    GoodLabel (some "no marker".toList) ∧ ¬ GoodLabel (some "**x".toList) := by
  refine ⟨LabelShow.toEnd "one ".toList "1+".toList (by decide) (by decide),
    LabelShow.closed [] "3".toList [] (by decide) (by decide), ?_, ?_, ?_⟩
  · rw [← hiddenB_iff]; decide +kernel
  · rw [goodLabel_iff]; exact ⟨none, by decide +kernel⟩
  · rw [goodLabel_iff]
    rintro ⟨i, hi⟩
    have : (fromLabel (some "**x".toList)).toOption.isSome = false := by decide +kernel
    rw [hi] at this
    cases this

/-! ### C63 -/

/-- What should be seen of an image in fragment `page` of the slide, as documented. -/
def expected (c : Sched) (page : Int) : Drawn :=
  if page < c.showBegin then .nothing
  else
    match c.select with
    | some l =>
      match l[(page - c.showBegin).toNat]? with
      | some (some f) => if 1 ≤ f then .fragment f else .nothing
      | _ => .nothing
    | none => if c.fragments then .fragment (page - c.showBegin + 1) else .whole

/-- The result shows that part of the image. (What fragment `f` of an image is, is the subject of C62.) -/
def Shows (r : Root) : Option Root → Drawn → Prop
  | none, .nothing => True
  | some r', .whole => Root.dom r' = Root.dom r
  | some r', .fragment f => ∀ hid : Option Str → Bool, (∀ l, hid l = true ↔ HiddenIn f l) →
      Root.dom r' = (r.e.tag, r.e.label, dom r.e.text (pruneTails hid r.kids))
  | _, _ => False

/-- All labels of the image are understood. -/
def AllLabelsGood : Forest → Prop
  | .nil => True
  | .node e kids rest => GoodLabel e.label ∧ AllLabelsGood kids ∧ AllLabelsGood rest

/-- **C63**, full statement. -/
def ScheduledAsDocumented : Prop :=
  ∀ (mem : List Root) (r : Root) (c : Sched) (page : Int), r.ids.Nodup → GoodLabel r.e.label → AllLabelsGood r.kids →
    ∃ mem' out, drawData mem r c page = .ok (mem', out) ∧ Shows r out (expected c page)

/-- One layer that is only in fragment 1. -/
def sampleOne : Root := ⟨elem 0 "svg" none "" "", .node (elem 1 "g" (some "**1") "" "") .nil .nil⟩

/-- **C63 is false of the code**: an image with a single fragment is shown as a whole in all later fragments, also
what is labelled for fragment 1 only. -/
theorem C63_schedule_false : ¬ ScheduledAsDocumented := by
  intro h
  have hg : GoodLabel (some "**1".toList) := by
    rw [goodLabel_iff]; exact ⟨_, rfl⟩
  obtain ⟨mem', out, h1, h2⟩ := h [] sampleOne {} 2 (by decide) (by rw [goodLabel_iff]; exact ⟨_, rfl⟩) ⟨hg, trivial, trivial⟩
  have : drawData [] sampleOne {} 2 = .ok ([], some sampleOne) := by decide +kernel
  rw [this] at h1
  cases h1
  have he : expected {} 2 = .fragment 2 := by decide +kernel
  rw [he] at h2
  revert h2
  intro h2
  have h2 := h2 _ (hiddenB_iff 2)
  revert h2
  decide +kernel

theorem goodLabels_of_all (hid : Option Str → Bool) {f : Forest} (h : AllLabelsGood f) : GoodLabels hid f := by
  induction f with
  | nil => trivial
  | node e kids rest ihk ihr => exact ⟨h.1, fun _ => ihk h.2.1, ihr h.2.2⟩

theorem drawFragment {mem : List Root} {r : Root} (hn : r.ids.Nodup) (hg : AllLabelsGood r.kids) {c : Sched} {page f : Int}
    (h : drawn r c page = .ok (.fragment f)) :
    ∃ r', drawData mem r c page = .ok (mem ++ [r'], some r') ∧ Shows r (some r') (.fragment f) := by
  obtain ⟨r', h1, h2⟩ := createImageData_dom (mem := mem) hn (goodLabels_of_all (hiddenB f) hg)
  refine ⟨r', ?_, fun hid hh => by rw [hid_eq hh]; exact h2⟩
  unfold drawData
  rw [h]
  dsimp only
  rw [h1]
  simp

/-- The labels of a list of elements, everything inside included. -/
def labels : Forest → List (Option Str)
  | .nil => []
  | .node e kids rest => e.label :: (labels kids ++ labels rest)

/-- A label mentions fragment `f`: it selects it, or starts an open interval there. -/
def LabelMentions (label : Option Str) (f : Int) : Prop :=
  ∃ l s is, label = some l ∧ LabelShow l s ∧ Writes isSpace s is ∧ Legal none is ∧
    ∃ i ∈ is, (i.isOpen = false ∧ i.Selects none f) ∨ ∃ bd, i = .opn bd ∧ bd.value none = some f

theorem stepsLoop_le {f : Forest} {n m : Int} (h : stepsLoop n f = .ok m) :
    n ≤ m ∧ ∀ l ∈ labels f, ∀ i, fromLabel l = .ok (some i) → i.getMinSteps ≤ m := by
  induction f generalizing n m with
  | nil => cases h; exact ⟨le_refl _, by simp [labels]⟩
  | node e kids rest ihk ihr =>
    rw [stepsLoop] at h
    split at h
    · cases h
    · rename_i i hi
      split at h
      · cases h
      · rename_i k hk
        obtain ⟨k1, k2⟩ := ihk hk
        obtain ⟨r1, r2⟩ := ihr h
        have hn : n ≤ k := by
          cases i with
          | none => exact k1
          | some i => exact le_trans (le_max_left _ _) k1
        refine ⟨le_trans hn r1, ?_⟩
        intro l hl j hj
        simp only [labels, List.mem_cons, List.mem_append] at hl
        rcases hl with rfl | hl | hl
        · unfold labelInfo at hi
          rw [hi] at hj
          cases hj
          exact le_trans (le_trans (le_max_right _ _) k1) r1
        · exact le_trans (k2 l hl j hj) r1
        · exact r2 l hl j hj

theorem mentions_le {l : Option Str} {f : Int} (h : LabelMentions l f) : ∃ i, fromLabel l = .ok (some i) ∧ f ≤ i.getMinSteps := by
  obtain ⟨l, s, is, rfl, hs, hw, hl, it, hit, hm⟩ := h
  obtain ⟨steps, o, hp, h2, h3⟩ := parse_legal none s is hw hl
  refine ⟨_, by rw [fromLabel_of_show hs, hp], ?_⟩
  have hms : ∀ st, (newInfo (some st) o none).getMinSteps = maxStepOf st o := fun _ => rfl
  rw [hms]
  unfold maxStepOf
  rcases hm with ⟨hno, hsel⟩ | ⟨bd, rfl, hv⟩
  · refine le_trans ?_ (le_max_left _ _)
    have hmem : f ∈ (steps.dedup).insertionSort (· ≤ ·) := by
      rw [List.mem_insertionSort, List.mem_dedup]
      exact (h2 f).mpr ⟨it, hit, hno, hsel⟩
    cases hmax : ((steps.dedup).insertionSort (· ≤ ·)).max? with
    | none => rw [List.max?_eq_none_iff] at hmax; rw [hmax] at hmem; cases hmem
    | some m => exact (List.max?_eq_some_iff.mp hmax).2 f hmem
  · refine le_trans ?_ (le_max_right _ _)
    have := (h3 f).mpr ⟨bd, hit, hv⟩
    subst this
    dsimp only
    split <;> omega

theorem minSteps_le {l : Option Str} {i : ShowInfo} (h : fromLabel l = .ok (some i)) (hf : ∀ f, LabelMentions l f → f ≤ 1) :
    i.getMinSteps ≤ 1 := by
  cases l with
  | none => cases h
  | some lab =>
    unfold fromLabel at h
    dsimp only at h
    split at h
    · cases h
    · rename_i a r hc
      have hs := secondPart_spec hc
      split at h
      · cases h
      · rename_i info hp
        injection h with h
        injection h with h
        subst h
        obtain ⟨is, hw, hl⟩ := (C20_only_legal_selectors none _).mp ⟨info, hp⟩
        obtain ⟨steps, o, hp', h2, h3⟩ := parse_legal none _ is hw hl
        rw [hp] at hp'
        injection hp' with hp'
        subst hp'
        show maxStepOf _ o ≤ 1
        unfold maxStepOf
        refine max_le ?_ ?_
        · show (((steps.dedup).insertionSort (· ≤ ·)).max?).getD 1 ≤ 1
          cases hmax : ((steps.dedup).insertionSort (· ≤ ·)).max? with
          | none => exact le_refl _
          | some m =>
            have hm := (List.max?_eq_some_iff.mp hmax).1
            rw [List.mem_insertionSort, List.mem_dedup] at hm
            obtain ⟨it, hit, hno, hsel⟩ := (h2 m).mp hm
            exact hf m ⟨lab, _, is, rfl, hs, hw, hl, it, hit, .inl ⟨hno, hsel⟩⟩
        · cases o with
          | none => exact le_refl _
          | some k =>
            obtain ⟨bd, hit, hv⟩ := (h3 k).mp rfl
            have := hf k ⟨lab, _, is, rfl, hs, hw, hl, _, hit, .inr ⟨bd, rfl, hv⟩⟩
            dsimp only
            split
            · exact le_refl _
            · exact this

theorem stepsLoop_one {f : Forest} (hg : AllLabelsGood f) (h : ∀ l ∈ labels f, ∀ k, LabelMentions l k → k ≤ 1) :
    stepsLoop 1 f = .ok 1 := by
  induction f with
  | nil => rfl
  | node e kids rest ihk ihr =>
    obtain ⟨i, hi⟩ := (goodLabel_iff _).mp hg.1
    rw [stepsLoop]
    unfold labelInfo
    rw [hi]
    have hk := ihk hg.2.1 (fun l hl => h l (by simp [labels, hl]))
    have hr := ihr hg.2.2 (fun l hl => h l (by simp [labels, hl]))
    cases i with
    | none => dsimp only; rw [hk]; exact hr
    | some i =>
      dsimp only
      rw [max_eq_left (minSteps_le hi (h _ (by simp [labels]))), hk]
      exact hr

theorem schedule_of_steps (mem : List Root) (r : Root) (c : Sched) (page : Int) (hn : r.ids.Nodup)
    (hr : GoodLabel r.e.label) (hg : AllLabelsGood r.kids)
    (hc : c.select ≠ none ∨ c.fragments = false ∨ getImageSteps r ≠ .ok 1) :
    ∃ mem' out, drawData mem r c page = .ok (mem', out) ∧ Shows r out (expected c page) ∧ mem <+: mem' := by
  have steps_ok : ∀ (f : Forest) (n : Int), AllLabelsGood f → ∃ m, stepsLoop n f = .ok m := by
    intro f
    induction f with
    | nil => intro n _; exact ⟨n, rfl⟩
    | node e kids rest ihk ihr =>
      intro n h
      obtain ⟨i, hi⟩ := (goodLabel_iff _).mp h.1
      rw [stepsLoop]
      unfold labelInfo
      rw [hi]
      dsimp only
      cases i with
      | none =>
        obtain ⟨m, hm⟩ := ihk n h.2.1
        obtain ⟨m', hm'⟩ := ihr m h.2.2
        exact ⟨m', by dsimp only; rw [hm]; exact hm'⟩
      | some i =>
        obtain ⟨m, hm⟩ := ihk (max n i.getMinSteps) h.2.1
        obtain ⟨m', hm'⟩ := ihr m h.2.2
        exact ⟨m', by dsimp only; rw [hm]; exact hm'⟩
  obtain ⟨n, hsteps⟩ := steps_ok (.node r.e r.kids .nil) 1 ⟨hr, hg, trivial⟩
  have nothing : drawn r c page = .ok .nothing → expected c page = .nothing →
      ∃ mem' out, drawData mem r c page = .ok (mem', out) ∧ Shows r out (expected c page) ∧ mem <+: mem' := by
    intro h1 h2
    exact ⟨mem, none, by unfold drawData; rw [h1], by rw [h2]; trivial, List.prefix_refl _⟩
  have fragment : ∀ f, drawn r c page = .ok (.fragment f) → expected c page = .fragment f →
      ∃ mem' out, drawData mem r c page = .ok (mem', out) ∧ Shows r out (expected c page) ∧ mem <+: mem' := by
    intro f h1 h2
    obtain ⟨r', h3, h4⟩ := drawFragment (mem := mem) hn hg h1
    exact ⟨_, _, h3, h2 ▸ h4, List.prefix_append _ _⟩
  obtain ⟨frag, b, sel⟩ := c
  cases sel with
  | some l =>
    have hcond : ¬ ((l.length : Int) = 1 ∧ ((some l : Option (List (Option Int))) = none ∨ some l = some [])) := by
      rintro ⟨h1, h2 | h2⟩
      · cases h2
      · injection h2 with h2; subst h2; simp at h1
    by_cases hb : page < b
    · apply nothing
      · simp only [drawn, imageSteps, if_neg hcond]
        rw [if_neg (by omega)]
      · simp [expected, hb]
    · have hidx : (page - b + 1 - 1).toNat = (page - b).toNat := by congr 1; omega
      cases hl : l[(page - b).toNat]? with
      | none =>
        have hlen := List.getElem?_eq_none_iff.mp hl
        apply nothing
        · simp only [drawn, imageSteps, if_neg hcond]
          rw [if_neg (by omega)]
        · simp only [expected, if_neg hb, hl]
      | some o =>
        have hlen : (page - b).toNat < l.length := (List.getElem?_eq_some_iff.mp hl).1
        have hpos : 0 < page - b + 1 ∧ page - b + 1 ≤ (l.length : Int) := by omega
        cases o with
        | none =>
          apply nothing
          · simp only [drawn, imageSteps, if_neg hcond, if_pos hpos, hidx, hl]
          · simp only [expected, if_neg hb, hl]
        | some f =>
          by_cases hf : f < 1
          · apply nothing
            · simp only [drawn, imageSteps, if_neg hcond, if_pos hpos, hidx, hl, if_pos hf]
            · simp only [expected, if_neg hb, hl]
              rw [if_neg (by omega)]
          · apply fragment f
            · simp only [drawn, imageSteps, if_neg hcond, if_pos hpos, hidx, hl, if_neg hf]
            · simp only [expected, if_neg hb, hl]
              rw [if_pos (by omega)]
  | none =>
    cases frag with
    | false =>
      by_cases hb : page < b
      · apply nothing
        · simp [drawn, imageSteps, hb]
        · simp [expected, hb]
      · refine ⟨mem, some r, ?_, ?_, List.prefix_refl _⟩
        · have : drawn r ⟨false, b, none⟩ page = .ok .whole := by simp [drawn, imageSteps, hb]
          unfold drawData; rw [this]
        · simp [expected, hb, Shows]
    | true =>
      have h1 : n ≠ 1 := by
        intro h
        rcases hc with h' | h' | h'
        · exact h' rfl
        · cases h'
        · exact h' (h ▸ hsteps)
      have hd : ∀ {x}, (if page - b + 1 < 1 then Except.ok (ε := Err) Drawn.nothing else Except.ok (Drawn.fragment (page - b + 1))) = x →
          drawn r ⟨true, b, none⟩ page = x := by
        intro x hx
        have : getImageSteps r = .ok n := hsteps
        simp only [drawn, imageSteps, if_true, this]
        rw [if_neg (fun h => h1 h.1)]
        exact hx
      by_cases hb : page < b
      · apply nothing
        · exact hd (if_pos (by omega))
        · simp [expected, hb]
      · apply fragment (page - b + 1)
        · exact hd (if_neg (by omega))
        · simp [expected, hb]

example : getImageSteps sampleImage = .ok 3 ∧ expected { showBegin := 2 } 3 = .fragment 2 ∧
    expected { select := some [some 1, some 3, none, some 2] } 2 = .fragment 3 ∧
    expected { select := some [some 1, some 3, none, some 2] } 3 = .nothing ∧
    (drawData [sampleImage] sampleImage { showBegin := 2 } 3).toOption.map (fun p => p.2.map (fun r => r.kids.ids.length)) =
      some (some 4) := by decide +kernel

/-- No element that is not inside a hidden one is hidden. -/
def NoneHidden (hid : Option Str → Bool) : Forest → Prop
  | .nil => True
  | .node e kids rest => hid e.label = false ∧ NoneHidden hid kids ∧ NoneHidden hid rest

theorem size_prune_le (hid : Option Str → Bool) (f : Forest) : Dom.size (dom [] (pruneTails hid f)) ≤ Dom.size (dom [] f) := by
  induction f with
  | nil => simp [pruneTails]
  | node e kids rest ihk ihr =>
    have hc : chars [] = id := rfl
    simp only [pruneTails, dom, hc, id, Dom.size]
    rw [dom_chars e.text kids, dom_chars e.tail rest, size_chars, size_chars]
    split
    · omega
    · simp only [dom, hc, id, Dom.size]
      rw [dom_chars e.text, dom_chars e.tail, size_chars, size_chars]; omega

theorem noneHidden_iff (hid : Option Str → Bool) (f : Forest) : dom [] (pruneTails hid f) = dom [] f ↔ NoneHidden hid f := by
  induction f with
  | nil => simp [pruneTails, NoneHidden]
  | node e kids rest ihk ihr =>
    have hc : chars [] = id := rfl
    simp only [pruneTails, dom, hc, id, NoneHidden, ← ihk, ← ihr]
    cases hh : hid e.label with
    | true =>
      simp only [if_true, Bool.true_eq_false, false_and, iff_false]
      intro h
      have h1 := congrArg Dom.size h
      have h2 := size_prune_le hid rest
      simp only [Dom.size] at h1
      rw [dom_chars e.text kids, dom_chars e.tail rest, size_chars, size_chars] at h1
      omega
    | false =>
      simp only [Bool.false_eq_true, if_false, true_and, dom, hc, id]
      rw [dom_chars e.text kids, dom_chars e.text, dom_chars e.tail, dom_chars e.tail rest]
      constructor
      · intro h
        injection h with _ _ h1 h2
        exact ⟨chars_inj h1, chars_inj h2⟩
      · rintro ⟨h1, h2⟩; rw [h1, h2]

theorem noneHidden_labels (f : Int) (t : Forest) : NoneHidden (hiddenB f) t ↔ ∀ l ∈ labels t, ¬ HiddenIn f l := by
  induction t with
  | nil => simp [NoneHidden, labels]
  | node e kids rest ihk ihr =>
    simp only [NoneHidden, labels, List.mem_cons, List.mem_append, ihk, ihr, ← hiddenB_iff, Bool.not_eq_true]
    constructor
    · rintro ⟨h1, h2, h3⟩ l (rfl | h | h)
      · exact h1
      · exact h2 l h
      · exact h3 l h
    · intro h
      exact ⟨h _ (.inl rfl), fun l hl => h l (.inr (.inl hl)), fun l hl => h l (.inr (.inr hl))⟩

theorem single_of_steps (mem : List Root) (r : Root) (b page : Int) (h1 : getImageSteps r = .ok 1) :
    drawData mem r { showBegin := b } page = .ok (mem, if page < b then none else some r) ∧
      (Shows r (if page < b then none else some r) (expected { showBegin := b } page) ↔
        page < b ∨ ∀ l ∈ labels r.kids, ¬ HiddenIn (page - b + 1) l) := by
  by_cases hb : page < b
  · simp [drawData, drawn, imageSteps, h1, hb, expected, Shows]
  · refine ⟨by simp [drawData, drawn, imageSteps, h1, hb], ?_⟩
    have he : expected { showBegin := b } page = .fragment (page - b + 1) := by simp [expected, hb]
    rw [he, if_neg hb]
    simp only [hb, false_or]
    have hs : Shows r (some r) (.fragment (page - b + 1)) ↔
        Root.dom r = (r.e.tag, r.e.label, dom r.e.text (pruneTails (hiddenB (page - b + 1)) r.kids)) :=
      ⟨fun h => h _ (hiddenB_iff _), fun h hid hh => by rw [hid_eq hh]; exact h⟩
    rw [hs, ← noneHidden_labels, ← noneHidden_iff]
    unfold Root.dom
    rw [dom_chars, dom_chars r.e.text (pruneTails _ _)]
    simp only [Prod.mk.injEq, true_and]
    exact ⟨fun h => (chars_inj h).symm, fun h => by rw [h]⟩

example : getImageSteps sampleOne = .ok 1 ∧ NoneHidden (hiddenB 1) sampleOne.kids := by
  refine ⟨by decide +kernel, ?_, trivial, trivial⟩
  decide +kernel

/-- **C63 (partial).** With `select_fragments`, with `fragments=False`, or if a label of the image (the root included) mentions
a fragment after the first, every fragment of the slide shows what is documented; the documents in memory before are kept. Missing: images
none of whose labels mentions a fragment after the first, see `C63_single`. -/
theorem C63_schedule_partial (mem : List Root) (r : Root) (c : Sched) (page : Int) (hn : r.ids.Nodup)
    (hr : GoodLabel r.e.label) (hg : AllLabelsGood r.kids)
    (hc : c.select ≠ none ∨ c.fragments = false ∨ ∃ l ∈ labels (.node r.e r.kids .nil), ∃ f, 1 < f ∧ LabelMentions l f) :
    ∃ mem' out, drawData mem r c page = .ok (mem', out) ∧ Shows r out (expected c page) ∧ mem <+: mem' := by
  refine schedule_of_steps mem r c page hn hr hg ?_
  rcases hc with h | h | ⟨l, hl, f, hf, hm⟩
  · exact .inl h
  · exact .inr (.inl h)
  · refine .inr (.inr fun h1 => ?_)
    obtain ⟨i, hi, hle⟩ := mentions_le hm
    have := (stepsLoop_le (f := .node r.e r.kids .nil) h1).2 l hl i hi
    omega

/-- **C63 (the remaining case).** An image none of whose labels mentions a fragment after the first is shown as a whole
from `show_begin` on; this is what is documented exactly if nothing is hidden in the fragment. -/
theorem C63_single (mem : List Root) (r : Root) (b page : Int) (hr : GoodLabel r.e.label) (hg : AllLabelsGood r.kids)
    (h1 : ∀ l ∈ labels (.node r.e r.kids .nil), ∀ f, LabelMentions l f → f ≤ 1) :
    drawData mem r { showBegin := b } page = .ok (mem, if page < b then none else some r) ∧
      (Shows r (if page < b then none else some r) (expected { showBegin := b } page) ↔
        page < b ∨ ∀ l ∈ labels r.kids, ¬ HiddenIn (page - b + 1) l) :=
  single_of_steps mem r b page (stepsLoop_one (f := .node r.e r.kids .nil) ⟨hr, hg, trivial⟩ h1)

example : GoodLabel sampleOne.e.label ∧ AllLabelsGood sampleOne.kids ∧
    (∀ l ∈ labels (.node sampleOne.e sampleOne.kids .nil), ∀ f, LabelMentions l f → f ≤ 1) := by
  refine ⟨by rw [goodLabel_iff]; exact ⟨_, rfl⟩, ⟨by rw [goodLabel_iff]; exact ⟨_, rfl⟩, trivial, trivial⟩, ?_⟩
  intro l hl f hf
  obtain ⟨i, hi, hle⟩ := mentions_le hf
  have hl' : l = none ∨ l = some "**1".toList := by simpa [labels, sampleOne, elem] using hl
  rcases hl' with rfl | rfl
  · cases hi
  · have : fromLabel (some "**1".toList) = .ok (some ⟨[1], none, 1⟩) := by decide +kernel
    rw [this] at hi
    cases hi
    exact hle

/-- **C63 (enough pages).** The slide has a page for every entry of `select_fragments`, and without it for every
fragment mentioned by a label of the image (the root included) and for the first one; whatever is done with the slide
before and after. -/
theorem C63_enough_pages (w h iw ih : Rat) (before after : List Slide.Call) (p : Nat) (mid s : Slide.State) (r : Root) (c : Sched)
    (n : Int) (hn : ensured r c = .ok n) (hmid : Slide.run (Slide.newSlide w h) before = .ok mid)
    (hr : Slide.run mid (.image p iw ih (some n) :: after) = .ok s) :
    (∀ l, c.select = some l → ∀ k : Nat, k < l.length → c.showBegin + k ≤ s.steps) ∧
    (c.select = none → c.showBegin ≤ s.steps ∧ (c.fragments = true →
      ∀ l ∈ labels (.node r.e r.kids .nil), ∀ f, LabelMentions l f → c.showBegin - 1 + f ≤ s.steps)) := by
  have hpages := Slide.C23_mentioned_fragment_has_page w h before after _ mid s hmid hr n rfl
  unfold ensured at hn
  split at hn
  · cases hn
  · rename_i m hm
    injection hn with hn
    constructor
    · intro l hl k hk
      simp only [imageSteps, hl] at hm
      injection hm with hm
      omega
    · intro hs
      simp only [imageSteps, hs] at hm
      split at hm
      · obtain ⟨h1, h2⟩ := stepsLoop_le (f := .node r.e r.kids .nil) hm
        refine ⟨by omega, fun _ l hl f hf => ?_⟩
        obtain ⟨i, hi, hle⟩ := mentions_le hf
        have := h2 l hl i hi
        omega
      · rename_i hfr
        injection hm with hm
        exact ⟨by omega, fun h => absurd h hfr⟩

example : ensured sampleImage { showBegin := 2 } = .ok 4 ∧ LabelMentions (some "**2-3".toList) 3 ∧
    ((Slide.run (Slide.newSlide 100 100) [.image 0 10 10 (some 4)]).toOption.map Slide.State.steps) = some 4 := by
  refine ⟨by decide +kernel, ⟨_, "2-3".toList, [.range (.num "2".toList) "3".toList], rfl,
    LabelShow.toEnd [] "2-3".toList (by decide) (by decide), ?_, ⟨?_, ?_, by decide⟩, _, List.mem_singleton.mpr rfl, ?_⟩, by decide +kernel⟩
  · exact Writes.one [] [] (.range (.num "2".toList) "3".toList) (by simp)
  · intro i hi
    rw [List.mem_singleton.mp hi]
    exact ⟨⟨by decide, by decide⟩, by decide, by decide⟩
  · intro i hi
    rw [List.mem_singleton.mp hi]
    exact ⟨2, by decide, by decide⟩
  · exact .inl ⟨rfl, 2, by decide, by decide, by decide⟩

end Verif.Image
