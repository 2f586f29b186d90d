import Verif.Proofs.MarkdownBlocks
import Verif.Spec.MarkdownStyles
import Verif.Props.Style
import Mathlib.Tactic.IntervalCases

/-! # Lemmas for the styles of Markdown documents -/

namespace Verif.Markdown
open Spec
open Verif.ExtList (Family ListB BoxRec Label newList ulLabel olLabel)
open Verif.Text (Tok Lexer boxText boxCode)

/-! ### the boxes -/

/-- The names of the styles of texts. -/
def textStyles : List Str := ["default".toList, "code".toList, "md-paragraph".toList, "md-h1".toList, "md-h2".toList, "md-h3".toList, "md-h4".toList, "md-h5".toList, "md-h6".toList]

/-- Boxes are in boxes made before, lists and texts in boxes that are there. -/
structure Rooted (s : St) : Prop where
  parents : ∀ (k : Nat) (b : BoxRec), s.fam.boxes[k]? = some b → b.parent ≤ k
  lists : ∀ l ∈ s.fam.lists, l.parent ≤ s.len
  texts : ∀ t ∈ s.texts, t.box ≤ s.len ∧ t.style ∈ textStyles

theorem parents_snoc {bs : List BoxRec} (h : ∀ (k : Nat) (b : BoxRec), bs[k]? = some b → b.parent ≤ k) {b : BoxRec} (hb : b.parent ≤ bs.length) :
    ∀ (k : Nat) (c : BoxRec), (bs ++ [b])[k]? = some c → c.parent ≤ k := by
  intro k c hc
  rcases Nat.lt_trichotomy k bs.length with hk | rfl | hk
  · rw [List.getElem?_append_left hk] at hc; exact h k c hc
  · simp at hc; subst hc; exact hb
  · rw [List.getElem?_eq_none (by simp; omega)] at hc; cases hc

theorem Rooted.sbox {s : St} (h : Rooted s) {p : Nat} (hp : p ≤ s.len) : Rooted (sbox s p).2 := by
  have hl := sbox_len s p
  refine ⟨parents_snoc h.parents hp, ?_, ?_⟩
  · intro l hm; have := h.lists l hm; omega
  · intro t hm; have := h.texts t hm; exact ⟨by omega, this.2⟩

theorem Rooted.put {s : St} (h : Rooted s) {b : Nat} (hb : b ≤ s.len) {toks : List Tok} {style : Str} (hs : style ∈ textStyles) : Rooted (s.put b toks style) := by
  refine ⟨h.parents, h.lists, ?_⟩
  intro t hm
  rcases List.mem_append.mp hm with hm | hm
  · exact h.texts t hm
  · rw [List.mem_singleton.mp hm]; exact ⟨hb, hs⟩

theorem Rooted.addText {escape : Char} {s s' : St} {ctx : Ctx} {text style : Str} (h : Rooted s) (hc : ctx.box ≤ s.len) (hs : style ∈ textStyles)
    (he : addText escape s ctx text style = .ok s') : Rooted s' ∧ s.len ≤ s'.len := by
  unfold Markdown.addText at he
  split at he
  · cases he
  · injection he with he; subst he
    obtain ⟨h1, h2⟩ := sbox_len s ctx.box
    exact ⟨(h.sbox hc).put (by omega) hs, by show s.len ≤ (Markdown.sbox s ctx.box).2.len; omega⟩

theorem Rooted.addCode {lexers : Str → Option Lexer} {s s' : St} {ctx : Ctx} {lang text : Str} (h : Rooted s) (hc : ctx.box ≤ s.len)
    (he : addCode lexers s ctx lang text = .ok s') : Rooted s' ∧ s.len ≤ s'.len := by
  unfold Markdown.addCode at he
  split at he
  · cases he
  · split at he
    · cases he
    · injection he with he; subst he
      obtain ⟨h1, h2⟩ := sbox_len s ctx.box
      exact ⟨(h.sbox hc).put (by omega) (by decide), by show s.len ≤ (Markdown.sbox s ctx.box).2.len; omega⟩

theorem newList_parent (p : Nat) (l : Label) (a b : Rat) (lv : List Int) (st : Int) (t : Rat) (args : Verif.ExtList.Args) : (newList p l a b lv st t args).parent = p := rfl

theorem Rooted.sublist {s : St} (h : Rooted s) {l : ListB} (hl : l ∈ s.fam.lists) {d : Label} {st : Option Int} {ind : Option Rat} {lab : Option Label} {lv : Option (List Int)} {args : Verif.ExtList.Args}
    {i : Nat} {f : Family} (he : Verif.ExtList.createSublist s.fam l d st ind lab lv args = (.list i, f)) : Rooted { s with fam := f } ∧ s.len ≤ f.boxes.length := by
  unfold Verif.ExtList.createSublist at he
  dsimp only at he
  split at he
  · cases he
  · injection he with e1 e2
    subst e2
    have hp := h.lists l hl
    have hlen : (Verif.ExtList.createBox s.fam l (ind.getD l.defaultIndent) false args).2.2.boxes.length = s.len + 1 := by simp [Verif.ExtList.createBox, St.len]
    refine ⟨⟨parents_snoc h.parents hp, ?_, ?_⟩, by show s.len ≤ (Verif.ExtList.createBox s.fam l (ind.getD l.defaultIndent) false args).2.2.boxes.length; rw [hlen]; exact Nat.le_succ _⟩
    · intro l' hl'
      show l'.parent ≤ (Verif.ExtList.createBox s.fam l (ind.getD l.defaultIndent) false args).2.2.boxes.length
      rw [hlen]
      rcases List.mem_append.mp hl' with hl' | hl'
      · have := h.lists l' hl'; omega
      · rw [List.mem_singleton.mp hl', newList_parent]
        simp [Verif.ExtList.createBox, St.len]
    · intro t ht
      have := h.texts t ht
      refine ⟨?_, this.2⟩
      show t.box ≤ (Verif.ExtList.createBox s.fam l (ind.getD l.defaultIndent) false args).2.2.boxes.length
      omega

theorem Rooted.openList {s s' : St} {ctx : Ctx} {ordered : Bool} {start : Nat} {bullet : Str} {l : Nat} (h : Rooted s) (hc : ctx.box ≤ s.len)
    (he : openList s ctx ordered start bullet = .ok (l, s')) : Rooted s' ∧ s.len ≤ s'.len := by
  obtain ⟨h1, h2⟩ := sbox_len s ctx.box
  have hr := h.sbox hc
  unfold Markdown.openList at he
  split at he
  · split at he
    · rename_i i f hs
      injection he with he; injection he with e1 e2; subst e1; subst e2
      have : ∃ l0 ∈ (Markdown.sbox s ctx.box).2.fam.lists, ∃ d st ind lab lv args, Verif.ExtList.createSublist (Markdown.sbox s ctx.box).2.fam l0 d st ind lab lv args = (.list i, f) := by
        cases ordered <;> simp only [if_true, if_false, Bool.false_eq_true, Verif.ExtList.step] at hs
        all_goals
          split at hs
          · cases hs
          · rename_i l0 hl0
            exact ⟨l0, List.mem_of_getElem? hl0, _, _, _, _, _, _, hs⟩
      obtain ⟨l0, hl0, d, st, ind, lab, lv, args, hs⟩ := this
      obtain ⟨k1, k2⟩ := hr.sublist hl0 hs
      exact ⟨k1, by show s.len ≤ f.boxes.length; omega⟩
    · cases he
    · cases he
  · dsimp only at he
    injection he with he; injection he with e1 e2; subst e1; subst e2
    obtain ⟨h3, h4⟩ := sbox_len (Markdown.sbox s ctx.box).2 (Markdown.sbox s ctx.box).1
    have hr2 := hr.sbox (p := (Markdown.sbox s ctx.box).1) (by omega)
    refine ⟨⟨hr2.parents, ?_, hr2.texts⟩, by show s.len ≤ (Markdown.sbox (Markdown.sbox s ctx.box).2 (Markdown.sbox s ctx.box).1).2.len; omega⟩
    intro l hl
    show l.parent ≤ (Markdown.sbox (Markdown.sbox s ctx.box).2 (Markdown.sbox s ctx.box).1).2.len
    rcases List.mem_append.mp hl with hl | hl
    · exact hr2.lists l hl
    · rw [List.mem_singleton.mp hl]
      split <;> rw [newList_parent] <;> omega

theorem Rooted.openItem {s s' : St} {l box : Nat} (h : Rooted s) (he : openItem s l = .ok (box, s')) : Rooted s' ∧ s.len ≤ s'.len ∧ box ≤ s'.len := by
  unfold Markdown.openItem at he
  split at he
  · rename_i b row lb label f hs
    split at he
    · cases he
    · injection he with he; injection he with e1 e2; subst e1; subst e2
      simp only [Verif.ExtList.step] at hs
      split at hs
      · cases hs
      · rename_i l0 hl0
        unfold Verif.ExtList.item at hs
        dsimp only [Verif.ExtList.createBox] at hs
        split at hs
        · cases hs
        · injection hs with e1 e2
          injection e1 with e1 e3 e4 e5
          have hm := h.lists l0 (List.mem_of_getElem? hl0)
          have hlen : f.boxes.length = s.len + 3 := by rw [← e2]; simp [St.len]
          have hb : b = s.len + 3 := by rw [← e1]; simp [St.len]
          have hlb : lb = s.len + 2 := by rw [← e4]; simp [St.len]
          have hrr : Rooted { s with fam := f } := by
            refine ⟨?_, ?_, ?_⟩
            · show ∀ (k : Nat) (b : BoxRec), f.boxes[k]? = some b → b.parent ≤ k
              rw [← e2]
              refine parents_snoc (parents_snoc (parents_snoc h.parents hm) ?_) ?_ <;> simp
            · intro l' hl'
              show l'.parent ≤ f.boxes.length
              rw [hlen]
              have hl' : l' ∈ f.lists := hl'
              rw [← e2] at hl'
              rcases List.mem_or_eq_of_mem_set hl' with hl' | rfl
              · have := h.lists l' hl'; omega
              · dsimp only; omega
            · intro t ht
              have := h.texts t ht
              exact ⟨by show t.box ≤ f.boxes.length; omega, this.2⟩
          refine ⟨hrr.put (by show lb ≤ f.boxes.length; omega) (by decide), by show s.len ≤ f.boxes.length; omega, by show b ≤ f.boxes.length; omega⟩
  · cases he
  · cases he

theorem headingStyle_mem {n : Nat} {style : Str} (h : headingStyle n = .ok style) : style ∈ textStyles := by
  unfold headingStyle at h
  split at h
  · rename_i hn
    injection h with h; subst h
    obtain ⟨h1, h2⟩ := hn
    interval_cases n <;> decide
  · cases h

mutual
theorem rooted_blocks {escape : Char} {lexers : Str → Option Lexer} : ∀ (doc : Blocks) (ctx : Ctx) (s s' : St), Rooted s → ctx.box ≤ s.len → buildBlocks escape lexers doc ctx s = .ok s' → Rooted s' ∧ s.len ≤ s'.len
  | .nil, ctx, s, s', h, hc, he => by rw [buildBlocks] at he; injection he with he; subst he; exact ⟨h, le_refl _⟩
  | .heading level t rest, ctx, s, s', h, hc, he => by
    rw [buildBlocks] at he
    split at he
    · cases he
    · rename_i style hst
      split at he
      · cases he
      · rename_i s1 h1
        obtain ⟨k1, k2⟩ := h.addText hc (headingStyle_mem hst) h1
        obtain ⟨k3, k4⟩ := rooted_blocks rest ctx s1 s' k1 (by omega) he
        exact ⟨k3, by omega⟩
  | .paragraph t rest, ctx, s, s', h, hc, he => by
    rw [buildBlocks] at he
    split at he
    · cases he
    · rename_i s1 h1
      obtain ⟨k1, k2⟩ := h.addText hc (by decide) h1
      obtain ⟨k3, k4⟩ := rooted_blocks rest ctx s1 s' k1 (by omega) he
      exact ⟨k3, by omega⟩
  | .blank rest, ctx, s, s', h, hc, he => by
    rw [buildBlocks] at he
    split at he
    · cases he
    · rename_i s1 h1
      obtain ⟨k1, k2⟩ := h.addText hc (by decide) h1
      obtain ⟨k3, k4⟩ := rooted_blocks rest ctx s1 s' k1 (by omega) he
      exact ⟨k3, by omega⟩
  | .quote kids rest, ctx, s, s', h, hc, he => by
    rw [buildBlocks] at he
    split at he
    · cases he
    · rename_i s1 h1
      obtain ⟨g1, g2⟩ := sbox_len s ctx.box
      have hq : Rooted { (sbox s ctx.box).2 with quotes := s.quotes ++ [(sbox s ctx.box).1] } := ⟨(h.sbox hc).parents, (h.sbox hc).lists, (h.sbox hc).texts⟩
      obtain ⟨k1, k2⟩ := rooted_blocks kids { ctx with box := (sbox s ctx.box).1 } _ s1 hq (by show (sbox s ctx.box).1 ≤ (sbox s ctx.box).2.len; omega) h1
      have k2 : (sbox s ctx.box).2.len ≤ s1.len := k2
      obtain ⟨k3, k4⟩ := rooted_blocks rest ctx s1 s' k1 (by omega) he
      exact ⟨k3, by omega⟩
  | .code lang text rest, ctx, s, s', h, hc, he => by
    rw [buildBlocks] at he
    split at he
    · cases he
    · rename_i s1 h1
      obtain ⟨k1, k2⟩ := h.addCode hc h1
      obtain ⟨k3, k4⟩ := rooted_blocks rest ctx s1 s' k1 (by omega) he
      exact ⟨k3, by omega⟩
  | .list ordered start bullet items rest, ctx, s, s', h, hc, he => by
    rw [buildBlocks] at he
    split at he
    · cases he
    · rename_i l s1 h1
      obtain ⟨k1, k2⟩ := h.openList hc h1
      split at he
      · cases he
      · rename_i s2 h2
        obtain ⟨k5, k6⟩ := rooted_items items l s1 s2 k1 h2
        obtain ⟨k3, k4⟩ := rooted_blocks rest ctx s2 s' k5 (by omega) he
        exact ⟨k3, by omega⟩
  | .other rest, ctx, s, s', h, hc, he => by
    rw [buildBlocks] at he
    exact rooted_blocks rest ctx s s' h hc he
theorem rooted_items {escape : Char} {lexers : Str → Option Lexer} : ∀ (items : Items) (l : Nat) (s s' : St), Rooted s → buildItems escape lexers items l s = .ok s' → Rooted s' ∧ s.len ≤ s'.len
  | .nil, l, s, s', h, he => by rw [buildItems] at he; injection he with he; subst he; exact ⟨h, le_refl _⟩
  | .cons kids rest, l, s, s', h, he => by
    rw [buildItems] at he
    split at he
    · cases he
    · rename_i box s1 h1
      obtain ⟨k1, k2, kb⟩ := h.openItem h1
      split at he
      · cases he
      · rename_i s2 h2
        obtain ⟨k5, k6⟩ := rooted_blocks kids _ s1 s2 k1 kb h2
        obtain ⟨k3, k4⟩ := rooted_items rest l s2 s' k5 he
        exact ⟨k3, by omega⟩
end

theorem markdown_rooted {escape : Char} {lexers : Str → Option Lexer} {doc : Blocks} {s : St} (h : markdown escape lexers doc = .ok s) : Rooted s :=
  (rooted_blocks doc _ _ s ⟨by intro k b hb; simp at hb, by intro l hl; simp at hl, by intro t ht; simp at ht⟩ (Nat.zero_le _) h).1

/-- Every box can be reached. -/
theorem path_exists {bs : List BoxRec} (h : ∀ (k : Nat) (b : BoxRec), bs[k]? = some b → b.parent ≤ k) : ∀ (u : Nat), u ≤ bs.length → ∃ p, Path bs u p := by
  intro u
  induction u using Nat.strong_induction_on with
  | _ u ih =>
    intro hu
    cases u with
    | zero => exact ⟨[], .root⟩
    | succ k =>
      have hk := List.getElem?_eq_getElem (show k < bs.length by omega)
      have := h k _ hk
      obtain ⟨p, hp⟩ := ih bs[k].parent (by omega) (by omega)
      exact ⟨_, .child hk hp⟩

/-! ### the styles of a box -/

open Verif.Style (TextStyle Heap getStyle setStyle updateStyle newBox newText Reachable WF)
open Verif.Style.Spec (Resolves ItemStyle ItemResolves SameExcept)

theorem run_snoc {ops : List Verif.Style.Op} {o : Verif.Style.Op} : ∀ {h h1 h2 : Heap}, Verif.Style.run h ops = .ok h1 → Verif.Style.exec h1 o = .ok h2 → Verif.Style.run h (ops ++ [o]) = .ok h2 := by
  induction ops with
  | nil =>
    intro h h1 h2 hr he
    injection hr with hr; subst hr
    simp only [List.nil_append, Verif.Style.run, he]
  | cons p ops ih =>
    intro h h1 h2 hr he
    simp only [Verif.Style.run, List.cons_append] at hr ⊢
    split at hr
    · cases hr
    · exact ih hr he

theorem reach {h h' : Heap} (hr : Reachable h) {o : Verif.Style.Op} (he : Verif.Style.exec h o = .ok h') : Reachable h' := by
  obtain ⟨named, ops, hr⟩ := hr
  exact ⟨named, ops ++ [o], run_snoc hr he⟩

/-- A step: boxes and texts may be added; of what there was, only the box `c` (if given) looks different. -/
structure Step (h h' : Heap) (c : Option Nat) : Prop where
  reach : Reachable h'
  boxes : h.containers.length ≤ h'.containers.length
  items : h.items.length ≤ h'.items.length
  same : ∀ c' < h.containers.length, some c' ≠ c → ∀ n s, Resolves h' c' n s ↔ Resolves h c' n s
  texts : ∀ i < h.items.length, (∀ s, ItemStyle h' i s ↔ ItemStyle h i s) ∧ ∀ n s, ItemResolves h' i n s ↔ ItemResolves h i n s

theorem Step.refl {h : Heap} (hr : Reachable h) (c : Option Nat) : Step h h c := ⟨hr, le_refl _, le_refl _, fun _ _ _ _ _ => Iff.rfl, fun _ _ => ⟨fun _ => Iff.rfl, fun _ _ => Iff.rfl⟩⟩

theorem Step.trans {h h1 h2 : Heap} {c : Option Nat} (a : Step h h1 c) (b : Step h1 h2 c) : Step h h2 c where
  reach := b.reach
  boxes := a.boxes.trans b.boxes
  items := a.items.trans b.items
  same := fun c' hc hn n s => (b.same c' (lt_of_lt_of_le hc a.boxes) hn n s).trans (a.same c' hc hn n s)
  texts := fun i hi => ⟨fun s => ((b.texts i (lt_of_lt_of_le hi a.items)).1 s).trans ((a.texts i hi).1 s), fun n s => ((b.texts i (lt_of_lt_of_le hi a.items)).2 n s).trans ((a.texts i hi).2 n s)⟩

/-- Also when the changed box is new. -/
theorem Step.trans_new {h h1 h2 : Heap} {c : Nat} (a : Step h h1 none) (b : Step h1 h2 (some c)) (hc : h.containers.length ≤ c) : Step h h2 none where
  reach := b.reach
  boxes := a.boxes.trans b.boxes
  items := a.items.trans b.items
  same := fun c' hc' hn n s => (b.same c' (lt_of_lt_of_le hc' a.boxes) (by intro e; injection e with e; omega) n s).trans (a.same c' hc' hn n s)
  texts := fun i hi => ⟨fun s => ((b.texts i (lt_of_lt_of_le hi a.items)).1 s).trans ((a.texts i hi).1 s), fun n s => ((b.texts i (lt_of_lt_of_le hi a.items)).2 n s).trans ((a.texts i hi).2 n s)⟩

theorem dictOf_ok {h : Heap} (w : WF h) {c : Nat} (hc : c < h.containers.length) : ∃ d, h.dictOf c = .ok d := by
  have h1 := List.getElem?_eq_getElem hc
  have h2 := w.containers c _ h1
  exact ⟨_, by unfold Heap.dictOf; rw [h1]; dsimp only; rw [List.getElem?_eq_getElem h2]⟩

theorem resolves_dict {h : Heap} {c : Nat} {d : Verif.Style.Dict} (hd : h.dictOf c = .ok d) {n : Str} {s : TextStyle} :
    Resolves h c n s ↔ ∃ a, List.lookup n d = some a ∧ h.styles[a]? = some s := by
  obtain ⟨dn, g1, g2⟩ := Verif.Style.dictOf_lt hd
  constructor
  · rintro ⟨e, f, a, k1, k2, k3, k4⟩
    rw [g1] at k1; injection k1 with k1; subst k1
    rw [g2] at k2; injection k2 with k2; subst k2
    exact ⟨a, k3, k4⟩
  · rintro ⟨a, k3, k4⟩
    exact ⟨dn, d, a, g1, g2, k3, k4⟩

theorem newBox_step {h : Heap} (hr : Reachable h) {c : Nat} (hc : c < h.containers.length) :
    ∃ h', newBox h c = .ok h' ∧ Step h h' none ∧ h'.containers.length = h.containers.length + 1 ∧ h'.items.length = h.items.length ∧
      ∀ n s, Resolves h' h.containers.length n s ↔ Resolves h c n s := by
  have hd := List.getElem?_eq_getElem hc
  have he : newBox h c = .ok { h with containers := h.containers ++ [h.containers[c]] } := by unfold newBox; rw [hd]
  have hb := fun n => (Verif.Style.C45_new_box hr).1 c n he
  refine ⟨_, he, ⟨reach hr (o := .newBox c) he, by simp, le_refl _, fun c' hc' _ n s => (hb n).1.1 c' hc' n s (by simp), (hb []).1.2⟩, by simp, rfl, fun n s => (hb n).2 s⟩

theorem fill_one {h : Heap} (hr : Reachable h) {c : Nat} (hc : c < h.containers.length) {n : Str} {s : TextStyle} {d : Verif.Style.Dict} (hd : h.dictOf c = .ok d) :
    ∃ h' a, setStyle (h.alloc s).1 c n (h.alloc s).2 (.name "default".toList) = .ok (h', a) ∧ Step h h' (some c) ∧ h'.containers.length = h.containers.length ∧ h'.items.length = h.items.length ∧
      Resolves h' c n s ∧ ∀ m, m ≠ n → ∀ t, Resolves h' c m t ↔ Resolves h c m t := by
  have w := hr.wf
  have hr1 : Reachable (h.alloc s).1 := reach hr (o := .newStyle s) rfl
  have hd1 : (h.alloc s).1.dictOf c = .ok d := hd
  have hst : (h.alloc s).1.style (h.alloc s).2 = .ok s := by
    unfold Heap.style Heap.alloc; simp
  have he : setStyle (h.alloc s).1 c n (h.alloc s).2 (.name "default".toList) = .ok (Verif.Style.store (h.alloc s).1 c d n (h.alloc s).2, (h.alloc s).2) := by
    unfold setStyle
    rw [hd1, hst]
    simp
  obtain ⟨k1, s', k2, k3, -⟩ := Verif.Style.C45_set_style hr1 he
  have hs' : s' = s := by
    have : (h.alloc s).1.styles[(h.alloc s).2]? = some s := by simp [Heap.alloc]
    rw [this] at k2; injection k2 with k2; exact k2.symm
  subst hs'
  have hsame0 : ∀ n, SameExcept h (h.alloc s').1 none n := fun n =>
    Verif.Style.same_of (h' := (h.alloc s').1) w (fun a ha => List.getElem?_append_left (w.ref_lt ha)) (fun _ _ => rfl) (fun _ _ => rfl) (fun _ _ => rfl) n
  refine ⟨_, _, he, ⟨reach hr1 (o := .set c n (h.alloc s').2 (.name "default".toList)) (by simp only [Verif.Style.exec, he]; rfl), by simp [Verif.Style.store, Heap.alloc], le_refl _, ?_, ?_⟩,
    by simp [Verif.Style.store, Heap.alloc], rfl, k3 rfl, ?_⟩
  · intro c' hc' hn m t
    exact (k1.1 c' hc' m t (fun hh => hn hh.1)).trans ((hsame0 m).1 c' hc' m t (by simp))
  · intro i hi
    exact ⟨fun t => ((k1.2 i hi).1 t).trans (((hsame0 n).2 i hi).1 t), fun m t => ((k1.2 i hi).2 m t).trans (((hsame0 n).2 i hi).2 m t)⟩
  · intro m hm t
    exact (k1.1 c hc m t (fun hh => hm hh.2)).trans ((hsame0 m).1 c hc m t (by simp))

theorem fill_ok : ∀ (l : List (Str × TextStyle)) (h : Heap), Reachable h → ∀ c, c < h.containers.length → (l.map (·.1)).Nodup →
    ∃ h', fillStyles h c l = .ok h' ∧ Step h h' (some c) ∧ h'.containers.length = h.containers.length ∧ h'.items.length = h.items.length ∧
      ∀ n s, Resolves h' c n s ↔ Resolves h c n s ∨ (∀ t, ¬ Resolves h c n t) ∧ (n, s) ∈ l := by
  intro l
  induction l with
  | nil =>
    intro h hr c hc _
    exact ⟨h, rfl, .refl hr _, rfl, rfl, by simp⟩
  | cons x l ih =>
    obtain ⟨m, v⟩ := x
    intro h hr c hc hn
    simp only [List.map_cons, List.nodup_cons] at hn
    obtain ⟨d, hd⟩ := dictOf_ok hr.wf hc
    have hget : (d.get m).isSome = true ↔ ∃ t, Resolves h c m t := by
      constructor
      · intro hg
        obtain ⟨a, ha⟩ := Option.isSome_iff_exists.mp hg
        obtain ⟨dn, g1, g2⟩ := Verif.Style.dictOf_lt hd
        have := hr.wf.dicts d (List.mem_of_getElem? g2) m a (Verif.Style.lookup_mem ha)
        exact ⟨_, (resolves_dict hd).mpr ⟨a, ha, List.getElem?_eq_getElem this⟩⟩
      · rintro ⟨t, ht⟩
        obtain ⟨a, ha, -⟩ := (resolves_dict hd).mp ht
        exact Option.isSome_iff_exists.mpr ⟨a, ha⟩
    by_cases hg : (d.get m).isSome = true
    · obtain ⟨h', k1, k2, k3, k4, k5⟩ := ih h hr c hc hn.2
      refine ⟨h', by simp only [fillStyles, hd, if_pos hg]; exact k1, k2, k3, k4, fun n s => ?_⟩
      rw [k5]
      constructor
      · rintro (h1 | ⟨h1, h2⟩)
        · exact .inl h1
        · exact .inr ⟨h1, .tail _ h2⟩
      · rintro (h1 | ⟨h1, h2⟩)
        · exact .inl h1
        · rcases List.mem_cons.mp h2 with h2 | h2
          · injection h2 with h2 h3; subst h2
            obtain ⟨t, ht⟩ := hget.mp hg
            exact absurd ht (h1 t)
          · exact .inr ⟨h1, h2⟩
    · obtain ⟨h1, a, k1, k2, k3, k4, k5, k6⟩ := fill_one hr hc (n := m) (s := v) hd
      obtain ⟨h2, g1, g2, g3, g4, g5⟩ := ih h1 k2.reach c (by omega) hn.2
      refine ⟨h2, by simp only [fillStyles, hd, if_neg hg, k1]; exact g1, k2.trans g2, by omega, by omega, fun n s => ?_⟩
      have hno : ∀ t, ¬ Resolves h c m t := fun t ht => hg (hget.mpr ⟨t, ht⟩)
      rw [g5]
      by_cases hnm : n = m
      · subst hnm
        constructor
        · rintro (h3 | ⟨h3, -⟩)
          · rw [Verif.Style.resolves_unique h3 k5]
            exact .inr ⟨hno, .head _⟩
          · exact absurd k5 (h3 v)
        · rintro (h3 | ⟨h3, h4⟩)
          · exact absurd h3 (hno s)
          · rcases List.mem_cons.mp h4 with h4 | h4
            · injection h4 with h4 h5; subst h5; exact .inl k5
            · exact absurd (List.mem_map_of_mem (f := (·.1)) h4) hn.1
      · simp only [k6 n hnm, List.mem_cons, Prod.mk.injEq, hnm, false_and, false_or]

theorem quote_ok {h : Heap} (hr : Reachable h) {c : Nat} (hc : c < h.containers.length) {D B : TextStyle} (hD : Resolves h c "default".toList D) (hB : Resolves h c "md-blockquote".toList B) :
    ∃ h', quoteStyle h c = .ok h' ∧ Step h h' (some c) ∧ h'.containers.length = h.containers.length ∧ h'.items.length = h.items.length ∧
      Resolves h' c "default".toList (D.compose B) ∧ ∀ m, m ≠ "default".toList → ∀ t, Resolves h' c m t ↔ Resolves h c m t := by
  have w := hr.wf
  obtain ⟨d, hd⟩ := dictOf_ok w hc
  obtain ⟨b, hb1, hb2⟩ := (resolves_dict hd).mp hB
  obtain ⟨a, ha1, ha2⟩ := (resolves_dict hd).mp hD
  have hg : getStyle h c (.name "md-blockquote".toList) false = .ok (h.alloc B) := by
    unfold getStyle
    have hsb : h.style b = .ok B := by unfold Heap.style; rw [hb2]
    have : Verif.Style.Dict.get d "md-blockquote".toList = some b := hb1
    simp only [hd, Verif.Style.composeValue, this, hsb]
    simp
  have hr1 : Reachable (h.alloc B).1 := reach hr (o := .newStyle B) rfl
  have hd1 : (h.alloc B).1.dictOf c = .ok d := hd
  have hBs : (h.alloc B).1.styles[(h.alloc B).2]? = some B := by simp [Heap.alloc]
  have hal : a < h.styles.length := (List.getElem?_eq_some_iff.mp ha2).1
  have ha3 : (h.alloc B).1.styles[a]? = some D := by
    show (h.styles ++ [B])[a]? = some D
    rw [List.getElem?_append_left hal]; exact ha2
  obtain ⟨h', x, hu⟩ : ∃ h' x, updateStyle (h.alloc B).1 c "default".toList (h.alloc B).2 = .ok (h', x) := by
    have hg2 : getStyle (h.alloc B).1 c (.name "default".toList) false = .ok ((h.alloc B).1.alloc D) := by
      unfold getStyle
      have hsa : (h.alloc B).1.style a = .ok D := by unfold Heap.style; rw [ha3]
      have : Verif.Style.Dict.get d "default".toList = some a := ha1
      simp only [hd1, Verif.Style.composeValue, this, hsa]
      simp
    have hs1 : (h.alloc B).1.style (h.alloc B).2 = .ok B := by unfold Heap.style; rw [hBs]
    have hs2 : ((h.alloc B).1.alloc D).1.style (h.alloc B).2 = .ok B := by
      unfold Heap.style
      have : ((h.alloc B).1.alloc D).1.styles[(h.alloc B).2]? = some B := by simp [Heap.alloc]
      rw [this]
    refine ⟨Verif.Style.store (Verif.Style.mutate ((h.alloc B).1.alloc D).1 ((h.alloc B).1.alloc D).2 (·.update B)) c d "default".toList ((h.alloc B).1.alloc D).2, ((h.alloc B).1.alloc D).2, ?_⟩
    · unfold updateStyle
      rw [hs1]
      dsimp only
      rw [hg2]
      dsimp only
      rw [hs2]
      dsimp only
      have : (Verif.Style.mutate ((h.alloc B).1.alloc D).1 ((h.alloc B).1.alloc D).2 (·.update B)).dictOf c = .ok d := hd
      rw [this]
  obtain ⟨k1, s, v, k2, k3, k4⟩ := Verif.Style.C45_update_style hr1 hu
  have hsame0 : ∀ n, SameExcept h (h.alloc B).1 none n := fun n =>
    Verif.Style.same_of (h' := (h.alloc B).1) w (fun a ha => List.getElem?_append_left (w.ref_lt ha)) (fun _ _ => rfl) (fun _ _ => rfl) (fun _ _ => rfl) n
  have hsB : s = B := by rw [hBs] at k2; injection k2 with k2; exact k2.symm
  have hvD : v = D := by
    have := ((hsame0 "default".toList).1 c hc "default".toList v (by simp)).mp k3
    exact Verif.Style.resolves_unique this hD
  subst hsB; subst hvD
  obtain ⟨d', s', v', hd', hst, hv, -, e⟩ := Verif.Style.updateStyle_ok hu
  have hlen : h'.containers.length = h.containers.length ∧ h'.items.length = h.items.length := by
    rw [e]; simp [Verif.Style.store, Heap.alloc]
  refine ⟨h', by simp only [quoteStyle, hg, hu]; rfl, ⟨reach hr1 (o := .update c "default".toList (h.alloc s).2) (by simp only [Verif.Style.exec, hu]; rfl), by omega, by omega, ?_, ?_⟩, hlen.1, hlen.2, k4, ?_⟩
  · intro c' hc' hn m t
    exact (k1.1 c' hc' m t (fun hh => hn hh.1)).trans ((hsame0 m).1 c' hc' m t (by simp))
  · intro i hi
    exact ⟨fun t => ((k1.2 i hi).1 t).trans (((hsame0 []).2 i hi).1 t), fun m t => ((k1.2 i hi).2 m t).trans (((hsame0 []).2 i hi).2 m t)⟩
  · intro m hm t
    exact (k1.1 c hc m t (fun hh => hm hh.2)).trans ((hsame0 m).1 c hc m t (by simp))

theorem text_ok {h : Heap} (hr : Reachable h) {c : Nat} (hc : c < h.containers.length) {D S : TextStyle} {n : Str} (hD : Resolves h c "default".toList D) (hS : Resolves h c n S) :
    ∃ h', newText h c (.name n) = .ok h' ∧ Step h h' none ∧ h'.containers.length = h.containers.length ∧ h'.items.length = h.items.length + 1 ∧
      ItemStyle h' h.items.length (if n = "default".toList then S else D.compose S) ∧ ∀ m t, ItemResolves h' h.items.length m t ↔ Resolves h c m t := by
  have w := hr.wf
  obtain ⟨d, hd⟩ := dictOf_ok w hc
  obtain ⟨b, hb1, hb2⟩ := (resolves_dict hd).mp hS
  obtain ⟨a, ha1, ha2⟩ := (resolves_dict hd).mp hD
  have hsb : h.style b = .ok S := by unfold Heap.style; rw [hb2]
  have hsa : h.style a = .ok D := by unfold Heap.style; rw [ha2]
  have hg : getStyle h c (.name n) true = .ok (h.alloc (if n = "default".toList then S else D.compose S)) := by
    unfold getStyle
    have e1 : Verif.Style.Dict.get d n = some b := hb1
    have e2 : Verif.Style.Dict.get d "default".toList = some a := ha1
    simp only [hd, Verif.Style.composeValue, e1, hsb, e2, hsa]
    by_cases hn : n = "default".toList
    · rw [if_pos hn, if_pos hn]
    · rw [if_neg hn, if_neg hn]; rfl
  obtain ⟨dn, g1, -⟩ := Verif.Style.dictOf_lt hd
  generalize hv : (if n = "default".toList then S else D.compose S) = v at hg
  have he : newText h c (.name n) = .ok { (h.alloc v).1 with items := h.items ++ [⟨(h.alloc v).2, dn⟩] } := by
    unfold newText
    rw [hg]
    have : (h.alloc v).1.containers[c]? = some dn := g1
    simp only [this]
    rfl
  have hb := fun n' => (Verif.Style.C45_new_box hr).2.2 c (.name n) n' he
  refine ⟨_, he, ⟨reach hr (o := .newText c (.name n)) he, le_refl _, by simp, fun c' hc' _ m t => (hb m).1.1 c' hc' m t (by simp), (hb []).1.2⟩, rfl, by simp, ?_, fun m t => (hb m).2 t⟩
  exact ⟨⟨(h.alloc v).2, dn⟩, by simp, by simp [Heap.alloc]⟩

/-! ### the document -/

theorem compose_over (D S : TextStyle) : D.compose S = over D S := by
  unfold Verif.Style.TextStyle.compose Verif.Style.TextStyle.update over
  congr 1
  all_goals
    first
    | rfl
    | (cases S with | mk font size align ls color bold italic vn op pr =>
        dsimp only
        first
        | (cases font <;> rfl)
        | (cases size <;> rfl)
        | (cases align <;> rfl)
        | (cases ls <;> rfl)
        | (cases color <;> rfl)
        | (cases bold <;> rfl)
        | (cases italic <;> rfl)
        | (cases vn <;> rfl)
        | (cases op <;> rfl))

theorem over_idem (D B : TextStyle) : over (over D B) B = over D B := by
  unfold over
  simp only [TextStyle.mk.injEq, and_true]
  refine ⟨?_, ?_, ?_, ?_, ?_, ?_, ?_, ?_, ?_⟩ <;> (rw [← Option.or_assoc]; simp)

/-- A box shows the styles of the document, in a quotation or not. -/
def Dressed (h : Heap) (u : Nat) (T : Str → TextStyle → Prop) (D B : TextStyle) (quoted : Bool) : Prop :=
  Resolves h u "default".toList (if quoted then over D B else D) ∧ ∀ n, n ≠ "default".toList → ∀ s, Resolves h u n s ↔ T n s

theorem path_fun {bs : List BoxRec} {u : Nat} {p : List Nat} (h : Path bs u p) : ∀ {q : List Nat}, Path bs u q → p = q := by
  induction h with
  | root => intro q hq; cases hq; rfl
  | child hk _ ih =>
    intro q hq
    cases hq with
    | child hk' hq' =>
      rw [hk] at hk'
      injection hk' with hk'
      subst hk'
      rw [ih hq']

theorem boxes_ok {base : Nat} {quotes : List Nat} {T : Str → TextStyle → Prop} {D B : TextStyle} (hB : T "md-blockquote".toList B) {all : List BoxRec}
    (hpar : ∀ (k : Nat) (b : BoxRec), all[k]? = some b → b.parent ≤ k) : ∀ (bs : List BoxRec) (k : Nat) (h : Heap), Reachable h → all.drop k = bs → k ≤ all.length → h.containers.length = base + k + 1 →
    (∀ u ≤ k, ∀ p, Path all u p → Dressed h (base + u) T D B (p.any (· ∈ quotes))) →
    ∃ h', dressBoxes base quotes k bs h = .ok h' ∧ Step h h' none ∧ h'.containers.length = base + all.length + 1 ∧ h'.items.length = h.items.length ∧
      ∀ u ≤ all.length, ∀ p, Path all u p → Dressed h' (base + u) T D B (p.any (· ∈ quotes)) := by
  intro bs
  induction bs with
  | nil =>
    intro k h hr hdrop hk hlen hall
    have : all.length ≤ k := List.drop_eq_nil_iff.mp hdrop
    have e : k = all.length := by omega
    subst e
    exact ⟨h, rfl, .refl hr _, hlen, rfl, hall⟩
  | cons b bs ih =>
    intro k h hr hdrop hk hlen hall
    have hb : all[k]? = some b := by
      have := congrArg (fun l => l[0]?) hdrop
      simpa [List.getElem?_drop] using this
    have hkl : k < all.length := (List.getElem?_eq_some_iff.mp hb).1
    have hd' : all.drop (k + 1) = bs := by
      have := congrArg List.tail hdrop
      simpa [List.tail_drop] using this
    have hp := hpar k b hb
    obtain ⟨h1, k1, k2, k3, k4, k5⟩ := newBox_step hr (c := base + b.parent) (by omega)
    have e1 : h.containers.length = base + (k + 1) := by omega
    rw [e1] at k5
    -- the new box looks like its parent
    have hnew : ∀ p, Path all (k + 1) p → ∃ p', p = p' ++ [k + 1] ∧ Dressed h1 (base + (k + 1)) T D B (p'.any (· ∈ quotes)) := by
      intro p hpath
      cases hpath with
      | @child _ b' p' hk' hp' =>
        rw [hb] at hk'; injection hk' with hk'; subst hk'
        have := hall b.parent hp p' hp'
        exact ⟨p', rfl, (k5 _ _).mpr this.1, fun n hn s => (k5 n s).trans (this.2 n hn s)⟩
    have hold : ∀ {h2 : Heap} {c : Option Nat}, Step h1 h2 c → (c = none ∨ c = some (base + (k + 1))) → ∀ u ≤ k, ∀ p, Path all u p → Dressed h2 (base + u) T D B (p.any (· ∈ quotes)) := by
      intro h2 c hs hc u hu p hpath
      have g := hall u hu p hpath
      have e : ∀ n s, Resolves h2 (base + u) n s ↔ Resolves h (base + u) n s := by
        intro n s
        refine (hs.same (base + u) (by omega) ?_ n s).trans (k2.same (base + u) (by omega) (by simp) n s)
        rcases hc with rfl | rfl
        · simp
        · intro e; injection e with e; omega
      exact ⟨(e _ _).mpr g.1, fun n hn s => (e n s).trans (g.2 n hn s)⟩
    obtain ⟨p0, hp0⟩ := path_exists hpar (k + 1) (by omega)
    obtain ⟨p0', hp0e, g1, g2⟩ := hnew p0 hp0
    by_cases hq : k + 1 ∈ quotes
    · obtain ⟨h2, m1, m2, m3, m4, m5, m6⟩ := quote_ok k2.reach (c := base + (k + 1)) (by omega) g1 ((g2 _ (by decide) _).mpr hB)
      have hdr : ∀ u ≤ k + 1, ∀ p, Path all u p → Dressed h2 (base + u) T D B (p.any (· ∈ quotes)) := by
        intro u hu p hpath
        rcases Nat.lt_or_eq_of_le hu with hu | rfl
        · exact hold m2 (.inr rfl) u (by omega) p hpath
        · obtain rfl := path_fun hp0 hpath
          subst hp0e
          have hany : (p0' ++ [k + 1]).any (· ∈ quotes) = true := by simp [hq]
          rw [hany]
          refine ⟨?_, fun n hn s => (m6 n hn s).trans (g2 n hn s)⟩
          rw [compose_over] at m5
          simp only [if_true]
          cases hx : p0'.any (· ∈ quotes) with
          | true =>
            rw [hx] at m5
            simp only [if_true, over_idem] at m5
            exact m5
          | false =>
            rw [hx] at m5
            simp only [Bool.false_eq_true, if_false] at m5
            exact m5
      obtain ⟨h3, n1, n2, n3, n4, n5⟩ := ih (k + 1) h2 m2.reach hd' (by omega) (by omega) hdr
      refine ⟨h3, ?_, (k2.trans_new m2 (by omega)).trans n2, n3, by omega, n5⟩
      simp only [dressBoxes, k1, if_pos hq, m1]; exact n1
    · have hdr : ∀ u ≤ k + 1, ∀ p, Path all u p → Dressed h1 (base + u) T D B (p.any (· ∈ quotes)) := by
        intro u hu p hpath
        rcases Nat.lt_or_eq_of_le hu with hu | rfl
        · exact hold (.refl k2.reach none) (.inl rfl) u (by omega) p hpath
        · obtain rfl := path_fun hp0 hpath
          subst hp0e
          have hany : (p0' ++ [k + 1]).any (· ∈ quotes) = p0'.any (· ∈ quotes) := by simp [hq]
          rw [hany]
          exact ⟨g1, g2⟩
      obtain ⟨h3, n1, n2, n3, n4, n5⟩ := ih (k + 1) h1 k2.reach hd' (by omega) (by omega) hdr
      refine ⟨h3, ?_, k2.trans n2, n3, by omega, n5⟩
      simp only [dressBoxes, k1, if_neg hq]; exact n1

/-- The style of one text. -/
def worn (quoted : Bool) (D B : TextStyle) (name : Str) (S : TextStyle) : TextStyle :=
  if name = "default".toList then (if quoted then over D B else D) else over (if quoted then over D B else D) S

theorem texts_ok {base : Nat} {quotes : List Nat} {T : Str → TextStyle → Prop} {D B : TextStyle} {all : List BoxRec}
    (hpar : ∀ (k : Nat) (b : BoxRec), all[k]? = some b → b.parent ≤ k) : ∀ (ts : List TextRec) (h : Heap), Reachable h → h.containers.length = base + all.length + 1 →
    (∀ t ∈ ts, t.box ≤ all.length ∧ (t.style ≠ "default".toList → ∃ S, T t.style S)) →
    (∀ u ≤ all.length, ∀ p, Path all u p → Dressed h (base + u) T D B (p.any (· ∈ quotes))) →
    ∃ h', dressTexts base ts h = .ok h' ∧ Step h h' none ∧ h'.items.length = h.items.length + ts.length ∧
      ∀ k t, ts[k]? = some t → ∀ p, Path all t.box p → (∃ S, (t.style ≠ "default".toList → T t.style S) ∧ ItemStyle h' (h.items.length + k) (worn (p.any (· ∈ quotes)) D B t.style S)) ∧
        ∀ n, n ≠ "default".toList → ∀ s, ItemResolves h' (h.items.length + k) n s ↔ T n s := by
  intro ts
  induction ts with
  | nil => intro h hr hlen _ _; exact ⟨h, rfl, .refl hr _, rfl, by simp⟩
  | cons t ts ih =>
    intro h hr hlen hts hall
    obtain ⟨ht1, ht2⟩ := hts t (.head _)
    obtain ⟨p0, hp0⟩ := path_exists hpar t.box ht1
    obtain ⟨g1, g2⟩ := hall t.box ht1 p0 hp0
    obtain ⟨S, hS, hST⟩ : ∃ S, Resolves h (base + t.box) t.style S ∧ (t.style ≠ "default".toList → T t.style S) := by
      by_cases hn : t.style = "default".toList
      · exact ⟨_, hn ▸ g1, fun hh => absurd hn hh⟩
      · obtain ⟨S, hS⟩ := ht2 hn
        exact ⟨S, (g2 _ hn S).mpr hS, fun _ => hS⟩
    obtain ⟨h1, k1, k2, k3, k4, k5, k6⟩ := text_ok hr (c := base + t.box) (by omega) g1 hS
    have hall1 : ∀ u ≤ all.length, ∀ p, Path all u p → Dressed h1 (base + u) T D B (p.any (· ∈ quotes)) := by
      intro u hu p hpath
      have g := hall u hu p hpath
      have e : ∀ n s, Resolves h1 (base + u) n s ↔ Resolves h (base + u) n s := fun n s => k2.same (base + u) (by omega) (by simp) n s
      exact ⟨(e _ _).mpr g.1, fun n hn s => (e n s).trans (g.2 n hn s)⟩
    obtain ⟨h2, m1, m2, m3, m4⟩ := ih h1 k2.reach (by omega) (fun t ht => hts t (.tail _ ht)) hall1
    refine ⟨h2, by simp only [dressTexts, k1]; exact m1, k2.trans m2, by simp; omega, ?_⟩
    intro k t' hk p hpath
    cases k with
    | zero =>
      injection hk with hk; subst hk
      obtain rfl := path_fun hp0 hpath
      have hi := m2.texts h.items.length (by omega)
      refine ⟨⟨S, hST, (hi.1 _).mpr ?_⟩, fun n hn s => ((hi.2 n s).trans (k6 n s)).trans (g2 n hn s)⟩
      unfold worn
      split at k5
      · rename_i hn
        rw [if_pos hn]
        rw [hn] at hS
        rw [Verif.Style.resolves_unique g1 hS]
        exact k5
      · rename_i hn
        rw [if_neg hn, ← compose_over]
        exact k5
    | succ k =>
      have := m4 k t' hk p hpath
      have e : h.items.length + (k + 1) = h1.items.length + k := by omega
      rw [e]
      exact this

end Verif.Markdown
