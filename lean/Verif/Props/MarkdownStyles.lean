import Verif.Proofs.MarkdownStyles
import Verif.Props.MarkdownBlocks

/-! # Property C123: the styles of Markdown documents -/

namespace Verif.Markdown
open Spec
open Verif.Style (TextStyle Heap Reachable)
open Verif.Style.Spec (Resolves ItemStyle ItemResolves)

theorem mdStyles_predefined : mdStyles = predefined := by decide +kernel

/-- **C123**, as far as it holds. For every document that is accepted, in any box at any time: every text of the document has the default style of the box, in
quotations with the style for quotations over it, and over that the style for headings of its level, for paragraphs or for code; inline styles are those of the box;
all these are the styles that the box has under the names, and the predefined ones if it has none. Nothing that was there changes.

Missing: the documented names of the styles for headings (`C123_headings_false`); they are `md-h1` to `md-h6`. -/
theorem C123_styles_partial {escape : Char} {lexers : Str → Option Verif.Text.Lexer} {doc : Blocks} {s : St} (hm : markdown escape lexers doc = .ok s)
    {h : Heap} (hr : Reachable h) {c : Nat} (hD : ∃ D, Resolves h c "default".toList D) (hcode : ∃ S, Resolves h c "code".toList S) :
    ∃ h', markdownStyled escape lexers doc h c = .ok (h', s) ∧
      (∀ c' < h.containers.length, ∀ n v, Resolves h' c' n v ↔ Resolves h c' n v) ∧
      (∀ i < h.items.length, (∀ v, ItemStyle h' i v ↔ ItemStyle h i v) ∧ ∀ n v, ItemResolves h' i n v ↔ ItemResolves h i n v) ∧
      h'.items.length = h.items.length + s.texts.length ∧
      ∀ (k : Nat) t, s.texts[k]? = some t → ∃ p, Path s.fam.boxes t.box p ∧
        (∃ v, ItemStyle h' (h.items.length + k) v ∧ Wears h c (p.any (· ∈ s.quotes)) t.style v) ∧
        ∀ n, n ≠ "default".toList → ∀ v, ItemResolves h' (h.items.length + k) n v ↔ Named h c n v := by
  obtain ⟨D, hD⟩ := hD
  obtain ⟨S0, hcode⟩ := hcode
  have hroot := markdown_rooted hm
  have hc : c < h.containers.length := by
    obtain ⟨d, -, -, hd, -⟩ := hD
    exact (List.getElem?_eq_some_iff.mp hd).1
  obtain ⟨h1, a1, a2, a3, a4, a5⟩ := newBox_step hr hc
  obtain ⟨h2, b1, b2, b3, b4, b5⟩ := fill_ok mdStyles h1 a2.reach h.containers.length (by omega) (by decide +kernel)
  have hstep : Step h h2 none := a2.trans_new b2 (le_refl _)
  have hT : ∀ n v, Resolves h2 h.containers.length n v ↔ Named h c n v := by
    intro n v
    rw [b5, mdStyles_predefined]
    simp only [a5, Named]
  obtain ⟨B, hB⟩ : ∃ B, Named h c "md-blockquote".toList B := by
    by_cases hx : ∃ t, Resolves h c "md-blockquote".toList t
    · obtain ⟨t, ht⟩ := hx; exact ⟨t, .inl ht⟩
    · exact ⟨_, .inr ⟨fun t ht => hx ⟨t, ht⟩, List.mem_of_getElem? (i := 4) rfl⟩⟩
  have hdef : ∀ v, Named h c "default".toList v ↔ Resolves h c "default".toList v := by
    intro v
    constructor
    · rintro (hv | ⟨-, hv⟩)
      · exact hv
      · exact absurd (List.mem_map_of_mem (f := (·.1)) hv) (show "default".toList ∉ predefined.map (·.1) by decide +kernel)
    · exact .inl
  obtain ⟨h3, c1, c2, c3, c4, c5⟩ := boxes_ok (base := h.containers.length) (quotes := s.quotes) (T := Named h c) (D := D) (B := B) hB hroot.parents s.fam.boxes 0 h2 hstep.reach rfl (Nat.zero_le _) (by omega) (by
    intro u hu p hp
    have : u = 0 := by omega
    subst this
    cases hp
    exact ⟨(hT _ _).mpr (.inl hD), fun n _ v => hT n v⟩)
  obtain ⟨h4, d1, d2, d3, d4⟩ := texts_ok (base := h.containers.length) (quotes := s.quotes) (T := Named h c) (D := D) (B := B) hroot.parents s.texts h3 c2.reach c3 (by
    intro t ht
    obtain ⟨g1, g2⟩ := hroot.texts t ht
    refine ⟨g1, fun hn => ?_⟩
    by_cases hx : ∃ v, Resolves h c t.style v
    · obtain ⟨v, hv⟩ := hx; exact ⟨v, .inl hv⟩
    · have hx' : ∀ v, ¬ Resolves h c t.style v := fun v hv => hx ⟨v, hv⟩
      by_cases hco : t.style = "code".toList
      · exact absurd hcode (hco ▸ hx' S0)
      · have : t.style ∈ predefined.map (·.1) := by
          have key : ∀ n ∈ textStyles, n = "default".toList ∨ n = "code".toList ∨ n ∈ predefined.map (·.1) := by decide +kernel
          rcases key _ g2 with e | e | e
          · exact absurd e hn
          · exact absurd e hco
          · exact e
        obtain ⟨x, hx1, hx2⟩ := List.mem_map.mp this
        exact ⟨x.2, .inr ⟨hx', by rw [← hx2]; exact hx1⟩⟩) c5
  have hall : Step h h4 none := (hstep.trans c2).trans d2
  refine ⟨h4, ?_, fun c' hc' n v => hall.same c' hc' (by simp) n v, hall.texts, by omega, ?_⟩
  · simp only [markdownStyled, rootBox, a1, b1, hm, c1, d1]; rfl
  · intro k t hk
    obtain ⟨p, hp⟩ := path_exists hroot.parents t.box (hroot.texts t (List.mem_of_getElem? hk)).1
    obtain ⟨⟨S, hS, hi⟩, hn⟩ := d4 k t hk p hp
    have e : h3.items.length = h.items.length := by omega
    rw [e] at hi hn
    refine ⟨p, hp, ⟨_, hi, D, B, hD, hB, ?_⟩, hn⟩
    unfold worn
    split
    · rfl
    · rename_i hne; exact ⟨S, hS hne, rfl⟩

/-- The name of the style of a piece of the document. -/
def styleOf : Piece → Str
  | .text style _ => style
  | .blank => "md-paragraph".toList
  | .code _ _ => "code".toList
  | .label _ => "default".toList

/-- **C123** together with C119: the styles of the pieces of a document. -/
theorem C123_document_partial {escape : Char} (hx : escape ≠ '}') (hn : escape ≠ '\n') {lexers : Str → Option Verif.Text.Lexer} (doc : Blocks) (hd : Proper escape lexers false doc) (hl : Placed doc)
    {h : Heap} (hr : Reachable h) {c : Nat} (hD : ∃ D, Resolves h c "default".toList D) (hcode : ∃ S, Resolves h c "code".toList S) :
    ∃ h' s, markdownStyled escape lexers doc h c = .ok (h', s) ∧ InOrder s (pieces 0 doc) ∧ h'.items.length = h.items.length + (pieces 0 doc).length ∧
      ∀ (k d : Nat) (piece : Piece), (pieces 0 doc)[k]? = some (d, piece) → ∃ t v, s.texts[k]? = some t ∧ Shows t piece ∧
        ItemStyle h' (h.items.length + k) v ∧ Wears h c (decide (0 < d)) (styleOf piece) v := by
  obtain ⟨s, hm, ho⟩ := C119_blocks_partial hx hn doc hd hl
  obtain ⟨h', k1, -, -, k4, k5⟩ := C123_styles_partial hm hr hD hcode
  obtain ⟨paths, f1, f2, f3⟩ := ho
  have hlen : s.texts.length = (pieces 0 doc).length := by
    have := f3.length_eq
    have e := f1.length_eq
    simp only [List.length_zip] at this
    omega
  refine ⟨h', s, k1, ⟨paths, f1, f2, f3⟩, by omega, ?_⟩
  intro k d piece hk
  have hkl : k < s.texts.length := by rw [hlen]; exact (List.getElem?_eq_some_iff.mp hk).1
  have ht := List.getElem?_eq_getElem hkl
  obtain ⟨p, hp, hpath⟩ := forall₂_get f1 ht
  have hz : (s.texts.zip paths)[k]? = some (s.texts[k], p) := by rw [List.getElem?_zip_eq_some]; exact ⟨ht, hp⟩
  obtain ⟨y, hy, hsh, hdep⟩ := forall₂_get f3 hz
  rw [hk] at hy; injection hy with hy; subst hy
  obtain ⟨p', hp', ⟨v, hv, hw⟩, -⟩ := k5 k _ ht
  obtain rfl := path_unique hpath hp'
  refine ⟨_, v, ht, hsh, hv, ?_⟩
  have e1 : p.any (· ∈ s.quotes) = decide (0 < d) := by
    dsimp only at hdep
    rw [← hdep, Bool.eq_iff_iff]
    simp [List.length_pos_iff_exists_mem]
  have e2 : s.texts[k].style = styleOf piece := by
    cases piece with
    | text st i => exact hsh.1
    | blank => exact hsh.1
    | code l t => exact hsh.1
    | label l => exact hsh.1
  rw [e1, e2] at hw
  exact hw

/-! ### the names -/

/-- The documented name of the style for headings (docs/userguide/markdown.md:129). -/
def documentedHeading (n : Nat) : Str := "md-heading-".toList ++ natStr n

/-- A deck with a slide, and a red style for headings of level 1 under its documented name. -/
def exRedHeading : Heap :=
  { styles := [{ size := some 28 }, {}, { color := some "red".toList }]
    dicts := [[("code".toList, 1), ("default".toList, 0)], [("code".toList, 1), ("default".toList, 0)], [("md-heading-1".toList, 2), ("code".toList, 1), ("default".toList, 0)]]
    containers := [0, 2]
    items := [] }

theorem exRed_reachable : Reachable exRedHeading :=
  ⟨[("default".toList, { size := some 28 }), ("code".toList, {})],
    [.newSlide, .newStyle { color := some "red".toList }, .set 1 "md-heading-1".toList 2 (.name "default".toList)], rfl⟩

def exHeading : Blocks := .heading 1 (word "a".toList) .nil

/-- **C123**, negation: a style with the documented name is not used for headings. -/
theorem C123_headings_false : ¬ ∀ (h : Heap) (c : Nat), Reachable h → (∃ D, Resolves h c "default".toList D) → (∃ S, Resolves h c "code".toList S) → ∀ (n : Nat) (t : Inlines) (h' : Heap) (s : St) (S v : TextStyle),
    markdownStyled '~' (fun _ => none) (.heading n t .nil) h c = .ok (h', s) → Resolves h c (documentedHeading n) S → ItemStyle h' h.items.length v → ∀ col, S.color = some col → v.color = some col := by
  intro hall
  have hm : (markdownStyled '~' (fun _ => none) exHeading exRedHeading 1).isOk = true := by decide +kernel
  have hc : (markdownStyled '~' (fun _ => none) exHeading exRedHeading 1).toOption.bind (fun x => (x.1.items[0]?).bind (fun i => (x.1.styles[i.style]?).map (·.color))) = some none := by decide +kernel
  cases he : markdownStyled '~' (fun _ => none) exHeading exRedHeading 1 with
  | error e => rw [he] at hm; cases hm
  | ok x =>
    rw [he] at hc
    obtain ⟨h', s⟩ := x
    simp only [Except.toOption, Option.bind_some] at hc
    cases hi : h'.items[0]? with
    | none => rw [hi] at hc; cases hc
    | some i =>
      rw [hi] at hc
      simp only [Option.bind_some] at hc
      cases hv : h'.styles[i.style]? with
      | none => rw [hv] at hc; cases hc
      | some v =>
        rw [hv] at hc
        have hc : v.color = none := by simpa using hc
        have := hall exRedHeading 1 exRed_reachable ⟨_, 2, _, 0, rfl, rfl, by decide +kernel, rfl⟩ ⟨_, 2, _, 1, rfl, rfl, by decide +kernel, rfl⟩ 1 (word "a".toList) h' s { color := some "red".toList } v he
          ⟨2, _, 2, rfl, rfl, by decide +kernel, rfl⟩ ⟨i, hi, hv⟩ _ rfl
        rw [hc] at this
        cases this

/-! ### an example -/

/-- A heading in a quotation, and a paragraph, where the style for paragraphs is red. -/
def exStyled : Blocks := .quote (.heading 2 (word "a".toList) .nil) (.paragraph (word "b".toList) .nil)

def exRedParagraph : Heap :=
  { exRedHeading with dicts := [[("code".toList, 1), ("default".toList, 0)], [("code".toList, 1), ("default".toList, 0)], [("md-paragraph".toList, 2), ("code".toList, 1), ("default".toList, 0)]] }

theorem exRedParagraph_reachable : Reachable exRedParagraph :=
  ⟨[("default".toList, { size := some 28 }), ("code".toList, {})],
    [.newSlide, .newStyle { color := some "red".toList }, .set 1 "md-paragraph".toList 2 (.name "default".toList)], rfl⟩

example : Proper '~' (fun _ => none) false exStyled ∧ Placed exStyled ∧ Reachable exRedParagraph ∧ (∃ D, Resolves exRedParagraph 1 "default".toList D) ∧ (∃ S, Resolves exRedParagraph 1 "code".toList S) := by
  refine ⟨?_, by simp [exStyled, Placed], exRedParagraph_reachable, ⟨_, 2, _, 0, rfl, rfl, by decide +kernel, rfl⟩, ⟨_, 2, _, 1, rfl, rfl, by decide +kernel, rfl⟩⟩
  simp only [exStyled, Proper, and_true]
  exact ⟨⟨by omega, fine_word (by decide)⟩, fine_word (by decide)⟩

/-- The heading is grey, left-aligned and of size 38, the paragraph red and of the default size. -/
example : (markdownStyled '~' (fun _ => none) exStyled exRedParagraph 1).toOption.map (fun x => x.1.items.map (fun i => x.1.styles[i.style]?)) =
    some [some { size := some 38, align := some "left".toList, color := some "#A9A9A9".toList }, some { size := some 28, color := some "red".toList }] := by decide +kernel

end Verif.Markdown
