import Verif.Proofs.MarkdownBlocks

/-! # Property C119: the blocks of a Markdown document are shown in their order -/

namespace Verif.Markdown
open Spec
open Verif.ExtList (BoxRec)

/-- **C119**, as far as it holds: a document in which the lists inside of items come after everything else of the item, and are not in a quotation there, is shown in its order: there is exactly
one text for every heading, paragraph, empty line, code and label, it shows what the source says in its style, it is in as many quotations as in the source, and every text comes before the
texts of what follows in the source.

Missing: documents where an item goes on after a list in it, or has a list in a quotation (`C119_order_false`, `C119_quotes_false`), and items with an ordered list that
starts at 0 (`C119_zero_false`). -/
theorem C119_blocks_partial {escape : Char} (hx : escape ≠ '}') (hn : escape ≠ '\n') {lexers : Str → Option Verif.Text.Lexer} (doc : Blocks)
    (hd : Proper escape lexers false doc) (hl : Placed doc) : ∃ s, markdown escape lexers doc = .ok s ∧ InOrder s (pieces 0 doc) :=
  markdown_ok hx hn doc hd hl

/-! ### where it does not hold -/

theorem path_unique {bs : List BoxRec} {u : Nat} {p : List Nat} (h : Path bs u p) : ∀ {q : List Nat}, Path bs u q → p = q := by
  induction h with
  | root =>
    intro q hq
    cases hq
    rfl
  | child hk _ ih =>
    intro q hq
    cases hq with
    | child hk' hq' =>
      rw [hk] at hk'
      injection hk' with hk'
      subst hk'
      rw [ih hq']

theorem path_child {bs : List BoxRec} {ps : List Nat} (h : bs.map (·.parent) = ps) {k j : Nat} {p : List Nat} (hk : ps[k]? = some j) (hp : Path bs j p) : Path bs (k + 1) (p ++ [k + 1]) := by
  rw [← h, List.getElem?_map] at hk
  cases hb : bs[k]? with
  | none => rw [hb] at hk; cases hk
  | some b =>
    rw [hb] at hk
    injection hk with hk
    have hk : b.parent = j := hk
    exact .child hb (hk ▸ hp)

theorem forall₂_get {α β : Type} {R : α → β → Prop} {as : List α} {bs : List β} (h : List.Forall₂ R as bs) : ∀ {i : Nat} {a : α}, as[i]? = some a → ∃ b, bs[i]? = some b ∧ R a b := by
  induction h with
  | nil => intro i a h; simp at h
  | cons hr _ ih =>
    intro i a hi
    cases i with
    | zero => injection hi with hi; subst hi; exact ⟨_, rfl, hr⟩
    | succ i => exact ih hi

/-- What of a state the examples are about: the parents of the boxes, the boxes of the texts, the quotations. -/
def shape (s : St) : List Nat × List Nat × List Nat := (s.fam.boxes.map (·.parent), s.texts.map (·.box), s.quotes)

def word (s : Str) : Inlines := .raw s .nil

theorem fine_word {s : Str} (h : ∀ c ∈ s, c ≠ '~' ∧ c ≠ '}') : Fine '~' (word s) := by
  rw [Fine]
  refine ⟨trivial, ?_⟩
  intro t ht
  rw [List.mem_singleton.mp ht]
  exact h

/-- An item that goes on after a list in it:
```
- a
  - b

  c
```
-/
def goesOn : Blocks :=
  .list false 1 "-".toList (.cons (.paragraph (word "a".toList) (.list false 1 "-".toList (.cons (.paragraph (word "b".toList) .nil) .nil) (.paragraph (word "c".toList) .nil))) .nil) .nil

theorem goesOn_shape : (markdown '~' (fun _ => none) goesOn).map shape = .ok ([0, 1, 2, 3, 3, 5, 5, 2, 8, 9, 9, 11, 5], [4, 6, 10, 12, 13], []) := by decide +kernel

theorem goesOn_proper : Proper '~' (fun _ => none) false goesOn := by
  simp only [goesOn, Proper, ProperItems, and_true]
  exact ⟨by decide, fine_word (by decide), by decide, fine_word (by decide), fine_word (by decide)⟩

/-- **C119**, negation: the second paragraph of the item is shown above the list that comes before it in the source. -/
theorem C119_order_false : ∃ (doc : Blocks) (s : St), Proper '~' (fun _ => none) false doc ∧ markdown '~' (fun _ => none) doc = .ok s ∧ ¬ InOrder s (pieces 0 doc) ∧
    ∃ (b c : TextRec) (p q : List Nat), s.texts[3]? = some b ∧ s.texts[4]? = some c ∧ Shows b (.text "md-paragraph".toList (word "b".toList)) ∧
      Shows c (.text "md-paragraph".toList (word "c".toList)) ∧ Path s.fam.boxes b.box p ∧ Path s.fam.boxes c.box q ∧ Before q p := by
  have hsh := goesOn_shape
  have htx : (markdown '~' (fun _ => none) goesOn).map (fun s => (s.texts.map (fun t => (Verif.Text.Spec.shown [] t.toks, t.style)))) =
      .ok [([('-', [])], "default".toList), ([('a', [])], "md-paragraph".toList), ([('-', [])], "default".toList), ([('b', [])], "md-paragraph".toList), ([('c', [])], "md-paragraph".toList)] := by
    decide +kernel
  cases hs : markdown '~' (fun _ => none) goesOn with
  | error e => rw [hs] at hsh; cases hsh
  | ok s =>
    rw [hs] at hsh htx
    injection hsh with hsh
    injection htx with htx
    dsimp only at htx
    unfold shape at hsh
    injection hsh with h1 h2
    injection h2 with h2 h3
    have p2 : Path s.fam.boxes 2 [1, 2] := path_child h1 (k := 1) rfl (path_child h1 (k := 0) rfl .root)
    have pb : Path s.fam.boxes 12 [1, 2, 8, 9, 11, 12] := path_child h1 (k := 11) rfl (path_child h1 (k := 10) rfl (path_child h1 (k := 8) rfl (path_child h1 (k := 7) rfl p2)))
    have pc : Path s.fam.boxes 13 [1, 2, 3, 5, 13] := path_child h1 (k := 12) rfl (path_child h1 (k := 4) rfl (path_child h1 (k := 2) rfl p2))
    have get : ∀ (i : Nat) (x : List (Char × List Str)) (y : Str) (u : Nat), (s.texts.map (fun t => (Verif.Text.Spec.shown [] t.toks, t.style)))[i]? = some (x, y) → (s.texts.map (·.box))[i]? = some u →
        ∃ t, s.texts[i]? = some t ∧ Verif.Text.Spec.shown [] t.toks = x ∧ t.style = y ∧ t.box = u := by
      intro i x y u g1 g2
      rw [List.getElem?_map] at g1 g2
      cases ht : s.texts[i]? with
      | none => rw [ht] at g1; cases g1
      | some t =>
        rw [ht] at g1 g2
        injection g1 with g1
        injection g2 with g2
        injection g1 with g1 g3
        exact ⟨t, rfl, g1, g3, g2⟩
    obtain ⟨b, b1, b2, b3, b4⟩ := get 3 [('b', [])] "md-paragraph".toList 12 (by rw [htx]; rfl) (by rw [h2]; rfl)
    obtain ⟨c, c1, c2, c3, c4⟩ := get 4 [('c', [])] "md-paragraph".toList 13 (by rw [htx]; rfl) (by rw [h2]; rfl)
    refine ⟨goesOn, s, goesOn_proper, hs, ?_, b, c, _, _, b1, c1, ⟨b3, 0, ?_⟩, ⟨c3, 0, ?_⟩, b4 ▸ pb, c4 ▸ pc, ⟨[1, 2], 3, 8, [5, 13], [9, 11, 12], rfl, rfl, by omega⟩⟩
    · rintro ⟨paths, f1, f2, -⟩
      obtain ⟨p, x1, x2⟩ := forall₂_get f1 b1
      obtain ⟨q, y1, y2⟩ := forall₂_get f1 c1
      rw [b4] at x2
      rw [c4] at y2
      obtain rfl := path_unique pb x2
      obtain rfl := path_unique pc y2
      have hb := List.pairwise_iff_getElem.mp f2 3 4 (List.getElem?_eq_some_iff.mp x1).1 (List.getElem?_eq_some_iff.mp y1).1 (by omega)
      rw [(List.getElem?_eq_some_iff.mp x1).2, (List.getElem?_eq_some_iff.mp y1).2] at hb
      simp [before_cons] at hb
    · rw [b2]; rfl
    · rw [c2]; rfl

/-- A list in a quotation in an item:
```
- > - b
```
-/
def quoted : Blocks := .list false 1 "-".toList (.cons (.quote (.list false 1 "-".toList (.cons (.paragraph (word "b".toList) .nil) .nil) .nil) .nil) .nil) .nil

theorem quoted_shape : (markdown '~' (fun _ => none) quoted).map shape = .ok ([0, 1, 2, 3, 3, 5, 6, 2, 8, 9, 9, 11], [4, 10, 12], [6]) := by decide +kernel

theorem quoted_proper : Proper '~' (fun _ => none) false quoted := by
  simp only [quoted, Proper, ProperItems, and_true, true_and]
  exact ⟨by decide, by decide, fine_word (by decide)⟩

/-- **C119**, negation: the list is not in the quotation (its texts have the style of ordinary ones). -/
theorem C119_quotes_false : ∃ (doc : Blocks) (s : St), Proper '~' (fun _ => none) false doc ∧ markdown '~' (fun _ => none) doc = .ok s ∧ ¬ InOrder s (pieces 0 doc) ∧
    (∃ i : Inlines, pieces 0 doc = [(0, .label "-".toList), (1, .label "-".toList), (1, .text "md-paragraph".toList i)]) ∧
    ∀ t ∈ s.texts, ∀ p, Path s.fam.boxes t.box p → ∀ q ∈ s.quotes, q ∉ p := by
  have hsh := quoted_shape
  cases hs : markdown '~' (fun _ => none) quoted with
  | error e => rw [hs] at hsh; cases hsh
  | ok s =>
    rw [hs] at hsh
    injection hsh with hsh
    unfold shape at hsh
    injection hsh with h1 h2
    injection h2 with h2 h3
    have p2 : Path s.fam.boxes 2 [1, 2] := path_child h1 (k := 1) rfl (path_child h1 (k := 0) rfl .root)
    have pl : Path s.fam.boxes 4 [1, 2, 3, 4] := path_child h1 (k := 3) rfl (path_child h1 (k := 2) rfl p2)
    have pk : Path s.fam.boxes 10 [1, 2, 8, 9, 10] := path_child h1 (k := 9) rfl (path_child h1 (k := 8) rfl (path_child h1 (k := 7) rfl p2))
    have pb : Path s.fam.boxes 12 [1, 2, 8, 9, 11, 12] := path_child h1 (k := 11) rfl (path_child h1 (k := 10) rfl (path_child h1 (k := 8) rfl (path_child h1 (k := 7) rfl p2)))
    have none : ∀ t ∈ s.texts, ∀ p, Path s.fam.boxes t.box p → ∀ q ∈ s.quotes, q ∉ p := by
      intro t ht p hp q hq
      have : t.box ∈ s.texts.map (·.box) := List.mem_map_of_mem ht
      rw [h2] at this
      rw [h3] at hq
      obtain rfl := List.mem_singleton.mp hq
      generalize t.box = u at *
      simp only [List.mem_cons, List.not_mem_nil, or_false] at this
      rcases this with rfl | rfl | rfl
      · rw [← path_unique pl hp]; decide
      · rw [← path_unique pk hp]; decide
      · rw [← path_unique pb hp]; decide
    refine ⟨quoted, s, quoted_proper, hs, ?_, ⟨word "b".toList, rfl⟩, none⟩
    rintro ⟨paths, f1, -, f3⟩
    have ht : (s.texts.map (·.box))[2]? = some 12 := by rw [h2]; rfl
    rw [List.getElem?_map] at ht
    cases hx : s.texts[2]? with
    | none => rw [hx] at ht; cases ht
    | some t =>
      obtain ⟨p, x1, x2⟩ := forall₂_get f1 hx
      have hz : (s.texts.zip paths)[2]? = some (t, p) := by rw [List.getElem?_zip_eq_some]; exact ⟨hx, x1⟩
      obtain ⟨piece, y1, y2⟩ := forall₂_get f3 hz
      have hp : (pieces 0 quoted)[2]? = some (1, .text "md-paragraph".toList (word "b".toList)) := rfl
      rw [hp] at y1
      injection y1 with y1
      subst y1
      have y3 : (p.filter (· ∈ s.quotes)).length = 1 := y2.2
      have : p.filter (· ∈ s.quotes) = [] := by
        rw [List.filter_eq_nil_iff]
        intro a ha hb
        exact none t (List.mem_of_getElem? hx) p x2 a (by simpa using hb) ha
      rw [this] at y3
      cases y3

/-- **C119**, negation: an ordered list that starts at 0 can be used, but not in an item of a list. -/
theorem C119_zero_false : (∃ s, markdown '~' (fun _ => none) (.list true 0 [] (.cons (.paragraph (word "b".toList) .nil) .nil) .nil) = .ok s ∧
      InOrder s [(0, .label "0.".toList), (0, .text "md-paragraph".toList (word "b".toList))]) ∧
    markdown '~' (fun _ => none) (.list false 1 "-".toList (.cons (.list true 0 [] (.cons (.paragraph (word "b".toList) .nil) .nil) .nil) .nil) .nil) = .error .assertion := by
  refine ⟨?_, ?_⟩
  · refine C119_blocks_partial (by decide) (by decide) _ ?_ ?_
    · simp only [Proper, ProperItems, and_true, if_true]
      exact ⟨by decide, fine_word (by decide)⟩
    · simp only [Placed, ItemsOk, ListsLast, and_true]
  · have : (markdown '~' (fun _ => none) (.list false 1 "-".toList (.cons (.list true 0 [] (.cons (.paragraph (word "b".toList) .nil) .nil) .nil) .nil) .nil)).map shape = .error .assertion := by
      decide +kernel
    cases hs : markdown '~' (fun _ => none) (.list false 1 "-".toList (.cons (.list true 0 [] (.cons (.paragraph (word "b".toList) .nil) .nil) .nil) .nil) .nil) with
    | error e => rw [hs] at this; injection this with this; rw [this]
    | ok s => rw [hs] at this; cases this

/-! ### an example -/

/-- A lexer that takes everything as one token. -/
def plainLexer : Verif.Text.Lexer := fun code => [("Token.Text".toList, Verif.Text.Spec.stripNl code ++ ['\n'])]

/-- ```
# Title
> quoted
>
> 3. *x*
>    - y
> 4. z

~~~python
a = 1
~~~
``` -/
def sampleDoc : Blocks :=
  .heading 1 (word "Title".toList) (.quote (.paragraph (word "quoted".toList) (.blank
    (.list true 3 [] (.cons (.paragraph (.emphasis (word "x".toList) .nil) (.list false 1 "-".toList (.cons (.paragraph (word "y".toList) .nil) .nil) .nil)) (.cons (.paragraph (word "z".toList) .nil) .nil)) .nil)))
    (.blank (.code "python".toList "a = 1\n".toList .nil)))

def sampleLexers (lang : Str) : Option Verif.Text.Lexer := if lang = "python".toList then some plainLexer else none

example : ∃ s, markdown '~' sampleLexers sampleDoc = .ok s ∧ InOrder s
    [(0, .text "md-h1".toList (word "Title".toList)), (1, .text "md-paragraph".toList (word "quoted".toList)), (1, .blank),
     (1, .label "3.".toList), (1, .text "md-paragraph".toList (.emphasis (word "x".toList) .nil)), (1, .label "-".toList), (1, .text "md-paragraph".toList (word "y".toList)),
     (1, .label "4.".toList), (1, .text "md-paragraph".toList (word "z".toList)), (0, .blank), (0, .code "python".toList "a = 1\n".toList)] := by
  refine C119_blocks_partial (by decide) (by decide) sampleDoc ?_ ?_
  · simp only [sampleDoc, Proper, ProperItems, and_true]
    refine ⟨by decide, fine_word (by decide), ⟨fine_word (by decide), by decide, ⟨?_, by decide, fine_word (by decide)⟩, fine_word (by decide)⟩, fun _ => ⟨⟨plainLexer, ?_, Verif.Text.honours_exists⟩, by decide +kernel, by decide +kernel⟩⟩
    · rw [Fine]
      refine ⟨⟨trivial, trivial⟩, ?_⟩
      intro t ht
      have : t = "x".toList := by simpa [texts, word] using ht
      subst this
      decide
    · exact if_pos rfl
  · simp only [sampleDoc, Placed, ItemsOk, ListsLast, OnlyLists, and_true]

end Verif.Markdown
