import Verif.Proofs.CairoInline
import Verif.Props.LineBox
import Verif.Props.SceneCairo
import Mathlib.Tactic.FieldSimp

/-! # C131: inline boxes with Cairo -/

namespace Verif.CairoInline
open Verif.Text Verif.Text.Spec Verif.Style Verif.Cairo Verif.Cairo.Spec Spec
open Verif.CairoDraw (Layout)
open Verif.Scene (Ext buildLayout exExt)
open Verif.Scene.Spec (sideX)
open Verif.TextQuery.Spec (sectionLine)

/-- What has to be answered for the box of a section: with it, the box is from the first to the last character that the section has in its first line, wherever
the line is drawn and however the text is scaled. -/
def Around (adv : Char → TextStyle → Rat) (align : Option Str) (before sec rest : List Cell) (qx qw : Rat) : Prop :=
  ∀ (r : Rect) (s : Rat), sideX r align + qx * s = lineBegin r align (total adv (before ++ sec ++ rest) * s) + total adv before * s ∧ qw * s = total adv sec * s

/-- The full claim, for every section that has characters in its first line. -/
def AroundSection : Prop :=
  ∀ (x : Ext) (pango : Layout → Glyphs) (adv : Char → TextStyle → Rat) (_ : SetsLine pango adv) (style : TextStyle) (styles : Str → Option TextStyle) (base : TextStyle)
    (_ : Settable x style styles base) (pre : List Tok) (n : Str) (inner post : List Tok) (_ : Stream styles (pre ++ .opn n :: inner ++ .close :: post)) (_ : Balanced inner)
    (nth : Nat) (_ : 1 ≤ nth) (_ : pre.count (.opn n) = nth - 1) (_ : sectionLine 0 (inner ++ .close :: post) ≠ []),
    ∃ before sec rest qx qw, InLine styles base pre n inner post before sec rest ∧
      inlineAnswer x pango (pre ++ .opn n :: inner ++ .close :: post) style styles n nth = .ok (qx, qw) ∧ Around adv style.align before sec rest qx qw

theorem index_of (pre : List Tok) (n : Str) (tail : List Tok) (nth : Nat) (h1 : 1 ≤ nth) (h2 : pre.count (.opn n) = nth - 1) :
    inlineBoxIndex (pre ++ .opn n :: tail) n nth = .ok pre.length :=
  ((C17_inline_box (pre ++ .opn n :: tail) n nth h1).1 pre.length).mpr ⟨by simp, by simpa using h2⟩

/-- What is answered for a section that is not inside another one. -/
theorem answered (x : Ext) (pango : Layout → Glyphs) (adv : Char → TextStyle → Rat) (hp : SetsLine pango adv) (style : TextStyle) (styles : Str → Option TextStyle)
    (base : TextStyle) (hs : Settable x style styles base) (pre : List Tok) (n : Str) (inner post : List Tok) (ht : Stream styles (pre ++ .opn n :: inner ++ .close :: post))
    (hpre : Balanced pre) (hin : Balanced inner) (nth : Nat) (h1 : 1 ≤ nth) (h2 : pre.count (.opn n) = nth - 1) :
    ∃ before sec rest, (sectionLine 0 (inner ++ .close :: post) ≠ [] → InLine styles base pre n inner post before sec rest) ∧
      sec.map (·.1) = sectionLine 0 (inner ++ .close :: post) ∧
      ∀ sx, Verif.TextItem.textX ⟨0, 0, total adv (before ++ sec ++ rest), 0⟩ style.align = .ok sx →
        (sec = [] → inlineAnswer x pango (pre ++ .opn n :: inner ++ .close :: post) style styles n nth = .error .assertion) ∧
        (sec ≠ [] → inlineAnswer x pango (pre ++ .opn n :: inner ++ .close :: post) style styles n nth = .ok (total adv before - sx, total adv sec)) := by
  obtain ⟨P, I, T, before, sec, rest, hex, hbal, hP, hI, hmem, hnl, hcells, hb1, hb2, htx, hline⟩ := section_cells (styles := styles) (base := base) ht hpre hin
  have hknown : ∀ m, Tok.opn m ∈ P ++ .opn n :: I ++ .close :: T → m.head? = some '#' ∨ styles m ≠ none := by
    intro m hm
    rcases hmem _ hm with h | h
    · cases h
    · exact ht.known m h
  obtain ⟨l, hl, hsc, htext, hbytes⟩ := line_layout hs _ hbal hknown
  have htexts : ∀ c ∈ l.text, c ∉ separators := by
    intro c hc
    rw [htext] at hc
    rw [show (cells styles base _).map (·.1) = _ from C60_text (noMarkers styles) base _ hnl [] true] at hc
    have hto : ∀ (l : List Tok) (c : Char), c ∈ textsOf l → ∃ s, Tok.text s ∈ l ∧ c ∈ s := by
      clear * -
      intro l
      induction l with
      | nil => intro c h; cases h
      | cons t l ih =>
        intro c h
        cases t with
        | text s =>
          rcases List.mem_append.mp h with h | h
          · exact ⟨s, by simp, h⟩
          · obtain ⟨s', h1, h2⟩ := ih c h; exact ⟨s', List.mem_cons_of_mem _ h1, h2⟩
        | newline k => obtain ⟨s', h1, h2⟩ := ih c h; exact ⟨s', List.mem_cons_of_mem _ h1, h2⟩
        | opn k => obtain ⟨s', h1, h2⟩ := ih c h; exact ⟨s', List.mem_cons_of_mem _ h1, h2⟩
        | close => obtain ⟨s', h1, h2⟩ := ih c h; exact ⟨s', List.mem_cons_of_mem _ h1, h2⟩
    obtain ⟨s, h3, h4⟩ := hto _ _ hc
    rcases hmem _ h3 with h | h
    · cases h
    · exact ht.texts s h c h4
  have hg := hp l (cells styles base _) hsc htext.symm hbytes htexts
  rw [hcells] at hg
  have hrange : getByteRange (P ++ .opn n :: I ++ .close :: T) P.length =
      .ok (byteLength (before.map (·.1)), byteLength (before.map (·.1)) + byteLength (sec.map (·.1))) := by
    rw [C61_outermost_partial P I T n hP hI (by intro k hk; exact hnl k (by simp only [List.mem_append] at hk ⊢; exact .inl hk)), hb1, hb2]
    simp only [utf8Length_eq]
  have hW : (pango l).width = total adv (before ++ sec ++ rest) := by rw [hg]
  refine ⟨before, sec, rest, (by rw [← htx]; exact hline), (by rw [hb2, htx]), ?_⟩
  intro sx hsx
  have hans : inlineAnswer x pango (pre ++ .opn n :: inner ++ .close :: post) style styles n nth =
      match subtextExtents (pango l) (P ++ .opn n :: I ++ .close :: T) P.length with
      | .error e => .error e
      | .ok (cx, w) => .ok (cx - sx, w) := by
    unfold inlineAnswer
    have hidx := index_of pre n (inner ++ .close :: post) nth h1 h2
    rw [show pre ++ Tok.opn n :: (inner ++ .close :: post) = pre ++ Tok.opn n :: inner ++ .close :: post by simp] at hidx
    rw [hidx]
    dsimp only
    rw [hex]
    show answer x pango _ style styles P.length = _
    unfold answer
    rw [hl]
    dsimp only
    rw [hW, hsx]
    rfl
  rw [hans]
  unfold subtextExtents
  rw [hg, if_neg (by simp), hrange]
  dsimp only
  constructor
  · rintro rfl
    have := scan_empty adv before rest
    rw [List.append_nil, List.map_nil]
    simp only [byteLength, Nat.add_zero]
    rw [this]
  · intro hsec
    rw [scan_section adv before sec rest hsec]

/-- **C131 (partial, outermost sections).** Let Pango set the characters of a line side by side. With Cairo, the box of a section that is not inside another one and that
has characters in its first line is exactly around these characters as they are drawn: for every alignment, scale and rectangle of the text, for characters of any number
of bytes, also when the line begins inside other sections or when the section goes on in the next line. -/
theorem C131_section_partial (x : Ext) (pango : Layout → Glyphs) (adv : Char → TextStyle → Rat) (hp : SetsLine pango adv) (style : TextStyle) (styles : Str → Option TextStyle)
    (base : TextStyle) (hs : Settable x style styles base) (pre : List Tok) (n : Str) (inner post : List Tok) (ht : Stream styles (pre ++ .opn n :: inner ++ .close :: post))
    (hpre : Balanced pre) (hin : Balanced inner) (nth : Nat) (h1 : 1 ≤ nth) (h2 : pre.count (.opn n) = nth - 1) (hne : sectionLine 0 (inner ++ .close :: post) ≠ []) :
    ∃ before sec rest qx qw, InLine styles base pre n inner post before sec rest ∧
      inlineAnswer x pango (pre ++ .opn n :: inner ++ .close :: post) style styles n nth = .ok (qx, qw) ∧ Around adv style.align before sec rest qx qw := by
  obtain ⟨before, sec, rest, hline, hsl, hans⟩ := answered x pango adv hp style styles base hs pre n inner post ht hpre hin nth h1 h2
  obtain ⟨sx, hsx, har⟩ : ∃ sx, Verif.TextItem.textX ⟨0, 0, total adv (before ++ sec ++ rest), 0⟩ style.align = .ok sx ∧
      ∀ qx, qx = total adv before - sx → ∀ (r : Rect) (s : Rat), sideX r style.align + qx * s =
        lineBegin r style.align (total adv (before ++ sec ++ rest) * s) + total adv before * s := by
    rcases hs.align with h | h | h
    · refine ⟨0, ?_, ?_⟩
      · rw [h]; rfl
      · rintro qx rfl r s
        rw [h]
        simp only [sideX, lineBegin, if_pos]
        ring
    · refine ⟨0 + total adv (before ++ sec ++ rest) / 2, ?_, ?_⟩
      · rw [h]; rfl
      · rintro qx rfl r s
        have hn : ¬ (some "middle".toList = some "left".toList) := by decide
        rw [h]
        simp only [sideX, lineBegin, if_neg hn, if_pos]
        ring
    · refine ⟨0 + total adv (before ++ sec ++ rest), ?_, ?_⟩
      · rw [h]; rfl
      · rintro qx rfl r s
        have hn : ¬ (some "right".toList = some "left".toList) := by decide
        have hn2 : ¬ (some "right".toList = some "middle".toList) := by decide
        rw [h]
        simp only [sideX, lineBegin, if_neg hn, if_neg hn2]
        ring
  refine ⟨before, sec, rest, total adv before - sx, total adv sec, hline hne, (hans sx hsx).2 ?_, fun r s => ⟨har _ rfl r s, rfl⟩⟩
  rintro rfl
  exact hne hsl.symm

/-- **C131 (empty sections).** For a section that is not inside another one and that has no characters in its first line (`~b{}`), `inline_box` raises an AssertionError. -/
theorem C131_empty (x : Ext) (pango : Layout → Glyphs) (adv : Char → TextStyle → Rat) (hp : SetsLine pango adv) (style : TextStyle) (styles : Str → Option TextStyle)
    (base : TextStyle) (hs : Settable x style styles base) (pre : List Tok) (n : Str) (inner post : List Tok) (ht : Stream styles (pre ++ .opn n :: inner ++ .close :: post))
    (hpre : Balanced pre) (hin : Balanced inner) (nth : Nat) (h1 : 1 ≤ nth) (h2 : pre.count (.opn n) = nth - 1) (hne : sectionLine 0 (inner ++ .close :: post) = []) :
    inlineAnswer x pango (pre ++ .opn n :: inner ++ .close :: post) style styles n nth = .error .assertion := by
  obtain ⟨before, sec, rest, -, hsl, hans⟩ := answered x pango adv hp style styles base hs pre n inner post ht hpre hin nth h1 h2
  have hsec : sec = [] := by rw [hne] at hsl; exact List.map_eq_nil_iff.mp hsl
  have : ∃ sx, Verif.TextItem.textX ⟨0, 0, total adv (before ++ sec ++ rest), 0⟩ style.align = .ok sx := by
    rcases hs.align with h | h | h <;> rw [h]
    · exact ⟨_, rfl⟩
    · exact ⟨_, rfl⟩
    · exact ⟨_, rfl⟩
  obtain ⟨sx, hsx⟩ := this
  exact (hans sx hsx).1 hsec

/-- **C131 (boxes, partial).** The same for the boxes on a slide: after successful calls, if the numbers with which the box of the section was made are those that Cairo
answered, then the box (with its paddings) has the left edge and the width of the characters of the section as Pango draws them in the rectangle `r` of the text. -/
theorem C131_boxes_partial (x : Ext) (pango : Layout → Glyphs) (adv : Char → TextStyle → Rat) (hp : SetsLine pango adv)
    (w h : Rat) (ts : List Verif.Scene.TextCall) (st : Verif.Scene.State) (hr : Verif.Scene.runText (Verif.Scene.newScene w h) ts = .ok st)
    (width height : Rat) (env : Verif.Layout.Env) (he : st.slide.rects width height = .ok env)
    (u p : Nat) (style : TextStyle) (styles : Str → Option TextStyle) (rot : Option Rat) (fit : Bool) (tw : Rat) (pre : List Tok) (n : Str) (inner post : List Tok)
    (hu : (Verif.Scene.Spec.thingsText ts)[u]? = some (.plain (.draw p (.text (pre ++ .opn n :: inner ++ .close :: post) style styles rot fit tw))))
    (base : TextStyle) (hs : Settable x style styles base) (ht : Stream styles (pre ++ .opn n :: inner ++ .close :: post))
    (hpre : Balanced pre) (hin : Balanced inner) (nth : Nat) (h1 : 1 ≤ nth) (h2 : pre.count (.opn n) = nth - 1) (hne : sectionLine 0 (inner ++ .close :: post) ≠ [])
    (k : Nat) (qx qw : Rat) (c : Verif.Slide.BoxCall) (hk : (Verif.Scene.Spec.thingsText ts)[k]? = some (.inlineBox (u + 1) n nth qx qw c))
    (hx : c.layout.x = .none) (hw : c.layout.width = .none)
    (hq : inlineAnswer x pango (pre ++ .opn n :: inner ++ .close :: post) style styles n nth = .ok (qx, qw)) :
    ∃ r q sc lh before sec rest, env p = some r ∧ env (k + 1) = some q ∧ InLine styles base pre n inner post before sec rest ∧
      Verif.Scene.Spec.Rows r (pre ++ .opn n :: inner ++ .close :: post) style fit tw sc lh ∧
      (Verif.Scene.Spec.padded c.layout q).x = lineBegin r style.align (total adv (before ++ sec ++ rest) * sc) + total adv before * sc ∧
      (Verif.Scene.Spec.padded c.layout q).width = total adv sec * sc := by
  obtain ⟨before, sec, rest, qx', qw', hl, hq', har⟩ := C131_section_partial x pango adv hp style styles base hs pre n inner post ht hpre hin nth h1 h2 hne
  rw [hq] at hq'
  injection hq' with hq'
  injection hq' with e1 e2
  subst e1 e2
  obtain ⟨p', toks', style', fit', tw', r, q, sc, lh, i, ⟨k0, styles', rot', hk0, hT⟩, hr', hq2, hrows, -, -, -, hon⟩ :=
    Verif.Scene.C120_inline_boxes w h ts st hr width height env he k (u + 1) n nth qx qw c hk
  obtain rfl : u = k0 := by omega
  rw [hu] at hT
  injection hT with hT
  injection hT with hT
  injection hT with hpp hT
  injection hT with e1 e2 e3 e4 e5 e6
  subst hpp e1 e2 e3 e4 e5 e6
  exact ⟨r, q, sc, lh, before, sec, rest, hr', hq2, hl, hrows, by rw [hon.1 hx, (har r sc).1], by rw [hon.2.1 hw, (har r sc).2]⟩

/-! ### a text with a section inside another one -/

/-- Every character is 10 wide. -/
def tenWide : Char → TextStyle → Rat := fun _ _ => 10

/-- Pango with such a font. -/
def tenPango (l : Layout) : Glyphs := ⟨1, total tenWide (l.text.map (·, {})), sideBySide tenWide 0 0 (l.text.map (·, {}))⟩

theorem tenPango_sets : SetsLine tenPango tenWide := by
  rintro l cs - h - -
  have h1 : ∀ cs : List Cell, total tenWide ((cs.map (·.1)).map (·, {})) = total tenWide cs := by
    intro cs
    induction cs with
    | nil => rfl
    | cons c cs ih => simp only [List.map_cons, total, ih]; rfl
  have h2 : ∀ (cs : List Cell) off x, sideBySide tenWide off x ((cs.map (·.1)).map (·, {})) = sideBySide tenWide off x cs := by
    intro cs
    induction cs with
    | nil => intro off x; rfl
    | cons c cs ih => intro off x; simp only [List.map_cons, sideBySide, ih]; rfl
  unfold tenPango
  rw [← h, h1, h2]

/-- A complete style. -/
def tenStyle : TextStyle :=
  { font := some "Sans".toList
    size := some 10
    align := some "middle".toList
    lineSpacing := some (6 / 5)
    color := some "black".toList }

/-- It is the default style, and there are two more. -/
def tenStyles : Str → Option TextStyle := fun n =>
  if n = "default".toList then some tenStyle
  else if n = "a".toList then some { color := some "red".toList }
  else if n = "b".toList then some { bold := some true }
  else none

theorem ten_settable : Settable exExt tenStyle tenStyles (over tenStyle tenStyle) where
  default := ⟨tenStyle, by decide +kernel, rfl⟩
  align := .inr (.inl rfl)
  font := rfl
  size := rfl
  spacing := ⟨6 / 5, rfl, by decide +kernel⟩
  color := ⟨"black".toList, rfl, by decide +kernel⟩
  colors := by
    intro n s c h1 h2
    unfold tenStyles at h1
    split at h1
    · injection h1 with h1; subst h1; injection h2 with h2; subst h2; decide +kernel
    · split at h1
      · injection h1 with h1; subst h1; injection h2 with h2; subst h2; decide +kernel
      · split at h1
        · injection h1 with h1; subst h1; cases h2
        · cases h1

/-- `~a{~b{x}y}`. -/
def nestedText : List Tok := [.opn ['a'], .opn ['b'], .text ['x'], .close, .text ['y'], .close]

theorem balanced_nested : Balanced nestedText := balanced_of_depth _ (by decide +kernel)

theorem nested_stream : Stream tenStyles nestedText where
  balanced := balanced_nested
  breaks := by intro k hk; simp [nestedText] at hk
  texts := by
    intro s hs c hc
    simp only [nestedText, List.mem_cons, List.not_mem_nil, or_false, reduceCtorEq, false_or, Tok.text.injEq] at hs
    rcases hs with rfl | rfl <;> (simp only [List.mem_singleton] at hc; subst hc; decide)
  known := by
    intro n hn
    simp only [nestedText, List.mem_cons, List.not_mem_nil, or_false, reduceCtorEq, Tok.opn.injEq] at hn
    right
    rcases hn with rfl | rfl <;> decide +kernel

/-- **C131 is false** for sections inside others: the box of `b` in `~a{~b{x}y}` is also around the `y`. -/
theorem C131_section_false : ¬ AroundSection := by
  intro h
  obtain ⟨before, sec, rest, qx, qw, ⟨A, B, more, -, -, -, -, h1, h2, h3⟩, h4, h5⟩ := h exExt tenPango tenWide tenPango_sets tenStyle tenStyles _ ten_settable [.opn ['a']] ['b'] [.text ['x']]
    [.text ['y'], .close] nested_stream (.text _ _ .nil) 1 (by decide) (by decide) (by decide)
  have e1 : cells tenStyles (over tenStyle tenStyle) [.opn ['a']] = [] := by decide +kernel
  rw [e1] at h1
  obtain ⟨rfl, rfl⟩ := List.append_eq_nil_iff.mp h1.symm
  obtain ⟨t, e2⟩ : ∃ t, cells tenStyles (over tenStyle tenStyle) ([.opn ['a']] ++ .opn ['b'] :: [.text ['x']]) = [('x', t)] := ⟨_, rfl⟩
  rw [e2] at h2
  have e3 : inlineAnswer exExt tenPango nestedText tenStyle tenStyles ['b'] 1 = .ok (-10, 20) := by decide +kernel
  have e4 : (Except.ok (qx, qw) : Except Err (Rat × Rat)) = .ok (-10, 20) := h4.symm.trans e3
  injection e4 with e4
  injection e4 with _ e5
  have h6 := (h5 ⟨0, 0, 0, 0⟩ 1).2
  rw [e5] at h6
  have hsec : total tenWide sec = 0 ∨ total tenWide sec = 10 := by
    cases sec with
    | nil => left; rfl
    | cons c cs =>
      right
      simp only [List.nil_append, List.cons_append, List.cons.injEq] at h2
      have : cs = [] := (List.append_eq_nil_iff.mp h2.2.symm).1
      subst this
      simp [total, tenWide]
  rcases hsec with h | h <;> rw [h] at h6 <;> norm_num at h6

/-! ### examples -/

/-- `~a{p` `qé ~b{x` `y}}` … -/
def lineText : List Tok :=
  [.opn ['a'], .text ['p'], .newline 1, .text ['q', 'é'], .close, .text [' '], .opn ['b'], .text ['x', '√', 'z'], .newline 1, .text ['y'], .close]

/-- The line is `qé x√z`, centred: the section begins at 30 of 60. -/
example : inlineAnswer exExt tenPango lineText tenStyle tenStyles ['b'] 1 = .ok (0, 30) := by decide +kernel
example : inlineAnswer exExt tenPango lineText tenStyle tenStyles ['a'] 1 = .ok (-5, 10) := by decide +kernel
example : inlineAnswer exExt tenPango [.text ['p'], .opn ['b'], .close] tenStyle tenStyles ['b'] 1 = .error .assertion := by decide +kernel

theorem line_stream : Stream tenStyles lineText where
  balanced := balanced_of_depth _ (by decide +kernel)
  breaks := by intro k hk; simp [lineText] at hk; omega
  texts := by
    intro s hs c hc
    simp only [lineText, List.mem_cons, List.not_mem_nil, or_false, reduceCtorEq, false_or, Tok.text.injEq] at hs
    have : c ∈ ['p', 'q', 'é', ' ', 'x', '√', 'z', 'y'] := by
      rcases hs with rfl | rfl | rfl | rfl | rfl <;> simp only [List.mem_cons, List.not_mem_nil, or_false] at hc ⊢ <;> tauto
    clear hc hs
    revert c
    decide
  known := by
    intro n hn
    simp only [lineText, List.mem_cons, List.not_mem_nil, or_false, reduceCtorEq, Tok.opn.injEq, false_or] at hn
    right
    rcases hn with rfl | rfl <;> decide +kernel

/-- The hypotheses of `C131_section_partial` hold for `b`. -/
example : ∃ before sec rest qx qw, InLine tenStyles (over tenStyle tenStyle) (lineText.take 6) ['b'] [.text ['x', '√', 'z'], .newline 1, .text ['y']] [] before sec rest ∧
    inlineAnswer exExt tenPango lineText tenStyle tenStyles ['b'] 1 = .ok (qx, qw) ∧ Around tenWide tenStyle.align before sec rest qx qw :=
  C131_section_partial exExt tenPango tenWide tenPango_sets tenStyle tenStyles _ ten_settable (lineText.take 6) ['b'] [.text ['x', '√', 'z'], .newline 1, .text ['y']] [] line_stream
    (balanced_of_depth _ (by decide +kernel)) (balanced_of_depth _ (by decide +kernel)) 1 (by decide) (by decide) (by decide)

/-- The text in a box from 100 to 300: its second row is drawn from 170 to 230, and the box of `b` is from 200 to 230. -/
def lineCalls : List Verif.Scene.TextCall :=
  [.plain (.box 0 { layout := { x := .num 100, y := .num 0, width := .num 200, height := .num 36 } }),
   .plain (.draw 1 (.text lineText tenStyle tenStyles none false 60)),
   .inlineBox 2 ['b'] 1 0 30 {}]

example : Verif.Scene.rectsOf 400 100 lineCalls [1, 3] = some [some ⟨100, 0, 200, 36⟩, some ⟨200, 12, 30, 13⟩] := by decide +kernel

/-- The hypotheses of `C131_boxes_partial` hold. -/
example (st : Verif.Scene.State) (hr : Verif.Scene.runText (Verif.Scene.newScene 400 100) lineCalls = .ok st) (env : Verif.Layout.Env) (he : st.slide.rects 400 100 = .ok env) :
    ∃ r q sc lh before sec rest, env 1 = some r ∧ env 3 = some q ∧
      InLine tenStyles (over tenStyle tenStyle) (lineText.take 6) ['b'] [.text ['x', '√', 'z'], .newline 1, .text ['y']] [] before sec rest ∧
      Verif.Scene.Spec.Rows r lineText tenStyle false 60 sc lh ∧
      (Verif.Scene.Spec.padded {} q).x = lineBegin r tenStyle.align (total tenWide (before ++ sec ++ rest) * sc) + total tenWide before * sc ∧
      (Verif.Scene.Spec.padded {} q).width = total tenWide sec * sc :=
  C131_boxes_partial exExt tenPango tenWide tenPango_sets 400 100 lineCalls st hr 400 100 env he 1 1 tenStyle tenStyles none false 60 (lineText.take 6) ['b']
    [.text ['x', '√', 'z'], .newline 1, .text ['y']] [] rfl _ ten_settable line_stream (balanced_of_depth _ (by decide +kernel)) (balanced_of_depth _ (by decide +kernel))
    1 (by decide) (by decide) (by decide) 2 0 30 {} rfl rfl rfl (by decide +kernel)

end Verif.CairoInline
