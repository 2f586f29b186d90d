import Verif.Proofs.TextQuery
import Verif.Props.DrawText
import Verif.Props.TextLines

/-! # Property C103: what is measured -/

namespace Verif.TextQuery
open Spec Verif.Text Verif.Text.Spec Verif.Xml Verif.Xml.Spec
open Verif.Style (TextStyle)

/-- A style with which texts can be drawn, and a table of styles: complete, with strings XML can express. -/
structure Drawable (fmt : Rat → Str) (style : TextStyle) (styles : Str → Option TextStyle) : Prop where
  fmt : ∀ r, OkStr (fmt r)
  own : StyleOk style
  table : ∀ n s, styles n = some s → StyleOk s
  size : style.size.isSome = true
  spacing : style.lineSpacing.isSome = true
  align : style.align = some "left".toList ∨ style.align = some "middle".toList ∨ style.align = some "right".toList

theorem target_ok : OkStr target := okStr_of_decide (by decide)

theorem Drawable.env {fmt : Rat → Str} {style : TextStyle} {styles : Str → Option TextStyle} (h : Drawable fmt style styles)
    (idIndex : Option Nat) :
    ∃ env, mkEnv fmt (fmt 0) (fmt 0) style styles (some target) idIndex none = .ok env ∧ EnvOk env ∧ env.style = style ∧
      env.styles = styles ∧ env.id = some target ∧ env.idIndex = idIndex ∧ env.fmt = fmt ∧ env.x = fmt 0 ∧ env.y = fmt 0 := by
  obtain ⟨a, ha⟩ := Option.isSome_iff_exists.mp h.size
  obtain ⟨b, hb⟩ := Option.isSome_iff_exists.mp h.spacing
  refine ⟨_, (by simp only [mkEnv, ha, hb]; rfl), ?_, rfl, rfl, rfl, rfl, rfl, rfl, rfl⟩
  exact { fmt := h.fmt, x := h.fmt 0, y := h.fmt 0, transform := (by intro t ht; cases ht), id := (by intro t ht; injection ht with ht; subst ht; exact target_ok), style := h.own, styles := h.table }

/-- **C103 (texts).** When a text is made, Inkscape is asked for the width of an element of a document in which exactly one element
has the id asked for: the `text` element, which shows all lines of the text. (The styles around the characters are those of
C59, the positions of the lines those of C58.) -/
theorem C103_whole (fmt : Rat → Str) (toks : List Tok) (style : TextStyle) (styles : Str → Option TextStyle)
    (hd : Drawable fmt style styles) (hb : Balanced toks)
    (hsty : ∀ n, Tok.opn n ∈ toks → styles n = none → n.head? = some '#') (hplain : ∀ s, Tok.text s ∈ toks → Plain s)
    (hsafe : SafeBreaks styles [style.priority] [true] toks) :
    ∃ doc attrs first lines, wholeQuery fmt toks style styles = .ok (doc, target, "query-width".toList) ∧
      InSvg doc (.elem "text".toList attrs (linesForest (first :: lines)) .nil) ∧
      attrs.lookup "id".toList = some target ∧ found target (linesForest (first :: lines)) = [] ∧
      (first :: lines).map (fun l => l.2.textOf) = (lineTexts toks).map nbsp := by
  obtain ⟨env, henv, heok, rfl, rfl, hid, hidx, rfl, hx, hy⟩ := hd.env none
  obtain ⟨x, s, attrs, first, lines, h1, h2, h3, h4, h5, -⟩ := C58_drawn_partial env toks heok hb hsty hplain hd.align hsafe
  obtain ⟨an, F, hno, hread⟩ := drawText_noid heok hidx hplain h1 h2
  obtain ⟨doc, hdoc, hin⟩ := queryDoc_reads h3
  rw [hread] at h3
  injection h3 with h3
  simp only [norm, textNode] at h3
  have h3 : Forest.elem "text".toList (((textSets env an).map toAttr).map (fun x => (x.1, attrText x.2))) (norm [] F) .nil =
      Forest.elem "text".toList attrs (linesForest (first :: lines)) .nil := h3
  injection h3 with _ h3 h6 _
  refine ⟨doc, attrs, first, lines, ?_, hin, ?_, ?_, h4⟩
  · simp only [wholeQuery, ask, textQuery, henv, h1, h2, computeQuery, hdoc, if_true]
  · rw [← h3, lookup_attrText, textSets_id, hidx, hid]
    rfl
  · rw [← h6, found_norm (by decide), hno.found]
    rfl

theorem shown_last (st : List Str) (pre : List Tok) (c : Char) : shown st (pre ++ [.text [c]]) = shown st pre ++ [mark (openNames st pre) c] := by
  induction pre generalizing st with
  | nil => rfl
  | cons t pre ih => cases t <;> simp [shown, openNames, ih]

theorem openNames_mem {pre : List Tok} {n : Str} : ∀ {st : List Str}, n ∈ openNames st pre → n ∈ st ∨ Tok.opn n ∈ pre := by
  induction pre with
  | nil => intro st h; exact .inl h
  | cons t pre ih =>
    intro st h
    cases t with
    | text s => rcases ih (st := st) h with h | h
                · exact .inl h
                · exact .inr (List.mem_cons_of_mem _ h)
    | newline s => rcases ih (st := st) h with h | h
                   · exact .inl h
                   · exact .inr (List.mem_cons_of_mem _ h)
    | opn m => rcases ih (st := m :: st) h with h | h
               · rcases List.mem_cons.mp h with rfl | h
                 · exact .inr (by simp)
                 · exact .inl h
               · exact .inr (List.mem_cons_of_mem _ h)
    | close => rcases ih (st := st.tail) h with h | h
               · exact .inl (List.mem_of_mem_tail h)
               · exact .inr (List.mem_cons_of_mem _ h)

theorem openNames_opens (l : List Str) : ∀ st, openNames st (l.map Tok.opn) = l.reverse ++ st := by
  induction l with
  | nil => intro st; rfl
  | cons a l ih => intro st; simp [openNames, ih]

theorem sectionLine_ends {r : List Tok} (h : ∀ d, sectionLine d r = []) {r' : List Tok} (h' : ∀ d, sectionLine d r' = []) :
    ∀ (l : List Tok) (d : Nat), sectionLine d (l ++ r) = sectionLine d (l ++ r') := by
  intro l
  induction l with
  | nil => intro d; simp [h, h']
  | cons t l ih =>
    intro d
    cases t with
    | text s => simp [sectionLine, ih]
    | newline n => rfl
    | opn n => simp [sectionLine, ih]
    | close =>
      cases d with
      | zero => rfl
      | succ d => simp [sectionLine, ih]

theorem sectionLine_closes (n d : Nat) : sectionLine d (List.replicate n .close) = [] := by
  induction n generalizing d with
  | zero => rfl
  | succ n ih =>
    rw [List.replicate_succ]
    cases d with
    | zero => rfl
    | succ d => exact ih d

theorem lineTexts_break (p : List Tok) (n : Nat) (q : List Tok) : lineTexts (p ++ .newline n :: q) = lineTexts p ++ lineTexts q := by
  induction p with
  | nil => rfl
  | cons t p ih =>
    cases t with
    | text s =>
      simp only [List.cons_append, lineTexts, ih]
      cases h : lineTexts p with
      | nil => exact absurd h (lineTexts_ne_nil p)
      | cons a l => rfl
    | newline m => simp only [List.cons_append, lineTexts, ih]
    | opn m => simp only [List.cons_append, lineTexts, ih]
    | close => simp only [List.cons_append, lineTexts, ih]

theorem lineTexts_length (p : List Tok) : (lineTexts p).length = (breaks p).length + 1 := by
  induction p with
  | nil => rfl
  | cons t p ih =>
    cases t with
    | text s =>
      simp only [lineTexts, breaks]
      cases h : lineTexts p with
      | nil => exact absurd h (lineTexts_ne_nil p)
      | cons a l => rw [h] at ih; exact ih
    | newline m => simp only [lineTexts, breaks, List.length_cons, ih]
    | opn m => exact ih
    | close => exact ih

theorem lineTexts_line {l : List Tok} (h : ∀ n, Tok.newline n ∉ l) : lineTexts l = [texts l] := by
  induction l with
  | nil => rfl
  | cons t l ih =>
    have ih := ih (fun n hn => h n (List.mem_cons_of_mem _ hn))
    cases t with
    | text s => simp only [lineTexts, texts, ih]
    | newline m => exact absurd (by simp) (h m)
    | opn m => exact ih
    | close => exact ih

theorem breaks_line {l : List Tok} (h : ∀ n, Tok.newline n ∉ l) : breaks l = [] := by
  induction l with
  | nil => rfl
  | cons t l ih =>
    have ih := ih (fun n hn => h n (List.mem_cons_of_mem _ hn))
    cases t with
    | newline m => exact absurd (by simp) (h m)
    | _ => exact ih

theorem breaks_append (a b : List Tok) : breaks (a ++ b) = breaks a ++ breaks b := by
  induction a with
  | nil => rfl
  | cons t a ih => cases t <;> simp [breaks, ih]

theorem texts_opens (l : List Str) : texts (l.map Tok.opn) = [] := by induction l <;> simp_all [texts]
theorem texts_closes (n : Nat) : texts (List.replicate n .close) = [] := by induction n <;> simp_all [texts, List.replicate_succ]

/-- **C103 (inline boxes).** For `inline_box(name, n_th)` Inkscape is asked for the position and the width of an element of the same
document, which shows the line of the text in which the `n_th` section `name` begins. Exactly one element has the id asked for; it
shows the section up to the end of that line. This also holds for sections that go over several lines. -/
theorem C103_inline (fmt : Rat → Str) (toks : List Tok) (style : TextStyle) (styles : Str → Option TextStyle)
    (hd : Drawable fmt style styles) (hb : Balanced toks)
    (hsty : ∀ n, Tok.opn n ∈ toks → styles n = none → n.head? = some '#') (hplain : ∀ s, Tok.text s ∈ toks → Plain s)
    (name : Str) (nth i : Nat) (hn : 1 ≤ nth) (hi : toks[i]? = some (.opn name)) (hcount : (toks.take i).count (.opn name) = nth - 1) :
    ∃ doc F line, inlineQueries fmt toks style styles name nth =
        .ok ((doc, target, "query-x".toList), (doc, target, "query-width".toList)) ∧
      InSvg doc F ∧ found target F = [nbsp (sectionLine 0 (toks.drop (i + 1)))] ∧
      (lineTexts toks)[breaksBefore toks i]? = some line ∧ F.textOf = nbsp line := by
  have hidx := ((C17_inline_box toks name nth hn).1 i).mpr ⟨hi, hcount⟩
  obtain ⟨pre, line, post, opened, result, j, htoks, hpre, hnl, hpost, hle, hlt, hex, hres, hbal, hrj, hj, hsh, -⟩ :=
    C10_extract_line toks hb i (.opn name) hi (by intro n h; cases h)
  obtain ⟨env, henv, heok, rfl, rfl, hid, hidx2, rfl, hx, hy⟩ := hd.env (some j)
  have hopened : ∀ n ∈ opened, Tok.opn n ∈ toks := by
    intro n hn
    have h := hsh [.text ['x']]
    rw [shown_last, shown_last] at h
    have h := List.append_cancel_left h
    have h : openNames [] pre = (opened.reverse ++ [] : List Str) := by
      rw [← openNames_opens]
      have h0 : shown [] (opened.map Tok.opn) = [] := by
        have : ∀ st, shown st (opened.map Tok.opn) = [] := by
          clear * -
          induction opened with
          | nil => intro st; rfl
          | cons a l ih => intro st; exact ih _
        exact this []
      rw [h0] at h
      simp only [List.nil_append, List.cons.injEq, and_true, mark] at h
      simpa using h
    have : n ∈ openNames [] pre := by rw [h]; simpa using hn
    rcases openNames_mem this with h | h
    · cases h
    · rw [htoks]; simp [h]
  have hmem : ∀ t ∈ result, t = .close ∨ t ∈ toks := by
    intro t ht
    rw [hres, List.mem_append, List.mem_append, List.mem_map] at ht
    rcases ht with (⟨n, hn, rfl⟩ | ht) | ht
    · exact .inr (hopened n hn)
    · right; rw [htoks]; simp [ht]
    · left; exact List.eq_of_mem_replicate ht
  have hnl2 : ∀ n, Tok.newline n ∉ result := by
    intro n ht
    rw [hres, List.mem_append, List.mem_append, List.mem_map] at ht
    rcases ht with (⟨n, hn, h⟩ | ht) | ht
    · cases h
    · exact hnl n ht
    · cases List.eq_of_mem_replicate ht
  obtain ⟨an, T, x, s, h1, h2, h3, h4⟩ := drawText_line heok hbal hnl2
    (fun n h => hsty n ((hmem _ h).resolve_left (by simp))) (fun n h => hplain n ((hmem _ h).resolve_left (by simp))) hd.align
  obtain ⟨doc, hdoc, hin⟩ := queryDoc_reads h4
  have hk : i = pre.length + (j - opened.length) := by omega
  have hsec : sectionLine 0 (result.drop (j + 1)) = sectionLine 0 (toks.drop (i + 1)) := by
    have e1 : result.drop (j + 1) = line.drop (j - opened.length + 1) ++
        List.replicate (result.length - opened.length - line.length) Tok.close := by
      generalize hm : result.length - opened.length - line.length = m at hres
      have : j + 1 = (opened.map Tok.opn).length + (j - opened.length + 1) := by rw [List.length_map]; omega
      rw [hres, List.append_assoc, this, List.drop_append, List.drop_of_length_le (by omega), Nat.add_sub_cancel_left,
        List.drop_append_of_le_length (by omega)]
      rfl
    have e2 : toks.drop (i + 1) = line.drop (j - opened.length + 1) ++ post := by
      have : i + 1 = pre.length + (j - opened.length + 1) := by omega
      rw [htoks, List.append_assoc, this, List.drop_append, List.drop_of_length_le (by omega), Nat.add_sub_cancel_left,
        List.drop_append_of_le_length (by omega)]
      rfl
    rw [e1, e2]
    apply sectionLine_ends
    · intro d; exact sectionLine_closes _ _
    · intro d
      rcases hpost with rfl | ⟨n, q, rfl⟩
      · rfl
      · cases d <;> rfl
  have hfound := (h3.found hid hidx2).2 name [] (Nat.zero_le _) (by simpa using hrj)
  refine ⟨doc, _, texts line, ?_, hin, ?_, ?_, ?_⟩
  · have hj0 : ¬ ((j : Int) < 0) := by omega
    simp only [inlineQueries, hidx, hex, if_neg hj0, Int.toNat_natCast, ask, textQuery, henv, h1, h2, computeQuery, hdoc]
    rfl
  · rw [found_norm (by decide)]
    rw [Spec.found, Spec.found, Spec.found, Spec.found, textSets_id, lineSets_id, hfound, hidx2]
    simp only [List.append_nil, Nat.sub_zero, hsec]
    rfl
  · have hlen : breaksBefore toks i = (breaks pre).length := by
      unfold breaksBefore
      have : toks.take i = pre ++ line.take (j - opened.length) := by
        rw [htoks, List.append_assoc, hk, List.take_append, List.take_of_length_le (by omega), Nat.add_sub_cancel_left,
          List.take_append_of_le_length (by omega)]
      rw [this, breaks_append, breaks_line (fun n hn => hnl n (List.mem_of_mem_take hn)), List.append_nil]
    have hl2 : lineTexts (line ++ post) = texts line :: (lineTexts (line ++ post)).tail := by
      rcases hpost with rfl | ⟨n, q, rfl⟩
      · rw [List.append_nil, lineTexts_line hnl]; rfl
      · rw [lineTexts_break, lineTexts_line hnl]; rfl
    rw [hlen, htoks, List.append_assoc]
    rcases hpre with rfl | ⟨p, n, rfl⟩
    · rw [List.nil_append, hl2]; rfl
    · rw [List.append_assoc, List.singleton_append, lineTexts_break, List.getElem?_append_right (by
        rw [lineTexts_length, breaks_append]; simp [breaks]), lineTexts_length, breaks_append, hl2]
      simp [breaks]
  · rw [textOf_norm, List.nil_append, Forest.textOf, Forest.textOf, Forest.textOf, Forest.textOf, h3.textOf, hres, texts_append,
      texts_append, texts_opens, texts_closes]
    simp

/-! The hypotheses can be met: a section that goes over two lines, the second of its name. -/

def demoStyle : TextStyle := { font := some "Arial".toList, size := some 20, align := some "middle".toList, lineSpacing := some (6/5), color := some "black".toList }
def demoFmt : Rat → Str := fun r => natStr r.num.toNat
def demoStyles : Str → Option TextStyle := fun n => if n = "em".toList then some { italic := some true } else none
/-- `~em{a}⏎b ~em{cd ~#x{e}⏎f}`. -/
def demoToks : List Tok := [.opn "em".toList, .text "a".toList, .close, .newline 1, .text "b ".toList, .opn "em".toList,
  .text "cd ".toList, .opn "#x".toList, .text "e".toList, .newline 1, .text "f".toList, .close, .close]

example : Drawable demoFmt demoStyle demoStyles ∧ Balanced demoToks ∧
    (∀ n, Tok.opn n ∈ demoToks → demoStyles n = none → n.head? = some '#') ∧ (∀ s, Tok.text s ∈ demoToks → Plain s) ∧
    demoToks[5]? = some (.opn "em".toList) ∧ (demoToks.take 5).count (.opn "em".toList) = 2 - 1 ∧
    sectionLine 0 (demoToks.drop 6) = "cd e".toList ∧ (lineTexts demoToks)[breaksBefore demoToks 5]? = some "b cd e".toList := by
  refine ⟨?_, ?_, ?_, ?_, rfl, by decide, by decide, by decide⟩
  · refine ⟨sampleEnv_ok.fmt, ?_, ?_, rfl, rfl, .inr (.inl rfl)⟩
    · exact ⟨(by intro f h; injection h with h; subst h; exact okStr_of_decide (by decide)),
        (by intro f h; injection h with h; subst h; exact okStr_of_decide (by decide)), (by intro f h; cases h)⟩
    · intro n s h
      simp only [demoStyles] at h
      split at h
      · injection h with h; subst h
        exact ⟨(by intro f h; cases h), (by intro f h; cases h), (by intro f h; cases h)⟩
      · cases h
  · exact .block _ [.text "a".toList] _ (.text _ _ .nil) (.newline _ _ (.text _ _ (.block _ [.text "cd ".toList, .opn "#x".toList, .text "e".toList,
      .newline 1, .text "f".toList, .close] _ (.text _ _ (.block _ [.text "e".toList, .newline 1, .text "f".toList] [] (.text _ _ (.newline _ _ (.text _ _ .nil))) .nil)) .nil)))
  · intro n hn h
    simp only [demoToks, List.mem_cons, Tok.opn.injEq, List.not_mem_nil, or_false, reduceCtorEq, false_or] at hn
    rcases hn with rfl | rfl | rfl
    · exact absurd h (by decide)
    · exact absurd h (by decide)
    · rfl
  · intro s hs
    simp only [demoToks, List.mem_cons, Tok.text.injEq, List.not_mem_nil, or_false, reduceCtorEq, false_or] at hs
    rcases hs with rfl | rfl | rfl | rfl | rfl <;> exact (okStr_of_decide (by decide)).1

end Verif.TextQuery
