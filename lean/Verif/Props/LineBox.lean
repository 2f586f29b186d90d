import Verif.Proofs.LineBox
import Verif.Props.Scene

/-! # Property C120: the boxes of a text -/

namespace Verif.Scene
open Verif.Layout (BoxArgs Env newAttrs setDefault isNoneArg)
open Verif.Layout.Spec (start extent posOn sizeOn grow fillOf Static boxes tops)
open Verif.Slide (BoxCall)
open Verif.Scene.Spec
open Verif.Text (Tok)

theorem setDefault_none {a d : Verif.Layout.Arg} (h : a = .none) : setDefault a d = d := by rw [h]; rfl

/-- A text call starts a text item. -/
theorem begin_text {p : Nat} {d : Draw} {c : Verif.Slide.Call} {t : Verif.TextItem.Item} (h : begin_ p d = .ok (some (c, .text t))) :
    ∃ toks style styles rot fit w sz sp, d = .text toks style styles rot fit w ∧ style.size = some sz ∧ style.lineSpacing = some sp ∧
      t = ⟨toks, style, styles, rot, { width := w, height := rowCount toks * (sz * sp), scaleToFit := fit }⟩ := by
  cases d with
  | text toks style styles rot fit w =>
    simp only [begin_] at h
    split at h
    · cases h
    · rename_i st hst
      injection h with h; injection h with h; injection h with h1 h2; injection h2 with h2
      obtain ⟨sz, sp, ha, hsp, rfl⟩ := makeState_ok hst
      exact ⟨toks, style, styles, rot, fit, w, sz, sp, rfl, ha, hsp, h2.symm⟩
  | rect => cases h
  | ellipse => cases h
  | polygon ps rot pt => simp only [begin_] at h; split at h <;> cases h
  | line ps color sw dash =>
    simp only [begin_] at h
    split at h
    · cases h
    · split at h <;> cases h
  | path cmds pt =>
    simp only [begin_] at h
    split at h
    · cases h
    · split at h <;> cases h
  | bitmap => cases h
  | svg => cases h

/-- The column of the specification is one for the layout. -/
theorem column_horizontal {w h : Rat} {ts : List TextCall} {cs : List Call} {s : Verif.Slide.State}
    (hf : List.Forall₂ (Becomes ts) ts cs) (hr : Verif.Slide.run (Verif.Slide.newSlide w h) (cs.map outline) = .ok s) {p : Nat} {bp : Verif.Layout.Attrs}
    {kids : Verif.Layout.Forest} (hb : (p, bp, kids) ∈ boxes s.layouts) (hc : Column ts p) : bp.horizontal = false := by
  obtain ⟨h1, h2⟩ := Verif.Slide.box_horizontal hr hb
  rcases hc with rfl | ⟨k, rfl, ⟨q, c, hk, hh⟩ | ⟨u, i, n, c, hk, hh⟩ | ⟨u, nm, nth, qx, qw, c, hk, hh⟩⟩
  · exact h1 rfl
  · obtain ⟨x, hx, hxr⟩ := forall₂_getElem hf hk
    cases hxr
    rw [h2 k q c rfl (by rw [List.getElem?_map, hx]; rfl)]
    exact hh
  · obtain ⟨x, hx, hxr⟩ := forall₂_getElem hf hk
    cases hxr
    rw [h2 k _ _ rfl (by rw [List.getElem?_map, hx]; rfl)]
    exact hh
  · obtain ⟨x, hx, hxr⟩ := forall₂_getElem hf hk
    cases hxr with
    | inline e1 e2 e3 =>
      obtain ⟨_, _, _, _, rfl⟩ := inline_is_box e3
      rw [h2 k _ _ rfl (by rw [List.getElem?_map, hx]; rfl)]
      exact hh

/-- The rectangle of a box whose place is computed from the box around. -/
theorem placed {w h : Rat} {cs : List Verif.Slide.Call} {s : Verif.Slide.State} (hr : Verif.Slide.run (Verif.Slide.newSlide w h) cs = .ok s)
    {k p : Nat} {c : BoxCall} (hk : cs[k]? = some (.box p c)) {width height : Rat} {env : Env} (he : s.rects width height = .ok env) :
    ∃ bp kids P q, (p, bp, kids) ∈ boxes s.layouts ∧ env p = some P ∧ env (k + 1) = some q ∧
      (∀ v, c.layout.x = .num v → (padded c.layout q).x = P.x + v) ∧
      (∀ f, c.layout.x = .lazy (.fn p f) → (padded c.layout q).x = f P) ∧
      (∀ f, c.layout.y = .lazy (.fn p f) → (padded c.layout q).y = f P) ∧
      (∀ f, c.layout.width = .lazy (.fn p f) → (padded c.layout q).width = f P) ∧
      (∀ f, c.layout.height = .lazy (.fn p f) → (padded c.layout q).height = f P) ∧
      (c.layout.width = .str "fill".toList → bp.horizontal = false → (padded c.layout q).width = P.width) := by
  have hl := Verif.Slide.run_laid hr (Verif.Slide.newSlide_laid w h)
  obtain ⟨ra, rk, hroot⟩ := hl.root
  have hn := hl.nodup
  obtain ⟨a, b, bk, bp, kids, ha, hab, hb, ht⟩ := Verif.Slide.box_child hr hk
  unfold Verif.Slide.State.rects at he
  rw [hroot] at he hn hb
  obtain ⟨P, q, hP, hq, hfn⟩ := Verif.Layout.setRect_fn hn he hb ht
  obtain ⟨P1, q1, R1, hP1, hq1, rfl, hpos⟩ := Verif.Layout.C35_explicit_positions_partial _ _ _ _ _ _ hn he _ hb _ ht
  obtain ⟨P2, q2, hP2, hq2, hsz⟩ := Verif.Layout.C105_sizes _ _ _ _ _ _ hn he _ hb _ ht
  rw [hP] at hP1 hP2
  rw [hq] at hq1 hq2
  injection hP1 with e; subst e
  injection hP2 with e; subst e
  injection hq1 with e; subst e
  injection hq2 with e; subst e
  obtain ⟨g1, g2, g3, g4⟩ := Verif.Layout.newAttrs_sizes ha
  obtain ⟨-, p1, p2, p3, p4⟩ := Verif.Slide.newAttrs_rest ha
  have hgrow : grow b q = padded c.layout q := by
    rw [hab.2.2]
    unfold grow padded
    simp only [p1, p2, p3, p4]
  have bx : b.x = a.x := by rw [hab.2.2]
  have bY : b.y = a.y := by rw [hab.2.2]
  have bw : b.width.lazy = a.width.lazy ∧ b.width.fill = a.width.fill ∧ b.width.ratio = a.width.ratio := by rw [hab.2.2]; exact ⟨rfl, rfl, rfl⟩
  have bh : b.height.lazy = a.height.lazy := by rw [hab.2.2]
  refine ⟨bp, kids, P, q, by rw [hroot]; exact hb, hP, hq, ?_⟩
  dsimp only at hfn hpos hsz
  rw [hgrow] at hfn hpos hsz
  refine ⟨fun v hv => ?_, fun f hf => ?_, fun f hf => ?_, fun f hf => ?_, fun f hf => ?_, fun hw hor => ?_⟩
  · rw [hv] at g1
    injection g1 with g1
    exact (hpos true).1 v (by simp only [posOn, if_true]; rw [bx, ← g1])
  · rw [hf] at g1
    injection g1 with g1
    exact (hfn true).1 f (by simp only [posOn, if_true]; rw [bx, ← g1])
  · rw [hf] at g2
    injection g2 with g2
    exact (hfn false).1 f (by simp only [posOn, Bool.false_eq_true, if_false]; rw [bY, ← g2])
  · rw [hf] at g3
    injection g3 with g3
    exact (hfn true).2 f (by simp only [sizeOn, if_true]; rw [bw.1, ← g3])
  · rw [hf] at g4
    injection g4 with g4
    exact (hfn false).2 f (by simp only [sizeOn, Bool.false_eq_true, if_false]; rw [bh, ← g4])
  · rw [hw] at g3
    have g3 := Verif.Layout.fill_parses g3
    refine (hsz true ?_).2.2 ?_ ?_
    · unfold Static
      simp only [sizeOn, if_true]
      rw [bw.1, g3]
    · unfold fillOf
      simp only [sizeOn, if_true]
      rw [bw.2.1, g3]
      decide
    · rw [hor]; decide

theorem lineBox_rows (r : Rect) (toks : List Tok) (g s : Rat) (i n : Int) :
    Verif.Text.lineBox r (rowCount toks * g * s) toks i n = (rowTop r toks (g * s) i, n * (g * s) + 1) := by
  have h0 := rowCount_pos toks
  have e : (Verif.Text.numberOfLines toks : Rat) = rowCount toks := by unfold rowCount; rw [Verif.Text.lines_length]
  unfold Verif.Text.lineBox rowTop
  dsimp only
  rw [e]
  refine Prod.ext ?_ ?_
  · field_simp
  · field_simp

theorem inlineBoxY_rows (r : Rect) (toks : List Tok) (g s : Rat) (i : Nat) :
    Verif.Text.inlineBoxY r (rowCount toks * g * s) toks i = (rowTop r toks (g * s) ((rowCount (toks.take i) : Rat) - 1), g * s + 1) := by
  have h0 := rowCount_pos toks
  have e : ∀ l, (Verif.Text.numberOfLines l : Rat) = rowCount l := by intro l; unfold rowCount; rw [Verif.Text.lines_length]
  unfold Verif.Text.inlineBoxY rowTop
  dsimp only
  rw [e, e]
  refine Prod.ext ?_ ?_
  · field_simp
  · field_simp

theorem textX_side {r : Rect} {align : Option Str} {ax : Rat} (h : Verif.TextItem.textX ⟨0, 0, 0, 0⟩ align = .ok ax) :
    Verif.TextItem.textX r align = .ok (sideX r align) := by
  unfold Verif.TextItem.textX at h ⊢
  unfold sideX
  split at h
  · rename_i h1; rw [if_pos h1, if_pos h1]
  · rename_i h1
    rw [if_neg h1, if_neg h1]
    split at h
    · rename_i h2; rw [if_pos h2, if_pos h2]
    · rename_i h2
      rw [if_neg h2, if_neg h2]
      split at h
      · rename_i h3; rw [if_pos h3]
      · cases h

/-- **C120** for the lines of a text. After any calls on the boxes and texts of a slide: the box made by `line_box(i, n)` of a text is on the
rows `i` to `i + n - 1` of this text as it is drawn (C108; also if the text is scaled to its box), one pixel higher, starts at the left edge
of the box of the text, and is as wide as it, if this box is a column. Arguments given for a side replace this. -/
theorem C120_line_boxes_partial (w h : Rat) (ts : List TextCall) (s : State) (hr : runText (newScene w h) ts = .ok s)
    (width height : Rat) (env : Env) (he : s.slide.rects width height = .ok env)
    (k u : Nat) (i n : Int) (c : BoxCall) (hk : (thingsText ts)[k]? = some (.lineBox u i n c)) :
    ∃ p toks style fit tw r q sc lh, TextAt (thingsText ts) u p toks style fit tw ∧ env p = some r ∧ env (k + 1) = some q ∧
      Rows r toks style fit tw sc lh ∧ OnRows r (padded c.layout q) toks lh i n c.layout (Column (thingsText ts) p) := by
  obtain ⟨cs, hcs, -, -, hf⟩ := runText_run w h ts hr
  have hrun := (kept_run (kept_new w h) hcs).1
  obtain ⟨x, hx, hxr⟩ := forall₂_getElem hf hk
  cases hxr with
  | @line k0 p d c' t _ _ _ e1 e2 =>
    obtain ⟨toks, style, styles, rot, fit, tw, sz, sp, rfl, ha, hsp, rfl⟩ := begin_text e2
    obtain ⟨bp, kids, P, q, hb, hP, hq, g1, g2, g3, g4, g5, g6⟩ := placed hrun (by rw [List.getElem?_map, hx]; rfl) he
    refine ⟨p, toks, style, fit, tw, P, q, _, _, ⟨k0, styles, rot, rfl, e1⟩, hP, hq, ⟨sz, sp, ha, hsp, rfl, rfl⟩, ?_⟩
    have hpad : ∀ q, padded (lineArgs p ⟨toks, style, styles, rot, { width := tw, height := rowCount toks * (sz * sp), scaleToFit := fit }⟩ i n c.layout) q = padded c.layout q :=
      fun _ => rfl
    dsimp only at g1 g2 g3 g4 g5 g6
    rw [hpad] at g1 g2 g3 g4 g5 g6
    refine ⟨fun hd => ?_, fun hd hcol => ?_, fun hd => ?_, fun hd => ?_⟩
    · have := g1 0 (by simp [lineArgs, setDefault, hd, isNoneArg])
      rw [this, add_zero]
    · exact g6 (by simp [lineArgs, setDefault, hd, isNoneArg]) (column_horizontal hf hrun hb hcol)
    · rw [g3 _ (setDefault_none hd)]
      dsimp only
      rw [onRect_eq, lineBox_rows]
    · rw [g5 _ (setDefault_none hd)]
      dsimp only
      rw [onRect_eq, lineBox_rows]

/-- **C120** for the sections of a text: the box made by `inline_box(name, nth)` is on the row in which the `nth` section `name` begins (and one
pixel higher); its left edge and its width are those that the backend measured for the section (C103), as far from the side at which the text
is anchored and as large as the text is scaled. Arguments given for a side replace this. -/
theorem C120_inline_boxes (w h : Rat) (ts : List TextCall) (s : State) (hr : runText (newScene w h) ts = .ok s)
    (width height : Rat) (env : Env) (he : s.slide.rects width height = .ok env)
    (k u : Nat) (name : Str) (nth : Nat) (qx qw : Rat) (c : BoxCall) (hk : (thingsText ts)[k]? = some (.inlineBox u name nth qx qw c)) :
    ∃ p toks style fit tw r q sc lh i, TextAt (thingsText ts) u p toks style fit tw ∧ env p = some r ∧ env (k + 1) = some q ∧
      Rows r toks style fit tw sc lh ∧ 1 ≤ nth ∧ toks[i]? = some (.opn name) ∧ (toks.take i).count (.opn name) = nth - 1 ∧
      OnSection r (padded c.layout q) toks style.align sc lh i qx qw c.layout := by
  obtain ⟨cs, hcs, -, -, hf⟩ := runText_run w h ts hr
  have hrun := (kept_run (kept_new w h) hcs).1
  obtain ⟨x, hx, hxr⟩ := forall₂_getElem hf hk
  cases hxr with
  | @inline k0 p d c' t _ _ _ _ _ _ e1 e2 e3 =>
    obtain ⟨toks, style, styles, rot, fit, tw, sz, sp, rfl, ha, hsp, rfl⟩ := begin_text e2
    obtain ⟨i, ax, hi, hax, rfl⟩ := inline_is_box e3
    have hnth : 1 ≤ nth := by
      rcases Nat.eq_zero_or_pos nth with rfl | h
      · cases hi
      · exact h
    obtain ⟨hi1, hi2⟩ := ((Verif.Text.C17_inline_box toks name nth hnth).1 i).mp hi
    obtain ⟨bp, kids, P, q, hb, hP, hq, g1, g2, g3, g4, g5, g6⟩ := placed hrun (by rw [List.getElem?_map, hx]; rfl) he
    refine ⟨p, toks, style, fit, tw, P, q, _, _, i, ⟨k0, styles, rot, rfl, e1⟩, hP, hq, ⟨sz, sp, ha, hsp, rfl, rfl⟩, hnth, hi1, hi2, ?_⟩
    have hpad : ∀ q, padded (inlineArgs p ⟨toks, style, styles, rot, { width := tw, height := rowCount toks * (sz * sp), scaleToFit := fit }⟩ i qx qw c.layout) q = padded c.layout q :=
      fun _ => rfl
    dsimp only at g1 g2 g3 g4 g5 g6
    rw [hpad] at g1 g2 g3 g4 g5 g6
    refine ⟨fun hd => ?_, fun hd => ?_, fun hd => ?_, fun hd => ?_⟩
    · rw [g2 _ (setDefault_none hd)]
      dsimp only
      rw [onRect_eq, textX_side hax]
      rfl
    · rw [g4 _ (setDefault_none hd)]
      dsimp only
      rw [onRect_eq]
    · rw [g3 _ (setDefault_none hd)]
      dsimp only
      rw [onRect_eq, inlineBoxY_rows]
    · rw [g5 _ (setDefault_none hd)]
      dsimp only
      rw [onRect_eq, inlineBoxY_rows]

/-! ### examples -/

open Verif.TextItem (exToks exStyle exStyles)

/-- The rectangles of a list of boxes after some calls. -/
def rectsOf (w h : Rat) (ts : List TextCall) (us : List Nat) : Option (List (Option Rect)) :=
  match runText (newScene w h) ts with
  | .error _ => none
  | .ok s =>
    match s.slide.rects w h with
    | .error _ => none
    | .ok env => some (us.map env)

/-- A text of three rows in a box, its second row with a padding, the section `em`, and a box in the box of a row. -/
def exLines (horizontal fit : Bool) : List TextCall :=
  [.plain (.box 0 { layout := { x := .num 10, y := .num 20, width := .num 100, height := .num 30, horizontal := horizontal } }),
   .plain (.draw 1 (.path [] {})),
   .plain (.draw 1 (.text exToks exStyle exStyles none fit 40)),
   .lineBox 2 1 1 { layout := { padding := some 2 } },
   .inlineBox 2 "em".toList 1 (-4) 12 {},
   .plain (.box 3 { layout := { width := .str "50%".toList, height := .num 3 } })]

/-- Such a text scaled to its box. The rows have a height of 10: the box of row 1 has the padding 2. -/
example : rectsOf 200 100 (exLines false true) [1, 3, 4, 5] =
    some [some ⟨10, 20, 100, 30⟩, some ⟨12, 32, 96, 7⟩, some ⟨110 - 4 * (5 / 12), 40, 5, 11⟩, some ⟨36, 34, 48, 3⟩] := by decide +kernel

/-- Such a text that is not scaled is higher than its box. -/
example : rectsOf 200 100 (exLines false false) [1, 3, 4] =
    some [some ⟨10, 20, 100, 72⟩, some ⟨12, 46, 96, 21⟩, some ⟨106, 68, 12, 25⟩] := by decide +kernel

/-- **C120** is false in a row: the box of a line has no width there. -/
theorem C120_line_boxes_false : ¬ ∀ (w h : Rat) (ts : List TextCall) (s : State) (env : Env) (k u : Nat) (i n : Int) (c : BoxCall),
    runText (newScene w h) ts = .ok s → s.slide.rects w h = .ok env → (thingsText ts)[k]? = some (.lineBox u i n c) → c.layout.width = .none →
    ∃ p toks style fit tw r q, TextAt (thingsText ts) u p toks style fit tw ∧ env p = some r ∧ env (k + 1) = some q ∧
      (padded c.layout q).width = r.width := by
  intro H
  have hx : rectsOf 200 100 (exLines true true) [1, 3] = some [some ⟨10, 20, 100, 30⟩, some ⟨12, 32, -4, 7⟩] := by decide +kernel
  unfold rectsOf at hx
  split at hx
  · cases hx
  · rename_i s hs
    split at hx
    · cases hx
    · rename_i env henv
      simp only [List.map_cons, List.map_nil, Option.some.injEq, List.cons.injEq, and_true] at hx
      obtain ⟨p, toks, style, fit, tw, r, q, ⟨k, styles, rot, hk, hp⟩, hr, hq, hw⟩ := H 200 100 _ s env 2 2 1 1 _ hs henv rfl rfl
      have hk0 : k = 1 := by omega
      subst hk0
      have hp1 : p = 1 := by injection hp with hp; injection hp with hp; injection hp with hp _; exact hp.symm
      subst hp1
      rw [hx.1] at hr
      rw [hx.2] at hq
      injection hr with hr
      injection hq with hq
      rw [← hr, ← hq] at hw
      revert hw
      decide +kernel

end Verif.Scene
