import Verif.Spec.SceneCairo
import Verif.Proofs.ScenePage
import Verif.Props.Backends
import Verif.Props.DrawStyle

/-! # Lemmas about the Cairo page of a slide -/

namespace Verif.Scene
open Spec
open Verif.Layout (Env)
open Verif.CairoDraw (Pt Mat Ctx Layout Paint fresh turned run_transform drawItem drawItems Item.begins Item.isAt Item.dashedEllipse)
open Verif.Style (TextStyle)
open Verif.Text (Tok)
open Verif.Cairo.Spec (over)
open Verif.TextItem.Spec (turn)

/-! ### the context -/

theorem cairoStart_ok (png : Bool) {w h : Rat} (hw : 0 < w) (hh : 0 < h) (vb : Option Rect) (hv : ∀ v, vb = some v → 0 < v.width ∧ 0 < v.height) :
    ∃ M, cairoStart png w h vb = .ok (fresh M, zoomOf w h vb) ∧ (∀ q, M.apply q = onPaper png w h vb q) ∧ M.det ≠ 0 := by
  have h0 : Verif.CairoDraw.run {} (if png then [] else [.scale (resolution png) (resolution png)]) = .ok (fresh (({} : Mat).scale (if png then 1 else 3 / 4) (if png then 1 else 3 / 4))) := by
    cases png <;> decide +kernel
  have hk : (if png then (1 : Rat) else 3 / 4) ≠ 0 := by cases png <;> decide +kernel
  unfold cairoStart onPaper zoomOf
  rw [h0]
  generalize (if png then (1 : Rat) else 3 / 4) = k at hk
  cases vb with
  | none =>
    refine ⟨_, rfl, fun q => ?_, ?_⟩
    · simp only [Mat.apply, Mat.scale]; exact Prod.ext (by ring) (by ring)
    · simp [Mat.det, Mat.scale, hk]
  | some v =>
    obtain ⟨h1, h2⟩ := hv v rfl
    have hs : min (w / v.width) (h / v.height) ≠ 0 := (lt_min (div_pos hw h1) (div_pos hh h2)).ne'
    dsimp only
    unfold Verif.CairoDraw.applyViewbox
    rw [if_neg (by rintro (h' | h'); exacts [h1.ne' h', h2.ne' h'])]
    dsimp only
    generalize min (w / v.width) (h / v.height) = s at hs
    rw [if_neg hs]
    simp only [Verif.CairoDraw.run, Verif.CairoDraw.exec, mul_self_eq_zero, if_neg hs]
    refine ⟨_, rfl, fun q => ?_, ?_⟩
    · simp only [fresh, Mat.apply, Mat.scale, Mat.translate]
      refine Prod.ext ?_ ?_ <;> (dsimp only; field_simp; ring)
    · simp [fresh, Mat.det, Mat.scale, Mat.translate, hk, hs]

/-! ### texts -/

theorem active_mem {l : List (Option TextStyle)} {s : TextStyle} (h : Verif.Cairo.activeStyle l = .ok s) : some s ∈ l := by
  induction l with
  | nil => cases h
  | cons a l ih =>
    cases a with
    | none => exact .tail _ (ih h)
    | some t => injection h with h; subst h; exact .head _

theorem newlines_keep : ∀ n (st : Verif.Cairo.St), (Verif.Cairo.newlines n st).base = st.base ∧ (Verif.Cairo.newlines n st).ranges = st.ranges
  | 0, _ => ⟨rfl, rfl⟩
  | n + 1, st => by unfold Verif.Cairo.newlines; exact newlines_keep n _

/-- All styles have a property. -/
def Every (P : TextStyle → Prop) (st : Verif.Cairo.St) : Prop := (∀ s, some s ∈ st.base → P s) ∧ ∀ r ∈ st.ranges, P r.1

theorem Every.push {P : TextStyle → Prop} {st : Verif.Cairo.St} (h : Every P st) {s : TextStyle} (hs : P s) : ∀ r ∈ (st.push s).ranges, P r.1 := by
  intro r hr
  rcases List.mem_append.mp hr with hr | hr
  · exact h.2 r hr
  · rw [List.mem_singleton.mp hr]; exact hs

theorem every_step {P : TextStyle → Prop} {styles : Str → Option TextStyle} {t : Tok} {st st' : Verif.Cairo.St}
    (hP : ∀ n s t', t = Tok.opn n → styles n = some s → P t' → P (t'.compose s)) (h0 : Every P st) (h : Verif.Cairo.stepTok styles st t = .ok st') : Every P st' := by
  obtain ⟨h1, h2⟩ := h0
  cases t with
  | text s => injection h with h; subst h; exact ⟨h1, h2⟩
  | newline n =>
    injection h with h; subst h
    exact ⟨by rw [(newlines_keep n st).1]; exact h1, by rw [(newlines_keep n st).2]; exact h2⟩
  | opn n =>
    unfold Verif.Cairo.stepTok at h
    cases ha : Verif.Cairo.activeStyle st.base with
    | error e => rw [ha] at h; cases h
    | ok cur =>
      rw [ha] at h
      have hc := h1 cur (active_mem ha)
      have hr := Every.push ⟨h1, h2⟩ hc
      have hn : ∀ s, some s ∈ (none :: st.base) → P s := by
        intro s hs
        rcases List.mem_cons.mp hs with hs | hs
        · cases hs
        · exact h1 s hs
      dsimp only at h
      by_cases hh : n.head? = some '#'
      · rw [if_pos hh] at h
        injection h with h; subst h
        exact ⟨hn, hr⟩
      · rw [if_neg hh] at h
        cases hst : styles n with
        | none => rw [hst] at h; cases h
        | some this =>
          rw [hst] at h
          dsimp only at h
          by_cases hp : cur.priority > this.priority
          · rw [if_pos hp] at h
            injection h with h; subst h
            exact ⟨hn, hr⟩
          · rw [if_neg hp] at h
            injection h with h; subst h
            refine ⟨?_, hr⟩
            intro s hs
            rcases List.mem_cons.mp hs with hs | hs
            · injection hs with hs; subst hs; exact hP n this cur rfl hst hc
            · exact h1 s hs
  | close =>
    unfold Verif.Cairo.stepTok at h
    cases ha : Verif.Cairo.activeStyle st.base with
    | error e => rw [ha] at h; cases h
    | ok cur =>
      rw [ha] at h
      have hc := h1 cur (active_mem ha)
      dsimp only at h
      have e : (st.push cur).base = st.base := rfl
      rw [e] at h
      cases hb : st.base with
      | nil => rw [hb] at h; cases h
      | cons b rest =>
        rw [hb] at h
        injection h with h; subst h
        exact ⟨fun s hs => h1 s (by rw [hb]; exact .tail _ hs), Every.push ⟨h1, h2⟩ hc⟩

/-- A property of styles that is kept by putting used styles on top. -/
theorem styles_of_ranges {P : TextStyle → Prop} {styles : Str → Option TextStyle} : ∀ {toks : List Tok} {st st' : Verif.Cairo.St},
    (∀ n s t, Tok.opn n ∈ toks → styles n = some s → P t → P (t.compose s)) → Every P st → Verif.Cairo.loop styles st toks = .ok st' → Every P st'
  | [], st, st', _, h0, h => by injection h with h; subst h; exact h0
  | t :: toks, st, st', hP, h0, h => by
    unfold Verif.Cairo.loop at h
    cases ht : Verif.Cairo.stepTok styles st t with
    | error e => rw [ht] at h; cases h
    | ok st1 =>
      rw [ht] at h
      exact styles_of_ranges (fun n s t hn => hP n s t (.tail _ hn)) (every_step (fun n s t' e => hP n s t' (e ▸ .head _)) h0 ht) h

theorem over_over (s d : TextStyle) : d.compose (d.compose s) = d.compose s := by
  rw [Verif.Cairo.compose_over, Verif.Cairo.compose_over]
  cases s
  simp only [over, TextStyle.mk.injEq, and_true]
  refine ⟨?_, ?_, ?_, ?_, ?_, ?_, ?_, ?_, ?_⟩ <;> (rename_i a1 a2 a3 a4 a5 a6 a7 a8 a9 a10; first
    | (cases a1 <;> simp <;> done) | (cases a2 <;> simp <;> done) | (cases a3 <;> simp <;> done) | (cases a4 <;> simp <;> done) | (cases a5 <;> simp <;> done)
    | (cases a6 <;> simp <;> done) | (cases a7 <;> simp <;> done) | (cases a8 <;> simp <;> done) | (cases a9 <;> simp <;> done))

theorem text_composed (styles : Str → Option TextStyle) (default style : TextStyle) (toks : List Tok) :
    Verif.Cairo.getTextAndAttributes styles default (default.compose style) toks = Verif.Cairo.getTextAndAttributes styles default style toks := by
  unfold Verif.Cairo.getTextAndAttributes
  rw [over_over]

theorem styles_of_text {P : TextStyle → Prop} {styles : Str → Option TextStyle} {default style : TextStyle} {toks : List Tok} {text : Str}
    {ranges : List (TextStyle × Nat × Nat)} (hP : ∀ n s t, Tok.opn n ∈ toks → styles n = some s → P t → P (t.compose s)) (h0 : P (default.compose style))
    (h : Verif.Cairo.getTextAndAttributes styles default style toks = .ok (text, ranges)) : ∀ r ∈ ranges, P r.1 := by
  unfold Verif.Cairo.getTextAndAttributes at h
  cases hl : Verif.Cairo.loop styles { base := [some (default.compose style)] } toks with
  | error e => rw [hl] at h; cases h
  | ok st =>
    rw [hl] at h
    obtain ⟨h1, h2⟩ := styles_of_ranges hP (st := { base := [some (default.compose style)] }) ⟨by
      intro s hs; injection (List.mem_singleton.mp hs) with hs; subst hs; exact h0, by intro r hr; cases hr⟩ hl
    dsimp only at h
    cases ho : st.base.getLast? with
    | none => rw [ho] at h; cases h
    | some outer =>
      rw [ho] at h
      dsimp only at h
      have key : ∀ rs, (if st.start < Verif.Cairo.byteLength st.text then
          match outer with
          | some s => Except.ok (st.ranges ++ [(s, st.start, Verif.Cairo.byteLength st.text)])
          | none => .error Err.attribute
        else .ok st.ranges) = .ok rs → ∀ r ∈ rs, P r.1 := by
        intro rs hrs
        split at hrs
        · cases outer with
          | none => cases hrs
          | some s =>
            injection hrs with hrs; subst hrs
            intro r hr
            rcases List.mem_append.mp hr with hr | hr
            · exact h2 r hr
            · rw [List.mem_singleton.mp hr]; exact h1 s (List.mem_of_getLast? ho)
        · injection hrs with hrs; subst hrs; exact h2
      split at h
      · cases h
      · rename_i rs hrs
        split at h
        · cases h
        · split at h
          · cases h
          · injection h with h; injection h with h3 h4; subst h4
            exact key _ hrs

/-- The style can be turned into attributes. -/
def Full (x : Ext) (s : TextStyle) : Prop := s.size ≠ none ∧ s.font ≠ none ∧ ∃ c, s.color = some c ∧ x.known c = true

theorem attributes_ok {x : Ext} {s : TextStyle} (h : Full x s) : attributes x s = .ok () := by
  obtain ⟨h1, h2, c, h3, h4⟩ := h
  unfold attributes
  cases hs : s.size with
  | none => exact absurd hs h1
  | some a =>
    cases hf : s.font with
    | none => exact absurd hf h2
    | some f => rw [h3]; simp [h4]

theorem allAttributes_ok {x : Ext} : ∀ {rs : List (TextStyle × Nat × Nat)}, (∀ r ∈ rs, Full x r.1) → allAttributes x rs = .ok ()
  | [], _ => rfl
  | r :: rs, h => by
    unfold allAttributes
    rw [attributes_ok (h r (.head _))]
    exact allAttributes_ok (fun r hr => h r (.tail _ hr))

theorem buildLayout_ok {x : Ext} {toks : List Tok} {style : TextStyle} {styles : Str → Option TextStyle} {rot : Option Rat} {fit : Bool} {wd : Rat}
    {vb : Option Rect} {env : Env} {step : Int} {p : Nat} (hd : Paintable x vb env step p (.text toks style styles rot fit wd)) {a b : Rat} (ha : style.size = some a)
    (hb : style.lineSpacing = some b) (ls : Rat) (scale : Option Rat) (r : Rect) :
    ∃ l, buildLayout x toks style styles ls scale r.width = .ok l ∧ LaidOut x ls r toks style styles scale l := by
  obtain ⟨h1, h2, h3, h4, ⟨default, h5, h6, c, h7, h8⟩, h9⟩ := hd
  obtain ⟨text, ranges, e1, e2, e3, e4⟩ := Verif.Cairo.C60_ranges styles default style toks h1 h2
  have hal : (default.compose style).align = style.align := by
    rw [Verif.Cairo.compose_over]
    rcases h3 with h | h | h <;> simp [over, h]
  have hmem : ¬ (default.compose style).align ∉ alignments := by
    rw [hal, not_not]
    rcases h3 with h | h | h <;> rw [h] <;> decide
  have hfull : Full x (default.compose style) := by
    rw [Verif.Cairo.compose_over]
    exact ⟨by simp [over, ha], h6, c, h7, h8⟩
  have hall := styles_of_text (P := Full x) (by
    rintro n s t hn hs ⟨t1, t2, c', t3, t4⟩
    rw [Verif.Cairo.compose_over]
    refine ⟨?_, ?_, ?_⟩
    · unfold over; dsimp only; cases s.size <;> simp [t1]
    · unfold over; dsimp only; cases s.font <;> simp [t2]
    · unfold over; dsimp only
      cases hc : s.color with
      | none => exact ⟨c', by simp [t3], t4⟩
      | some c'' => exact ⟨c'', by simp, h9 n s c'' hn hs hc⟩) hfull e1
  have hsz : (default.compose style).size = some a := by rw [Verif.Cairo.compose_over]; simp [over, ha]
  have hls : (default.compose style).lineSpacing = some b := by rw [Verif.Cairo.compose_over]; simp [over, hb]
  obtain ⟨f, hf⟩ : ∃ f, (default.compose style).font = some f := by
    rw [Verif.Cairo.compose_over]; exact Option.ne_none_iff_exists'.mp h6
  refine ⟨{ text := text, ranges := ranges, align := style.align, scale := scale, spacing := (b * a - x.fontHeight (default.compose style)) * ls, width := r.width }, ?_,
    default, h5, e2, e3, e4, rfl, rfl, rfl, fun a' b' ha' hb' => ?_⟩
  swap
  · rw [ha] at ha'; rw [hb] at hb'
    injection ha' with ha'; injection hb' with hb'
    rw [← ha', ← hb', Verif.Cairo.compose_over]
  unfold buildLayout
  rw [h5]
  dsimp only
  rw [if_neg hmem, text_composed, e1]
  dsimp only
  rw [allAttributes_ok hall]
  dsimp only
  rw [hf, hsz, hls]
  dsimp only
  rw [if_neg (not_lt.mpr (h4 b hb)), hal]

/-! ### one item -/

theorem turned_turn {ang : Rat → Rat × Rat} (h0 : ang 0 = (1, 0)) (m : Mat) (k : Pt) (rot : Option Rat) (q : Pt) :
    (turned m k (rot.map ang) 1 1).apply q = m.apply ((turn ang rot k).apply q) := by
  have e : q = (k.1 + (q.1 - k.1), k.2 + (q.2 - k.2)) := Prod.ext (by simp) (by simp)
  rw [e, Verif.CairoDraw.turned_apply, ← e]
  congr 1
  unfold turn
  cases rot with
  | none =>
    simp only [Option.map_none, Option.getD_none, Mat.apply]
    exact Prod.ext (by ring) (by ring)
  | some a =>
    by_cases ha : a = 0
    · subst ha
      simp only [Option.map_some, Option.getD_some, h0, Mat.apply, if_true]
      exact Prod.ext (by ring) (by ring)
    · simp only [Option.map_some, Option.getD_some, if_neg ha, Mat.apply, Mat.translate, Mat.rotate]
      exact Prod.ext (by ring) (by ring)

/-- What matters of an item for the items after it. -/
structure Kind (d : Draw) (i : Verif.CairoDraw.Item) : Prop where
  dashed : i.dashedEllipse = true → DashedEllipse d
  leaves : i.isAt = true → LeavesPoint d
  begins : i.begins = true ∨ ((∃ r rot s, i = .ellipse r rot s) ∧ IsEllipse d)

/-- The item is painted as it is meant, alone on the page. -/
def Alone (x : Ext) (png : Bool) (ls : Rat) (env : Env) (step : Int) (M : Mat) (F : Pt → Pt) (p : Nat) (d : Draw) (k : Content) : Prop :=
  (cairoItem x png ls env step p k = .ok none ∧ Painted x F ls env step p d []) ∨
  ∃ i c, cairoItem x png ls env step p k = .ok (some i) ∧ drawItem (fresh M) i = .ok c ∧ Painted x F ls env step p d c.painted ∧ Kind d i

theorem cairoItem_shape {x : Ext} {png : Bool} {ls : Rat} {env : Env} {step : Int} {p : Nat} {k : Content} {i : Verif.SvgDraw.Item} (hs : shape env p k = .ok (some i))
    {j : Verif.CairoDraw.Item} (hj : Verif.Backends.toCairo x.read x.known x.ang i = .ok j) : cairoItem x png ls env step p k = .ok (some j) := by
  cases k with
  | text t => cases hs
  | svg b scale rot => cases hs
  | _ => simp only [cairoItem, hs, hj]

theorem style_dash {read : Str → Option Rat} {known : Str → Bool} {p : Verif.SvgDraw.Paint} {s : Verif.CairoDraw.Style} (h : Verif.Backends.styleOf read known p = .ok s)
    (hc : Verif.CairoDraw.given s.color = true) (hd : s.dash ≠ []) : (∃ c, p.color = some c ∧ c ≠ []) ∧ ∃ d, p.dash = some d ∧ d ≠ [] := by
  unfold Verif.Backends.styleOf at h
  split at h
  · cases h
  · split at h
    · rename_i hg
      split at h
      · cases h
      · rename_i ds hds
        injection h with h; subst h
        constructor
        · unfold Verif.CairoDraw.given at hg
          cases hcol : p.color with
          | none => rw [hcol] at hg; cases hg
          | some c => rw [hcol] at hg; exact ⟨c, rfl, by simpa using hg⟩
        · unfold Verif.Backends.dashOf at hds
          cases hdd : p.dash with
          | none => rw [hdd] at hds; injection hds with hds; exact absurd hds.symm hd
          | some d =>
            refine ⟨d, rfl, ?_⟩
            rintro rfl
            rw [hdd] at hds; injection hds with hds; exact absurd hds.symm hd
    · injection h with h; subst h; exact absurd rfl hd

theorem withStyle_ok {s : Except Err Verif.CairoDraw.Style} {f : Verif.CairoDraw.Style → Verif.CairoDraw.Item} {j : Verif.CairoDraw.Item}
    (h : Verif.Backends.withStyle s f = .ok j) : ∃ t, s = .ok t ∧ j = f t := by
  unfold Verif.Backends.withStyle at h
  split at h
  · cases h
  · rename_i t; injection h with h; exact ⟨t, rfl, h.symm⟩

theorem kind_of {x : Ext} {env : Env} {p : Nat} {d : Draw} {i : Verif.SvgDraw.Item} (hd : Depicts env p d i) (hc : Verif.Backends.Spec.Common x.read x.known i)
    {j : Verif.CairoDraw.Item} (hj : Verif.Backends.toCairo x.read x.known x.ang i = .ok j) : Kind d j := by
  cases hd with
  | rect hr =>
    obtain ⟨s, h1, rfl⟩ := withStyle_ok hj
    exact ⟨fun h => (by cases h), fun h => (by cases h), .inl rfl⟩
  | ellipse hr =>
    obtain ⟨s, h1, rfl⟩ := withStyle_ok hj
    refine ⟨fun h => ?_, fun h => (by cases h), .inr ⟨⟨_, _, _, rfl⟩, trivial⟩⟩
    simp only [Verif.CairoDraw.Item.dashedEllipse, Bool.and_eq_true, decide_eq_true_eq] at h
    exact style_dash h1 h.1 h.2
  | polygon hq =>
    obtain ⟨s, h1, rfl⟩ := withStyle_ok hj
    exact ⟨fun h => (by cases h), fun h => (by cases h), .inl rfl⟩
  | line hq =>
    obtain ⟨_, _, ⟨c, hcol, hne⟩, _⟩ := hc
    unfold Verif.Backends.toCairo at hj
    dsimp only at hj hcol
    rw [hcol] at hj
    dsimp only at hj
    rw [if_neg hne] at hj
    obtain ⟨s, h1, rfl⟩ := withStyle_ok hj
    exact ⟨fun h => (by cases h), fun h => (by cases h), .inl rfl⟩
  | @path cmds cs pt hq =>
    obtain ⟨s, h1, rfl⟩ := withStyle_ok hj
    refine ⟨fun h => (by cases h), fun h => (by cases h), .inl ?_⟩
    obtain ⟨⟨us, hM, _⟩, _⟩ := hc
    cases cs with
    | nil => cases hM
    | cons a cs =>
      obtain ⟨n, args⟩ := a
      injection hM with hM
      simp only at hM
      subst hM
      rfl
  | bitmap hr hb =>
    unfold Verif.Backends.toCairo at hj
    dsimp only at hj
    split at hj
    · cases hj
    · injection hj with hj; subst hj
      exact ⟨fun h => (by cases h), fun _ => trivial, .inl rfl⟩

theorem alone_shape {x : Ext} (hk : x.known "none".toList = false) (h0 : x.ang 0 = (1, 0)) {png : Bool} {ls : Rat} {env : Env} {step : Int} {M : Mat} {F : Pt → Pt}
    (hM : M.det ≠ 0) (hF : ∀ q, M.apply q = F q) {p : Nat} {d : Draw} {c : Verif.Slide.Call} {k : Content} (hb : begin_ p d = .ok (some (c, k)))
    (hd : (∀ a ∈ pointsOf d, PointOk a) ∧ ∃ i, Depicts env p d i ∧ Verif.SvgDraw.Spec.outlineWidth i ≠ some 0 ∧ Verif.SvgDraw.Spec.EvenRadii i ∧
      Verif.Backends.Spec.Common x.read x.known i) :
    ∃ i c ps, cairoItem x png ls env step p k = .ok (some i) ∧ drawItem (fresh M) i = .ok c ∧ c.painted = ps ∧
      (∃ i m, Depicts env p d i ∧ (∀ q, m.apply q = F q) ∧ Verif.Backends.Spec.Paints (Verif.Backends.Spec.closes i) x.read x.ang m (Verif.SvgDraw.Spec.meant i) ps) ∧ Kind d i := by
  obtain ⟨hp, i, h1, h2, h3, h4⟩ := hd
  obtain ⟨ps, h5, h6⟩ := Verif.Backends.item_paints hk h0 hM h2 h3 h4
  unfold Verif.Backends.drawCairo at h5
  cases hj : Verif.Backends.toCairo x.read x.known x.ang i with
  | error e => rw [hj] at h5; cases h5
  | ok j =>
    rw [hj] at h5
    dsimp only at h5
    rw [show ({ gs := { ctm := M } } : Ctx) = fresh M from rfl] at h5
    cases hc : drawItem (fresh M) j with
    | error e => rw [hc] at h5; cases h5
    | ok c =>
      rw [hc] at h5
      injection h5 with h5
      exact ⟨j, c, ps, cairoItem_shape (shape_of hb hp h1) hj, hc, h5, ⟨i, M, h1, hF, h6⟩, kind_of h1 h4 hj⟩

/-- One item. -/
theorem cairoItem_alone {x : Ext} (hk : x.known "none".toList = false) (h0 : x.ang 0 = (1, 0)) {png : Bool} {ls : Rat} {env : Env} {step : Int} {w h : Rat}
    {vb : Option Rect} {M : Mat} (hM : M.det ≠ 0) (hF : ∀ q, M.apply q = onPaper png w h vb q) {p : Nat} {d : Draw} {c : Verif.Slide.Call} {k : Content} {r : Rect}
    (hb : begin_ p d = .ok (some (c, k))) (hd : Paintable x vb env step p d) (hr : env p = some r) : Alone x png ls env step M (onPaper png w h vb) p d k := by
  cases d with
  | text toks style styles rot fit wd =>
    simp only [begin_] at hb
    split at hb
    · cases hb
    · rename_i t ht
      injection hb with hb; injection hb with hb; injection hb with h1 h2; subst h2
      obtain ⟨sz, sp, ha, hsp, rfl⟩ := makeState_ok ht
      set s := textScale r wd (rowCount toks * (sz * sp)) fit with hs
      obtain ⟨ax, hax⟩ : ∃ ax, Verif.TextItem.textX r style.align = .ok ax := by
        unfold Verif.TextItem.textX
        rcases hd.2.2.1 with h | h | h <;> exact ⟨_, by rw [h]; rfl⟩
      by_cases hvis : s > 1 / 100000
      · right
        obtain ⟨l, hl, hlaid⟩ := buildLayout_ok hd ha hsp ls (if fit then some s else none) r
        obtain ⟨c', e1, e2⟩ := Verif.Backends.painted_text M (r.x, r.y + (r.height - rowCount toks * (sz * sp) * s) / 2 + sz * s - x.baseline l) (Verif.CairoDraw.midPoint r) (rot.map x.ang) l
        refine ⟨_, c', ?_, e1, ⟨r, sz, sp, s, hr, ha, hsp, hs, fun _ => ⟨_, l, e2, hlaid, fun u v => ?_⟩, fun h => absurd hvis (not_lt.mpr h)⟩,
          ⟨fun h => (by cases h), fun _ => trivial, .inl rfl⟩⟩
        · simp only [cairoItem, hr, renderText, onRect_eq, hax, ha, ← hs, if_pos hvis, cairoText, hl]
        · rw [← hF, ← turned_turn h0]
          simp only [Verif.CairoDraw.midPoint]
          generalize turned M (r.x + r.width / 2, r.y + r.height / 2) (Option.map x.ang rot) 1 1 = T
          simp only [Mat.apply, Mat.translate]
          exact Prod.ext (by ring) (by ring)
      · left
        refine ⟨?_, r, sz, sp, s, hr, ha, hsp, hs, fun h => absurd h hvis, fun _ => rfl⟩
        simp only [cairoItem, hr, renderText, onRect_eq, hax, ha, ← hs, if_neg hvis]
  | svg b scale rot =>
    injection hb with hb; injection hb with hb; injection hb with h1 h2; subst h2
    obtain ⟨rfl, hsz, hdoc, hnz⟩ := hd
    obtain ⟨n1, n2⟩ := hnz r hr
    rcases hdoc with hdoc | ⟨doc, doc', hdoc, hnorm⟩
    · left
      exact ⟨by simp only [cairoItem, renderSvg, hr, hdoc], .inl ⟨hdoc, rfl⟩⟩
    · right
      set f := factor r b.width b.height scale with hf
      set q := centered r (b.width * f) (b.height * f) with hq
      have q1 : q.width = b.width * f := rfl
      have q2 : q.height = b.height * f := rfl
      have hres : resolution png ≠ 0 := by cases png <;> decide +kernel
      have hB : ∀ q, (({} : Mat).scale (resolution png) (resolution png)).apply q = onPaper png w h none q := by
        have e : resolution png = if png then 1 else 3 / 4 := by cases png <;> decide +kernel
        intro q
        simp only [e, onPaper, Mat.apply, Mat.scale]
        exact Prod.ext (by ring) (by ring)
      have hrun : Verif.CairoDraw.run {} (.scale (resolution png) (resolution png) ::
          (Verif.CairoDraw.transform (q.x + q.width / 2, q.y + q.height / 2) (rot.map x.ang) 1 1 ++ [.translate q.x q.y])) =
          .ok (fresh ((turned (({} : Mat).scale (resolution png) (resolution png)) (q.x + q.width / 2, q.y + q.height / 2) (rot.map x.ang) 1 1).translate q.x q.y)) := by
        simp only [Verif.CairoDraw.run, Verif.CairoDraw.exec, mul_self_eq_zero, if_neg hres]
        rw [Verif.CairoDraw.run_append, run_transform _ _ _ _ _ ⟨one_ne_zero, one_ne_zero⟩]
        rfl
      refine ⟨.svg ((turned (({} : Mat).scale (resolution png) (resolution png)) (q.x + q.width / 2, q.y + q.height / 2) (rot.map x.ang) 1 1).translate q.x q.y) q.width q.height doc',
        _, ?_, rfl, .inr ⟨doc, doc', r, f, q, _, hdoc, hnorm, hr, hf, hq, rfl, fun u v => ?_⟩, ⟨fun h => (by cases h), fun h => (by cases h), .inl rfl⟩⟩
      · simp only [cairoItem, renderSvg, hr, hdoc, imageRect_eq hsz, cairoSvg, hnorm]
        rw [← hf, ← hq]
        have e : pictureSize (x.natural doc') q.width q.height = (q.width, q.height) := by
          unfold pictureSize
          rw [if_pos ⟨by rw [q1]; exact n1, by rw [q2]; exact n2⟩]
        rw [e]
        dsimp only
        rw [if_neg (by rintro (h | h); exacts [n1 h, n2 h]), hrun]
        rfl
      · rw [← hB, ← turned_turn h0]
        generalize turned (({} : Mat).scale (resolution png) (resolution png)) (q.x + q.width / 2, q.y + q.height / 2) (Option.map x.ang rot) 1 1 = T
        simp only [Mat.apply, Mat.translate]
        exact Prod.ext (by ring) (by ring)
  | rect rx ry rot pt =>
    obtain ⟨i, c, ps, e1, e2, rfl, e4, e5⟩ := alone_shape hk h0 (png := png) (ls := ls) (step := step) hM hF hb hd
    exact .inr ⟨i, c, e1, e2, e4, e5⟩
  | ellipse rot pt =>
    obtain ⟨i, c, ps, e1, e2, rfl, e4, e5⟩ := alone_shape hk h0 (png := png) (ls := ls) (step := step) hM hF hb hd
    exact .inr ⟨i, c, e1, e2, e4, e5⟩
  | polygon ps rot pt =>
    obtain ⟨i, c, ps, e1, e2, rfl, e4, e5⟩ := alone_shape hk h0 (png := png) (ls := ls) (step := step) hM hF hb hd
    exact .inr ⟨i, c, e1, e2, e4, e5⟩
  | line ps color sw dash =>
    obtain ⟨i, c, ps, e1, e2, rfl, e4, e5⟩ := alone_shape hk h0 (png := png) (ls := ls) (step := step) hM hF hb hd
    exact .inr ⟨i, c, e1, e2, e4, e5⟩
  | path cmds pt =>
    obtain ⟨i, c, ps, e1, e2, rfl, e4, e5⟩ := alone_shape hk h0 (png := png) (ls := ls) (step := step) hM hF hb hd
    exact .inr ⟨i, c, e1, e2, e4, e5⟩
  | bitmap b scale rot =>
    obtain ⟨i, c, ps, e1, e2, rfl, e4, e5⟩ := alone_shape hk h0 (png := png) (ls := ls) (step := step) hM hF hb hd
    exact .inr ⟨i, c, e1, e2, e4, e5⟩

/-! ### the loop over the painters -/

theorem drawItems_append {c c' : Ctx} {i : Verif.CairoDraw.Item} : ∀ {is : List Verif.CairoDraw.Item} {c0 : Ctx}, drawItems c0 is = .ok c → drawItem c i = .ok c' →
    drawItems c0 (is ++ [i]) = .ok c'
  | [], c0, h, h' => by injection h with h; subst h; simp only [List.nil_append, drawItems, h']
  | j :: is, c0, h, h' => by
    simp only [List.cons_append, drawItems] at h ⊢
    cases hj : drawItem c0 j with
    | error e => rw [hj] at h; cases h
    | ok c1 => rw [hj] at h; exact drawItems_append h h'

theorem cairoAll_painted {x : Ext} (hk : x.known "none".toList = false) (h0 : x.ang 0 = (1, 0)) {png : Bool} {ls : Rat} {env : Env} {step : Int} {w h : Rat}
    {vb : Option Rect} {M : Mat} (hM : M.det ≠ 0) (hF : ∀ q, M.apply q = onPaper png w h vb q) {contents : List (Nat × Nat × Content)} {ts : List Call} :
    ∀ (l : List (Nat × Int)), (∀ y ∈ l, ∃ k p d c kk r, y.1 = k + 1 ∧ ts[k]? = some (.draw p d) ∧ begin_ p d = .ok (some (c, kk)) ∧
      contents.lookup y.1 = some (p, kk) ∧ Paintable x vb env step p d ∧ env p = some r) → Smooth ts l →
    ∀ (before : List Verif.CairoDraw.Item) (c : Ctx), drawItems (fresh M) before = .ok c →
    (∀ y ∈ l, ∀ (j q : Nat) (e : Draw), y.1 = j + 1 → ts[j]? = some (.draw q e) → ∀ i ∈ before, i.dashedEllipse = false ∧ (IsEllipse e → i.isAt = false)) →
    ∃ c' parts, cairoAll x png ls env step contents c (l.map (fun y => .item y.1 y.2)) = .ok c' ∧ c'.painted = c.painted ++ parts.flatten ∧
      List.Forall₂ (fun a part => ∃ (k p : Nat) (d : Draw) (qs : List Paint), a.1 = k + 1 ∧ ts[k]? = some (.draw p d) ∧
        Painted x (onPaper png w h vb) ls env step p d qs ∧ part.map Verif.CairoDraw.Spec.Paint.seen = qs.map Verif.CairoDraw.Spec.Paint.seen) l parts
  | [], _, _, before, c, _, _ => ⟨c, [], rfl, by simp, .nil⟩
  | y :: l, hl, hsm, before, c, hc, hbef => by
    obtain ⟨k, p, d, c0, kk, r, e1, e2, e3, e4, e5, e6⟩ := hl y (.head _)
    obtain ⟨hsm1, hsm2⟩ := List.pairwise_cons.mp hsm
    rcases cairoItem_alone hk h0 (png := png) (ls := ls) (w := w) (h := h) hM hF e3 e5 e6 with ⟨a1, a2⟩ | ⟨i, f, a1, a2, a3, a4⟩
    · obtain ⟨c', parts, b1, b2, b3⟩ := cairoAll_painted hk h0 hM hF l (fun z hz => hl z (.tail _ hz)) hsm2 before c hc (fun z hz => hbef z (.tail _ hz))
      refine ⟨c', [] :: parts, ?_, by simpa using b2, .cons ⟨k, p, d, [], e1, e2, a2, rfl⟩ b3⟩
      simp only [List.map_cons, cairoAll, e4, a1]
      exact b1
    · have hy := hbef y (.head _) k p d e1 e2
      have halone := Verif.CairoDraw.C84_independent_partial M before i (fun j hj => (hy j hj).1) (by
        rcases a4.begins with hb | ⟨he, hd⟩
        · exact .inl hb
        · exact .inr ⟨he, fun j hj => (hy j hj).2 hd⟩) c hc
      rw [a2, Verif.CairoDraw.drawItems_snoc, hc] at halone
      dsimp only at halone
      cases hdi : drawItem c i with
      | error e => rw [hdi] at halone; exact halone.elim
      | ok c1 =>
        rw [hdi] at halone
        obtain ⟨ps, g1, g2⟩ := halone
        obtain ⟨c', parts, b1, b2, b3⟩ := cairoAll_painted hk h0 hM hF l (fun z hz => hl z (.tail _ hz)) hsm2 (before ++ [i]) c1 (drawItems_append hc hdi) (by
          intro z hz j q e hzj hte m hm
          rcases List.mem_append.mp hm with hm | hm
          · exact hbef z (.tail _ hz) j q e hzj hte m hm
          · rw [List.mem_singleton.mp hm]
            obtain ⟨s1, s2⟩ := hsm1 z hz k j p q d e e1 e2 hzj hte
            constructor
            · cases hde : i.dashedEllipse with
              | false => rfl
              | true => exact absurd (a4.dashed hde) s1
            · intro he
              cases hia : i.isAt with
              | false => rfl
              | true => exact absurd he (s2 (a4.leaves hia)))
        refine ⟨c', ps :: parts, ?_, ?_, .cons ⟨k, p, d, _, e1, e2, a3, g2⟩ b3⟩
        · simp only [List.map_cons, cairoAll, e4, a1, hdi]
          exact b1
        · rw [b2, g1]; simp

end Verif.Scene
