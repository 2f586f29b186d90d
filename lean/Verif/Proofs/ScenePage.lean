import Verif.Proofs.ScenePicture
import Verif.Props.Independent
import Verif.Props.History

/-! # Lemmas about the SVG page of a slide -/

namespace Verif.Scene
open Spec
open Verif.Layout (Env)
open Verif.Xml (Good Xml Op A arun sd_nil setsDistinct_mono)
open Verif.Xml.Spec (Forest norm readXml Attrs)
open Verif.Ora (Writes writes_nil Elems readAttrs norm_append elems_append)
open Verif.SvgDraw (itemOps item_reads)
open Verif.SvgDraw.Spec (Numbers readShape meant num readNumbers)

/-! ### one item -/

theorem writes_at {ops : List Op} {F : Forest} (h : Writes ops F) {x : Xml} {a : A} (hg : Good x a) :
    ∃ x' op, Verif.Xml.run x ops = .ok x' ∧ Good x' { cur := a.cur ++ F, up := a.up, isOpen := op } := by
  obtain ⟨op, ha⟩ := h.nested.arun a
  have hd := h.distinct [] sd_nil (Verif.Xml.seen a)
  rw [List.append_nil] at hd
  obtain ⟨x', hx, hg'⟩ := hg.go h.valid hd ha
  exact ⟨x', op, hx, hg'⟩

variable {fmt : Rat → Str} {read : Str → Option Rat}

theorem rowCount_pos (toks : List Verif.Text.Tok) : (rowCount toks : Rat) ≠ 0 := by
  have : Verif.Text.Spec.lines toks ≠ [] := Verif.Text.lines_ne_nil toks
  unfold rowCount
  exact_mod_cast fun h => this (List.eq_nil_of_length_eq_zero h)

theorem render_shape {env : Env} {step : Int} {x : Xml} {p : Nat} {k : Content} {i : Verif.SvgDraw.Item} {ops : List Op} (hs : shape env p k = .ok (some i))
    (ho : itemOps fmt i = .ok ops) : render fmt env step x p k = Verif.Xml.run x ops := by
  cases k with
  | text t => cases hs
  | svg b scale rot => cases hs
  | _ => simp only [render, hs, ho]

theorem shown_shape (hn : Numbers fmt read) {env : Env} {step : Int} {p : Nat} {d : Draw} {c : Verif.Slide.Call} {k : Content}
    (hb : begin_ p d = .ok (some (c, k))) (hd : (∀ a ∈ pointsOf d, PointOk a) ∧ ∃ i, Depicts env p d i ∧ Verif.SvgDraw.Spec.ItemOk i ∧
      Verif.SvgDraw.Spec.outlineWidth i ≠ some 0 ∧ Verif.SvgDraw.Spec.EvenRadii i ∧ Verif.SvgDraw.Spec.HasCenter i) :
    ∃ y F, (∀ x, render fmt env step x p k = .ok (x.closeTag.over y)) ∧ Part y F ∧
      ∃ n as i, F = .elem n as .nil .nil ∧ Depicts env p d i ∧ readShape read n as = some (meant i) := by
  obtain ⟨hp, i, h1, h2, h3, h4, h5⟩ := hd
  obtain ⟨n, sets, e, hv, hs, hr⟩ := item_reads hn i h2 h3 h4 h5
  obtain ⟨y, op, hx, hg⟩ := writes_at (writes_nil.block hv hs) Verif.Xml.good_init
  refine ⟨y, _, fun x => ?_, part_of_good hg rfl, n, readAttrs sets, i, rfl, h1, hr⟩
  rw [render_shape (shape_of hb hp h1) e]
  exact Verif.Xml.run_at x rfl hx

/-- A text written alone and in the middle of a document. -/
theorem textRender_at (x : Xml) {r : Rect} {t : Verif.TextItem.Item} (hs : t.state.scale > 1 / 100000) {y : Xml} (h : Verif.TextItem.render fmt {} r t = .ok y) :
    Verif.TextItem.render fmt x r t = .ok (x.closeTag.over y) := by
  simp only [Verif.TextItem.render, if_pos hs] at h ⊢
  split at h
  · cases h
  · split at h
    · cases h
    · rename_i sz hsz
      unfold Verif.TextItem.svgText at h ⊢
      split at h
      · cases h
      · split at h
        · cases h
        · exact Verif.Xml.drawText_over x h

/-- The scale and the height of a text in its box. -/
theorem onRect_eq (r : Rect) (w h : Rat) (fit : Bool) : ({ width := w, height := h, scaleToFit := fit } : Verif.Layout.TextState).onRect r =
    { width := w * textScale r w h fit, height := h * textScale r w h fit, scale := textScale r w h fit, scaleToFit := fit } := by
  unfold Verif.Layout.TextState.onRect textScale
  cases fit with
  | false => simp
  | true =>
    by_cases h1 : w > 1 / 100000 ∧ h > 1 / 100000
    · simp only [if_true, if_pos h1, true_and]
    · simp only [if_true, if_neg h1, true_and, mul_one]

/-- The item appears on the page as it is meant. -/
theorem render_shown (hn : Numbers fmt read) {ang : Rat → Rat × Rat} (h0 : ang 0 = (1, 0)) {env : Env} {step : Int} {p : Nat} {d : Draw} {c : Verif.Slide.Call}
    {k : Content} {r : Rect} (hb : begin_ p d = .ok (some (c, k))) (hd : Drawable env step p d) (hr : env p = some r) :
    ((∀ x, render fmt env step x p k = .ok x) ∧ Shown read ang env step p d .nil) ∨
    ∃ y F, (∀ x, render fmt env step x p k = .ok (x.closeTag.over y)) ∧ Part y F ∧ Shown read ang env step p d F := by
  cases d with
  | text toks style styles rot fit w =>
    simp only [begin_] at hb
    split at hb
    · cases hb
    · rename_i t ht
      injection hb with hb; injection hb with hb; injection hb with h1 h2; subst h2
      obtain ⟨sz, sp, ha, hsp, rfl⟩ := makeState_ok ht
      set s := textScale r w (rowCount toks * (sz * sp)) fit with hs
      by_cases hvis : s > 1 / 100000
      · right
        obtain ⟨y, as, K, attrs, first, lines, q, tr, m, ps, ax, size, e1, e2, e3, e4, e5, e6, e7, e8, e9, e10, e11, e12⟩ :=
          Verif.TextItem.render_at hn ang r w toks style styles fit rot ht (by rw [onRect_eq]; exact hvis)
          hd.main hd.others hd.balanced hd.names hd.plain hd.side hd.safe Verif.Xml.good_init
        rw [ha] at e10
        injection e10 with e10; subst e10
        refine ⟨y, _, fun x => ?_, part_of_good e2 (by rw [← e3]; rfl), r, sz, sp, s, hr, ha, hsp, hs, fun _ => ⟨attrs, _, e3, first, lines, q, tr, m, ps, ax, rfl, e4, e5, e6, e7, e8, e9, e11, ?_⟩,
          fun h => absurd hvis (not_lt.mpr h)⟩
        · simp only [render, hr]
          exact textRender_at x (by rw [onRect_eq]; exact hvis) e1
        · rw [e12, onRect_eq]
          apply List.map_congr_left
          intro i _
          congr 2
          unfold Verif.Text.lineBox
          dsimp only
          rw [Verif.Text.lines_length]
          have h0 := rowCount_pos toks
          unfold rowCount at h0 hs ⊢
          rw [← hs]
          clear_value s
          clear hvis e1 ht e12
          simp only [Int.cast_natCast]
          field_simp
      · left
        refine ⟨fun x => ?_, r, sz, sp, s, hr, ha, hsp, hs, fun h => absurd h hvis, fun _ => rfl⟩
        simp only [render, hr, Verif.TextItem.render, onRect_eq, ha, ← hs, if_neg hvis]
        obtain ⟨ax, hax⟩ : ∃ ax, Verif.TextItem.textX r style.align = .ok ax := by
          unfold Verif.TextItem.textX
          rcases hd.side with h | h | h <;> exact ⟨_, by rw [h]; rfl⟩
        rw [hax]
  | svg b scale rot =>
    injection hb with hb; injection hb with hb; injection hb with h1 h2; subst h2
    exact picture_shown hn h0 hd hr
  | rect rx ry rot pt => exact .inr (shown_shape hn hb hd)
  | ellipse rot pt => exact .inr (shown_shape hn hb hd)
  | polygon ps rot pt => exact .inr (shown_shape hn hb hd)
  | line ps color sw dash => exact .inr (shown_shape hn hb hd)
  | path cmds pt => exact .inr (shown_shape hn hb hd)
  | bitmap b scale rot => exact .inr (shown_shape hn hb hd)

/-! ### the loop over the painters -/

/-- A document with an open element: nothing was written into it, and its start tag is still open, or it is complete. -/
def Stage (x0 x : Xml) (nm : Str) (as : Attrs) (F : Forest) : Prop := (x = x0 ∧ F = .nil) ∨ Within x nm as F

theorem Stage.part {x0 x : Xml} {nm : Str} {as : Attrs} {F : Forest} (h0 : Within x0.closeTag nm as .nil) (h : Stage x0 x nm as F) {y : Xml} {G : Forest}
    (hy : Part y G) : Stage x0 (x.closeTag.over y) nm as (F ++ G) := by
  right
  rcases h with ⟨rfl, rfl⟩ | h
  · exact h0.part hy
  · have e : x.closeTag = x := by unfold Verif.Xml.Xml.closeTag; rw [h.isOpen]; simp
    rw [e]
    exact h.part hy

theorem renderAll_shown (hn : Numbers fmt read) {ang : Rat → Rat × Rat} (h0 : ang 0 = (1, 0)) {env : Env} {step : Int} {contents : List (Nat × Nat × Content)}
    {ts : List Call} {x0 : Xml} {nm : Str} {as : Attrs} (hx0 : Within x0.closeTag nm as .nil) :
    ∀ (l : List (Nat × Int)), (∀ y ∈ l, ∃ k p d c kk r, y.1 = k + 1 ∧ ts[k]? = some (.draw p d) ∧ begin_ p d = .ok (some (c, kk)) ∧
      contents.lookup y.1 = some (p, kk) ∧ Drawable env step p d ∧ env p = some r) → ∀ {x : Xml} {F : Forest}, Stage x0 x nm as F →
    ∃ x' parts, renderAll fmt env step contents x (l.map (fun y => .item y.1 y.2)) = .ok x' ∧ Stage x0 x' nm as (F ++ concat parts) ∧
      List.Forall₂ (fun y G => ∃ k p d, y.1 = k + 1 ∧ ts[k]? = some (.draw p d) ∧ Shown read ang env step p d G) l parts
  | [], _, x, F, hg => ⟨x, [], rfl, by simp only [concat]; rw [Verif.Xml.Forest.append_nil]; exact hg, .nil⟩
  | y :: l, h, x, F, hg => by
    obtain ⟨k, p, d, c, kk, r, e1, e2, e3, e4, e5, e6⟩ := h y (.head _)
    rcases render_shown hn h0 (fmt := fmt) (step := step) e3 e5 e6 with ⟨h1, h2⟩ | ⟨z, G, h1, h2, h3⟩
    · obtain ⟨x2, parts, h5, h6, h9⟩ := renderAll_shown hn h0 hx0 l (fun z hz => h z (.tail _ hz)) hg
      refine ⟨x2, .nil :: parts, ?_, ?_, .cons ⟨k, p, d, e1, e2, h2⟩ h9⟩
      · simp only [List.map_cons, renderAll, e4, h1]
        exact h5
      · simp only [concat, Verif.Xml.Forest.nil_append]; exact h6
    · obtain ⟨x2, parts, h5, h6, h9⟩ := renderAll_shown hn h0 hx0 l (fun z hz => h z (.tail _ hz)) (hg.part hx0 h2)
      refine ⟨x2, G :: parts, ?_, ?_, .cons ⟨k, p, d, e1, e2, h3⟩ h9⟩
      · simp only [List.map_cons, renderAll, e4, h1]
        exact h5
      · simp only [concat, ← Verif.Xml.Forest.append_assoc]; exact h6

/-- The end tag. -/
theorem Stage.close {x0 x : Xml} {nm : Str} {sets : List (Str × Str × Bool)} {F : Forest}
    (h0 : Good x0 { cur := .nil, up := [(.nil, nm, sets.map Verif.Xml.toAttr)], isOpen := true }) (hnm : Verif.Xml.Spec.ValidName nm)
    (h : Stage x0 x nm (readAttrs sets) F) : ∃ y, Verif.Xml.run x [.close (some nm)] = .ok y ∧ Part y (.elem nm (readAttrs sets) F .nil) := by
  rcases h with ⟨rfl, rfl⟩ | h
  · obtain ⟨x2, hx2, hg2⟩ : ∃ x2, Verif.Xml.run x [.close (some nm)] = .ok x2 ∧
        Good x2 { cur := .elem nm (sets.map Verif.Xml.toAttr) .nil .nil, up := [], isOpen := false } := by
      refine h0.go ?_ ?_ ?_
      · intro o ho
        rw [List.mem_singleton.mp ho]
        trivial
      · exact Verif.Xml.sd_close _ Verif.Xml.sd_nil _
      · simp [Verif.Xml.arun, Verif.Xml.aexec, Verif.Xml.Forest.nil_append]
    exact ⟨x2, hx2, part_of_good hg2 rfl⟩
  · obtain ⟨y, h1, h2⟩ := h.close hnm
    exact ⟨y, by simp only [Verif.Xml.run, h1], h2⟩

/-! ### rectangles -/

theorem uids_grow {s s' : Verif.Slide.State} {c : Verif.Slide.Call} (h : Verif.Slide.exec s c = (s', none)) (hl : Verif.Slide.Laid s) :
    ∀ u ∈ Verif.Layout.Spec.uids s.layouts, u ∈ Verif.Layout.Spec.uids s'.layouts := by
  intro u hu
  obtain ⟨hn, hs⟩ := Verif.Slide.exec_layouts h
  have hp := Verif.Slide.exec_parent h
  cases c with
  | box p b =>
    simp only [Verif.Slide.layoutsAfter] at hs
    cases ha : Verif.Layout.newAttrs b.layout with
    | error e => rw [ha] at hs; rw [hs]; exact hu
    | ok a =>
      rw [ha] at hs
      dsimp only at hs
      have hperm : (Verif.Layout.Spec.uids s'.layouts).Perm (s.next :: Verif.Layout.Spec.uids s.layouts) := by
        rw [hs]
        refine Verif.Slide.uids_add ?_ hl.nodup (hl.has p hp)
        intro a' k
        cases b.layout.prepend
        · simp only [Bool.false_eq_true, if_false, Verif.Slide.uids_append]; exact List.perm_append_singleton _ _
        · simp [Verif.Layout.Spec.uids]
      exact hperm.mem_iff.mpr (.tail _ hu)
  | text p w ht fit =>
    simp only [Verif.Slide.layoutsAfter] at hs
    rw [hs, Verif.Slide.uids_keep (fun _ _ => rfl)]; exact hu
  | shape p =>
    simp only [Verif.Slide.layoutsAfter] at hs
    rw [hs]; exact hu
  | image p w ht steps =>
    simp only [Verif.Slide.layoutsAfter] at hs
    rw [hs, Verif.Slide.uids_keep (fun _ _ => rfl)]; exact hu

/-- The boxes on which something was called have layouts. -/
theorem target_laid {s s' : Verif.Slide.State} : ∀ {cs : List Verif.Slide.Call}, Verif.Slide.run s cs = .ok s' → Verif.Slide.Laid s →
    (∀ u ∈ Verif.Layout.Spec.uids s.layouts, u ∈ Verif.Layout.Spec.uids s'.layouts) ∧ ∀ c ∈ cs, Verif.Slide.Spec.target c ∈ Verif.Layout.Spec.uids s'.layouts := by
  intro cs
  induction cs generalizing s with
  | nil => intro h _; injection h with h; subst h; exact ⟨fun u hu => hu, by simp⟩
  | cons c cs ih =>
    intro h hl
    simp only [Verif.Slide.run] at h
    split at h
    · cases h
    · rename_i t ht
      obtain ⟨h1, h2⟩ := ih h (Verif.Slide.exec_laid ht hl)
      refine ⟨fun u hu => h1 u (uids_grow ht hl u hu), ?_⟩
      intro d hd
      rcases List.mem_cons.mp hd with rfl | hd
      · exact h1 _ (uids_grow ht hl _ (hl.has _ (Verif.Slide.exec_has_target ht)))
      · exact h2 d hd

theorem rects_some {s : Verif.Slide.State} (hl : Verif.Slide.Laid s) {w h : Rat} {env : Env} (he : s.rects w h = .ok env) :
    ∀ u ∈ Verif.Layout.Spec.uids s.layouts, ∃ r, env u = some r := by
  obtain ⟨a, kids, e⟩ := hl.root
  rw [Verif.Slide.rects_root e] at he
  intro u hu
  rw [e] at hu
  refine Option.isSome_iff_exists.mp (Verif.Layout.setRect_some he u ?_)
  simpa [Verif.Layout.Spec.uids] using hu

end Verif.Scene
