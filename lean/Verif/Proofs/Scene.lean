import Verif.Spec.Scene
import Verif.Proofs.Layout2
import Verif.Proofs.History
import Verif.Props.LayoutStrings
import Verif.Props.Layout
import Verif.Props.TextItem
import Verif.Props.SvgDraw
import Verif.Props.Slide

/-! # Lemmas about the drawing methods and the SVG page -/

namespace Verif.Scene
open Spec
open Verif.Layout (Arg Pos Env)
open Verif.Layout.Spec (start extent Denotes PosText refs)
open Verif.CairoDraw (Pt)

/-! ### points -/

theorem denotes_compute {env : Env} {v : Pos} {o full self q : Rat} (h : Denotes env v o full self q) : v.compute env o full self = .ok q := by
  induction h with
  | fix => rfl
  | ratio => rfl
  | align => rfl
  | @ref u hor v r o full self val hr _ ih =>
    simp only [Pos.compute, hr]
    cases hor
    · simpa [start, extent] using ih
    · simpa [start, extent] using ih
  | map _ ih => simp only [Pos.compute, ih]
  | fn hr => simp only [Pos.compute, hr]

theorem compute_iff {env : Env} {v : Pos} {o full self q : Rat} : v.compute env o full self = .ok q ↔ Denotes env v o full self q :=
  ⟨Verif.Layout.compute_denotes, denotes_compute⟩

theorem value_iff {env : Env} {v : Pos} (hv : Lazy v) {o full self q : Rat} : v.compute env o full self = .ok q ↔ Value env v q :=
  ⟨fun h => Verif.Layout.denotes_any (compute_iff.mp h) hv, fun h => compute_iff.mpr (h _ _ _)⟩

theorem ref_iff {env : Env} {p : Nat} {hor : Bool} {v : Pos} {q : Rat} :
    (Pos.ref p hor v).compute env 0 0 0 = .ok q ↔ ∃ r, env p = some r ∧ Denotes env v (start hor r) (extent hor r) 0 q := by
  rw [compute_iff]
  constructor
  · intro h
    cases h with
    | ref h hv => exact ⟨_, h, hv⟩
  · rintro ⟨r, h, hv⟩
    exact .ref h hv

theorem parsePos_text {s nl : Str} {v : Pos} (ht : PosText s v) (hnl : nl = [] ∨ nl = ['\n']) : Verif.Layout.parsePos (.str (s ++ nl)) = .ok v := by
  have h0 := Verif.Layout.C39_position_strings_accepted s v ht
  rcases hnl with rfl | rfl
  · rwa [List.append_nil]
  · have hc : Verif.Layout.chomp (s ++ ['\n']) = Verif.Layout.chomp s := by
      have hs : Verif.Layout.chomp s = s := by
        cases ht with
        | number hn =>
          obtain ⟨c, hc, hd⟩ := Verif.Layout.numeral_last hn
          exact Verif.Layout.chomp_of_last hc (Verif.Layout.digit_not hd).1
        | percent hn => exact Verif.Layout.chomp_of_last (c := '%') (by simp) (by decide)
        | align hn => exact Verif.Layout.chomp_of_last (c := ']') (by rw [List.getLast?_append]; rfl) (by decide)
      rw [hs]
      unfold Verif.Layout.chomp
      simp
    simp only [Verif.Layout.parsePos] at h0 ⊢
    rw [hc]
    exact h0

theorem coord_iff {env : Env} {p : Nat} {hor : Bool} {a : Arg} {q : Rat} (ha : ArgOk a) :
    (∃ v, boxCoord p hor a = .ok v ∧ v.compute env 0 0 0 = .ok q) ↔ CoordAt env p hor a q := by
  unfold boxCoord
  cases a with
  | none =>
    constructor
    · rintro ⟨v, h1, h2⟩
      injection h1 with h1; subst h1
      obtain ⟨r, _, h⟩ := ref_iff.mp h2
      cases h
    · intro h; cases h
  | other =>
    constructor
    · rintro ⟨v, h1, _⟩; cases h1
    · intro h; cases h
  | num x =>
    constructor
    · rintro ⟨v, h1, h2⟩
      injection h1 with h1; subst h1
      obtain ⟨r, hr, h⟩ := ref_iff.mp h2
      cases h
      exact .num hr
    · intro h
      cases h with
      | num hr => exact ⟨_, rfl, ref_iff.mpr ⟨_, hr, .fix⟩⟩
  | lazy w =>
    constructor
    · rintro ⟨v, h1, h2⟩
      injection h1 with h1; subst h1
      obtain ⟨r, hr, h⟩ := ref_iff.mp h2
      exact .lazy hr (Verif.Layout.denotes_any h ha)
    · intro h
      cases h with
      | lazy hr hv => exact ⟨_, rfl, ref_iff.mpr ⟨_, hr, hv _ _ _⟩⟩
  | str s =>
    constructor
    · rintro ⟨v, h1, h2⟩
      rcases Verif.Layout.C39_position_strings_partial s with ⟨w, t, nl, h3, rfl, h4, h5⟩ | ⟨msg, h3, _⟩
      · rw [h3] at h1
        injection h1 with h1; subst h1
        obtain ⟨r, hr, h⟩ := ref_iff.mp h2
        exact .str hr h4 h5 h
      · rw [h3] at h1; cases h1
    · intro h
      cases h with
      | @str r s nl v _ hr ht hnl hd =>
        have : Verif.Layout.parsePos (.str (s ++ nl)) = .ok v := parsePos_text ht hnl
        exact ⟨_, by rw [this], ref_iff.mpr ⟨_, hr, hd⟩⟩

theorem point_iff {env : Env} {p : Nat} {a : PointArg} {q : Pt} (ha : PointOk a) :
    (∃ v, unpackPoint p a = .ok v ∧ evalPair env v = .ok q) ↔ PointAt env p a q := by
  cases a with
  | other =>
    constructor
    · rintro ⟨v, h, _⟩; cases h
    · intro h; cases h
  | lazy x y =>
    constructor
    · rintro ⟨v, h1, h2⟩
      injection h1 with h1; subst h1
      unfold evalPair at h2
      split at h2
      · cases h2
      · rename_i a h3
        split at h2
        · cases h2
        · rename_i b h4
          injection h2 with h2; subst h2
          exact .lazy ((value_iff ha.1).mp h3) ((value_iff ha.2).mp h4)
    · intro h
      cases h with
      | lazy h1 h2 =>
        refine ⟨_, rfl, ?_⟩
        simp only [evalPair, (value_iff ha.1).mpr h1, (value_iff ha.2).mpr h2]
  | pair x y =>
    constructor
    · rintro ⟨v, h1, h2⟩
      unfold unpackPoint at h1
      dsimp only at h1
      split at h1
      · cases h1
      · rename_i vx hx
        split at h1
        · cases h1
        · rename_i vy hy
          injection h1 with h1; subst h1
          unfold evalPair at h2
          split at h2
          · cases h2
          · rename_i a h3
            split at h2
            · cases h2
            · rename_i b h4
              injection h2 with h2; subst h2
              exact .pair ((coord_iff ha.1).mp ⟨_, hx, h3⟩) ((coord_iff ha.2).mp ⟨_, hy, h4⟩)
    · intro h
      cases h with
      | pair h1 h2 =>
        obtain ⟨vx, h3, h4⟩ := (coord_iff ha.1).mpr h1
        obtain ⟨vy, h5, h6⟩ := (coord_iff ha.2).mpr h2
        refine ⟨(vx, vy), ?_, ?_⟩
        · simp only [unpackPoint, h3, h5]
        · simp only [evalPair, h4, h6]

theorem points_iff {env : Env} {p : Nat} : ∀ {as : List PointArg} {qs : List Pt}, (∀ a ∈ as, PointOk a) →
    ((∃ vs, unpackPoints p as = .ok vs ∧ evalPairs env vs = .ok qs) ↔ List.Forall₂ (PointAt env p) as qs)
  | [], qs, _ => by
    constructor
    · rintro ⟨vs, h1, h2⟩
      injection h1 with h1; subst h1
      injection h2 with h2; subst h2
      exact .nil
    · intro h; cases h; exact ⟨[], rfl, rfl⟩
  | a :: as, qs, ha => by
    have ih := fun qs => points_iff (env := env) (p := p) (as := as) (qs := qs) (fun x hx => ha x (.tail _ hx))
    have hp := fun q => point_iff (env := env) (p := p) (q := q) (ha a (.head _))
    constructor
    · rintro ⟨vs, h1, h2⟩
      simp only [unpackPoints] at h1
      split at h1
      · cases h1
      · rename_i v hv
        split at h1
        · cases h1
        · rename_i ws hws
          injection h1 with h1; subst h1
          simp only [evalPairs] at h2
          split at h2
          · cases h2
          · rename_i q hq
            split at h2
            · cases h2
            · rename_i rs hrs
              injection h2 with h2; subst h2
              exact .cons ((hp q).mp ⟨v, hv, hq⟩) ((ih rs).mp ⟨ws, hws, hrs⟩)
    · intro h
      cases h with
      | cons h1 h2 =>
        obtain ⟨v, h3, h4⟩ := (hp _).mpr h1
        obtain ⟨vs, h5, h6⟩ := (ih _).mpr h2
        exact ⟨v :: vs, by simp only [unpackPoints, h3, h5], by simp only [evalPairs, h4, h6]⟩

theorem evalPath_of {env : Env} {p : Nat} : ∀ {cmds : List (Char × List PointArg)} {vs : List (Char × List (Pos × Pos))} {cs : List (Char × List Pt)},
    (∀ a ∈ cmds.flatMap (·.2), PointOk a) → unpackPath p cmds = .ok vs →
    (evalPath env vs = .ok cs ↔ List.Forall₂ (fun a b => a.1 = b.1 ∧ List.Forall₂ (PointAt env p) a.2 b.2) cmds cs)
  | [], vs, cs, _, h => by
    injection h with h; subst h
    constructor
    · intro h; injection h with h; subst h; exact .nil
    · intro h; cases h; rfl
  | (name, args) :: rest, vs, cs, ha, h => by
    simp only [unpackPath] at h
    split at h
    · cases h
    · split at h
      · cases h
      · split at h
        · cases h
        · rename_i ws hws
          split at h
          · cases h
          · rename_i r hr
            injection h with h; subst h
            have hpts := fun qs => points_iff (env := env) (p := p) (as := args) (qs := qs) (fun x hx => ha x (by simp [hx]))
            have ih := fun cs => evalPath_of (env := env) (p := p) (cs := cs) (fun x hx => ha x (by
              simp only [List.flatMap_cons, List.mem_append]; exact .inr hx)) hr
            constructor
            · intro h2
              simp only [evalPath] at h2
              split at h2
              · cases h2
              · rename_i qs hqs
                split at h2
                · cases h2
                · rename_i ds hds
                  injection h2 with h2; subst h2
                  exact .cons ⟨rfl, (hpts qs).mp ⟨ws, hws, hqs⟩⟩ ((ih ds).mp hds)
            · intro h2
              cases h2 with
              | @cons _ b _ ds h3 h4 =>
                obtain ⟨n, qs⟩ := b
                obtain ⟨h5, h6⟩ := h3
                obtain ⟨ws', h7, h8⟩ := (hpts qs).mpr h6
                rw [hws] at h7
                injection h7 with h7; subst h7
                simp only at h5
                subst h5
                simp only [evalPath, h8, (ih ds).mpr h4]

/-! ### items -/

theorem unpackPath_length {p : Nat} : ∀ {cmds : List (Char × List PointArg)} {vs : List (Char × List (Pos × Pos))}, unpackPath p cmds = .ok vs →
    vs.isEmpty = cmds.isEmpty
  | [], vs, h => by injection h with h; subst h; rfl
  | (name, args) :: rest, vs, h => by
    simp only [unpackPath] at h
    split at h
    · cases h
    · split at h
      · cases h
      · split at h
        · cases h
        · split at h
          · cases h
          · injection h with h; subst h; rfl

theorem orOne_eq (scale : Option Rat) : orOne scale = if scale.getD 0 = 0 then 1 else scale.getD 0 := by
  cases scale <;> simp [orOne]

theorem makeState_ok {w : Rat} {style : Verif.Style.TextStyle} {toks : List Verif.Text.Tok} {fit : Bool} {t : Verif.Layout.TextState}
    (h : Verif.TextItem.makeState w style toks fit = .ok t) :
    ∃ a b, style.size = some a ∧ style.lineSpacing = some b ∧ t = { width := w, height := rowCount toks * (a * b), scaleToFit := fit } := by
  unfold Verif.TextItem.makeState at h
  split at h
  · rename_i a b ha hb
    injection h with h
    refine ⟨a, b, ha, hb, ?_⟩
    rw [← h, Verif.Text.lines_length]
    rfl
  · cases h

theorem begin_some {p : Nat} {d : Draw} {c : Verif.Slide.Call} {k : Content} (h : begin_ p d = .ok (some (c, k))) :
    creates (.draw p d) = true ∧ c = outline (.draw p d) := by
  cases d with
  | rect rx ry rot pt => injection h with h; injection h with h; injection h with h1 h2; exact ⟨rfl, h1.symm⟩
  | ellipse rot pt => injection h with h; injection h with h; injection h with h1 h2; exact ⟨rfl, h1.symm⟩
  | polygon ps rot pt =>
    simp only [begin_] at h
    split at h
    · cases h
    · injection h with h; injection h with h; injection h with h1 h2; exact ⟨rfl, h1.symm⟩
  | line ps color sw dash =>
    simp only [begin_] at h
    split at h
    · cases h
    · split at h
      · cases h
      · injection h with h; injection h with h; injection h with h1 h2; exact ⟨rfl, h1.symm⟩
  | path cmds pt =>
    simp only [begin_] at h
    split at h
    · cases h
    · rename_i vs hvs
      split at h
      · cases h
      · rename_i hne
        injection h with h; injection h with h; injection h with h1 h2
        refine ⟨?_, h1.symm⟩
        rw [unpackPath_length hvs] at hne
        simpa [creates] using hne
  | bitmap b scale rot =>
    injection h with h; injection h with h; injection h with h1 h2
    refine ⟨rfl, ?_⟩
    rw [← h1]
    simp only [outline, orOne_eq]
  | svg b scale rot =>
    injection h with h; injection h with h; injection h with h1 h2
    refine ⟨rfl, ?_⟩
    rw [← h1]
    simp only [outline, orOne_eq]
  | text toks style styles rot fit w =>
    simp only [begin_] at h
    split at h
    · cases h
    · rename_i t ht
      obtain ⟨a, b, ha, hb, rfl⟩ := makeState_ok ht
      injection h with h; injection h with h; injection h with h1 h2
      refine ⟨rfl, ?_⟩
      rw [← h1]
      simp only [outline, ha, hb, Option.getD_some]

theorem begin_none {p : Nat} {d : Draw} (h : begin_ p d = .ok none) : creates (.draw p d) = false := by
  cases d with
  | rect rx ry rot pt => cases h
  | ellipse rot pt => cases h
  | polygon ps rot pt =>
    simp only [begin_] at h
    split at h <;> cases h
  | line ps color sw dash =>
    simp only [begin_] at h
    split at h
    · cases h
    · split at h <;> cases h
  | path cmds pt =>
    simp only [begin_] at h
    split at h
    · cases h
    · rename_i vs hvs
      split at h
      · rename_i he
        rw [unpackPath_length hvs] at he
        simpa [creates] using he
      · cases h
  | bitmap b scale rot => cases h
  | svg b scale rot => cases h
  | text toks style styles rot fit w =>
    simp only [begin_] at h
    split at h <;> cases h

theorem imageScale_eq {r : Rect} {w h : Rat} {scale : Option Rat} (h0 : scale = none → w ≠ 0 ∧ h ≠ 0) :
    Verif.Layout.imageScale r w h scale = .ok (factor r w h scale) := by
  cases scale with
  | some s => rfl
  | none =>
    obtain ⟨h1, h2⟩ := h0 rfl
    have : Verif.Layout.scaler r w h = .ok (if r.width = 0 ∧ r.height = 0 then none else some (factor r w h none)) := by
      unfold Verif.Layout.scaler factor
      rw [if_neg (by simp [h1, h2])]
      by_cases hw : r.width = 0 <;> by_cases hh : r.height = 0 <;> simp [hw, hh]
    unfold Verif.Layout.imageScale
    simp only [this]
    by_cases hz : r.width = 0 ∧ r.height = 0
    · simp only [hz.1, hz.2, and_self, if_true, factor]
    · simp only [if_neg hz]

theorem imageRect_eq {r : Rect} {w h : Rat} {scale : Option Rat} (h0 : scale = none → w ≠ 0 ∧ h ≠ 0) :
    Verif.Layout.imageRect r w h scale = .ok (centered r (w * factor r w h scale) (h * factor r w h scale)) := by
  unfold Verif.Layout.imageRect
  rw [imageScale_eq h0]
  rfl

/-- The item that is drawn is the one that is meant. -/
theorem shape_of {env : Env} {p : Nat} {d : Draw} {c : Verif.Slide.Call} {k : Content} {i : Verif.SvgDraw.Item}
    (h : begin_ p d = .ok (some (c, k))) (hp : ∀ a ∈ pointsOf d, PointOk a) (hd : Depicts env p d i) : shape env p k = .ok (some i) := by
  cases hd with
  | rect hr => injection h with h; injection h with h; injection h with h1 h2; subst h2; simp only [shape, hr]
  | ellipse hr => injection h with h; injection h with h; injection h with h1 h2; subst h2; simp only [shape, hr]
  | polygon hq =>
    simp only [begin_] at h
    simp only [pointsOf] at hp
    obtain ⟨vs, h1, h2⟩ := (points_iff hp).mpr hq
    rw [h1] at h
    injection h with h; injection h with h; injection h with h3 h4; subst h4
    simp only [shape, h2]
  | line hq =>
    simp only [begin_] at h
    simp only [pointsOf] at hp
    obtain ⟨vs, h1, h2⟩ := (points_iff hp).mpr hq
    rw [h1] at h
    split at h
    · cases h
    · injection h with h; injection h with h; injection h with h3 h4; subst h4
      simp only [shape, h2]
  | path hq =>
    simp only [begin_] at h
    split at h
    · cases h
    · rename_i vs hvs
      split at h
      · cases h
      · injection h with h; injection h with h; injection h with h3 h4; subst h4
        simp only [shape, (evalPath_of hp hvs).mpr hq]
  | bitmap hr hb =>
    injection h with h; injection h with h; injection h with h1 h2; subst h2
    simp only [shape, hr, imageRect_eq hb]

/-- The item is one of those that can be drawn. -/
theorem depicts_of {env : Env} {p : Nat} {d : Draw} {c : Verif.Slide.Call} {k : Content} {i : Verif.SvgDraw.Item}
    (h : begin_ p d = .ok (some (c, k))) (hp : ∀ a ∈ pointsOf d, PointOk a) (hs : shape env p k = .ok (some i)) : Depicts env p d i := by
  cases d with
  | rect rx ry rot pt =>
    injection h with h; injection h with h; injection h with h1 h2; subst h2
    simp only [shape] at hs
    split at hs
    · cases hs
    · rename_i hr; injection hs with hs; injection hs with hs; subst hs; exact .rect hr
  | ellipse rot pt =>
    injection h with h; injection h with h; injection h with h1 h2; subst h2
    simp only [shape] at hs
    split at hs
    · cases hs
    · rename_i hr; injection hs with hs; injection hs with hs; subst hs; exact .ellipse hr
  | polygon ps rot pt =>
    simp only [begin_] at h
    split at h
    · cases h
    · rename_i vs hvs
      injection h with h; injection h with h; injection h with h1 h2; subst h2
      simp only [shape] at hs
      split at hs
      · cases hs
      · rename_i qs hqs
        injection hs with hs; injection hs with hs; subst hs
        exact .polygon ((points_iff hp).mp ⟨vs, hvs, hqs⟩)
  | line ps color sw dash =>
    simp only [begin_] at h
    split at h
    · cases h
    · split at h
      · cases h
      · rename_i vs hvs
        injection h with h; injection h with h; injection h with h1 h2; subst h2
        simp only [shape] at hs
        split at hs
        · cases hs
        · rename_i qs hqs
          injection hs with hs; injection hs with hs; subst hs
          exact .line ((points_iff hp).mp ⟨vs, hvs, hqs⟩)
  | path cmds pt =>
    simp only [begin_] at h
    split at h
    · cases h
    · rename_i vs hvs
      split at h
      · cases h
      · injection h with h; injection h with h; injection h with h3 h4; subst h4
        simp only [shape] at hs
        split at hs
        · cases hs
        · rename_i qs hqs
          injection hs with hs; injection hs with hs; subst hs
          exact .path ((evalPath_of hp hvs).mp hqs)
  | bitmap b scale rot =>
    injection h with h; injection h with h; injection h with h1 h2; subst h2
    simp only [shape] at hs
    split at hs
    · cases hs
    · rename_i r hr
      have hb : scale = none → b.width ≠ 0 ∧ b.height ≠ 0 := by
        rintro rfl
        by_contra hc
        have : Verif.Layout.scaler r b.width b.height = .error .zeroDivision := by
          unfold Verif.Layout.scaler
          rw [if_pos]
          by_cases h0 : b.width = 0
          · exact .inl h0
          · right; by_contra h1; exact hc ⟨h0, h1⟩
        unfold Verif.Layout.imageRect Verif.Layout.imageScale at hs
        simp only [this] at hs
        cases hs
      rw [imageRect_eq hb] at hs
      injection hs with hs; injection hs with hs; subst hs
      exact .bitmap hr hb
  | svg b scale rot =>
    injection h with h; injection h with h; injection h with h1 h2; subst h2
    cases hs
  | text toks style styles rot fit w =>
    simp only [begin_] at h
    split at h
    · cases h
    · injection h with h; injection h with h; injection h with h1 h2; subst h2
      cases hs

/-! ### runs -/

theorem exec_next {s t : Verif.Slide.State} {c : Verif.Slide.Call} (h : Verif.Slide.exec s c = (t, none)) : t.next = s.next + 1 :=
  (Verif.Slide.exec_layouts h).1

/-- The items that are kept are those of the calls. -/
structure Kept (ts : List Call) (s : State) : Prop where
  next : s.slide.next = ts.length + 1
  small : ∀ x ∈ s.contents, x.1 ≤ ts.length
  item : ∀ i p d, ts[i]? = some (.draw p d) → ∃ c k, begin_ p d = .ok (some (c, k)) ∧ s.contents.lookup (i + 1) = some (p, k)

theorem lookup_append_of_some {α β : Type} [BEq α] {l m : List (α × β)} {a : α} {b : β} (h : l.lookup a = some b) : (l ++ m).lookup a = some b := by
  rw [List.lookup_append, h]
  rfl

theorem lookup_none_of {β : Type} {l : List (Nat × β)} {n : Nat} (h : ∀ x ∈ l, x.1 ≤ n) : l.lookup (n + 1) = none := by
  rw [List.lookup_eq_none_iff]
  intro x hx
  have := h x hx
  simp
  omega

theorem kept_step {ts : List Call} {s s' : State} {c : Call} (hk : Kept ts s) (h : exec s c = (s', none)) :
    (creates c = true ∧ Verif.Slide.exec s.slide (outline c) = (s'.slide, none) ∧ Kept (ts ++ [c]) s') ∨
    (creates c = false ∧ s' = s) := by
  cases c with
  | box p b =>
    left
    simp only [exec] at h
    have h1 : s' = { s with slide := (Verif.Slide.exec s.slide (.box p b)).1 } := (congrArg Prod.fst h).symm
    have h2 : (Verif.Slide.exec s.slide (.box p b)).2 = none := congrArg Prod.snd h
    have h3 : Verif.Slide.exec s.slide (.box p b) = (s'.slide, none) := by rw [h1]; exact Prod.ext rfl h2
    refine ⟨rfl, h3, ?_, ?_, ?_⟩
    · rw [exec_next h3, hk.next]; simp
    · intro x hx
      rw [h1] at hx
      have := hk.small x hx
      simp
      omega
    · intro i q d hi
      have hlt : i < ts.length := by
        by_contra hc
        rw [List.getElem?_append_right (by omega)] at hi
        obtain ⟨h0, h4⟩ := List.getElem?_eq_some_iff.mp hi
        simp at h4
      rw [List.getElem?_append_left hlt] at hi
      rw [h1]
      exact hk.item i q d hi
  | draw p d =>
    simp only [exec] at h
    split at h
    · cases h
    · rename_i hb
      injection h with h _
      exact .inr ⟨begin_none hb, h.symm⟩
    · rename_i c k hb
      split at h
      · cases h
      · rename_i t ht
        injection h with h _
        obtain ⟨h1, rfl⟩ := begin_some hb
        left
        refine ⟨h1, by rw [← h]; exact ht, ?_, ?_, ?_⟩
        · rw [← h]
          show t.next = _
          rw [exec_next ht, hk.next]; simp
        · intro x hx
          rw [← h] at hx
          rcases List.mem_append.mp hx with hx | hx
          · have := hk.small x hx
            simp
            omega
          · rw [List.mem_singleton.mp hx]
            show s.slide.next ≤ _
            rw [hk.next]; simp
        · intro i q e hi
          rw [← h]
          show ∃ c' k', _ ∧ (s.contents ++ [(s.slide.next, p, k)]).lookup (i + 1) = _
          by_cases hlt : i < ts.length
          · rw [List.getElem?_append_left hlt] at hi
            obtain ⟨c', k', h3, h4⟩ := hk.item i q e hi
            exact ⟨c', k', h3, lookup_append_of_some h4⟩
          · rw [List.getElem?_append_right (by omega)] at hi
            obtain ⟨h0, h4⟩ := List.getElem?_eq_some_iff.mp hi
            have hi0 : i = ts.length := by
              simp at h0
              omega
            subst hi0
            simp at h4
            obtain ⟨rfl, rfl⟩ := h4
            refine ⟨_, k, hb, ?_⟩
            rw [List.lookup_append, lookup_none_of hk.small, hk.next]
            simp

theorem kept_run {s s' : State} : ∀ {ts cs : List Call}, Kept ts s → run s cs = .ok s' →
    Verif.Slide.run s.slide ((things cs).map outline) = .ok s'.slide ∧ Kept (ts ++ things cs) s' := by
  intro ts cs
  induction cs generalizing s ts with
  | nil =>
    intro hk h
    injection h with h; subst h
    exact ⟨rfl, by simpa [things] using hk⟩
  | cons c cs ih =>
    intro hk h
    simp only [run] at h
    split at h
    · cases h
    · rename_i t ht
      rcases kept_step hk ht with ⟨h1, h2, h3⟩ | ⟨h1, rfl⟩
      · obtain ⟨h4, h5⟩ := ih h3 h
        have e : things (c :: cs) = c :: things cs := by simp [things, h1]
        rw [e]
        refine ⟨?_, by simpa using h5⟩
        simp only [List.map_cons, Verif.Slide.run, h2]
        exact h4
      · obtain ⟨h4, h5⟩ := ih hk h
        have e : things (c :: cs) = things cs := by simp [things, h1]
        rw [e]
        exact ⟨h4, h5⟩

theorem kept_new (w h : Rat) : Kept [] (newScene w h) := ⟨rfl, by simp [newScene], by simp⟩

end Verif.Scene
