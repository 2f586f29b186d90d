import Verif.Spec.Session
import Verif.Proofs.SlideLayout
import Verif.Proofs.Layout2
import Mathlib.Data.List.Induction

/-! # Lemmas about working on a slide -/

namespace Verif.Session
open Verif.Layout (Env Forest Attrs setKids setRect Ext noEnv)
open Verif.Scene (Content evalPair evalPairs evalPath shape renderPicture renderAll svgPage cairoPage cairoAll cairoItem renderSvg)

/-! ### the layout with its log is the layout -/

theorem logKids_ok (f : Forest) : ∀ (env : Env) (hor : Bool) (rect : Rect) (fu dd : Rat),
    (match logKids env hor rect fu dd f with | (e, _, none) => Except.ok e | (_, _, some e) => .error e) = setKids env hor rect fu dd f := by
  induction f with
  | nil => intro env hor rect fu dd; rfl
  | node u a kids rest ihk ihr =>
    intro env hor rect fu dd
    simp only [logKids, setKids]
    cases hc : Verif.Layout.childRect env hor rect fu dd a (Verif.Layout.sizeRequest a (Verif.Layout.requests kids)) with
    | error e => rfl
    | ok x =>
      obtain ⟨r, dd'⟩ := x
      simp only
      rw [← ihk]
      rcases hl : logKids (env.set u (a.inner r)) a.horizontal (a.inner r) (Verif.Layout.fillUnitAndStart a.horizontal (a.inner r) (Verif.Layout.requests kids)).1
        (Verif.Layout.fillUnitAndStart a.horizontal (a.inner r) (Verif.Layout.requests kids)).2 kids with ⟨e1, log1, o1⟩
      cases o1 with
      | some e => rfl
      | none =>
        simp only
        rw [← ihr]
        rcases logKids e1 hor rect fu dd' rest with ⟨e2, l2, o2⟩
        cases o2 <;> rfl

theorem logRect_ok (env : Env) (u : Nat) (a : Attrs) (kids : Forest) (rect : Rect) :
    (match logRect env u a kids rect with | (e, _, none) => Except.ok e | (_, _, some e) => .error e) = setRect env u a kids rect := by
  unfold logRect setRect
  rw [← logKids_ok]
  simp only
  rcases logKids (env.set u (a.inner rect)) a.horizontal (a.inner rect) (Verif.Layout.fillUnitAndStart a.horizontal (a.inner rect) (Verif.Layout.requests kids)).1
    (Verif.Layout.fillUnitAndStart a.horizontal (a.inner rect) (Verif.Layout.requests kids)).2 kids with ⟨e2, l2, o2⟩
  cases o2 <;> rfl

/-! ### more rectangles do no harm -/

theorem evalPair_mono {e e' : Env} (he : Ext e e') {v : Verif.Layout.Pos × Verif.Layout.Pos} {q} (h : evalPair e v = .ok q) : evalPair e' v = .ok q := by
  unfold evalPair at h ⊢
  split at h
  · cases h
  · rename_i x hx
    rw [Verif.Layout.Pos.compute_mono he hx]
    simp only
    split at h
    · cases h
    · rename_i y hy
      rw [Verif.Layout.Pos.compute_mono he hy]
      exact h

theorem evalPairs_mono {e e' : Env} (he : Ext e e') : ∀ {vs : List (Verif.Layout.Pos × Verif.Layout.Pos)} {qs}, evalPairs e vs = .ok qs → evalPairs e' vs = .ok qs
  | [], _, h => h
  | v :: vs, _, h => by
    unfold evalPairs at h ⊢
    split at h
    · cases h
    · rename_i q hq
      rw [evalPair_mono he hq]
      simp only
      split at h
      · cases h
      · rename_i qs hqs
        rw [evalPairs_mono he hqs]
        exact h

theorem evalPath_mono {e e' : Env} (he : Ext e e') : ∀ {vs : List (Char × List (Verif.Layout.Pos × Verif.Layout.Pos))} {qs}, evalPath e vs = .ok qs → evalPath e' vs = .ok qs
  | [], _, h => h
  | (c, v) :: vs, _, h => by
    unfold evalPath at h ⊢
    split at h
    · cases h
    · rename_i q hq
      rw [evalPairs_mono he hq]
      simp only
      split at h
      · cases h
      · rename_i qs hqs
        rw [evalPath_mono he hqs]
        exact h

theorem shape_mono {e e' : Env} (he : Ext e e') {p : Nat} {k : Content} {i} (h : shape e p k = .ok i) : shape e' p k = .ok i := by
  cases k <;> unfold shape at h ⊢ <;> simp only at h ⊢
  case svg | text => exact h
  case rect | ellipse | bitmap =>
    split at h
    · cases h
    · rename_i r hr
      rw [he _ _ hr]
      exact h
  case polygon | polyline =>
    split at h
    · cases h
    · rename_i r hr
      rw [evalPairs_mono he hr]
      exact h
  case path =>
    split at h
    · cases h
    · rename_i r hr
      rw [evalPath_mono he hr]
      exact h

theorem render_mono {fmt : Rat → Str} {e e' : Env} (he : Ext e e') {n : Int} {x y : Verif.Xml.Xml} {p : Nat} {k : Content}
    (h : Verif.Scene.render fmt e n x p k = .ok y) : Verif.Scene.render fmt e' n x p k = .ok y := by
  cases k <;> unfold Verif.Scene.render at h ⊢ <;> simp only at h ⊢
  case svg =>
    unfold renderPicture at h ⊢
    split at h
    · cases h
    · rename_i r hr
      rw [he _ _ hr]
      exact h
  case text =>
    split at h
    · cases h
    · rename_i r hr
      rw [he _ _ hr]
      exact h
  all_goals
    split at h
    · cases h
    · rename_i hs
      rw [shape_mono he hs]
      exact h
    · rename_i hs
      rw [shape_mono he hs]
      exact h

theorem renderAll_mono {fmt : Rat → Str} {e e' : Env} (he : Ext e e') {n : Int} {cs} : ∀ {ps : List Verif.Slide.Painter} {x y : Verif.Xml.Xml},
    renderAll fmt e n cs x ps = .ok y → renderAll fmt e' n cs x ps = .ok y
  | [], _, _, h => h
  | .item u z :: ps, _, _, h => by
    unfold renderAll at h ⊢
    split at h
    · cases h
    · rename_i hl
      split at h
      · cases h
      · rename_i hr
        rw [render_mono he hr]
        exact renderAll_mono he h
  | .debug _ _ :: _, _, _, h => h

theorem svgPage_mono {fmt : Rat → Str} {e e' : Env} (he : Ext e e') {s : Verif.Scene.State} {w h : Rat} {vb : Option Rect} {n : Int} {str : Str}
    (hp : svgPage fmt s e w h vb n = .ok str) : svgPage fmt s e' w h vb n = .ok str := by
  unfold svgPage at hp ⊢
  split at hp
  · cases hp
  · rename_i hx
    split at hp
    · cases hp
    · rename_i hr
      rw [renderAll_mono he hr]
      exact hp

theorem cairoItem_mono {x : Verif.Scene.Ext} {png : Bool} {ls : Rat} {e e' : Env} (he : Ext e e') {n : Int} {p : Nat} {k : Content} {i}
    (h : cairoItem x png ls e n p k = .ok i) : cairoItem x png ls e' n p k = .ok i := by
  cases k <;> unfold cairoItem at h ⊢ <;> simp only at h ⊢
  case svg =>
    unfold renderSvg at h ⊢
    split at h
    · cases h
    · rename_i r hr
      rw [he _ _ hr]
      exact h
  case text =>
    split at h
    · cases h
    · rename_i r hr
      rw [he _ _ hr]
      exact h
  all_goals
    split at h
    · cases h
    · rename_i hs
      rw [shape_mono he hs]
      exact h
    · rename_i hs
      rw [shape_mono he hs]
      exact h

theorem cairoAll_mono {x : Verif.Scene.Ext} {png : Bool} {ls : Rat} {e e' : Env} (he : Ext e e') {n : Int} {cs} :
    ∀ {ps : List Verif.Slide.Painter} {c d : Verif.CairoDraw.Ctx}, cairoAll x png ls e n cs c ps = .ok d → cairoAll x png ls e' n cs c ps = .ok d
  | [], _, _, h => h
  | .item u z :: ps, _, _, h => by
    unfold cairoAll at h ⊢
    split at h
    · cases h
    · rename_i hl
      split at h
      · cases h
      · rename_i hr
        rw [cairoItem_mono he hr]
        exact cairoAll_mono he h
      · rename_i hr
        rw [cairoItem_mono he hr]
        simp only
        split at h
        · cases h
        · exact cairoAll_mono he h
  | .debug _ _ :: _, _, _, h => h

theorem cairoPage_mono {x : Verif.Scene.Ext} {png : Bool} {e e' : Env} (he : Ext e e') {s : Verif.Scene.State} {w h : Rat} {vb : Option Rect} {n : Int} {ps}
    (hp : cairoPage x png s e w h vb n = .ok ps) : cairoPage x png s e' w h vb n = .ok ps := by
  unfold cairoPage at hp ⊢
  split at hp
  · cases hp
  · rename_i hx
    split at hp
    · cases hp
    · rename_i hr
      rw [cairoAll_mono he hr]
      exact hp

/-- A layout that succeeds on a new slide gives the same rectangles whatever rectangles the boxes had before. -/
theorem prepare_mono {w h : Rat} {s : Verif.Scene.State} {env0 : Env} {t : St} (hp : prepare w h ⟨s, noEnv⟩ = (t, none)) :
    ∃ t', prepare w h ⟨s, env0⟩ = (t', none) ∧ Ext t.env t'.env := by
  unfold prepare at hp ⊢
  cases hl : s.slide.layouts with
  | nil => rw [hl] at hp; cases hp
  | node u a kids rest =>
    rw [hl] at hp
    simp only at hp ⊢
    have h1 := logRect_ok noEnv u a kids ⟨0, 0, w, h⟩
    have h2 := logRect_ok env0 u a kids ⟨0, 0, w, h⟩
    rcases hlog : logRect noEnv u a kids ⟨0, 0, w, h⟩ with ⟨e1, l1, o1⟩
    rw [hlog] at hp h1
    simp only [Prod.mk.injEq] at hp
    obtain ⟨rfl, rfl⟩ := hp
    simp only at h1
    have hext : Ext noEnv env0 := by intro v r hv; cases hv
    unfold setRect at h1
    obtain ⟨e2, h3, he⟩ := Verif.Layout.setKids_mono kids _ _ _ _ _ _ _ (hext.set u (a.inner ⟨0, 0, w, h⟩)) h1.symm
    have h3' : setRect env0 u a kids ⟨0, 0, w, h⟩ = .ok e2 := h3
    rw [h3'] at h2
    rcases hlog2 : logRect env0 u a kids ⟨0, 0, w, h⟩ with ⟨e2', l2, o2⟩
    rw [hlog2] at h2
    cases o2 with
    | some e => cases h2
    | none =>
      injection h2 with h2
      subst h2
      exact ⟨_, rfl, he⟩

/-! ### texts that are not scaled do not change -/

/-- What an item keeps, if it is not a text with `scale_to_fit`. -/
def Plain : Content → Prop
  | .text t => t.state.scaleToFit = false
  | _ => True

theorem called_plain (log : List (Nat × Rect)) (p : Nat) {k : Content} (hk : Plain k) : called log p k = k := by
  cases k with
  | text t =>
    have h : t.state.scaleToFit = false := hk
    have key : ∀ l : List (Nat × Rect), l.foldl (fun st x => st.onRect x.2) t.state = t.state := by
      intro l
      induction l with
      | nil => rfl
      | cons x l ih =>
        rw [List.foldl_cons]
        have : t.state.onRect x.2 = t.state := by simp [Verif.Layout.TextState.onRect, h]
        rw [this, ih]
    simp only [called]
    rw [key]
  | _ => rfl

theorem begin_plain {p : Nat} {d : Verif.Scene.Draw} {c k} (h : Verif.Scene.begin_ p d = .ok (some (c, k))) (hf : ¬ Spec.Fits (.call (.draw p d))) : Plain k := by
  cases d with
  | text toks style styles rot fit w =>
    unfold Verif.Scene.begin_ at h
    simp only at h
    split at h
    · cases h
    · rename_i t ht
      injection h with h; injection h with h; injection h with h1 h2
      subst h2
      unfold Verif.TextItem.makeState at ht
      split at ht
      · injection ht with ht; subst ht
        simp only [Plain]
        cases fit with
        | false => rfl
        | true => exact absurd rfl hf
      · cases ht
  | rect | ellipse | bitmap | svg =>
    unfold Verif.Scene.begin_ at h
    injection h with h; injection h with h; injection h with h1 h2; subst h2; trivial
  | polygon =>
    unfold Verif.Scene.begin_ at h
    simp only at h
    split at h
    · cases h
    · injection h with h; injection h with h; injection h with h1 h2; subst h2; trivial
  | line =>
    unfold Verif.Scene.begin_ at h
    simp only at h
    split at h
    · cases h
    · split at h
      · cases h
      · injection h with h; injection h with h; injection h with h1 h2; subst h2; trivial
  | path =>
    unfold Verif.Scene.begin_ at h
    simp only at h
    split at h
    · cases h
    · split at h
      · cases h
      · injection h with h; injection h with h; injection h with h1 h2; subst h2; trivial

theorem exec_plain {s : Verif.Scene.State} {c : Verif.Scene.Call} (hf : ¬ Spec.Fits (.call c)) (hs : ∀ x ∈ s.contents, Plain x.2.2) :
    ∀ x ∈ (Verif.Scene.exec s c).1.contents, Plain x.2.2 := by
  cases c with
  | box p b => exact hs
  | draw p d =>
    unfold Verif.Scene.exec
    simp only
    split
    · exact hs
    · exact hs
    · rename_i c k hb
      split
      · exact hs
      · intro x hx
        simp only [List.mem_append, List.mem_singleton] at hx
        rcases hx with hx | rfl
        · exact hs x hx
        · exact begin_plain hb hf

theorem prepare_plain {w h : Rat} {s : St} (hs : ∀ x ∈ s.scene.contents, Plain x.2.2) : (prepare w h s).1.scene = s.scene := by
  unfold prepare
  cases s.scene.slide.layouts with
  | nil => rfl
  | node u a kids rest =>
    simp only
    rcases logRect s.env u a kids ⟨0, 0, w, h⟩ with ⟨env, log, e⟩
    simp only
    have : s.scene.contents.map (fun x => (x.1, x.2.1, called log x.2.1 x.2.2)) = s.scene.contents := by
      conv_rhs => rw [← List.map_id s.scene.contents]
      apply List.map_congr_left
      intro x hx
      rw [called_plain log x.2.1 (hs x hx)]
      rfl
    rw [this]

theorem work_append (w h : Rat) (ops : List Op) (o : Op) : work w h (ops ++ [o]) = step w h (work w h ops) o := by
  simp [work, List.foldl_append]

theorem work_plain (w h : Rat) (ops : List Op) (hf : ∀ o ∈ ops, ¬ Spec.Fits o) : ∀ x ∈ (work w h ops).scene.contents, Plain x.2.2 := by
  induction ops using List.reverseRecOn with
  | nil => intro x hx; simp [work, new, Verif.Scene.newScene] at hx
  | append_singleton ops o ih =>
    have ih := ih (fun o' ho' => hf o' (by simp [ho']))
    rw [work_append]
    cases o with
    | call c => exact exec_plain (hf _ (by simp)) ih
    | prepare => simp only [step]; rw [prepare_plain ih]; exact ih

/-- What is on the slide does not depend on the times when it was shown. -/
theorem work_scene (w h : Rat) (ops : List Op) (hf : Spec.LateFits ops) : (work w h ops).scene = (work w h (Spec.callsOf ops)).scene := by
  induction ops using List.reverseRecOn with
  | nil => rfl
  | append_singleton ops o ih =>
    have ih := ih (fun before after he o' ho' => hf before (after ++ [o]) (by rw [he]; simp) o' ho')
    rw [work_append]
    cases o with
    | call c =>
      have : Spec.callsOf (ops ++ [.call c]) = Spec.callsOf ops ++ [.call c] := by simp [Spec.callsOf, List.filter_append]
      rw [this, work_append]
      simp only [step]
      rw [ih]
    | prepare =>
      have : Spec.callsOf (ops ++ [.prepare]) = Spec.callsOf ops := by simp [Spec.callsOf, List.filter_append]
      rw [this]
      simp only [step]
      rw [prepare_plain (work_plain w h ops (hf ops [] rfl)), ih]

theorem calls_env (w h : Rat) (ops : List Op) : (work w h (Spec.callsOf ops)).env = noEnv := by
  induction ops using List.reverseRecOn with
  | nil => rfl
  | append_singleton ops o ih =>
    cases o with
    | call c =>
      have : Spec.callsOf (ops ++ [.call c]) = Spec.callsOf ops ++ [.call c] := by simp [Spec.callsOf, List.filter_append]
      rw [this, work_append]
      exact ih
    | prepare =>
      have : Spec.callsOf (ops ++ [.prepare]) = Spec.callsOf ops := by simp [Spec.callsOf, List.filter_append]
      rw [this]; exact ih

end Verif.Session
