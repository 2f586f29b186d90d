import Verif.Spec.LineBox
import Verif.Props.WholeSlide
import Verif.Proofs.ScenePage
import Verif.Proofs.Independent
import Verif.Props.TextLines

/-! # Where a box is that was created by a call, and the boxes of a text -/

namespace Verif.Layout
open Verif.Layout.Spec

/-- A box gets its rectangle before the boxes in it. -/
theorem parent_before {f : Forest} {b c : Nat × Attrs × Forest} (hb : b ∈ boxes f) (hc : c ∈ tops b.2.2) : List.Sublist [b.1, c.1] (uids f) := by
  have top : ∀ {g : Forest} {c : Nat × Attrs × Forest}, c ∈ tops g → c.1 ∈ uids g := fun h => boxes_uids (tops_boxes h)
  induction f with
  | nil => cases hb
  | node u a kids rest ihk ihr =>
    simp only [boxes, List.mem_cons, List.mem_append] at hb
    simp only [uids]
    rcases hb with rfl | hb | hb
    · refine List.Sublist.cons_cons _ ?_
      rw [List.singleton_sublist]
      exact List.mem_append_left _ (top hc)
    · exact ((ihk hb).trans (List.sublist_append_left _ _)).cons _
    · exact ((ihr hb).trans (List.sublist_append_right _ _)).cons _

theorem mem_pre {l pre post : List Nat} {b c : Nat} (hn : l.Nodup) (hs : List.Sublist [b, c] l) (he : l = pre ++ c :: post) : b ∈ pre := by
  subst he
  have hc : c ∉ pre := fun h => (List.nodup_append.mp hn).2.2 _ h _ List.mem_cons_self rfl
  induction pre with
  | nil =>
    rw [List.nil_append] at hs hn
    cases hs with
    | cons _ h => exact absurd (h.subset (by simp)) (List.nodup_cons.mp hn).1
    | cons_cons _ h => exact absurd (h.subset (by simp)) (List.nodup_cons.mp hn).1
  | cons x xs ih =>
    rw [List.cons_append] at hs hn
    cases hs with
    | cons _ h => exact List.mem_cons_of_mem _ (ih (List.nodup_cons.mp hn).2 h (fun h => hc (List.mem_cons_of_mem _ h)))
    | cons_cons _ h => exact List.mem_cons_self

/-- The rectangle of a layout that is placed by functions of the rectangle of its parent. -/
theorem setRect_fn {env env' : Env} {u : Nat} {a : Attrs} {kids : Forest} {rect : Rect}
    (hn : (uids (.node u a kids .nil)).Nodup) (h : setRect env u a kids rect = .ok env')
    {b c : Nat × Attrs × Forest} (hb : b ∈ boxes (.node u a kids .nil)) (hc : c ∈ tops b.2.2) :
    ∃ P r, env' b.1 = some P ∧ env' c.1 = some r ∧
      ∀ axis, (∀ f, posOn axis c.2.1 = some (.fn b.1 f) → start axis (grow c.2.1 r) = f P) ∧
        (∀ f, (sizeOn axis c.2.1).lazy = some (.fn b.1 f) → extent axis (grow c.2.1 r) = f P) := by
  obtain ⟨e, P, r, fu, dd0, dd1, pre, post, he, hp, hr, hcr, hfr⟩ := setRect_child hn h b hb c hc
  refine ⟨P, _, hp, hr, ?_⟩
  rw [grow_inner]
  have hmem := mem_pre hn (parent_before hb hc) he
  rw [he] at hn
  have hP : e b.1 = some P := by
    rw [← hfr b.1 (fun hm => (List.nodup_append.mp hn).2.2 _ hmem _ hm rfl)]
    exact hp
  obtain ⟨-, -, hx, hy, -, -, -⟩ := childRect_ok hcr
  intro axis
  constructor
  · intro f hf
    cases axis with
    | true =>
      have := hx _ hf
      simp only [Pos.compute, hP] at this
      injection this with this
      exact this.symm
    | false =>
      have := hy _ hf
      simp only [Pos.compute, hP] at this
      injection this with this
      exact this.symm
  · intro f hf
    have hsz := childRect_extent hcr axis
    have hl := (request_fields axis c.2.1 (requests c.2.2)).2.2.trans hf
    unfold Size.compute at hsz
    rw [hl] at hsz
    simp only [Pos.compute, hP] at hsz
    injection hsz with hsz
    exact hsz.symm

theorem boxes_unique {f : Forest} (hn : (uids f).Nodup) {b c : Nat × Attrs × Forest} (hb : b ∈ boxes f) (hc : c ∈ boxes f) (h : b.1 = c.1) : b = c := by
  induction f with
  | nil => cases hb
  | node u a kids rest ihk ihr =>
    simp only [uids, List.nodup_cons, List.nodup_append, List.mem_append, not_or] at hn
    obtain ⟨⟨h1, h2⟩, h3, h4, h5⟩ := hn
    simp only [boxes, List.mem_cons, List.mem_append] at hb hc
    rcases hb with rfl | hb | hb <;> rcases hc with rfl | hc | hc
    · rfl
    · replace h : u = c.1 := h; exact absurd (by rw [h]; exact boxes_uids hc) h1
    · replace h : u = c.1 := h; exact absurd (by rw [h]; exact boxes_uids hc) h2
    · replace h : u = b.1 := h.symm; exact absurd (by rw [h]; exact boxes_uids hb) h1
    · exact ihk h3 hb hc
    · exact absurd h (h5 _ (boxes_uids hb) _ (boxes_uids hc))
    · replace h : u = b.1 := h.symm; exact absurd (by rw [h]; exact boxes_uids hb) h2
    · exact absurd h.symm (h5 _ (boxes_uids hc) _ (boxes_uids hb))
    · exact ihr h4 hb hc

end Verif.Layout

namespace Verif.Slide
open Verif.Layout (Attrs Forest Env newAttrs)
open Verif.Layout.Spec Verif.Slide.Spec

theorem createdIn_mem {cs : List Call} {k p : Nat} {c : BoxCall} (h : cs[k]? = some (.box p c)) : ∀ n, n + k ∈ createdIn p c.layout.prepend n cs := by
  induction cs generalizing k with
  | nil => cases h
  | cons d cs ih =>
    intro n
    cases k with
    | zero =>
      injection h with h; subst h
      simp [createdIn]
    | succ k =>
      have := ih (k := k) h (n + 1)
      have e : n + (k + 1) = n + 1 + k := by omega
      rw [e]
      cases d with
      | box q d =>
        simp only [createdIn]
        split
        · exact List.mem_cons_of_mem _ this
        · exact this
      | _ => exact this

/-- The layout of a box created by a call is a child of the layout of the box on which it was called. -/
theorem box_child {w h : Rat} {cs : List Call} {s : State} (hr : run (newSlide w h) cs = .ok s) {k p : Nat} {c : BoxCall}
    (hk : cs[k]? = some (.box p c)) :
    ∃ a b bk bp kids, newAttrs c.layout = .ok a ∧ Raised a b ∧ (p, bp, kids) ∈ boxes s.layouts ∧ (k + 1, b, bk) ∈ tops kids := by
  have hl := run_laid hr (newSlide_laid w h)
  obtain ⟨pre, post, rfl, hlen⟩ : ∃ pre post, cs = pre ++ .box p c :: post ∧ pre.length = k := by
    obtain ⟨hlt, he⟩ := List.getElem?_eq_some_iff.mp hk
    refine ⟨cs.take k, cs.drop (k + 1), ?_, by simp; omega⟩
    rw [← he]
    simp
  obtain ⟨a, b, l, ha, hb, hab⟩ := box_attrs hr
  rw [hlen, layoutOf_look] at hb
  obtain ⟨⟨b', bk⟩, hx, hb⟩ := Option.map_eq_some_iff.mp hb
  injection hb with hb _
  dsimp only at hb
  subst hb
  have hbm := look_boxes hx
  have hp : p ∈ uids s.layouts := by
    by_contra hp
    have := (order_aux w h _ s hr p).2 hp c.layout.prepend
    have hm := createdIn_mem hk 1
    rw [this] at hm
    cases hm
  obtain ⟨bp, hbp⟩ := (order_aux w h _ s hr p).1 hp
  rw [layoutOf_look] at hbp
  obtain ⟨⟨bp', kids⟩, hy, hbp⟩ := Option.map_eq_some_iff.mp hbp
  injection hbp with _ hkids
  dsimp only at hkids
  have hmem : k + 1 ∈ (tops kids).map (·.1) := by
    rw [hkids, Nat.add_comm]
    have := createdIn_mem hk 1
    cases hpre : c.layout.prepend with
    | true => rw [hpre] at this; exact List.mem_append_left _ (List.mem_reverse.mpr this)
    | false => rw [hpre] at this; exact List.mem_append_right _ this
  obtain ⟨⟨u, b2, bk2⟩, hm, rfl⟩ := List.mem_map.mp hmem
  have hpm := look_boxes hy
  have := Verif.Layout.boxes_unique hl.nodup (Verif.Layout.boxes_sub hpm (Verif.Layout.tops_boxes hm)) hbm rfl
  injection this with _ this
  injection this with h1 h2
  subst h1; subst h2
  exact ⟨a, _, _, bp', kids, ha, hab, hpm, hm⟩

theorem newAttrs_rest {b : Verif.Layout.BoxArgs} {a : Attrs} (h : newAttrs b = .ok a) :
    a.horizontal = b.horizontal ∧ a.pLeft = mostSpecific [b.pLeft, b.pX, b.padding] ∧ a.pRight = mostSpecific [b.pRight, b.pX, b.padding] ∧
    a.pTop = mostSpecific [b.pTop, b.pY, b.padding] ∧ a.pBottom = mostSpecific [b.pBottom, b.pY, b.padding] := by
  have key : ∀ x y z : Option Rat, Verif.Layout.setPadding x y z = mostSpecific [x, y, z] := by
    intro x y z
    cases x <;> cases y <;> cases z <;> rfl
  unfold newAttrs at h
  split at h
  · cases h
  · split at h
    · cases h
    · split at h
      · cases h
      · split at h
        · cases h
        · injection h with h
          subst h
          exact ⟨rfl, key _ _ _, key _ _ _, key _ _ _, key _ _ _⟩

/-- The direction of a box. -/
theorem box_horizontal {w h : Rat} {cs : List Call} {s : State} (hr : run (newSlide w h) cs = .ok s) {p : Nat} {bp : Attrs} {kids : Forest}
    (hb : (p, bp, kids) ∈ boxes s.layouts) :
    (p = 0 → bp.horizontal = false) ∧ ∀ k q c, p = k + 1 → cs[k]? = some (.box q c) → bp.horizontal = c.layout.horizontal := by
  have hl := run_laid hr (newSlide_laid w h)
  constructor
  · rintro rfl
    obtain ⟨a, rk, hlay, -, -, -, -, hor⟩ := run_bare hr ⟨_, _, rfl, rfl, rfl, rfl, rfl, rfl⟩
    have := Verif.Layout.boxes_unique hl.nodup hb (c := (0, a, rk)) (by rw [hlay]; simp [boxes]) rfl
    injection this with _ this
    injection this with this _
    subst this
    exact hor
  · rintro k q c rfl hk
    obtain ⟨a, b, bk, bq, qk, ha, hab, h1, h2⟩ := box_child hr hk
    have := Verif.Layout.boxes_unique hl.nodup hb (Verif.Layout.boxes_sub h1 (Verif.Layout.tops_boxes h2)) rfl
    injection this with _ this
    injection this with this _
    subst this
    rw [hab.2.2]
    exact (newAttrs_rest ha).1

end Verif.Slide

namespace Verif.Scene
open Verif.Layout (BoxArgs Env newAttrs setDefault isNoneArg)
open Verif.Layout.Spec (start extent posOn sizeOn grow fillOf Static boxes tops)
open Verif.Slide (BoxCall)
open Verif.Scene.Spec

/-- Every item that is kept was created by a call. -/
def Back (ts : List Call) (s : State) : Prop :=
  ∀ x ∈ s.contents, ∃ (i : Nat) (d : Draw) (c : Verif.Slide.Call), x.1 = i + 1 ∧ ts[i]? = some (.draw x.2.1 d) ∧ begin_ x.2.1 d = .ok (some (c, x.2.2))

theorem back_snoc {ts : List Call} {s : State} (hb : Back ts s) (c : Call) : Back (ts ++ [c]) s := by
  intro x hx
  obtain ⟨i, d, c', h1, h2, h3⟩ := hb x hx
  exact ⟨i, d, c', h1, by rw [List.getElem?_append_left (List.getElem?_eq_some_iff.mp h2).1]; exact h2, h3⟩

theorem back_step {ts : List Call} {s s' : State} {c : Call} (hk : Kept ts s) (hb : Back ts s) (h : exec s c = (s', none)) (hc : creates c = true) :
    Back (ts ++ [c]) s' := by
  cases c with
  | box p b =>
    have h1 : s' = { s with slide := (Verif.Slide.exec s.slide (.box p b)).1 } := (congrArg Prod.fst h).symm
    rw [h1]
    exact back_snoc hb _
  | draw p d =>
    simp only [exec] at h
    split at h
    · cases h
    · rename_i hn
      rw [begin_none hn] at hc; cases hc
    · rename_i c k hbe
      split at h
      · cases h
      · rename_i t ht
        injection h with h _
        rw [← h]
        intro x hx
        rcases List.mem_append.mp hx with hx | hx
        · exact back_snoc hb _ x hx
        · rw [List.mem_singleton.mp hx]
          refine ⟨ts.length, d, c, hk.next, ?_, hbe⟩
          simp

/-- What a call on a text becomes. -/
inductive Becomes (T : List TextCall) : TextCall → Call → Prop
  | plain {c : Call} : Becomes T (.plain c) c
  | line {k p : Nat} {d : Draw} {c' : Verif.Slide.Call} {t : Verif.TextItem.Item} {i n : Int} {c : BoxCall} : T[k]? = some (.plain (.draw p d)) →
      begin_ p d = .ok (some (c', .text t)) → Becomes T (.lineBox (k + 1) i n c) (lineBoxCall p t i n c)
  | inline {k p : Nat} {d : Draw} {c' : Verif.Slide.Call} {t : Verif.TextItem.Item} {nm : Str} {nth : Nat} {qx qw : Rat} {c : BoxCall} {x : Call} :
      T[k]? = some (.plain (.draw p d)) → begin_ p d = .ok (some (c', .text t)) → inlineBoxCall p t nm nth qx qw c = .ok x →
      Becomes T (.inlineBox (k + 1) nm nth qx qw c) x

theorem Becomes.snoc {T : List TextCall} {t : TextCall} {c : Call} (h : Becomes T t c) (x : TextCall) : Becomes (T ++ [x]) t c := by
  have key : ∀ {k : Nat} {y : TextCall}, T[k]? = some y → (T ++ [x])[k]? = some y := by
    intro k y hy
    rw [List.getElem?_append_left (List.getElem?_eq_some_iff.mp hy).1]; exact hy
  cases h with
  | plain => exact .plain
  | line h1 h2 => exact .line (key h1) h2
  | inline h1 h2 h3 => exact .inline (key h1) h2 h3

theorem inline_is_box {p : Nat} {t : Verif.TextItem.Item} {nm : Str} {nth : Nat} {qx qw : Rat} {c : BoxCall} {x : Call}
    (h : inlineBoxCall p t nm nth qx qw c = .ok x) : ∃ index ax, Verif.Text.inlineBoxIndex t.toks nm nth = .ok index ∧
      Verif.TextItem.textX ⟨0, 0, 0, 0⟩ t.style.align = .ok ax ∧ x = .box p { c with layout := inlineArgs p t index qx qw c.layout } := by
  unfold inlineBoxCall at h
  split at h
  · cases h
  · rename_i index hi
    split at h
    · cases h
    · split at h
      · cases h
      · rename_i ax hax
        injection h with h
        exact ⟨index, ax, hi, hax, h.symm⟩

theorem forall₂_getElem {α β : Type} {R : α → β → Prop} {l : List α} {m : List β} (h : List.Forall₂ R l m) {k : Nat} {a : α} (ha : l[k]? = some a) :
    ∃ b, m[k]? = some b ∧ R a b := by
  induction h generalizing k with
  | nil => cases ha
  | cons hr _ ih =>
    cases k with
    | zero => injection ha with ha; subst ha; exact ⟨_, rfl, hr⟩
    | succ k => exact ih ha

theorem becomes_draw {T : List TextCall} {t : TextCall} {p : Nat} {d : Draw} (h : Becomes T t (.draw p d)) : t = .plain (.draw p d) := by
  generalize hx : Call.draw p d = x at h
  cases h with
  | plain => rfl
  | line _ _ => cases hx
  | inline _ _ h3 =>
    obtain ⟨_, _, _, _, e⟩ := inline_is_box h3
    rw [← hx] at e
    cases e

theorem runText_snoc {s s' : State} {ts : List TextCall} {t : TextCall} (h : runText s (ts ++ [t]) = .ok s') :
    ∃ s1, runText s ts = .ok s1 ∧ execText s1 t = (s', none) := by
  induction ts generalizing s with
  | nil =>
    simp only [List.nil_append, runText] at h
    split at h
    · cases h
    · rename_i s2 he
      injection h with h; subst h
      exact ⟨s, rfl, he⟩
  | cons a ts ih =>
    simp only [List.cons_append, runText] at h ⊢
    split at h
    · cases h
    · rename_i s2 he
      obtain ⟨s1, h1, h2⟩ := ih h
      exact ⟨s1, h1, h2⟩

theorem run_snoc {s s1 s' : State} {cs : List Call} {c : Call} (h1 : run s cs = .ok s1) (h2 : exec s1 c = (s', none)) : run s (cs ++ [c]) = .ok s' := by
  induction cs generalizing s with
  | nil =>
    injection h1 with h1; subst h1
    simp [run, h2]
  | cons a cs ih =>
    simp only [List.cons_append, run] at h1 ⊢
    split at h1
    · cases h1
    · exact ih h1

/-- A run with calls on texts is a run of calls on boxes. -/
theorem runText_run (w h : Rat) (ts : List TextCall) : ∀ {s : State}, runText (newScene w h) ts = .ok s → ∃ cs, run (newScene w h) cs = .ok s ∧
    Kept (things cs) s ∧ Back (things cs) s ∧ List.Forall₂ (Becomes (thingsText ts)) (thingsText ts) (things cs) := by
  induction ts using List.reverseRecOn with
  | nil =>
    intro s hs
    injection hs with hs; subst hs
    exact ⟨[], rfl, kept_new w h, by simp [Back, newScene], .nil⟩
  | append_singleton ts t ih =>
    intro s hs
    obtain ⟨s1, h1, h2⟩ := runText_snoc hs
    obtain ⟨cs, hcs, hk, hb, hf⟩ := ih h1
    unfold execText at h2
    split at h2
    · cases h2
    · rename_i c hc
      have hcr : createsText t = creates c ∧ Becomes (thingsText ts) t c := by
        have back : ∀ {u p : Nat} {k : Content}, s1.contents.lookup u = some (p, k) →
            ∃ i d c', u = i + 1 ∧ (thingsText ts)[i]? = some (.plain (.draw p d)) ∧ begin_ p d = .ok (some (c', k)) := by
          intro u p k hl
          obtain ⟨i, d, c', e1, e2, e3⟩ := hb (u, p, k) (List.lookup_eq_some_iff.mp hl |>.elim fun l h => by
            obtain ⟨l2, e, -⟩ := h
            rw [e]; simp)
          obtain ⟨y, hy, hyr⟩ := forall₂_getElem hf.flip e2
          exact ⟨i, d, c', e1, by rw [hy, becomes_draw hyr], e3⟩
        cases t with
        | plain c0 =>
          injection hc with hc; subst hc
          exact ⟨rfl, .plain⟩
        | lineBox u i n b =>
          simp only [resolve] at hc
          split at hc
          · rename_i p t hl
            injection hc with hc; subst hc
            obtain ⟨k, d, c', rfl, e2, e3⟩ := back hl
            exact ⟨rfl, .line e2 e3⟩
          · cases hc
        | inlineBox u nm nth qx qw b =>
          simp only [resolve] at hc
          split at hc
          · rename_i p t hl
            obtain ⟨k, d, c', rfl, e2, e3⟩ := back hl
            obtain ⟨_, _, _, _, e⟩ := inline_is_box hc
            exact ⟨by rw [e]; rfl, .inline e2 e3 hc⟩
          · cases hc
      refine ⟨cs ++ [c], run_snoc hcs h2, ?_⟩
      have eT : thingsText (ts ++ [t]) = thingsText ts ++ if createsText t then [t] else [] := by
        unfold thingsText; rw [List.filter_append]; simp [List.filter]; split <;> simp_all
      have eC : things (cs ++ [c]) = things cs ++ if creates c then [c] else [] := by
        unfold things; rw [List.filter_append]; simp [List.filter]; split <;> simp_all
      rw [eT, eC, hcr.1]
      rcases kept_step hk h2 with ⟨e1, -, e3⟩ | ⟨e1, rfl⟩
      · rw [e1, if_pos rfl, if_pos rfl]
        refine ⟨e3, back_step hk hb h2 e1, ?_⟩
        refine List.rel_append ?_ (.cons (hcr.2.snoc _) .nil)
        exact hf.imp (fun _ _ h => h.snoc _)
      · rw [e1]
        simpa using ⟨hk, hb, hf⟩

end Verif.Scene
