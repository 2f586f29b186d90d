import Verif.Proofs.LineBox
import Verif.Spec.Calls
import Verif.Props.LayoutStrings

/-! # Lemmas about the places of boxes in terms of the calls -/

namespace Verif.Layout
open Spec

/-- Once a layout has its rectangle, it keeps it. -/
theorem setKids_persist {f : Forest} {env env' : Env} {hor : Bool} {rect : Rect} {fu dd : Rat} (h : setKids env hor rect fu dd f = .ok env')
    (he : ∀ v ∈ uids f, env v = none) {v : Nat} {x : Rect} (hv : env v = some x) : env' v = some x := by
  rw [setKids_frame _ _ _ _ _ _ _ h v (fun hm => by rw [he v hm] at hv; cases hv)]
  exact hv

theorem setKids_step {env env1 : Env} {u : Nat} {a : Attrs} {kids rest : Forest} {r : Rect}
    (hn : (uids (.node u a kids rest)).Nodup) (he : ∀ v ∈ uids (.node u a kids rest), env v = none)
    (h1 : setRect env u a kids r = .ok env1) :
    (∀ v ∈ uids kids, (env.set u (a.inner r)) v = none) ∧ (∀ v ∈ uids rest, env1 v = none) := by
  simp only [uids, List.nodup_cons, List.mem_append, not_or, List.nodup_append] at hn
  constructor
  · intro v hv
    have : v ≠ u := by rintro rfl; exact hn.1.1 hv
    simp only [Env.set, this, if_false]
    exact he v (by simp [uids, hv])
  · intro v hv
    rw [setRect_frame h1 v (by
      simp only [List.mem_cons, not_or]
      exact ⟨by rintro rfl; exact hn.1.2 hv, fun hm => hn.2.2.2 v hm v hv rfl⟩)]
    exact he v (by simp [uids, hv])

theorem setKids_top_kept (f : Forest) : ∀ (env env' : Env) (hor : Bool) (rect : Rect) (fu dd : Rat),
    (uids f).Nodup → (∀ v ∈ uids f, env v = none) → setKids env hor rect fu dd f = .ok env' → ∀ c ∈ tops f,
    ∃ e r dd0 dd1, childRect e hor rect fu dd0 c.2.1 (sizeRequest c.2.1 (requests c.2.2)) = .ok (r, dd1) ∧
      env' c.1 = some (c.2.1.inner r) ∧ ∀ v x, e v = some x → env' v = some x := by
  induction f with
  | nil => intro env env' hor rect fu dd _ _ _ c hc; cases hc
  | node u a kids rest ihk ihr =>
    intro env env' hor rect fu dd hn he h c hc
    obtain ⟨r, dd', env1, hcr, h1, h2, hu, hk, nk, nr, nu⟩ := setKids_cons hn h
    simp only [tops, List.mem_cons] at hc
    rcases hc with rfl | hc
    · exact ⟨env, r, dd, dd', hcr, hu, fun v x hv => setKids_persist h he hv⟩
    · exact ihr _ _ _ _ _ _ nr (setKids_step hn he h1).2 h2 c hc

/-- Any direct child of any layout of a forest that gets its rectangles. -/
theorem setKids_child_kept (f : Forest) : ∀ (env env' : Env) (hor : Bool) (rect : Rect) (fu dd : Rat),
    (uids f).Nodup → (∀ v ∈ uids f, env v = none) → setKids env hor rect fu dd f = .ok env' → ∀ b ∈ boxes f, ∀ c ∈ tops b.2.2,
    ∃ e p r fu dd0 dd1, childRect e b.2.1.horizontal p fu dd0 c.2.1 (sizeRequest c.2.1 (requests c.2.2)) = .ok (r, dd1) ∧
      env' b.1 = some p ∧ env' c.1 = some (c.2.1.inner r) ∧ ∀ v x, e v = some x → env' v = some x := by
  induction f with
  | nil => intro env env' hor rect fu dd _ _ _ c hc; cases hc
  | node u a kids rest ihk ihr =>
    intro env env' hor rect fu dd hn he h b hb c hc
    obtain ⟨r, dd', env1, hcr, h1, h2, hu, hk, nk, nr, nu⟩ := setKids_cons hn h
    obtain ⟨e1, e2⟩ := setKids_step hn he h1
    have h1' := h1
    unfold setRect at h1'
    have keep : ∀ v x, env1 v = some x → env' v = some x := fun v x hv => setKids_persist h2 e2 hv
    simp only [boxes, List.mem_cons, List.mem_append] at hb
    rcases hb with rfl | hb | hb
    · obtain ⟨e, r', dd0, dd1, k1, k2, k3⟩ := setKids_top_kept kids _ _ _ _ _ _ nk e1 h1' c hc
      exact ⟨e, _, r', _, dd0, dd1, k1, hu, keep _ _ k2, fun v x hv => keep _ _ (k3 v x hv)⟩
    · obtain ⟨e, p, r', fu', dd0, dd1, k1, k2, k3, k4⟩ := ihk _ _ _ _ _ _ nk e1 h1' b hb c hc
      exact ⟨e, p, r', fu', dd0, dd1, k1, keep _ _ k2, keep _ _ k3, fun v x hv => keep _ _ (k4 v x hv)⟩
    · exact ihr _ _ _ _ _ _ nr e2 h2 b hb c hc

theorem setRect_child_kept {env env' : Env} {u : Nat} {a : Attrs} {kids : Forest} {rect : Rect}
    (hn : (uids (.node u a kids .nil)).Nodup) (he : ∀ v ∈ uids (.node u a kids .nil), env v = none) (h : setRect env u a kids rect = .ok env')
    {b c : Nat × Attrs × Forest} (hb : b ∈ boxes (.node u a kids .nil)) (hc : c ∈ tops b.2.2) :
    ∃ e p r fu dd0 dd1, childRect e b.2.1.horizontal p fu dd0 c.2.1 (sizeRequest c.2.1 (requests c.2.2)) = .ok (r, dd1) ∧
      env' b.1 = some p ∧ env' c.1 = some (c.2.1.inner r) ∧ ∀ v x, e v = some x → env' v = some x := by
  have h' := h
  unfold setRect at h'
  simp only [uids, List.append_nil, List.nodup_cons] at hn
  have e1 : ∀ v ∈ uids kids, (env.set u (a.inner rect)) v = none := by
    intro v hv
    have : v ≠ u := by rintro rfl; exact hn.1 hv
    simp only [Env.set, this, if_false]
    exact he v (by simp [uids, hv])
  simp only [boxes, List.append_nil, List.mem_cons] at hb
  rcases hb with rfl | hb
  · obtain ⟨e, r', dd0, dd1, k1, k2, k3⟩ := setKids_top_kept kids _ _ _ _ _ _ hn.2 e1 h' c hc
    exact ⟨e, _, r', _, dd0, dd1, k1, setRect_self h hn.1, k2, k3⟩
  · exact setKids_child_kept kids _ _ _ _ _ _ hn.2 e1 h' b hb c hc

theorem denotes_mono {e e' : Env} {p : Pos} {o full self v : Rat} (h : Denotes e p o full self v) (he : ∀ v x, e v = some x → e' v = some x) :
    Denotes e' p o full self v := by
  induction h with
  | fix => exact .fix
  | ratio => exact .ratio
  | align => exact .align
  | ref h hv ih => exact .ref (he _ _ h) ih
  | map hv ih => exact .map ih
  | fn h => exact .fn (he _ _ h)

end Verif.Layout

namespace Verif.Slide
open Verif.Layout (Attrs Forest Env newAttrs Arg Pos Size BoxArgs)
open Verif.Layout.Spec Verif.Slide.Spec
open Verif.Scene.Spec (padded)

/-- What the arguments say is what the layout has. -/
theorem pos_says {a : Arg} {p : Option Pos} {v : Pos} (h : PosSays a v) (hp : Verif.Layout.parseOptPos a = .ok p) : p = some v := by
  cases h with
  | number => injection hp with hp; exact hp.symm
  | text ht =>
    have e := Verif.Layout.C39_position_strings_accepted _ _ ht
    simp only [Verif.Layout.parseOptPos, e] at hp
    injection hp with hp; exact hp.symm
  | dynamic _ => injection hp with hp; exact hp.symm

theorem size_says {a : Arg} {s v : Size} (h : SizeSays a v) (hp : Verif.Layout.parseSize (Verif.Layout.orZero a) = .ok s) : s = v := by
  cases h with
  | nothing => injection hp with hp; exact hp.symm
  | number => injection hp with hp; exact hp.symm
  | text ht =>
    have e := Verif.Layout.C38_size_strings_accepted _ _ ht
    rename_i t
    cases t with
    | nil =>
      have e0 : Verif.Layout.parseSize (.str []) = .error (.user "Invalid format of size string") := rfl
      rw [e0] at e; cases e
    | cons c t =>
      have hp : Verif.Layout.parseSize (.str (c :: t)) = .ok s := hp
      rw [e] at hp
      injection hp with hp; exact hp.symm
  | dynamic => injection hp with hp; exact hp.symm

theorem unplaced_iff {a : Arg} {p : Option Pos} (hp : Verif.Layout.parseOptPos a = .ok p) : p = none ↔ a = .none := by
  cases a with
  | none => injection hp with hp; simp [hp.symm]
  | num q => injection hp with hp; simp [hp.symm]
  | lazy v => injection hp with hp; simp [hp.symm]
  | other => cases hp
  | str s =>
    simp only [Verif.Layout.parseOptPos] at hp
    cases hx : Verif.Layout.parsePos (.str s) with
    | error e => rw [hx] at hp; cases hp
    | ok v => rw [hx] at hp; injection hp with hp; simp [hp.symm]

theorem exec_untouched {s s' : State} (hl : Laid s) {c : Call} (h : exec s c = (s', none)) {u : Nat} {a : Attrs} {l : List Nat}
    (hu : layoutOf u s.layouts = some (a, l)) (hc : Untouched [c] u) : layoutOf u s'.layouts = some (a, l) := by
  obtain ⟨-, hs⟩ := exec_layouts h
  have hc := hc c (by simp)
  have huu : u ∈ uids s.layouts := by
    rw [← look_isSome]
    rw [layoutOf_look] at hu
    cases hx : look u s.layouts with
    | none => rw [hx] at hu; cases hu
    | some x => rfl
  cases c with
  | box p c =>
    simp only [layoutsAfter] at hs
    split at hs
    · rw [hs, layoutOf_others (Ne.symm hc) (by rintro rfl; exact absurd (hl.lt _ huu) (by omega))]
      exact hu
    · rw [hs]; exact hu
  | text p w ht fit => rw [hs]; simp only [layoutsAfter]; rw [layoutOf_other (Ne.symm hc) (fun _ _ => rfl)]; exact hu
  | shape p => simp only [layoutsAfter] at hs; rw [hs]; exact hu
  | image p w ht steps => rw [hs]; simp only [layoutsAfter]; rw [layoutOf_other (Ne.symm hc) (fun _ _ => rfl)]; exact hu

theorem run_untouched {s s' : State} (hl : Laid s) {cs : List Call} (h : run s cs = .ok s') {u : Nat} {a : Attrs} {l : List Nat}
    (hu : layoutOf u s.layouts = some (a, l)) (hc : Untouched cs u) : layoutOf u s'.layouts = some (a, l) := by
  induction cs generalizing s with
  | nil => injection h with h; subst h; exact hu
  | cons c cs ih =>
    simp only [run] at h
    split at h
    · cases h
    · rename_i s1 he
      exact ih (exec_laid he hl) h (exec_untouched hl he hu (fun d hd => hc d (by simp only [List.mem_singleton] at hd; simp [hd]))) (fun d hd => hc d (List.mem_cons_of_mem _ hd))

theorem createdIn_call {p : Nat} {b : Bool} {cs : List Call} : ∀ {n u : Nat}, u ∈ createdIn p b n cs → ∃ k c, u = n + k ∧ cs[k]? = some (.box p c) := by
  induction cs with
  | nil => intro n u h; cases h
  | cons d cs ih =>
    intro n u h
    have step : u ∈ createdIn p b (n + 1) cs → ∃ k c, u = n + k ∧ (d :: cs)[k]? = some (.box p c) := by
      intro h
      obtain ⟨k, c, rfl, hk⟩ := ih h
      exact ⟨k + 1, c, by omega, hk⟩
    cases d with
    | box q c =>
      simp only [createdIn] at h
      split at h
      · rename_i hq
        obtain ⟨rfl, -⟩ := hq
        rcases List.mem_cons.mp h with rfl | h
        · exact ⟨0, c, rfl, rfl⟩
        · exact step h
      · exact step h
    | text => exact step h
    | shape => exact step h
    | image => exact step h

/-- Every layout except that of the slide was made by a call. -/
theorem made_uids {w h : Rat} (cs : List Call) : ∀ {s : State}, run (newSlide w h) cs = .ok s → ∀ u ∈ uids s.layouts, u = 0 ∨ ∃ b, madeBy cs u = some b := by
  induction cs using List.reverseRecOn with
  | nil =>
    intro s hs u hu
    injection hs with hs; subst hs
    simp [newSlide, uids] at hu
    exact .inl hu
  | append_singleton cs c ih =>
    intro s hs u hu
    obtain ⟨s1, h1, h2⟩ := Verif.Slide.run_snoc hs
    have hl := run_laid h1 (newSlide_laid w h)
    have hn := run_next h1
    have old : u ∈ uids s1.layouts → u = 0 ∨ ∃ b, madeBy (cs ++ [c]) u = some b := by
      intro hu
      rcases ih h1 u hu with h | ⟨b, hb⟩
      · exact .inl h
      · right
        cases u with
        | zero => cases hb
        | succ k =>
          simp only [madeBy] at hb ⊢
          split at hb
          · rename_i q d hk
            rw [List.getElem?_append_left (List.getElem?_eq_some_iff.mp hk).1, hk]
            exact ⟨_, rfl⟩
          · cases hb
    obtain ⟨-, hs'⟩ := exec_layouts h2
    have hp := exec_parent h2
    cases c with
    | box p b =>
      simp only [layoutsAfter] at hs'
      split at hs'
      · have hperm : (uids s.layouts).Perm (s1.next :: uids s1.layouts) := by
          rw [hs']
          refine uids_add ?_ hl.nodup (hl.has p hp)
          intro a' k
          cases b.layout.prepend
          · simp only [Bool.false_eq_true, if_false, uids_append]; exact List.perm_append_singleton _ _
          · simp [uids]
        rcases List.mem_cons.mp (hperm.mem_iff.mp hu) with rfl | hu
        · right
          have e : s1.next = cs.length + 1 := by rw [hn]; simp [newSlide]; omega
          rw [e]
          simp only [madeBy]
          rw [List.getElem?_append_right (le_refl _), Nat.sub_self]
          exact ⟨_, rfl⟩
        · exact old hu
      · rw [hs'] at hu; exact old hu
    | text p w ht fit => rw [hs'] at hu; simp only [layoutsAfter] at hu; rw [uids_keep (fun _ _ => rfl)] at hu; exact old hu
    | shape p => rw [hs'] at hu; exact old hu
    | image p w ht steps => rw [hs'] at hu; simp only [layoutsAfter] at hu; rw [uids_keep (fun _ _ => rfl)] at hu; exact old hu

/-- A box in which nothing is put has the attributes of its arguments and no children. -/
theorem box_untouched {w h : Rat} {cs : List Call} {s : State} (hr : run (newSlide w h) cs = .ok s) {k p : Nat} {c : BoxCall}
    (hk : cs[k]? = some (.box p c)) (hu : Untouched cs (k + 1)) {b : Attrs} {bk : Forest} (hb : (k + 1, b, bk) ∈ boxes s.layouts) :
    newAttrs c.layout = .ok b ∧ bk = .nil := by
  have hl := run_laid hr (newSlide_laid w h)
  obtain ⟨pre, post, rfl, hlen⟩ : ∃ pre post, cs = pre ++ .box p c :: post ∧ pre.length = k := by
    obtain ⟨hlt, he⟩ := List.getElem?_eq_some_iff.mp hk
    refine ⟨cs.take k, cs.drop (k + 1), ?_, by simp; omega⟩
    rw [← he]
    simp
  obtain ⟨s1, h1, h2⟩ := run_append hr
  simp only [run] at h2
  split at h2
  · cases h2
  · rename_i s2 he
    have hl1 := run_laid h1 (newSlide_laid w h)
    have hn : s1.next = k + 1 := by rw [run_next h1]; simp [newSlide]; omega
    have hp : s1.tree.has p = true := exec_parent he
    have hx := he
    simp only [exec] at hx
    rw [if_pos hp] at hx
    cases ha : newAttrs c.layout with
    | error e => unfold boxCall at hx; rw [ha] at hx; cases hx
    | ok a =>
      obtain ⟨-, hs⟩ := exec_layouts he
      simp only [layoutsAfter, ha] at hs
      have hnew : layoutOf s1.next s2.layouts = some (a, []) := by
        rw [hs]
        exact layoutOf_new (hl1.has p hp) (fun h' => absurd (hl1.lt _ h') (by omega))
      rw [hn] at hnew
      have := run_untouched (exec_laid he hl1) h2 hnew (fun d hd => hu d (by simp [hd]))
      rw [layoutOf_look] at this
      obtain ⟨⟨a', k'⟩, hy, e⟩ := Option.map_eq_some_iff.mp this
      injection e with e1 e2
      dsimp only at e1 e2
      subst e1
      have := Verif.Layout.boxes_unique hl.nodup hb (look_boxes hy) rfl
      injection this with _ this
      injection this with e3 e4
      subst e3; subst e4
      refine ⟨rfl, ?_⟩
      cases bk with
      | nil => rfl
      | node => cases e2

theorem grow_padded {c : BoxArgs} {a b : Attrs} (ha : newAttrs c = .ok a) (hab : Raised a b) (q : Verif.Rect) : grow b q = padded c q := by
  obtain ⟨-, p1, p2, p3, p4⟩ := newAttrs_rest ha
  rw [hab.2.2]
  unfold grow padded
  simp only [p1, p2, p3, p4]

theorem pads_padsOf {c : BoxArgs} {a : Attrs} (ha : newAttrs c = .ok a) (axis : Bool) : pads axis a = padsOf axis c := by
  obtain ⟨-, p1, p2, p3, p4⟩ := newAttrs_rest ha
  unfold pads padsOf
  rw [p1, p2, p3, p4]

theorem posOn_arg {c : BoxArgs} {a b : Attrs} (ha : newAttrs c = .ok a) (hab : Raised a b) (axis : Bool) :
    Verif.Layout.parseOptPos (posArg axis c) = .ok (posOn axis b) := by
  obtain ⟨g1, g2, -, -⟩ := Verif.Layout.newAttrs_sizes ha
  rw [hab.2.2]
  cases axis
  · exact g2
  · exact g1

theorem sizeOn_arg {c : BoxArgs} {a b : Attrs} (ha : newAttrs c = .ok a) (hab : Raised a b) (axis : Bool) {sz : Size} (h : SizeSays (extentArg axis c) sz) :
    (sizeOn axis b).fill = sz.fill ∧ (sizeOn axis b).ratio = sz.ratio ∧ (sizeOn axis b).lazy = sz.lazy ∧ sz.minSize ≤ (sizeOn axis b).minSize ∧ sizeOn axis a = sz := by
  obtain ⟨-, -, g3, g4⟩ := Verif.Layout.newAttrs_sizes ha
  obtain ⟨r1, r2, r3⟩ := hab
  cases axis
  · have e : a.height = sz := size_says (a := c.height) h g4
    rw [← e]
    refine ⟨?_, ?_, ?_, r2, rfl⟩ <;> (rw [r3]; rfl)
  · have e : a.width = sz := size_says (a := c.width) h g3
    rw [← e]
    refine ⟨?_, ?_, ?_, r1, rfl⟩ <;> (rw [r3]; rfl)

theorem row_horizontal {w h : Rat} {cs : List Call} {s : State} (hr : run (newSlide w h) cs = .ok s) {p : Nat} {bp : Attrs} {kids : Forest}
    (hb : (p, bp, kids) ∈ boxes s.layouts) (hp : p = 0 ∨ ∃ b, madeBy cs p = some b) : bp.horizontal = row cs p := by
  obtain ⟨h1, h2⟩ := box_horizontal hr hb
  rcases hp with rfl | ⟨b, hb'⟩
  · exact h1 rfl
  · cases p with
    | zero => exact h1 rfl
    | succ k =>
      unfold row
      rw [hb']
      simp only [madeBy] at hb'
      split at hb'
      · rename_i q c hk
        injection hb' with hb'
        rw [h2 k q c rfl hk, ← hb']
        rfl
      · cases hb'

/-- A layout and the arguments of the call that made it. -/
def Stems (cs : List Call) (t : Nat × Attrs × Forest) (b : BoxArgs) : Prop := madeBy cs t.1 = some b ∧ ∃ a, newAttrs b = .ok a ∧ Raised a t.2.1

/-- The layouts in a box, in terms of the calls. -/
theorem box_stems {w h : Rat} {cs : List Call} {s : State} (hr : run (newSlide w h) cs = .ok s) {p : Nat} {bp : Attrs} {kids : Forest}
    (hb : (p, bp, kids) ∈ boxes s.layouts) : (tops kids).map (·.1) = inOrder cs p ∧ ∀ t ∈ tops kids, ∃ b, Stems cs t b := by
  have hl := run_laid hr (newSlide_laid w h)
  obtain ⟨a, ha⟩ := (order_aux w h cs s hr p).1 (Verif.Layout.boxes_uids hb)
  rw [layoutOf_look] at ha
  obtain ⟨⟨bp', kids'⟩, hy, e⟩ := Option.map_eq_some_iff.mp ha
  have := Verif.Layout.boxes_unique hl.nodup hb (look_boxes hy) rfl
  injection this with _ this
  injection this with e3 e4
  subst e3; subst e4
  injection e with _ e
  dsimp only at e
  refine ⟨e, fun t ht => ?_⟩
  have hm : t.1 ∈ (tops kids).map (·.1) := List.mem_map_of_mem ht
  rw [e] at hm
  have : ∃ k c, t.1 = 1 + k ∧ cs[k]? = some (.box p c) := by
    rcases List.mem_append.mp hm with hm | hm
    · exact createdIn_call (List.mem_reverse.mp hm)
    · exact createdIn_call hm
  obtain ⟨k, c, hk1, hk⟩ := this
  obtain ⟨a', b, bk, bp', kids', h1, h2, h3, h4⟩ := box_child hr hk
  have hbb := Verif.Layout.boxes_sub hb (Verif.Layout.tops_boxes ht)
  have := Verif.Layout.boxes_unique hl.nodup hbb (Verif.Layout.boxes_sub h3 (Verif.Layout.tops_boxes h4)) (by rw [hk1, Nat.add_comm])
  obtain ⟨t1, t2, t3⟩ := t
  injection this with e1 e2
  injection e2 with e2 e3
  subst e1; subst e2; subst e3
  exact ⟨c.layout, by simp [madeBy, hk], a', h1, h2⟩

theorem stems_unplaced {cs : List Call} {t : Nat × Attrs × Forest} {b : BoxArgs} (h : Stems cs t b) (hor : Bool) :
    (Managed hor t.2.1 → unplaced cs hor t.1 = some (t.1, b)) ∧ (¬ Managed hor t.2.1 → unplaced cs hor t.1 = none) := by
  obtain ⟨h1, a, ha, hab⟩ := h
  have hp := posOn_arg ha hab hor
  have hi := unplaced_iff hp
  have hm : Managed hor t.2.1 ↔ posArg hor b = .none := by
    rw [← hi]
    unfold Managed posOn
    exact Option.isNone_iff_eq_none
  unfold unplaced
  rw [h1]
  constructor
  · intro hm'
    dsimp only
    rw [hm.mp hm']
  · intro hm'
    dsimp only
    split
    · rename_i e; exact absurd (hm.mpr e) hm'
    · rfl

/-- The rectangles of the stacked boxes. -/
theorem stack_rects {cs : List Call} {env : Env} {hor : Bool} : ∀ {T : List (Nat × Attrs × Forest)}, (∀ t ∈ T, ∃ b, Stems cs t b) → (∀ t ∈ T, (env t.1).isSome) →
    List.Forall₂ (Outer env) ((T.map (·.1)).filterMap (unplaced cs hor)) (T.filterMap (fun c => if Managed hor c.2.1 then (env c.1).map (grow c.2.1) else none)) := by
  intro T
  induction T with
  | nil => intro _ _; exact .nil
  | cons t T ih =>
    intro h1 h2
    have ih := ih (fun t ht => h1 t (List.mem_cons_of_mem _ ht)) (fun t ht => h2 t (List.mem_cons_of_mem _ ht))
    obtain ⟨b, hb⟩ := h1 t List.mem_cons_self
    obtain ⟨r, hr⟩ := Option.isSome_iff_exists.mp (h2 t List.mem_cons_self)
    obtain ⟨k1, k2⟩ := stems_unplaced hb hor
    by_cases hm : Managed hor t.2.1
    · rw [List.map_cons, List.filterMap_cons, k1 hm, List.filterMap_cons, if_pos hm, hr]
      refine .cons ?_ ih
      obtain ⟨-, a, ha, hab⟩ := hb
      exact ⟨r, hr, grow_padded ha hab r⟩
    · rw [List.map_cons, List.filterMap_cons, k2 hm, List.filterMap_cons, if_neg hm]
      exact ih

end Verif.Slide
