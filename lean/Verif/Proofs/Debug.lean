import Verif.Props.History
import Verif.Spec.Debug
import Verif.Model.Debug

/-! # Lemmas on the painters of a page with frames -/

namespace Verif.Slide
open Verif.Show Verif.Show.Spec Spec

/-! ### sorting and leaving out -/

theorem insert_filter {α : Type} (r : α → α → Prop) [DecidableRel r] (p : α → Bool) (a : α) : ∀ l : List α,
    (p a = false → (l.orderedInsert r a).filter p = l.filter p) ∧
    (p a = true → (∀ x ∈ l, ∀ y, r a x → r x y → r a y) → l.Pairwise r → (l.orderedInsert r a).filter p = (l.filter p).orderedInsert r a)
  | [] => ⟨fun h => by simp [h], fun h _ _ => by simp [h]⟩
  | b :: l => by
    obtain ⟨h1, h2⟩ := insert_filter r p a l
    constructor
    · intro h
      by_cases hr : r a b
      · simp [List.orderedInsert, hr, h]
      · simp only [List.orderedInsert, if_neg hr, List.filter_cons, h1 h]
    · intro h ht hp
      have hp' := List.pairwise_cons.mp hp
      by_cases hr : r a b
      · simp only [List.orderedInsert, if_pos hr, List.filter_cons, h, if_true]
        have hall : ∀ x ∈ b :: l, r a x := by
          intro x hx
          rcases List.mem_cons.mp hx with rfl | hx
          · exact hr
          · exact ht b (.head _) x hr (hp'.1 x hx)
        have key : ∀ m : List α, (∀ x ∈ m, r a x) → m.orderedInsert r a = a :: m := by
          intro m hm
          cases m with
          | nil => rfl
          | cons c m => simp [List.orderedInsert, hm c (.head _)]
        have := key (List.filter p (b :: l)) (fun x hx => hall x (List.mem_filter.mp hx).1)
        rw [List.filter_cons] at this
        exact this.symm
      · simp only [List.orderedInsert, if_neg hr, List.filter_cons]
        rw [h2 h (fun x hx => ht x (.tail _ hx)) hp'.2]
        by_cases hb : p b = true
        · simp [hb, List.orderedInsert, hr]
        · simp [hb]

theorem zSort_filter (p : Painter → Bool) : ∀ l : List Painter, (zSort l).filter p = zSort (l.filter p)
  | [] => rfl
  | a :: l => by
    have hs : (zSort l).Pairwise (fun x y : Painter => x.z ≤ y.z) :=
      List.pairwise_insertionSort (r := fun x y : Painter => x.z ≤ y.z) l
    have h1 := insert_filter (fun x y : Painter => x.z ≤ y.z) p a (zSort l)
    have e : zSort (a :: l) = (zSort l).orderedInsert (fun x y : Painter => x.z ≤ y.z) a := rfl
    rw [e]
    cases hp : p a with
    | false => rw [h1.1 hp, zSort_filter p l, List.filter_cons, hp]; rfl
    | true =>
      rw [h1.2 hp (fun x _ y => le_trans) hs, zSort_filter p l, List.filter_cons, hp]
      rfl

/-- A painter of an item. -/
def isItem : Painter → Bool
  | .item _ _ => true
  | .debug _ _ => false

/-- Without the frames, a page with frames is the ordinary page. -/
theorem page_items (s : State) (step : Int) : (page s step true).filter isItem = page s step false := by
  unfold page
  rw [zSort_filter, ← C24_debug_adds_frames]
  congr 1

/-! ### the order -/

def Painter.uid : Painter → Nat
  | .item u _ => u
  | .debug u _ => u

/-- The numbers of everything in the tree, boxes after their contents. -/
def post : Tree → List Nat
  | .nil => []
  | .item u _ rest => u :: post rest
  | .box u _ _ kids rest => post kids ++ u :: post rest

theorem post_perm (t : Tree) : (post t).Perm ((nodes t).map Node.uid) := by
  induction t with
  | nil => exact .refl _
  | item u z rest ih => simpa [post, nodes, Node.uid] using ih
  | box u i z kids rest ihk ihr =>
    simp only [post, nodes, List.map_cons, List.map_append, Node.uid]
    exact List.perm_middle.trans ((ihk.append ihr).cons u)

theorem painters_post (step : Int) (b : Bool) (t : Tree) : ((t.painters step b).map Painter.uid).Sublist (post t) := by
  induction t with
  | nil => exact .refl _
  | item u z rest ih => simpa [Tree.painters, post, Painter.uid] using ih
  | box u i z kids rest ihk ihr =>
    simp only [Tree.painters, post, List.map_append]
    have e : post kids ++ u :: post rest = (post kids ++ [u]) ++ post rest := by simp
    rw [e]
    refine List.Sublist.append ?_ ihr
    split
    · rw [List.map_append]
      refine List.Sublist.append ihk ?_
      split
      · exact .refl _
      · exact List.nil_sublist _
    · exact List.nil_sublist _

/-- What a box of a tree knows about the trees in it. -/
theorem kidUids_parts {u : Nat} {i : ShowInfo} {z : Int} {kids rest : Tree} {R : Nat → List Nat → Prop}
    (hn : ((nodes (.box u i z kids rest)).map Node.uid).Nodup) (hb : ∀ v l, kidUids v (.box u i z kids rest) = some l → R v l) :
    R u ((children kids).map Child.uid) ∧ ((nodes kids).map Node.uid).Nodup ∧ ((nodes rest).map Node.uid).Nodup ∧
    (∀ v l, kidUids v kids = some l → R v l) ∧ (∀ v l, kidUids v rest = some l → R v l) := by
  simp only [nodes, List.map_cons, List.map_append, List.nodup_cons, List.nodup_append, List.mem_append] at hn
  obtain ⟨hu, hnk, hnr, hd⟩ := hn
  have inside : ∀ (t : Tree) v l, kidUids v t = some l → v ∈ (nodes t).map Node.uid := by
    intro t v l hl
    have : t.has v = true := by
      cases hx : t.has v with
      | true => rfl
      | false => simp [kidUids, kidsOf_none t hx] at hl
    obtain ⟨j, y, hm⟩ := has_node this
    exact List.mem_map.mpr ⟨_, hm, rfl⟩
  refine ⟨hb u _ (by simp [kidUids, kidsOf]), hnk, hnr, fun v l hl => ?_, fun v l hl => ?_⟩
  · refine hb v l ?_
    have hv := inside kids v l hl
    have hne : u ≠ v := fun e => hu (.inl (e ▸ hv))
    unfold kidUids at hl ⊢
    simp only [kidsOf, if_neg hne]
    cases hx : kidsOf v kids with
    | none => rw [hx] at hl; cases hl
    | some y => rw [hx] at hl; exact hl
  · refine hb v l ?_
    have hv := inside rest v l hl
    have hne : u ≠ v := fun e => hu (.inr (e ▸ hv))
    unfold kidUids at hl ⊢
    simp only [kidsOf, if_neg hne]
    have : kidsOf v kids = none := by
      cases hx : kidsOf v kids with
      | none => rfl
      | some y => exact absurd rfl (hd v (inside kids v (y.map Child.uid) (by simp [kidUids, hx])) v hv)
    rw [this]
    exact hl

theorem tree_walkUp {cs : List Call} : ∀ t : Tree, ((nodes t).map Node.uid).Nodup → (∀ v l, kidUids v t = some l → Kids v cs l) →
    (∀ u z, Node.item u z ∈ nodes t → Kids u cs []) → WalkUp cs ((children t).map Child.uid) (post t) := by
  intro t
  induction t with
  | nil => intro _ _ _; exact .nil
  | item u z rest ih =>
    intro hn hb hi
    have := WalkUp.cons (hi u z (.head _)) .nil (ih (List.nodup_cons.mp hn).2 hb (fun v y hm => hi v y (.tail _ hm)))
    simpa [children, post, Child.uid] using this
  | box u i z kids rest ihk ihr =>
    intro hn hb hi
    obtain ⟨h0, hnk, hnr, hk, hr⟩ := kidUids_parts hn hb
    have h1 := ihk hnk hk (fun v y hm => hi v y (.tail _ (List.mem_append_left _ hm)))
    have h2 := ihr hnr hr (fun v y hm => hi v y (.tail _ (List.mem_append_right _ hm)))
    have := WalkUp.cons h0 h1 h2
    simpa [children, post, Child.uid] using this

theorem walkUp_unique {cs : List Call} {us l l' : List Nat} (h : WalkUp cs us l) (h' : WalkUp cs us l') : l = l' := by
  induction h generalizing l' with
  | nil => cases h'; rfl
  | cons hk _ _ ih1 ih2 =>
    cases h' with
    | cons hk' h1 h2 =>
      rw [kids_unique hk' hk] at h1
      rw [ih1 h1, ih2 h2]

/-! ### depth -/

theorem putAt_mem {before after : List Nat} {x : Nat} {prepend : Bool} {a b : Option Nat} (h : PutAt before after x prepend a b) (u : Nat) :
    u ∈ after ↔ u ∈ before ∨ u = x := by
  cases h with
  | first _ h => rw [h]; simp [or_comm]
  | last _ h => rw [h]; simp
  | above _ h1 h2 => rw [h2, h1]; simp only [List.mem_append, List.mem_cons]; tauto
  | below _ h1 h2 => rw [h2, h1]; simp only [List.mem_append, List.mem_cons]; tauto

/-- What is in a box was put there by a call. -/
theorem kids_call {p : Nat} {cs : List Call} {l : List Nat} (h : Kids p cs l) : ∀ u ∈ l, ∃ k c, u = k + 1 ∧ cs[k]? = some c ∧ target c = p := by
  have lift : ∀ {cs : List Call} {c : Call} {u : Nat}, (∃ k d, u = k + 1 ∧ cs[k]? = some d ∧ target d = p) →
      ∃ k d, u = k + 1 ∧ (cs ++ [c])[k]? = some d ∧ target d = p := by
    rintro cs c u ⟨k, d, e, h1, h2⟩
    exact ⟨k, d, e, by rw [getElem?_snoc_lt (List.getElem?_eq_some_iff.mp h1).1]; exact h1, h2⟩
  induction h with
  | new => simp
  | elsewhere _ _ ih => exact fun u hu => lift (ih u hu)
  | @item cs c l _ _ ht ih =>
    intro u hu
    rcases List.mem_append.mp hu with hu | hu
    · exact lift (ih u hu)
    · rw [List.mem_singleton.mp hu]
      exact ⟨cs.length, c, rfl, by simp, ht⟩
  | @box cs b l l' _ hp ih =>
    intro u hu
    rcases (putAt_mem hp u).mp hu with h | rfl
    · exact lift (ih u h)
    · exact ⟨cs.length, .box p b, rfl, by simp, rfl⟩

/-- A box is among the children of the box it was created in. -/
theorem call_kids {p : Nat} {cs : List Call} {l : List Nat} (h : Kids p cs l) : ∀ k c, cs[k]? = some c → target c = p → k + 1 ∈ l := by
  induction h with
  | new => intro k c h; simp at h
  | @elsewhere cs d l _ hne ih =>
    intro k c h ht
    rcases getElem?_snoc h with h | ⟨_, h⟩
    · exact ih k c h ht
    · exact absurd (h ▸ ht) hne
  | @item cs d l _ _ _ ih =>
    intro k c h ht
    rcases getElem?_snoc h with h | ⟨e, h⟩
    · exact List.mem_append_left _ (ih k c h ht)
    · rw [e]; simp
  | @box cs b l l' _ hp ih =>
    intro k c h ht
    have : k + 1 ∈ l ∨ k + 1 = cs.length + 1 := by
      rcases getElem?_snoc h with h | ⟨e, h⟩
      · exact .inl (ih k c h ht)
      · exact .inr (by rw [e])
    exact (putAt_mem hp _).mpr this

theorem depths_depth {cs : List Call} : ∀ (t : Tree) (d : Nat), ((nodes t).map Node.uid).Nodup →
    (∀ v l, kidUids v t = some l → Kids v cs l) → (∀ u i z, Node.box u i z ∈ nodes t → BoxOf cs u) →
    (∀ u ∈ (children t).map Child.uid, BoxOf cs u → Depth cs u d) →
    ∀ u e, (u, e) ∈ Verif.Scene.depths d t → Depth cs u e := by
  intro t
  induction t with
  | nil => intro d _ _ _ _ u e h; cases h
  | item v z rest ih =>
    intro d hn hb hx hd u e h
    exact ih d (List.nodup_cons.mp hn).2 hb (fun u i z hm => hx u i z (.tail _ hm)) (fun u hu => hd u (.tail _ hu)) u e h
  | box v i z kids rest ihk ihr =>
    intro d hn hb hx hd u e h
    obtain ⟨h0, hnk, hnr, hk, hr⟩ := kidUids_parts hn hb
    have hv : Depth cs v d := hd v (.head _) (hx v i z (.head _))
    simp only [Verif.Scene.depths, List.mem_cons, List.mem_append, Prod.mk.injEq] at h
    rcases h with ⟨rfl, rfl⟩ | h | h
    · exact hv
    · refine ihk (d + 1) hnk hk (fun u i z hm => hx u i z (.tail _ (List.mem_append_left _ hm))) ?_ u e h
      intro w hw hbox
      obtain ⟨k, c, rfl, hc, ht⟩ := kids_call h0 w hw
      cases hbox with
      | mk hc' =>
        rw [hc] at hc'; injection hc' with hc'; subst hc'
        simp only [target] at ht
        subst ht
        exact .box hc hv
    · exact ihr d hnr hr (fun u i z hm => hx u i z (.tail _ (List.mem_append_right _ hm))) (fun u hu => hd u (.tail _ hu)) u e h

theorem depths_keys (t : Tree) : ∀ d, ((Verif.Scene.depths d t).map (·.1)).Sublist ((nodes t).map Node.uid) := by
  induction t with
  | nil => intro d; exact .refl _
  | item u z rest ih => intro d; exact (ih d).cons _
  | box u i z kids rest ihk ihr =>
    intro d
    simp only [Verif.Scene.depths, nodes, List.map_cons, List.map_append, Node.uid]
    exact ((ihk _).append (ihr _)).cons_cons u

theorem depths_box {t : Tree} {u : Nat} {i : ShowInfo} {z : Int} (h : Node.box u i z ∈ nodes t) : ∀ d, ∃ e, (u, e) ∈ Verif.Scene.depths d t := by
  induction t with
  | nil => cases h
  | item v y rest ih =>
    intro d
    rcases List.mem_cons.mp h with h | h
    · cases h
    · exact ih h d
  | box v j y kids rest ihk ihr =>
    intro d
    simp only [nodes, List.mem_cons, List.mem_append] at h
    rcases h with h | h | h
    · injection h with h1; subst h1; exact ⟨d, .head _⟩
    · obtain ⟨e, he⟩ := ihk h (d + 1)
      exact ⟨e, .tail _ (List.mem_append_left _ he)⟩
    · obtain ⟨e, he⟩ := ihr h d
      exact ⟨e, .tail _ (List.mem_append_right _ he)⟩

/-! ### which frames -/

theorem mem_painters {step : Int} (t : Tree) : ∀ ar, ar.all (·.isVisible step) = true → ∀ q,
    q ∈ t.painters step true ↔ (∃ u z l, q = .item u z ∧ (Node.item u z, l) ∈ located ar t ∧ l.all (·.isVisible step) = true) ∨
      ∃ u i z l, q = .debug u z ∧ (Node.box u i z, l) ∈ located ar t ∧ (i :: l).all (·.isVisible step) = true := by
  have prefix_vis : ∀ (t : Tree) ar x l, (x, l) ∈ located ar t → ∃ m, l = m ++ ar := by
    intro t
    induction t with
    | nil => intro ar x l h; cases h
    | item u z rest ih =>
      intro ar x l h
      rcases List.mem_cons.mp h with h | h
      · injection h with _ h; exact ⟨[], h⟩
      · exact ih ar x l h
    | box u i z kids rest ihk ihr =>
      intro ar x l h
      simp only [located, List.mem_cons, List.mem_append] at h
      rcases h with h | h | h
      · injection h with _ h; exact ⟨[], h⟩
      · obtain ⟨m, rfl⟩ := ihk _ x l h; exact ⟨m ++ [i], by simp⟩
      · exact ihr ar x l h
  induction t with
  | nil => intro ar _ q; simp [Tree.painters, located]
  | item v y rest ih =>
    intro ar ha q
    simp only [Tree.painters, located, List.mem_cons, ih ar ha q]
    constructor
    · rintro (rfl | ⟨u, z, l, h1, h2, h3⟩ | ⟨u, i, z, l, h1, h2, h3⟩)
      · exact .inl ⟨v, y, ar, rfl, .inl rfl, ha⟩
      · exact .inl ⟨u, z, l, h1, .inr h2, h3⟩
      · exact .inr ⟨u, i, z, l, h1, .inr h2, h3⟩
    · rintro (⟨u, z, l, h1, h2, h3⟩ | ⟨u, i, z, l, h1, h2, h3⟩)
      · rcases h2 with h2 | h2
        · injection h2 with h2 _; injection h2 with e1 e2; subst e1; subst e2; exact .inl h1
        · exact .inr (.inl ⟨u, z, l, h1, h2, h3⟩)
      · rcases h2 with h2 | h2
        · injection h2 with h2 _; cases h2
        · exact .inr (.inr ⟨u, i, z, l, h1, h2, h3⟩)
  | box v j y kids rest ihk ihr =>
    intro ar ha q
    simp only [Tree.painters, located, List.mem_cons, List.mem_append, ihr ar ha q]
    by_cases hj : j.isVisible step = true
    · have hja : (j :: ar).all (·.isVisible step) = true := by simp only [List.all_cons, hj, ha, Bool.and_self]
      rw [if_pos hj]
      simp only [if_true, List.mem_append, List.mem_singleton, ihk (j :: ar) hja q]
      constructor
      · rintro ((h | rfl) | h)
        · rcases h with ⟨u, z, l, h1, h2, h3⟩ | ⟨u, i, z, l, h1, h2, h3⟩
          · exact .inl ⟨u, z, l, h1, .inr (.inl h2), h3⟩
          · exact .inr ⟨u, i, z, l, h1, .inr (.inl h2), h3⟩
        · exact .inr ⟨v, j, y, ar, rfl, .inl rfl, hja⟩
        · rcases h with ⟨u, z, l, h1, h2, h3⟩ | ⟨u, i, z, l, h1, h2, h3⟩
          · exact .inl ⟨u, z, l, h1, .inr (.inr h2), h3⟩
          · exact .inr ⟨u, i, z, l, h1, .inr (.inr h2), h3⟩
      · rintro (⟨u, z, l, h1, h2, h3⟩ | ⟨u, i, z, l, h1, h2, h3⟩)
        · rcases h2 with h2 | h2 | h2
          · injection h2 with h2 _; cases h2
          · exact .inl (.inl (.inl ⟨u, z, l, h1, h2, h3⟩))
          · exact .inr (.inl ⟨u, z, l, h1, h2, h3⟩)
        · rcases h2 with h2 | h2 | h2
          · injection h2 with h2 _; injection h2 with e1 e2 e3; subst e1; subst e3; exact .inl (.inr h1)
          · exact .inl (.inl (.inr ⟨u, i, z, l, h1, h2, h3⟩))
          · exact .inr (.inr ⟨u, i, z, l, h1, h2, h3⟩)
    · rw [if_neg hj]
      have hno : ∀ x l, (x, l) ∈ located (j :: ar) kids → l.all (·.isVisible step) = true → False := by
        intro x l hm hall
        obtain ⟨m, rfl⟩ := prefix_vis kids _ x l hm
        simp only [List.all_append, List.all_cons, Bool.and_eq_true] at hall
        exact hj hall.2.1
      constructor
      · rintro (h | ⟨u, z, l, h1, h2, h3⟩ | ⟨u, i, z, l, h1, h2, h3⟩)
        · cases h
        · exact .inl ⟨u, z, l, h1, .inr (.inr h2), h3⟩
        · exact .inr ⟨u, i, z, l, h1, .inr (.inr h2), h3⟩
      · rintro (⟨u, z, l, h1, h2, h3⟩ | ⟨u, i, z, l, h1, h2, h3⟩)
        · rcases h2 with h2 | h2 | h2
          · injection h2 with h2 _; cases h2
          · exact (hno _ _ h2 h3).elim
          · exact .inr (.inl ⟨u, z, l, h1, h2, h3⟩)
        · rcases h2 with h2 | h2 | h2
          · injection h2 with h2 h4; injection h2 with e1 e2 e3
            rw [e2, List.all_cons, Bool.and_eq_true] at h3
            exact absurd h3.1 hj
          · refine (hno _ _ h2 ?_).elim
            rw [List.all_cons, Bool.and_eq_true] at h3; exact h3.2
          · exact .inr (.inr ⟨u, i, z, l, h1, h2, h3⟩)

theorem walk_tops {cs : List Call} {us o : List Nat} (h : Walk cs us o) : ∀ u ∈ us, u ∈ o := by
  induction h with
  | nil => simp
  | cons _ _ _ _ ih =>
    intro u hu
    rcases List.mem_cons.mp hu with rfl | hu
    · exact .head _
    · exact .tail _ (List.mem_append_right _ (ih u hu))

theorem walk_closed {cs : List Call} {us o : List Nat} (h : Walk cs us o) : ∀ p ∈ o, ∀ ks, Kids p cs ks → ∀ k ∈ ks, k ∈ o := by
  induction h with
  | nil => simp
  | cons hk h1 h2 ih1 ih2 =>
    intro p hp ks hks k hkk
    rcases List.mem_cons.mp hp with rfl | hp
    · rw [kids_unique hks hk] at hkk
      exact .tail _ (List.mem_append_left _ (walk_tops h1 k hkk))
    · rcases List.mem_append.mp hp with hp | hp
      · exact .tail _ (List.mem_append_left _ (ih1 p hp ks hks k hkk))
      · exact .tail _ (List.mem_append_right _ (ih2 p hp ks hks k hkk))

/-- Everything that the calls say about a page with frames. -/
theorem frames_page (w h : Rat) (cs : List Call) (s : State) (hr : run (newSlide w h) cs = .ok s) (step : Int) :
    ∃ order, (page s step true).filter isItem = page s step false ∧ ((page s step true).map Painter.uid).Nodup ∧
      (∀ u z, Painter.item u z ∈ page s step true ↔ ∃ p, ItemOf cs p u ∧ Level cs p z ∧ OnPage cs step p) ∧
      (∀ u z, Painter.debug u z ∈ page s step true ↔ BoxOf cs u ∧ Level cs u z ∧ OnPage cs step u) ∧
      (∀ u z, Painter.debug u z ∈ page s step true → ∃ d, (Verif.Scene.depths 0 s.tree).lookup u = some d ∧ Depth cs u d) ∧
      WalkUp cs [0] order ∧ (∀ o, WalkUp cs [0] o → o = order) ∧ order.Nodup ∧
      ((page s step true).map (fun q => (q.uid, q.z))).Pairwise (Under order) := by
  have hf : Fresh s := Reachable.fresh ⟨w, h, cs, hr⟩
  have hi0 : Inv (newSlide w h) := Reachable.inv ⟨w, h, [], rfl⟩
  have hf0 : Fresh (newSlide w h) := Reachable.fresh ⟨w, h, [], rfl⟩
  have ht : Tells cs s := by simpa using tells_run (tells_new w h) hf0 hi0 .new hr
  have ho : Ordered cs s := by simpa using ordered_run (ordered_new w h) (tells_new w h) hf0 hi0 .new hr
  have hn := hf.nodup
  have hempty : ∀ u z, Node.item u z ∈ nodes s.tree → Kids u cs [] := fun u z hm => kids_empty (ho.items u z hm)
  have hw : Walk cs [0] ((nodes s.tree).map Node.uid) := by
    have := tree_walk s.tree hn ho.boxes hempty
    rwa [run_tops hr] at this
  have hup : WalkUp cs [0] (post s.tree) := by
    have := tree_walkUp s.tree hn ho.boxes hempty
    rwa [run_tops hr] at this
  have hnp : (post s.tree).Nodup := (post_perm s.tree).nodup_iff.mpr hn
  obtain ⟨hq1, hq2, hq3⟩ := C25_paint_order s step true
  have hloc : ∀ x, x ∈ nodes s.tree ↔ ∃ l, (x, l) ∈ located [] s.tree := by
    intro x
    rw [← located_nodes s.tree []]
    simp [List.mem_map]
  -- every box is in the tree
  have hbox : ∀ u, OnPage cs step u → u ∈ (nodes s.tree).map Node.uid := by
    intro u hu
    induction hu with
    | slide _ =>
      exact walk_tops hw 0 (.head _)
    | @box k p c cur h1 _ _ _ ih =>
      obtain ⟨x, hx, rfl⟩ := List.mem_map.mp ih
      cases x with
      | item v z => exact absurd rfl (ho.items v z hx _ (List.mem_of_getElem? h1))
      | box v i z =>
        have hv : s.tree.has v = true := by
          cases hh : s.tree.has v with
          | true => rfl
          | false =>
            have hk := kidsOf_none s.tree hh
            have : ∀ t : Tree, Node.box v i z ∈ nodes t → kidsOf v t ≠ none := by
              intro t
              induction t with
              | nil => intro h; cases h
              | item a b rest ih =>
                intro h
                rcases List.mem_cons.mp h with h | h
                · cases h
                · exact ih h
              | box a b c kids rest ihk ihr =>
                intro h
                simp only [nodes, List.mem_cons, List.mem_append] at h
                simp only [kidsOf]
                split
                · simp
                · rename_i hne
                  rcases h with h | h | h
                  · injection h with h; exact absurd h.symm hne
                  · cases hx : kidsOf v kids with
                    | none => exact absurd hx (ihk h)
                    | some y => simp
                  · cases hx : kidsOf v kids with
                    | none => simpa using ihr h
                    | some y => simp
            exact absurd hk (this _ hx)
        obtain ⟨l, hl⟩ := kidsOf_some s.tree hv
        have hks : Kids v cs (l.map Child.uid) := ho.boxes v _ (by simp [kidUids, hl])
        exact walk_closed hw v (List.mem_map.mpr ⟨_, hx, rfl⟩) _ hks _ (call_kids hks k _ h1 rfl)
  have hboxOf : ∀ u i z, Node.box u i z ∈ nodes s.tree → BoxOf cs u := by
    intro u i z hm
    rcases Nat.eq_zero_or_pos u with rfl | hpos
    · exact .slide
    · obtain ⟨k, rfl⟩ : ∃ k, u = k + 1 := ⟨u - 1, by omega⟩
      have hk : k < cs.length := by
        have := hf.lt _ hm
        rw [ht.next] at this
        simp only [Node.uid] at this
        omega
      cases hc : cs[k]? with
      | none => rw [List.getElem?_eq_none_iff] at hc; omega
      | some c =>
        cases hb : isBox c with
        | true =>
          cases c with
          | box p c => exact .mk hc
          | _ => cases hb
        | false =>
          obtain ⟨y, l, hl⟩ := ht.all (k + 1) _ (.mk hc hb rfl)
          exact (box_not_item hn hm ((hloc _).mpr ⟨l, hl⟩)).elim
  refine ⟨post s.tree, page_items s step, ?_, ?_, ?_, ?_, hup, fun o ho' => walkUp_unique ho' hup, hnp, ?_⟩
  · exact (hq1.map Painter.uid).nodup_iff.mpr (hnp.sublist (painters_post step true s.tree))
  · intro u z
    obtain ⟨l, order, hpage, -, hmem, -⟩ := C106_page w h cs s hr step
    have e : Painter.item u z ∈ page s step true ↔ Painter.item u z ∈ page s step false := by
      rw [← page_items, List.mem_filter]
      simp [isItem]
    rw [e, hpage, ← hmem u z]
    constructor
    · intro hm
      obtain ⟨⟨a, b⟩, hab, he⟩ := List.mem_map.mp hm
      injection he with h1 h2
      subst h1; subst h2
      exact hab
    · exact fun hm => List.mem_map.mpr ⟨_, hm, rfl⟩
  · intro u z
    rw [hq1.mem_iff, mem_painters s.tree [] rfl]
    constructor
    · rintro (⟨v, y, l, h1, -⟩ | ⟨v, i, y, l, h1, h2, h3⟩)
      · cases h1
      · injection h1 with e1 e2; subst e1; subst e2
        obtain ⟨h4, h5⟩ := ht.boxes u i z l h2
        exact ⟨hboxOf u i z ((hloc _).mpr ⟨l, h2⟩), h4, (h5 step).mp h3⟩
    · rintro ⟨h1, h2, h3⟩
      obtain ⟨x, hx, hxu⟩ := List.mem_map.mp (hbox u h3)
      cases x with
      | item v y =>
        obtain ⟨l, hl⟩ := (hloc _).mp hx
        obtain ⟨p, h4, -⟩ := ht.items v y l hl
        simp only [Node.uid] at hxu
        subst hxu
        cases h4 with
        | mk g1 g2 g3 =>
          cases h1 with
          | mk g4 => rw [g1] at g4; injection g4 with g4; subst g4; cases g2
      | box v i y =>
        simp only [Node.uid] at hxu
        subst hxu
        obtain ⟨l, hl⟩ := (hloc _).mp hx
        obtain ⟨h4, h5⟩ := ht.boxes v i y l hl
        rw [level_unique h4 h2] at hl
        exact .inr ⟨v, i, z, l, rfl, hl, (h5 step).mpr h3⟩
  · intro u z hm
    rw [hq1.mem_iff, mem_painters s.tree [] rfl] at hm
    rcases hm with ⟨v, y, l, h1, -⟩ | ⟨v, i, y, l, h1, h2, -⟩
    · cases h1
    injection h1 with e1 e2; subst e1; subst e2
    obtain ⟨d, hd⟩ := depths_box ((hloc _).mpr ⟨l, h2⟩) 0
    refine ⟨d, ?_, depths_depth s.tree 0 hn ho.boxes hboxOf ?_ u d hd⟩
    · have hnk : ((Verif.Scene.depths 0 s.tree).map (·.1)).Nodup := hn.sublist (depths_keys s.tree 0)
      generalize Verif.Scene.depths 0 s.tree = m at hd hnk
      induction m with
      | nil => cases hd
      | cons a m ih =>
        rcases List.mem_cons.mp hd with hd | hd
        · rw [← hd]; simp [List.lookup]
        · have hne : (u == a.1) = false := by
            rw [List.map_cons, List.nodup_cons] at hnk
            simp only [beq_eq_false_iff_ne, ne_eq]
            rintro rfl
            exact hnk.1 (List.mem_map.mpr ⟨_, hd, rfl⟩)
          rw [List.lookup, hne]
          exact ih hd (List.nodup_cons.mp hnk).2
    · rw [run_tops hr]
      intro v hv _
      rw [show v = 0 from by simpa [newSlide, children, Child.uid] using hv]
      exact .slide
  · rw [List.pairwise_map, List.pairwise_iff_forall_sublist]
    intro a b hab
    have hz : levelOf = Painter.z := by funext p; cases p <;> rfl
    rw [hz] at hq2 hq3
    have hle : a.z ≤ b.z := List.pairwise_iff_forall_sublist.mp hq2 hab
    rcases lt_or_eq_of_le hle with hlt | heq
    · exact .inl hlt
    · refine .inr ⟨heq, ?_⟩
      have h1 := hab.filter (fun p : Painter => decide (p.z = b.z))
      rw [hq3 b.z] at h1
      have e : [a, b].filter (fun p : Painter => decide (p.z = b.z)) = [a, b] := by simp [heq]
      rw [e] at h1
      exact ((h1.trans List.filter_sublist).map Painter.uid).trans (painters_post step true s.tree)

end Verif.Slide
