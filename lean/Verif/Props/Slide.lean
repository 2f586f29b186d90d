import Verif.Proofs.Slide

/-! # Properties C21–C28: slides -/

namespace Verif.Slide
open Spec Verif.Show Verif.Show.Spec

/-- A slide that some sequence of successful calls produces. -/
def Reachable (s : State) : Prop := ∃ (w h : Rat) (cs : List Call), run (newSlide w h) cs = .ok s

theorem Reachable.inv {s : State} (h : Reachable s) : Inv s := by
  obtain ⟨w, h, cs, hr⟩ := h
  exact run_inv hr (newSlide_inv w h)

theorem Reachable.fresh {s : State} (h : Reachable s) : Fresh s := by
  obtain ⟨w, h, cs, hr⟩ := h
  exact run_fresh hr (newSlide_fresh w h)

/-- The number of pages of a history is unique. -/
theorem pages_unique {cs : List Call} {p q : Int} (h1 : Pages cs p) (h2 : Pages cs q) : p = q := by
  induction h1 generalizing q with
  | new =>
    generalize he : ([] : List Call) = l at h2
    cases h2 with
    | new => rfl
    | call _ _ => simp at he
  | @call cs c p p' hp hg ih =>
    generalize he : cs ++ [c] = l at h2
    cases h2 with
    | new => simp at he
    | @call ds d q0 q hq hg' =>
      obtain ⟨e1, e2⟩ := List.append_inj' he rfl
      subst e1
      injection e2 with e2
      subst e2
      have := ih hq
      subst this
      exact greatest_unique hg hg'

/-- **C21.** After any sequence of successful calls, the number of pages of the slide is the one the
history determines (each call raises it to the highest fragment it mentions), and `current_fragment()`
is that number. -/
theorem C21_page_count (w h : Rat) (cs : List Call) (s : State) (hr : run (newSlide w h) cs = .ok s) :
    (∀ p, Pages cs p ↔ p = s.steps) ∧ s.maxStep = s.steps := by
  obtain ⟨hi, hp, -⟩ := run_pages (cs := []) hr (newSlide_inv w h) Pages.new
  have : s.maxStep = s.steps := by rw [steps_eq_top, hi.eq]
  rw [this] at hp
  exact ⟨fun p => ⟨fun h => pages_unique h hp, fun h => h ▸ hp⟩, this⟩

/-- A history: a box in fragments 2-3, in it a box from the next fragment (4) on, an image with 6 steps. -/
def exHistory : List Call :=
  [.box 0 { show_ := .str "2-3".toList }, .box 1 { show_ := .str "next+".toList, z := some 7 }, .text 2 10 5 false,
   .image 0 10 10 (some 6), .shape 1, .box 0 { show_ := .int 2, below := some 1 }]

def stateOf (cs : List Call) : State := ((run (newSlide 100 100) cs).toOption).getD (newSlide 100 100)

/-- It runs and has 6 pages. -/
example : (run (newSlide 100 100) exHistory).toOption.isSome = true ∧ (stateOf exHistory).steps = 6 ∧
    (stateOf (exHistory.take 2)).steps = 4 := by decide +kernel

/-- **C22, `next`.** A box with `show='next'` (`'next+'`) adds exactly one page, and it is visible exactly
in (from) that new last page on. -/
theorem C22_next {s s' : State} (hr : Reachable s) {p : Nat} {c : BoxCall} {src : Str} {i : Item}
    (hc : c.show_ = .str src) (hi : i = .single .next ∨ i = .opn .next) (hw : Writes isSpace src [i])
    (h : exec s (.box p c) = (s', none)) :
    s'.steps = s.steps + 1 ∧ ∃ info z, (nodes s'.tree).Perm (.box s.next info z :: nodes s.tree) ∧
      (∀ n, info.isVisible n = true ↔ (i = .single .next ∧ n = s.steps + 1) ∨ (i = .opn .next ∧ s.steps + 1 ≤ n)) := by
  have hs : s.maxStep = s.steps := by rw [steps_eq_top, hr.inv.eq]
  obtain ⟨hinv, hg⟩ := exec_ok h hr.inv
  have hs' : s'.maxStep = s'.steps := by rw [steps_eq_top, hinv.eq]
  have hl : Legal (some s.maxStep) [i] := by
    refine ⟨?_, ?_, ?_⟩
    · rcases hi with rfl | rfl <;> simp [Item.Valid, Bound.Valid]
    · rcases hi with rfl | rfl <;> simp [Item.Meaningful, Bound.value]
    · rcases hi with rfl | rfl <;> simp [Item.isOpen]
  constructor
  · rw [← hs', ← hs]
    refine greatest_unique hg ⟨?_, ?_⟩
    · right
      simp only [CallMentions, hc, Mentions]
      refine ⟨[i], hw, hl, i, by simp, ?_⟩
      rcases hi with rfl | rfl
      · left; exact ⟨rfl, rfl⟩
      · right; exact ⟨_, rfl, rfl⟩
    · rintro n (rfl | hn)
      · omega
      · simp only [CallMentions, hc, Mentions] at hn
        obtain ⟨is, h1, h2, j, hj, hx⟩ := hn
        have : is = [i] := C20_unambiguous _ _ _ h1 hw h2.valid hl.valid
        subst this
        simp only [List.mem_singleton] at hj
        subst hj
        rcases hi with rfl | rfl
        · rcases hx with ⟨-, hx⟩ | ⟨b, hb, hx⟩
          · simp only [Item.Selects, Bound.value, Option.map_some, Option.some.injEq] at hx; omega
          · cases hb
        · rcases hx with ⟨hx, -⟩ | ⟨b, hb, hx⟩
          · cases hx
          · injection hb with hb; subst hb
            simp only [Bound.value, Option.map_some, Option.some.injEq] at hx; omega
  · simp only [exec] at h
    split at h
    · obtain ⟨info, hp, hn, -⟩ := boxCall_nodes h
      refine ⟨info, _, hn, fun n => ?_⟩
      rw [hc] at hp
      obtain ⟨info', hp', hv⟩ := C19_selector_meaning (some s.maxStep) src [i] hw hl
      rw [hp] at hp'
      injection hp' with hp'; subst hp'
      rw [hv n, ← hs]
      rcases hi with rfl | rfl
      · simp only [List.mem_singleton, exists_eq_left, Item.Selects, Bound.value, Option.map_some, Option.some.injEq,
          true_and, reduceCtorEq, false_and, or_false]
        exact eq_comm
      · simp only [List.mem_singleton, exists_eq_left, Item.Selects, Bound.value, Option.map_some, Option.some.injEq,
          true_and, reduceCtorEq, false_and, false_or, exists_eq_left']
    · cases h

/-- **C22, `last`.** `show='last'` or `'last+'` never adds a page. -/
theorem C22_last {s s' : State} (hr : Reachable s) {p : Nat} {c : BoxCall} {src : Str} {i : Item}
    (hc : c.show_ = .str src) (hi : i = .single .last ∨ i = .opn .last) (hw : Writes isSpace src [i])
    (h : exec s (.box p c) = (s', none)) : s'.steps = s.steps := by
  have hs : s.maxStep = s.steps := by rw [steps_eq_top, hr.inv.eq]
  obtain ⟨hinv, hg⟩ := exec_ok h hr.inv
  have hs' : s'.maxStep = s'.steps := by rw [steps_eq_top, hinv.eq]
  rw [← hs, ← hs']
  refine greatest_unique hg ⟨Or.inl rfl, ?_⟩
  rintro n (rfl | hn)
  · exact le_refl _
  · simp only [CallMentions, hc, Mentions] at hn
    obtain ⟨is, h1, h2, j, hj, hx⟩ := hn
    have : is = [i] := C20_unambiguous _ _ _ h1 hw h2.valid (by rcases hi with rfl | rfl <;> simp [Item.Valid, Bound.Valid])
    subst this
    simp only [List.mem_singleton] at hj
    subst hj
    rcases hi with rfl | rfl
    · rcases hx with ⟨-, hx⟩ | ⟨b, hb, hx⟩
      · simp only [Item.Selects, Bound.value, Option.some.injEq] at hx; omega
      · cases hb
    · rcases hx with ⟨hx, -⟩ | ⟨b, hb, hx⟩
      · cases hx
      · injection hb with hb; subst hb
        simp only [Bound.value, Option.some.injEq] at hx; omega

/-- **C22, monotone.** No call, not even a failing one, lowers `current_fragment()`. -/
theorem C22_never_decreases (s : State) (c : Call) : s.maxStep ≤ (exec s c).1.maxStep := by
  have item : ∀ s p, (addItem s p).1.maxStep = s.maxStep := by
    intro s p
    unfold addItem
    simp only
    split <;> rfl
  cases c with
  | box p b =>
    simp only [exec]
    split
    · unfold boxCall
      split
      · exact le_refl _
      · simp only
        split
        · exact le_refl _
        · split
          · exact le_max_left _ _
          · exact le_max_left _ _
    · exact le_refl _
  | text p w h fit =>
    simp only [exec]
    split
    · rw [item]
    · exact le_refl _
  | shape p =>
    simp only [exec]
    split
    · rw [item]
    · exact le_refl _
  | image p w h steps =>
    simp only [exec]
    split
    · cases steps with
      | none => simp only; rw [item]
      | some n =>
        have : s.maxStep ≤ (ensureSteps { s with
            layouts := modifyLayout p (fun a kids => (imageSize w h a kids, kids)) s.layouts } p n).1.maxStep := by
          unfold ensureSteps
          split
          · exact le_refl _
          · exact le_max_left _ _
        simp only
        split
        · rename_i s2 e he
          rw [he] at this; exact this
        · rename_i s2 he
          rw [he] at this
          rw [item]; exact this
    · exact le_refl _

/-- In the example, `next+` opened page 4, after the pages 2-3 of the first box. -/
example : exec (stateOf (exHistory.take 1)) (.box 1 { show_ := .str "next+".toList, z := some 7 }) =
      (stateOf (exHistory.take 2), none) ∧ (stateOf (exHistory.take 1)).steps = 3 ∧
    Writes isSpace "next+".toList [.opn .next] ∧ Writes isSpace " last".toList [.single .last] :=
  ⟨rfl, by decide +kernel, by simpa [Item.source, Bound.source] using Writes.one [] [] (.opn .next) (by simp),
    by simpa [Item.source, Bound.source] using Writes.one (sp := isSpace) [' '] [] (.single .last) (by simp; decide)⟩

/-- **C23.** Every fragment mentioned by a call of the history has a page. -/
theorem C23_mentioned_fragment_has_page (w h : Rat) (cs ds : List Call) (c : Call) (mid s : State)
    (hmid : run (newSlide w h) cs = .ok mid) (hr : run mid (c :: ds) = .ok s) (n : Int)
    (hn : CallMentions mid.steps c n) : n ≤ s.steps := by
  have hi := run_inv hmid (newSlide_inv w h)
  have hm : mid.maxStep = mid.steps := by rw [steps_eq_top, hi.eq]
  simp only [run] at hr
  split at hr
  · cases hr
  · rename_i s1 he
    obtain ⟨h1, h2⟩ := exec_ok he hi
    have hle := h2.2 n (Or.inr (hm ▸ hn))
    obtain ⟨p, -, hp⟩ : ∃ p, Pages p s1.maxStep ∧ s1.maxStep ≤ s.maxStep := by
      obtain ⟨-, hp0, -⟩ := run_pages (cs := []) hmid (newSlide_inv w h) Pages.new
      exact ⟨_, Pages.call hp0 h2, (run_pages hr h1 (Pages.call hp0 h2)).2.2⟩
    have hi' := run_inv hr h1
    rw [steps_eq_top, ← hi'.eq]
    omega

/-- **C23.** No box is dropped: a box that is visible in some fragment `n` is visible in a fragment up to the
number of pages. -/
theorem C23_no_box_lost {s : State} (hr : Reachable s) {u : Nat} {info : ShowInfo} {z : Int}
    (hb : Node.box u info z ∈ nodes s.tree) {n : Int} (hn : 1 ≤ n) (hv : info.isVisible n = true) :
    ∃ m, 1 ≤ m ∧ m ≤ s.steps ∧ info.isVisible m = true ∧ m ≤ n := by
  have ok : InfoOk info := by
    obtain ⟨w, h, cs, hr⟩ := hr
    exact run_infosOk hr (newSlide_inv w h) (newSlide_infosOk w h) u info z hb
  have htop := node_le_top hb
  rw [← steps_eq_top] at htop
  have h1 : 1 ≤ s.steps := by rw [steps_eq_top]; exact s.tree.one_le_top
  unfold ShowInfo.isVisible at hv
  rw [Bool.or_eq_true] at hv
  rcases hv with hv | hv
  · have hmem : n ∈ info.steps := by simpa using hv
    refine ⟨n, hn, le_trans (ok.steps n hmem) htop, ?_, le_refl _⟩
    unfold ShowInfo.isVisible
    rw [hv, Bool.true_or]
  · cases ho : info.openStep with
    | none => rw [ho] at hv; cases hv
    | some v =>
      rw [ho] at hv
      simp only [decide_eq_true_eq] at hv
      refine ⟨max 1 v, le_max_left _ _, ?_, ?_, by omega⟩
      · have := le_trans (ok.opn v ho) htop
        omega
      · unfold ShowInfo.isVisible
        rw [ho]
        simp

/-- The box with `next+` is the only thing in it; it is visible in fragment 100, and already in page 4. -/
example : (nodes (stateOf exHistory).tree).map Node.uid = [0, 6, 1, 2, 3, 5, 4] ∧
    (parse (.str "next+".toList) (some 3)).toOption.map (fun i => (i.isVisible 100, i.isVisible 4, i.isVisible 3)) =
      some (true, true, false) := by decide +kernel

/-- All selectors around an item make it visible. -/
def shown (step : Int) (x : Nat × Int × List ShowInfo) : Bool := x.2.2.all (·.isVisible step)

theorem painters_items (step : Int) (t : Tree) : ∀ around : List ShowInfo, around.all (·.isVisible step) = true →
    t.painters step false = ((items around t).filter (shown step)).map (fun x => .item x.1 x.2.1) := by
  induction t with
  | nil => intro around h; rfl
  | item u z rest ih =>
    intro around h
    simp only [Tree.painters, items, List.filter_cons, shown, h, if_true, List.map_cons]
    rw [ih around h]
  | box u i z kids rest ihk ihr =>
    intro around h
    simp only [Tree.painters, items, List.filter_append, List.map_append]
    rw [ihr around h]
    congr 1
    by_cases hv : i.isVisible step = true
    · rw [if_pos hv, ihk (i :: around) (by simp [hv, h])]
      simp
    · rw [if_neg hv]
      have : ∀ (t : Tree) (l : List ShowInfo), i ∈ l → (items l t).filter (shown step) = [] := by
        intro t
        induction t with
        | nil => intro l _; rfl
        | item a b c ih =>
          intro l hl
          rw [items, List.filter_cons, ih l hl]
          have : shown step (a, b, l) = false := by
            unfold shown
            rw [List.all_eq_false]
            exact ⟨i, hl, hv⟩
          rw [this]; rfl
        | box a b c d e ih1 ih2 =>
          intro l hl
          rw [items, List.filter_append, ih1 _ (List.mem_cons_of_mem _ hl), ih2 l hl]; rfl
      rw [this kids (i :: around) (by simp)]
      rfl

theorem items_uids (t : Tree) : ∀ around, ((items around t).map (·.1)).Sublist ((nodes t).map Node.uid) := by
  induction t with
  | nil => intro a; exact List.Sublist.slnil
  | item u z rest ih => intro a; exact (ih a).cons_cons _
  | box u i z kids rest ihk ihr =>
    intro a
    simp only [items, nodes, List.map_append, List.map_cons]
    exact ((ihk _).append (ihr a)).cons _

/-- **C24.** On page `step` the items painted are, in depth-first order, exactly the items of the tree all of whose
enclosing boxes are visible in `step`; and no item is painted twice. -/
theorem C24_visible_items {s : State} (hr : Reachable s) (step : Int) :
    s.tree.painters step false =
      ((items [] s.tree).filter (fun x => x.2.2.all (·.isVisible step))).map (fun x => .item x.1 x.2.1) ∧
    (s.tree.painters step false).Nodup := by
  have h := painters_items step s.tree [] rfl
  refine ⟨h, ?_⟩
  rw [h]
  have hsub : (((items [] s.tree).filter (shown step)).map (·.1)).Nodup := by
    refine List.Nodup.sublist ?_ hr.fresh.nodup
    exact (List.filter_sublist.map _).trans (items_uids s.tree [])
  have : (((items [] s.tree).filter (shown step)).map (fun x => Painter.item x.1 x.2.1)).map
      (fun p => match p with | .item u _ => u | .debug u _ => u) = ((items [] s.tree).filter (shown step)).map (·.1) := by
    rw [List.map_map]; rfl
  rw [← this] at hsub
  exact List.Nodup.of_map _ hsub

/-- **C24, debugging.** With `debug_boxes` the same items are painted in the same order, and in addition the frames
of visible boxes. -/
theorem C24_debug_adds_frames (t : Tree) (step : Int) :
    (t.painters step true).filter (fun p => match p with | .item _ _ => true | .debug _ _ => false) =
      t.painters step false := by
  induction t with
  | nil => rfl
  | item u z rest ih => simp only [Tree.painters, List.filter_cons, if_true, ih]
  | box u i z kids rest ihk ihr =>
    simp only [Tree.painters, List.filter_append, ihr]
    congr 1
    by_cases hv : i.isVisible step = true
    · simp [hv, ihk]
    · simp [hv]

/-- The text in box 2 is visible in fragment 4, but the box around it only in 2-3, so nothing of it is painted;
the shape is on page 2. -/
example : (stateOf exHistory).tree.painters 4 false = [.item 4 0] ∧
    (stateOf exHistory).tree.painters 2 false = [.item 5 0, .item 4 0] := by decide +kernel

/-- **C25.** A page paints exactly the painters of the tree, ordered by z-level, and painters of equal z-level in
the order of the tree. -/
theorem C25_paint_order (s : State) (step : Int) (debug : Bool) :
    (page s step debug).Perm (s.tree.painters step debug) ∧
    (page s step debug).Pairwise (fun p q => levelOf p ≤ levelOf q) ∧
    ∀ k, (page s step debug).filter (fun p => levelOf p = k) = (s.tree.painters step debug).filter (fun p => levelOf p = k) := by
  have hz : levelOf = Painter.z := by funext p; cases p <;> rfl
  rw [hz]
  have sorted : ∀ l : List Painter, (zSort l).Pairwise (fun p q => p.z ≤ q.z) := by
    intro l
    have : Std.Total (fun p q : Painter => p.z ≤ q.z) := ⟨fun a b => le_total a.z b.z⟩
    have : IsTrans Painter (fun p q : Painter => p.z ≤ q.z) := ⟨fun a b c h1 h2 => le_trans h1 h2⟩
    exact List.pairwise_insertionSort _ l
  refine ⟨List.perm_insertionSort _ _, sorted _, ?_⟩
  intro k
  unfold page
  generalize s.tree.painters step debug = l
  induction l with
  | nil => rfl
  | cons p l ih =>
    unfold zSort at ih ⊢
    have hs := sorted l
    unfold zSort at hs
    rw [List.insertionSort_cons, orderedInsert_filter k p _ hs, List.filter_cons, List.filter_cons, ih]

/-- **C25, levels.** A new box gets the given z-level or its parent's, a new item its box's. -/
theorem C25_levels {s s' : State} (hr : Reachable s) {p : Nat} {ip : ShowInfo} {zp : Int}
    (hp : Node.box p ip zp ∈ nodes s.tree) :
    (∀ c, exec s (.box p c) = (s', none) → ∃ info, (nodes s'.tree).Perm (.box s.next info (c.z.getD zp) :: nodes s.tree)) ∧
    (exec s (.shape p) = (s', none) → (nodes s'.tree).Perm (.item s.next zp :: nodes s.tree)) ∧
    (∀ w h fit, exec s (.text p w h fit) = (s', none) → (nodes s'.tree).Perm (.item s.next zp :: nodes s.tree)) ∧
    (∀ w h, exec s (.image p w h none) = (s', none) → (nodes s'.tree).Perm (.item s.next zp :: nodes s.tree)) := by
  have hz := zOf_mem hr.fresh.nodup hp
  refine ⟨fun c h => ?_, fun h => ?_, fun w ht fit h => ?_, fun w ht h => ?_⟩
  · simp only [exec] at h
    split at h
    · obtain ⟨info, -, hn, -⟩ := boxCall_nodes h
      rw [hz] at hn
      exact ⟨info, hn⟩
    · cases h
  all_goals
    simp only [exec] at h
    split at h
    · have := (addItem_nodes h).1
      try dsimp only [] at this
      rw [hz] at this
      exact this
    · cases h

/-- Three boxes with z-levels 1, -1 and 1: the shape of the second is painted first, the others keep their order. -/
example : page (stateOf [.box 0 { z := some 1 }, .shape 1, .box 0 { z := some (-1) }, .shape 3, .box 0 { z := some 1 }, .shape 5])
    1 false = [.item 4 (-1), .item 2 1, .item 6 1] := by decide +kernel

/-- The layouts after a call. -/
def layoutsAfter (layouts : Verif.Layout.Forest) (next : Nat) : Call → Verif.Layout.Forest
  | .box p c => (match Verif.Layout.newAttrs c.layout with
    | .ok a => addLayout p next a c.layout.prepend layouts
    | .error _ => layouts)
  | .text p w h fit => modifyLayout p (fun a kids => (textSize w h fit a, kids)) layouts
  | .shape _ => layouts
  | .image p w h _ => modifyLayout p (fun a kids => (imageSize w h a kids, kids)) layouts

/-- The effect of a call on the layouts. -/
theorem exec_layouts {s s' : State} {c : Call} (h : exec s c = (s', none)) :
    s'.next = s.next + 1 ∧ s'.layouts = layoutsAfter s.layouts s.next c := by
  have item : ∀ {s s' : State} {p : Nat}, addItem s p = (s', none) → s'.layouts = s.layouts ∧ s'.next = s.next + 1 := by
    intro s s' p h
    unfold addItem at h
    simp only at h
    split at h
    · cases h
    · injection h with h _; subst h; exact ⟨rfl, rfl⟩
  have box : ∀ {s s' : State} {p : Nat} {c : BoxCall}, boxCall s p c = (s', none) → ∃ a, Verif.Layout.newAttrs c.layout = .ok a ∧
      s'.layouts = addLayout p s.next a c.layout.prepend s.layouts ∧ s'.next = s.next + 1 := by
    intro s s' p c h
    unfold boxCall at h
    split at h
    · cases h
    · rename_i a ha
      simp only at h
      split at h
      · cases h
      · split at h
        · cases h
        · injection h with h _; subst h; exact ⟨a, ha, rfl, rfl⟩
  have ens : ∀ {s s' : State} {p : Nat} {n : Int}, ensureSteps s p n = (s', none) → s'.layouts = s.layouts ∧ s'.next = s.next := by
    intro s s' p n h
    unfold ensureSteps at h
    split at h
    · cases h
    · injection h with h _; subst h; exact ⟨rfl, rfl⟩
  cases c with
  | box p b =>
    simp only [exec] at h
    split at h
    · obtain ⟨a, e1, e2, e3⟩ := box h
      simp only [layoutsAfter, e1]
      exact ⟨e3, e2⟩
    · cases h
  | text p w ht fit =>
    simp only [exec] at h
    split at h
    · obtain ⟨e1, e2⟩ := item h
      exact ⟨e2, e1⟩
    · cases h
  | shape p =>
    simp only [exec] at h
    split at h
    · obtain ⟨e1, e2⟩ := item h
      exact ⟨e2, e1⟩
    · cases h
  | image p w ht steps =>
    simp only [exec] at h
    split at h
    · cases steps with
      | none =>
        obtain ⟨e1, e2⟩ := item h
        exact ⟨e2, e1⟩
      | some n =>
        simp only at h
        split at h
        · cases h
        · rename_i s2 he
          obtain ⟨e1, e2⟩ := ens he
          obtain ⟨e3, e4⟩ := item h
          exact ⟨by rw [e4, e2], by rw [e3, e1]; rfl⟩
    · cases h

/-- One call that differs only in `show`. -/
theorem exec_same {s1 s2 s1' s2' : State} {c d : Call} (hcd : SameButShow c d) (h1 : exec s1 c = (s1', none))
    (h2 : exec s2 d = (s2', none)) (hl : s1.layouts = s2.layouts) (hn : s1.next = s2.next) :
    s1'.layouts = s2'.layouts ∧ s1'.next = s2'.next := by
  obtain ⟨k1, k2⟩ := exec_layouts h1
  obtain ⟨k3, k4⟩ := exec_layouts h2
  refine ⟨?_, by rw [k1, k3, hn]⟩
  rw [k2, k4]
  cases hcd with
  | box => simp only [layoutsAfter, hl, hn]
  | same => rw [hl, hn]

/-- **C26.** Two histories that differ only in `show` arguments give every box the same rectangle. -/
theorem C26_show_no_influence_on_layout (w h : Rat) (cs ds : List Call) (s1 s2 : State)
    (hcd : List.Forall₂ SameButShow cs ds) (h1 : run (newSlide w h) cs = .ok s1) (h2 : run (newSlide w h) ds = .ok s2)
    (width height : Rat) : s1.rects width height = s2.rects width height := by
  have : ∀ (t1 t2 : State), t1.layouts = t2.layouts → t1.next = t2.next → run t1 cs = .ok s1 → run t2 ds = .ok s2 →
      s1.layouts = s2.layouts := by
    clear h1 h2
    induction hcd with
    | nil =>
      intro t1 t2 hl hn h1 h2
      injection h1 with h1; injection h2 with h2; subst h1; subst h2
      exact hl
    | cons hc _ ih =>
      intro t1 t2 hl hn h1 h2
      simp only [run] at h1 h2
      split at h1
      · cases h1
      · rename_i u1 e1
        split at h2
        · cases h2
        · rename_i u2 e2
          obtain ⟨a, b⟩ := exec_same hc e1 e2 hl hn
          exact ih u1 u2 a b h1 h2
  have e := this _ _ rfl rfl h1 h2
  unfold State.rects
  rw [e]

/-- The same boxes with different `show`: rectangles exist and agree, the number of pages does not. -/
example : let a := stateOf [.box 0 { show_ := .int 3 }, .text 1 10 20 false, .box 0 {}, .text 3 30 5 false]
    let b := stateOf [.box 0 {}, .text 1 10 20 false, .box 0 { show_ := .str "7+".toList }, .text 3 30 5 false]
    (a.rects 100 100).toOption.map (fun e => (e 1, e 3)) = some (some ⟨45, 75/2, 10, 20⟩, some ⟨35, 115/2, 30, 5⟩) ∧
    (b.rects 100 100).toOption.map (fun e => (e 1, e 3)) = some (some ⟨45, 75/2, 10, 20⟩, some ⟨35, 115/2, 30, 5⟩) ∧
    a.steps = 3 ∧ b.steps = 7 := by decide +kernel

/-- **C27.** A successful `box()` call puts the new box where it was asked for among the children of its parent,
and leaves the children of every other box as they were. -/
theorem C27_placement {s s' : State} {p : Nat} {c : BoxCall} (h : exec s (.box p c) = (s', none)) :
    (∃ before after info z, kidsOf p s.tree = some before ∧ kidsOf p s'.tree = some after ∧
      Placed before after (.box s.next info z .nil) c.layout.prepend c.above c.below) ∧
    ∀ v, v ≠ p → v ≠ s.next →
      (kidsOf v s'.tree).map (·.map Child.uid) = (kidsOf v s.tree).map (·.map Child.uid) := by
  simp only [exec] at h
  split at h
  · rename_i hp
    unfold boxCall at h
    split at h
    · cases h
    · simp only at h
      split at h
      · cases h
      · rename_i info _
        split at h
        · cases h
        · rename_i t ht
          injection h with h _; subst h
          constructor
          · obtain ⟨i, k, i', k', e1, e2, e3⟩ := modify_kidsOf _ _ hp ht
            split at e1
            · cases e1
            · rename_i kk hk
              injection e1 with e1; injection e1 with ea eb; subst eb
              exact ⟨_, _, _, _, e2, e3, addChild_placed (fun _ => rfl) hk⟩
          · intro v hv hvn
            refine (modify_others hv ?_ _ _ ht).1
            intro i k i' k' e1
            split at e1
            · cases e1
            · rename_i kk hk
              injection e1 with e1; injection e1 with ea eb; subst eb
              unfold kidUids
              rw [kidsOf_addChild ?_ hk]
              intro t
              simp only [kidsOf]
              rw [if_neg (Ne.symm hvn)]; rfl
  · cases h

/-- **C27, errors.** Giving both `above` and `below`, or a box that is not a child of the parent, raises. -/
theorem C27_bad_placement {s : State} {p : Nat} {c : BoxCall} {before : List Child} (hk : kidsOf p s.tree = some before)
    (hbad : (c.above.isSome ∧ c.below.isSome) ∨
      (c.below = none ∧ ∃ a, c.above = some a ∧ ∀ q ∈ before, q.uid ≠ a) ∨
      (c.above = none ∧ ∃ b, c.below = some b ∧ ∀ q ∈ before, q.uid ≠ b)) :
    ∃ e, (exec s (.box p c)).2 = some e := by
  cases hx : exec s (.box p c) with
  | mk s' o =>
    cases o with
    | some e => exact ⟨e, rfl⟩
    | none =>
      exfalso
      simp only [exec] at hx
      split at hx
      · rename_i hp
        unfold boxCall at hx
        split at hx
        · cases hx
        · simp only at hx
          split at hx
          · cases hx
          · split at hx
            · cases hx
            · rename_i t ht
              obtain ⟨i, k, i', k', e1, e2, e3⟩ := modify_kidsOf _ _ hp ht
              split at e1
              · cases e1
              · rename_i kk hkk
                rw [hk] at e2
                injection e2 with e2
                have hpl := addChild_placed (x := .box s.next _ _ .nil) (fun _ => rfl) hkk
                rw [← e2] at hpl
                rcases hbad with ⟨h1, h2⟩ | ⟨h1, a, h2, h3⟩ | ⟨h1, a, h2, h3⟩
                · cases ha : c.above with
                  | none => rw [ha] at h1; cases h1
                  | some a =>
                    cases hb : c.below with
                    | none => rw [hb] at h2; cases h2
                    | some b => rw [ha, hb] at hpl; cases hpl
                · rw [h1, h2] at hpl
                  cases hpl with
                  | above g1 g2 g3 => exact h3 _ (by rw [g2]; simp) rfl
                · rw [h1, h2] at hpl
                  cases hpl with
                  | below g1 g2 g3 => exact h3 _ (by rw [g2]; simp) rfl
      · cases hx

/-- Boxes 1, 2 and then: one above 1, one below 1, a prepended one. -/
example : let s := stateOf [.box 0 {}, .box 0 {}, .box 0 { above := some 1 }, .box 0 { below := some 1 },
      .box 0 { layout := { prepend := true } }]
    (kidsOf 0 s.tree).map (·.map Child.uid) = some [5, 4, 1, 3, 2] ∧
    (exec s (.box 1 { above := some 2 })).2 = some .value := by decide +kernel

/-- What a failed call should leave as it was. -/
def Unchanged (s s' : State) : Prop :=
  s'.steps = s.steps ∧ s'.maxStep = s.maxStep ∧ (∀ step debug, page s' step debug = page s step debug) ∧
    ∀ w h, s'.rects w h = s.rects w h

/-- **C28 is false**: after a failing `box(show=[1])` (not a legal selector) the layout has a ghost that takes space, and
after a failing `box(show=5, above=...)` the next fragment is 6. -/
theorem C28_failed_box_false : ¬ ∀ (s : State) (p : Nat) (c : BoxCall) (s' : State) (e : Err), Reachable s →
    exec s (.box p c) = (s', some e) → Unchanged s s' := by
  intro h
  have := (h (newSlide 100 100) 0 { show_ := .int 5, above := some 9 } _ _ ⟨100, 100, [], rfl⟩ rfl).2.1
  exact absurd this (by decide +kernel)

/-- The ghost: a box is centred alone, unless an earlier call failed. -/
theorem C28_ghost_layout : ∃ s c s' e, Reachable s ∧ exec s (.box 0 c) = (s', some e) ∧
    (((exec s (.box 0 { layout := { height := .num 10 } })).1.rects 100 100).toOption.bind (· 1)).map (·.y) = some 45 ∧
    (((exec s' (.box 0 { layout := { height := .num 10 } })).1.rects 100 100).toOption.bind (· 2)).map (·.y) = some 65 :=
  ⟨newSlide 100 100, { show_ := .other, layout := { height := .num 40 } }, _, _, ⟨100, 100, [], rfl⟩, rfl,
    by decide +kernel, by decide +kernel⟩

/-- **C28, what holds.** A failing `box()` never changes the number of pages or what is painted; and if it fails
because of its size, position or padding arguments, it changes nothing at all. -/
theorem C28_failed_box_partial (s : State) (p : Nat) (c : BoxCall) (s' : State) (e : Err)
    (h : exec s (.box p c) = (s', some e)) :
    s'.tree = s.tree ∧ s'.steps = s.steps ∧ (∀ step debug, page s' step debug = page s step debug) ∧
    ((∃ e', Verif.Layout.newAttrs c.layout = .error e') → s' = s) := by
  have ht : s'.tree = s.tree ∧ ((∃ e', Verif.Layout.newAttrs c.layout = .error e') → s' = s) := by
    simp only [exec] at h
    split at h
    · unfold boxCall at h
      split at h
      · injection h with h _; subst h; exact ⟨rfl, fun _ => rfl⟩
      · rename_i a ha
        have hno : ∀ {P : Prop}, (∃ e', Verif.Layout.newAttrs c.layout = .error e') → P := by
          rintro P ⟨e', he⟩
          rw [ha] at he; cases he
        simp only at h
        split at h
        · injection h with h _; subst h; exact ⟨rfl, hno⟩
        · split at h
          · injection h with h _; subst h; exact ⟨rfl, hno⟩
          · cases h
    · injection h with h _; subst h; exact ⟨rfl, fun _ => rfl⟩
  refine ⟨ht.1, ?_, ?_, ht.2⟩
  · unfold State.steps; rw [ht.1]
  · intro step debug; unfold page; rw [ht.1]

/-- Failing calls of both kinds. -/
example : (exec (newSlide 100 100) (.box 0 { layout := { width := .str "wide".toList } })).2.isSome = true ∧
    (exec (newSlide 100 100) (.box 0 { show_ := .str "3-1".toList })).2 = some .assertion := by decide +kernel

end Verif.Slide
