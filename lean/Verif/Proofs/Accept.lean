import Verif.Spec.Accept
import Verif.Props.Calls
import Verif.Props.History
import Verif.Props.SlideCalls
import Verif.Props.LayoutStrings
import Verif.Props.Show

/-! # Lemmas: which calls are accepted -/

namespace Verif.Slide
open Verif.Show (ShowInfo ShowArg)
open Verif.Show.Spec
open Verif.Layout (Attrs Forest Env newAttrs Arg Pos Size BoxArgs parsePos parseSize parseOptPos orZero chomp)
open Verif.Layout.Spec Verif.Slide.Spec

theorem posText_last {t : Str} {v : Pos} (h : PosText t v) : ∃ c, t.getLast? = some c ∧ c ≠ '\n' := by
  cases h with
  | number hn =>
    obtain ⟨c, hc, hd⟩ := Verif.Layout.numeral_last hn
    exact ⟨c, hc, (Verif.Layout.digit_not hd).1⟩
  | percent hn => exact ⟨'%', by simp, by decide⟩
  | align hn => exact ⟨']', by rw [List.getLast?_append]; rfl, by decide⟩

theorem chomp_snoc (t : Str) : chomp (t ++ ['\n']) = t := by
  unfold chomp
  simp

theorem posOk_iff (a : Arg) : (∃ p, parseOptPos a = .ok p) ↔ PosOk a := by
  cases a with
  | none => exact ⟨fun _ => trivial, fun _ => ⟨_, rfl⟩⟩
  | num q => exact ⟨fun _ => trivial, fun _ => ⟨_, rfl⟩⟩
  | lazy v => exact ⟨fun _ => trivial, fun _ => ⟨_, rfl⟩⟩
  | other => exact ⟨fun ⟨_, h⟩ => (by cases h), fun h => False.elim h⟩
  | str s =>
    have h0 : (∃ p, parseOptPos (.str s) = .ok p) ↔ ∃ p, parsePos (.str s) = .ok p := by
      unfold parseOptPos
      constructor
      · rintro ⟨p, hp⟩
        simp only at hp
        split at hp
        · rename_i q hq; exact ⟨q, hq⟩
        · cases hp
      · rintro ⟨p, hp⟩
        simp only
        rw [hp]
        exact ⟨_, rfl⟩
    rw [h0]
    constructor
    · rintro ⟨p, hp⟩
      rcases Verif.Layout.C39_position_strings_partial s with ⟨v, t, nl, -, h2, h3, h4⟩ | ⟨msg, h1, -⟩
      · exact ⟨v, t, nl, h2, h3, h4⟩
      · rw [h1] at hp; cases hp
    · rintro ⟨v, t, nl, rfl, h2, h3⟩
      have ht := Verif.Layout.C39_position_strings_accepted t v h2
      rcases h3 with rfl | rfl
      · rw [List.append_nil]; exact ⟨v, ht⟩
      · refine ⟨v, ?_⟩
        obtain ⟨c, hc, hn⟩ := posText_last h2
        rw [← ht]
        simp only [parsePos]
        rw [chomp_snoc, Verif.Layout.chomp_of_last hc hn]

theorem sizeText_last {t : Str} {v : Size} (h : SizeText t v) : ∃ c, t.getLast? = some c ∧ c ≠ '\n' ∧ (c = ')' → ∃ ds, Numeral ds ∧ t = ['f', 'i', 'l', 'l', '('] ++ ds ++ [')']) := by
  cases h with
  | number hn =>
    obtain ⟨c, hc, hd⟩ := Verif.Layout.numeral_last hn
    exact ⟨c, hc, (Verif.Layout.digit_not hd).1, fun e => absurd e (Verif.Layout.digit_not hd).2.2.1⟩
  | percent hn => exact ⟨'%', by simp, by decide, fun e => absurd e (by decide)⟩
  | fill => exact ⟨'l', rfl, by decide, fun e => absurd e (by decide)⟩
  | fillN hn => exact ⟨')', by rw [List.getLast?_append]; rfl, by decide, fun _ => ⟨_, hn, rfl⟩⟩

theorem last_replicate (k : Nat) : (List.replicate (k + 1) ')').getLast? = some ')' := by
  rw [List.getLast?_replicate, if_neg (Nat.succ_ne_zero k)]

theorem parse_fills {ds : Str} (hn : Numeral ds) (k : Nat) : ∃ v, parseSize (.str (['f', 'i', 'l', 'l', '('] ++ ds ++ [')'] ++ List.replicate k ')')) = .ok v := by
  set s : Str := ['f', 'i', 'l', 'l', '('] ++ ds ++ [')'] ++ List.replicate k ')' with hs
  have e : s = ['f', 'i', 'l', 'l', '('] ++ (ds ++ List.replicate (k + 1) ')') := by rw [hs, List.replicate_succ]; simp
  have hlast : s.getLast? = some ')' := by
    rw [e, ← List.append_assoc, List.getLast?_append, last_replicate]
    rfl
  have htw := Verif.Show.takeWhile_digits ds (List.replicate (k + 1) ')') ((Verif.Show.numeral_iff ds).mp hn).2 (by simp [List.replicate_succ]; decide)
  have hfn : Verif.Layout.fillNumber (ds ++ List.replicate (k + 1) ')') = some (numeralValue ds) := by
    unfold Verif.Layout.fillNumber
    simp only [htw.1, htw.2]
    rw [if_pos ⟨hn.1, by simp, by simp⟩, Verif.Show.intOfDigits_eq]
  simp only [parseSize]
  rw [Verif.Layout.chomp_of_last hlast (by decide),
    if_neg (by rw [Verif.Layout.not_numeral_of_mem (c := 'f') (by rw [e]; simp) (by decide)]; decide),
    if_neg (by rw [hlast]; simp), if_neg (by rw [e]; simp), if_pos (by rw [e]; simp [List.isPrefixOf])]
  have hd : s.drop 5 = ds ++ List.replicate (k + 1) ')' := by rw [e]; rfl
  rw [hd, hfn]
  exact ⟨_, rfl⟩

theorem sizeOk_iff (a : Arg) : (∃ p, parseSize (orZero a) = .ok p) ↔ SizeOk a := by
  cases a with
  | none => exact ⟨fun _ => trivial, fun _ => ⟨_, rfl⟩⟩
  | num q => exact ⟨fun _ => trivial, fun _ => ⟨_, rfl⟩⟩
  | lazy v => exact ⟨fun _ => trivial, fun _ => ⟨_, rfl⟩⟩
  | other => exact ⟨fun ⟨_, h⟩ => (by cases h), fun h => False.elim h⟩
  | str s =>
    cases s with
    | nil => exact ⟨fun _ => .inl rfl, fun _ => ⟨_, rfl⟩⟩
    | cons c0 s0 =>
      have h0 : orZero (.str (c0 :: s0)) = .str (c0 :: s0) := rfl
      rw [h0]
      constructor
      · rintro ⟨p, hp⟩
        rcases Verif.Layout.C38_size_strings_partial (c0 :: s0) with ⟨v, t, k, nl, -, h2, h3, h4⟩ | ⟨msg, h1, -⟩
        · exact .inr ⟨v, t, k, nl, h2, h3, h4⟩
        · rw [h1] at hp; cases hp
      · rintro (h | ⟨v, t, k, nl, he, h2, h3, h4⟩)
        · cases h
        · rw [he]
          have key : ∃ p, parseSize (.str (t ++ List.replicate k ')')) = .ok p := by
            rcases h3 with rfl | h3
            · rw [List.replicate_zero, List.append_nil]
              exact ⟨v, Verif.Layout.C38_size_strings_accepted t v h2⟩
            · obtain ⟨c, hc, -, hf⟩ := sizeText_last h2
              rw [h3] at hc; injection hc with hc
              obtain ⟨ds, hn, rfl⟩ := hf hc.symm
              exact parse_fills hn k
          rcases h4 with rfl | rfl
          · rw [List.append_nil]; exact key
          · obtain ⟨p, hp⟩ := key
            refine ⟨p, ?_⟩
            rw [← hp]
            simp only [parseSize]
            have hl : ∃ c, (t ++ List.replicate k ')').getLast? = some c ∧ c ≠ '\n' := by
              cases k with
              | zero =>
                obtain ⟨c, hc, hn, -⟩ := sizeText_last h2
                exact ⟨c, by simpa using hc, hn⟩
              | succ k => exact ⟨')', by rw [List.getLast?_append, last_replicate]; rfl, by decide⟩
            obtain ⟨c, hc, hn⟩ := hl
            rw [chomp_snoc, Verif.Layout.chomp_of_last hc hn]

theorem newAttrs_ok (b : BoxArgs) : (∃ a, newAttrs b = .ok a) ↔ PosOk b.x ∧ PosOk b.y ∧ SizeOk b.width ∧ SizeOk b.height := by
  rw [← posOk_iff, ← posOk_iff, ← sizeOk_iff, ← sizeOk_iff]
  constructor
  · rintro ⟨a, ha⟩
    obtain ⟨h1, h2, h3, h4⟩ := Verif.Layout.newAttrs_sizes ha
    exact ⟨⟨_, h1⟩, ⟨_, h2⟩, ⟨_, h3⟩, ⟨_, h4⟩⟩
  · rintro ⟨⟨_, h1⟩, ⟨_, h2⟩, ⟨_, h3⟩, ⟨_, h4⟩⟩
    unfold newAttrs
    rw [h1, h2, h3, h4]
    exact ⟨_, rfl⟩

theorem show_ok (arg : ShowArg) (cur : Int) : (∃ i, Verif.Show.parse arg (some cur) = .ok i) ↔ ShowOk cur arg := by
  cases arg with
  | none => exact ⟨fun _ => trivial, fun _ => ⟨_, rfl⟩⟩
  | int k => exact ⟨fun _ => trivial, fun _ => ⟨_, rfl⟩⟩
  | str s => exact Verif.Show.C20_only_legal_selectors (some cur) s
  | other => exact ⟨fun ⟨_, h⟩ => (by cases h), fun h => False.elim h⟩

/-! ### the tree -/

theorem node_has {t : Tree} {u : Nat} {i : ShowInfo} {z : Int} (h : Node.box u i z ∈ nodes t) : t.has u = true := by
  induction t with
  | nil => cases h
  | item v y rest ih =>
    simp only [nodes, List.mem_cons, reduceCtorEq, false_or] at h
    exact ih h
  | box v j y kids rest ihk ihr =>
    simp only [nodes, List.mem_cons, List.mem_append] at h
    simp only [Tree.has, Bool.or_eq_true, beq_iff_eq]
    rcases h with h | h | h
    · injection h with h; exact .inl (.inl h.symm)
    · exact .inl (.inr (ihk h))
    · exact .inr (ihr h)

theorem modify_ok {u : Nat} : ∀ t : Tree, t.has u = true → ∃ i k, kidsOf u t = some (children k) ∧
    ∀ g : ShowInfo → Tree → Except Err (ShowInfo × Tree), (∃ t', t.modify u g = .ok t') ↔ ∃ r, g i k = .ok r := by
  intro t
  induction t with
  | nil => intro h; cases h
  | item v z rest ih =>
    intro h
    obtain ⟨i, k, h1, h2⟩ := ih h
    refine ⟨i, k, h1, fun g => ?_⟩
    rw [← h2 g]
    simp only [Tree.modify]
    cases rest.modify u g <;> simp
  | box v j z kids rest ihk ihr =>
    intro h
    by_cases hv : v = u
    · refine ⟨j, kids, by simp [kidsOf, hv], fun g => ?_⟩
      simp only [Tree.modify, if_pos hv]
      cases hg : g j kids <;> simp
    · simp only [Tree.has, Bool.or_eq_true, beq_iff_eq, hv, false_or] at h
      cases hk : kids.has u with
      | true =>
        obtain ⟨i, k, h1, h2⟩ := ihk hk
        refine ⟨i, k, by simp [kidsOf, hv, h1], fun g => ?_⟩
        rw [← h2 g]
        simp only [Tree.modify, if_neg hv, hk, if_true]
        cases kids.modify u g <;> simp
      | false =>
        rw [hk] at h
        obtain ⟨i, k, h1, h2⟩ := ihr (by simpa using h)
        refine ⟨i, k, by simp [kidsOf, hv, kidsOf_none kids hk, h1], fun g => ?_⟩
        rw [← h2 g]
        simp only [Tree.modify, if_neg hv, hk, Bool.false_eq_true, if_false]
        cases rest.modify u g <;> simp

theorem before_ok (c : Nat) (obj : Tree → Tree) : ∀ t : Tree, (∃ t', t.insertBefore c obj = .ok t') ↔ c ∈ (children t).map Child.uid := by
  intro t
  induction t with
  | nil => simp [Tree.insertBefore, children]
  | item v z rest ih =>
    simp only [Tree.insertBefore, children, List.map_cons, List.mem_cons, Child.uid]
    by_cases hv : v = c
    · simp [hv]
    · rw [if_neg hv, ← ih]
      cases rest.insertBefore c obj <;> simp [Ne.symm hv]
  | box v j z kids rest ihk ihr =>
    simp only [Tree.insertBefore, children, List.map_cons, List.mem_cons, Child.uid]
    by_cases hv : v = c
    · simp [hv]
    · rw [if_neg hv, ← ihr]
      cases rest.insertBefore c obj <;> simp [Ne.symm hv]

theorem after_ok (c : Nat) (obj : Tree → Tree) : ∀ t : Tree, (∃ t', t.insertAfter c obj = .ok t') ↔ c ∈ (children t).map Child.uid := by
  intro t
  induction t with
  | nil => simp [Tree.insertAfter, children]
  | item v z rest ih =>
    simp only [Tree.insertAfter, children, List.map_cons, List.mem_cons, Child.uid]
    by_cases hv : v = c
    · simp [hv]
    · rw [if_neg hv, ← ih]
      cases rest.insertAfter c obj <;> simp [Ne.symm hv]
  | box v j z kids rest ihk ihr =>
    simp only [Tree.insertAfter, children, List.map_cons, List.mem_cons, Child.uid]
    by_cases hv : v = c
    · simp [hv]
    · rw [if_neg hv, ← ihr]
      cases rest.insertAfter c obj <;> simp [Ne.symm hv]

theorem putAt_mem {l l' : List Nat} {x : Nat} {pre : Bool} {a b : Option Nat} (h : PutAt l l' x pre a b) (u : Nat) : u ∈ l' ↔ u ∈ l ∨ u = x := by
  cases h with
  | first _ h => subst h; simp [or_comm]
  | last _ h => subst h; simp
  | above _ h1 h2 => subst h1 h2; simp; tauto
  | below _ h1 h2 => subst h1 h2; simp; tauto

theorem putInto_snoc {cs : List Call} {c : Call} {p u : Nat} : PutInto (cs ++ [c]) p u ↔ PutInto cs p u ∨ (u = cs.length + 1 ∧ target c = p) := by
  constructor
  · rintro ⟨k, d, rfl, h2, h3⟩
    rcases Nat.lt_trichotomy k cs.length with h | h | h
    · exact .inl ⟨k, d, rfl, by rwa [List.getElem?_append_left h] at h2, h3⟩
    · subst h
      simp at h2; subst h2
      exact .inr ⟨rfl, h3⟩
    · rw [List.getElem?_eq_none (by simp; omega)] at h2; cases h2
  · rintro (⟨k, d, rfl, h2, h3⟩ | ⟨rfl, h⟩)
    · exact ⟨k, d, rfl, by rw [List.getElem?_append_left (List.getElem?_eq_some_iff.mp h2).1]; exact h2, h3⟩
    · exact ⟨cs.length, c, rfl, by simp, h⟩

theorem kids_mem {p : Nat} {cs : List Call} {l : List Nat} (h : Kids p cs l) (u : Nat) : u ∈ l ↔ PutInto cs p u := by
  induction h with
  | new => simp [PutInto]
  | elsewhere _ ht ih => rw [putInto_snoc, ih]; simp [ht]
  | item _ _ ht ih => rw [putInto_snoc, List.mem_append, ih]; simp [ht]
  | box _ hp ih => rw [putInto_snoc, putAt_mem hp, ih]; simp [target]

theorem madeBy_snoc {cs : List Call} {c : Call} {p : Nat} {b : BoxArgs} : madeBy (cs ++ [c]) p = some b ↔ madeBy cs p = some b ∨ (p = cs.length + 1 ∧ ∃ q d, c = .box q d ∧ d.layout = b) := by
  cases p with
  | zero => simp [madeBy]
  | succ k =>
    simp only [madeBy]
    rcases Nat.lt_trichotomy k cs.length with h | h | h
    · rw [List.getElem?_append_left h]
      constructor
      · exact .inl
      · rintro (h' | ⟨h', -⟩)
        · exact h'
        · omega
    · subst h
      simp only [List.getElem?_concat_length, List.getElem?_eq_none (le_refl _)]
      cases c <;> simp
    · rw [List.getElem?_eq_none (by simp; omega), List.getElem?_eq_none (by omega)]
      simp; omega

theorem isBox_snoc {cs : List Call} {c : Call} {p : Nat} : IsBox (cs ++ [c]) p ↔ IsBox cs p ∨ (p = cs.length + 1 ∧ isBox c = true) := by
  unfold IsBox
  constructor
  · rintro (h | ⟨b, hb⟩)
    · exact .inl (.inl h)
    · rcases madeBy_snoc.mp hb with h | ⟨h, q, d, rfl, -⟩
      · exact .inl (.inr ⟨b, h⟩)
      · exact .inr ⟨h, rfl⟩
  · rintro ((h | ⟨b, hb⟩) | ⟨h1, h2⟩)
    · exact .inl h
    · exact .inr ⟨b, madeBy_snoc.mpr (.inl hb)⟩
    · cases c with
      | box q d => exact .inr ⟨d.layout, madeBy_snoc.mpr (.inr ⟨h1, q, d, rfl, rfl⟩)⟩
      | _ => cases h2

theorem has_isBox (w h : Rat) (cs : List Call) : ∀ s, run (newSlide w h) cs = .ok s → ∀ p, s.tree.has p = true ↔ IsBox cs p := by
  induction cs using List.reverseRecOn with
  | nil =>
    intro s hs p
    injection hs with hs; subst hs
    simp [newSlide, Tree.has, IsBox, madeBy]
    constructor
    · rintro rfl; exact .inl rfl
    · rintro (h | ⟨b, hb⟩)
      · exact h.symm
      · cases p <;> simp [madeBy] at hb
  | append_singleton cs c ih =>
    intro s hs p
    obtain ⟨s1, h1, h2⟩ := run_append hs
    have hn : s1.next = cs.length + 1 := by rw [run_next h1]; simp [newSlide]; omega
    have he : exec s1 c = (s, none) := by
      simp only [run] at h2
      split at h2
      · cases h2
      · rename_i s2 he
        injection h2 with h2; subst h2; exact he
    rw [isBox_snoc, ← ih s1 h1]
    constructor
    · intro hp
      rcases exec_has he hp with h | ⟨h, q, b, rfl⟩
      · exact .inl h
      · exact .inr ⟨h.trans hn, rfl⟩
    · rintro (hp | ⟨hp, hb⟩)
      · obtain ⟨i, z, hm⟩ := has_node hp
        obtain ⟨y, hy, hs⟩ := C19_kept h2 _ hm
        cases hs with
        | box _ _ _ _ _ => exact node_has hy
      · cases c with
        | box q b =>
          simp only [exec] at he
          split at he
          · obtain ⟨info, -, hp', -⟩ := boxCall_nodes he
            rw [hp, ← hn]
            exact node_has ((hp'.mem_iff).mpr (.head _))
          · cases he
        | _ => cases hb

theorem addItem_total {s : State} {p : Nat} (h : s.tree.has p = true) : ∃ s', addItem s p = (s', none) := by
  obtain ⟨i, k, -, hm⟩ := modify_ok s.tree h
  obtain ⟨t, ht⟩ := (hm (fun i kids => .ok (i, kids.append (.item s.next ((s.tree.zOf p).getD 0))))).mpr ⟨_, rfl⟩
  unfold addItem
  simp only [ht]
  exact ⟨_, rfl⟩

theorem exec_item {s : State} {c : Call} (hb : isBox c = false) : (∃ s', exec s c = (s', none)) ↔ s.tree.has (target c) = true := by
  cases c with
  | box p b => cases hb
  | text p w h f =>
    simp only [exec, target]
    cases hp : s.tree.has p with
    | false => simp
    | true =>
      simp only [if_true, iff_true]
      exact addItem_total (s := { s with layouts := _ }) hp
  | shape p =>
    simp only [exec, target]
    cases hp : s.tree.has p with
    | false => simp
    | true =>
      simp only [if_true, iff_true]
      exact addItem_total hp
  | image p w h steps =>
    simp only [exec, target]
    cases hp : s.tree.has p with
    | false => simp
    | true =>
      simp only [if_true, iff_true]
      cases steps with
      | none => exact addItem_total (s := { s with layouts := _ }) hp
      | some n =>
        obtain ⟨i, k, -, hm⟩ := modify_ok s.tree hp
        obtain ⟨t, ht⟩ := (hm (fun i kids => .ok (i.ensureSteps n, kids))).mpr ⟨_, rfl⟩
        simp only [ensureSteps, ht]
        refine addItem_total (s := { s with tree := t, layouts := _, maxStep := _ }) ?_
        refine modify_has _ _ ?_ ht hp
        intro i kids i' kids' e hv
        injection e with e; injection e with _ e; subst e
        exact hv

/-- At most one of the two is given, and it is in the list. -/
def placeIn (l : List Nat) : Option Nat → Option Nat → Prop
  | some _, some _ => False
  | none, some c => c ∈ l
  | some a, none => a ∈ l
  | none, none => True

theorem run_then {s s1 s' : State} {cs : List Call} {c : Call} (h1 : run s cs = .ok s1) (h2 : exec s1 c = (s', none)) : run s (cs ++ [c]) = .ok s' := by
  induction cs generalizing s with
  | nil => injection h1 with h1; subst h1; simp [run, h2]
  | cons d cs ih =>
    simp only [List.cons_append, run] at h1 ⊢
    split at h1
    · cases h1
    · exact ih h1

theorem exec_box {s : State} {p : Nat} {b : BoxCall} {l : List Nat} (hk : kidUids p s.tree = some l) :
    (∃ s', exec s (.box p b) = (s', none)) ↔ (∃ a, newAttrs b.layout = .ok a) ∧ (∃ i, Verif.Show.parse b.show_ (some s.maxStep) = .ok i) ∧
      placeIn l b.above b.below := by
  have hp : s.tree.has p = true := by
    cases hx : s.tree.has p with
    | true => rfl
    | false => simp [kidUids, kidsOf_none s.tree hx] at hk
  obtain ⟨i0, k0, hk0, hm⟩ := modify_ok s.tree hp
  have hl : (children k0).map Child.uid = l := by
    unfold kidUids at hk
    rw [hk0] at hk
    injection hk
  simp only [exec, hp, if_true, boxCall]
  cases ha : newAttrs b.layout with
  | error e => simp
  | ok a =>
    cases hs : Verif.Show.parse b.show_ (some s.maxStep) with
    | error e => simp
    | ok info =>
      simp only [Except.ok.injEq, exists_eq', true_and]
      set g : ShowInfo → Tree → Except Err (ShowInfo × Tree) := fun i kids =>
          match addChild kids (.box s.next info (b.z.getD ((s.tree.zOf p).getD 0)) .nil) b.layout.prepend b.above b.below with
          | .error e => .error e
          | .ok kids => .ok (i, kids) with hg
      have h1 := hm g
      have h2 : (∃ r, g i0 k0 = .ok r) ↔ ∃ t, addChild k0 (.box s.next info (b.z.getD ((s.tree.zOf p).getD 0)) .nil) b.layout.prepend b.above b.below = .ok t := by
        rw [hg]
        simp only
        cases addChild k0 (.box s.next info (b.z.getD ((s.tree.zOf p).getD 0)) .nil) b.layout.prepend b.above b.below <;> simp
      have h3 : (∃ t, addChild k0 (.box s.next info (b.z.getD ((s.tree.zOf p).getD 0)) .nil) b.layout.prepend b.above b.below = .ok t) ↔ placeIn l b.above b.below := by
        unfold addChild
        cases b.above with
        | none =>
          cases b.below with
          | none => simp [placeIn]
          | some c => simp only [placeIn]; rw [before_ok, hl]
        | some a =>
          cases b.below with
          | none => simp only [placeIn]; rw [after_ok, hl]
          | some c => simp [placeIn]
      rw [← h3, ← h2, ← h1]
      cases s.tree.modify p g <;> simp

end Verif.Slide
