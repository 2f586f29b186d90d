import Verif.Spec.Image
import Verif.Props.Show

/-! # Lemmas about image fragments -/

namespace Verif.Image
open Spec Verif.Show

/-! ### Labels -/

theorem cut_some {l a b : Str} (h : cut l = some (a, b)) :
    l = a ++ "**".toList ++ b ∧ ¬ "**".toList <:+: a ++ ['*'] := by
  induction l using cut.induct generalizing a b with
  | case1 => cases h
  | case2 r =>
    rw [cut] at h
    cases h
    refine ⟨rfl, ?_⟩
    intro hi
    have := hi.length_le
    simp at this
  | case3 c r hne a' b' hc ih =>
    rw [cut] at h
    · rw [hc] at h
      cases h
      obtain ⟨h1, h2⟩ := ih hc
      refine ⟨by rw [h1]; simp, ?_⟩
      intro hi
      rcases List.infix_cons_iff.mp (show "**".toList <:+: c :: (a' ++ ['*']) from hi) with hp | hi
      · obtain ⟨t, ht⟩ := hp
        have e1 : '*' = c := by injection ht
        have e2 : '*' :: t = a' ++ ['*'] := by injection ht
        cases a' with
        | nil =>
          exact hne ('*' :: b') e1.symm (by rw [h1]; rfl)
        | cons x xs =>
          have : '*' = x := by injection e2
          subst this
          exact hne (xs ++ "**".toList ++ b') e1.symm (by rw [h1]; rfl)
      · exact h2 hi
    · intro r' hc' hr
      exact hne r' hc' hr
  | case4 c r hne hc ih =>
    rw [cut, hc] at h
    · cases h
    · intro r' hc' hr
      exact hne r' hc' hr

theorem cut_none {l : Str} : cut l = none ↔ ¬ "**".toList <:+: l := by
  induction l using cut.induct with
  | case1 => simp [cut]
  | case2 r =>
    rw [cut]
    simp only [reduceCtorEq, false_iff, not_not]
    exact ⟨[], r, rfl⟩
  | case3 c r hne a' b' hc ih =>
    rw [cut, hc]
    · rw [hc] at ih
      simp only [reduceCtorEq, false_iff, not_not] at ih ⊢
      exact List.infix_cons ih
    · intro r' hc' hr
      exact hne r' hc' hr
  | case4 c r hne hc ih =>
    rw [cut, hc]
    · simp only [hc, true_iff] at ih ⊢
      intro hi
      rcases List.infix_cons_iff.mp hi with hp | hi
      · obtain ⟨t, ht⟩ := hp
        have e1 : '*' = c := by injection ht
        have e2 : '*' :: t = r := by injection ht
        exact hne t e1.symm e2.symm
      · exact ih hi
    · intro r' hc' hr
      exact hne r' hc' hr

theorem cut_append {a b : Str} (h : ¬ "**".toList <:+: a ++ ['*']) : cut (a ++ "**".toList ++ b) = some (a, b) := by
  induction a with
  | nil => rfl
  | cons c a ih =>
    have ha : ¬ "**".toList <:+: a ++ ['*'] := fun hi => h (List.infix_cons hi)
    rw [List.cons_append, List.cons_append, cut, ih ha]
    intro r hc hr
    subst hc
    apply h
    cases a with
    | nil => exact ⟨[], [], rfl⟩
    | cons x a =>
      have : x = '*' := by injection hr
      subst this
      exact ⟨[], a ++ ['*'], rfl⟩

theorem secondPart_spec {l a r : Str} (h : cut l = some (a, r)) : LabelShow l (secondPart r) := by
  obtain ⟨h1, h2⟩ := cut_some h
  unfold secondPart
  split
  · rename_i s b hc
    obtain ⟨h3, h4⟩ := cut_some hc
    rw [h1, h3]
    have := LabelShow.closed a s b h2 h4
    simpa using this
  · rename_i hc
    rw [h1]
    exact LabelShow.toEnd a r h2 (cut_none.mp hc)

theorem Spec.LabelShow.cut {l s : Str} (h : LabelShow l s) : ∃ a r, Image.cut l = some (a, r) ∧ secondPart r = s := by
  cases h with
  | toEnd a _ h1 h2 => exact ⟨a, s, cut_append h1, by unfold secondPart; rw [cut_none.mpr h2]⟩
  | closed a _ b h1 h2 =>
    refine ⟨a, s ++ "**".toList ++ b, ?_, by unfold secondPart; rw [cut_append h2]⟩
    have := cut_append (b := s ++ "**".toList ++ b) h1
    simpa using this

/-- Whether a label hides its element in a fragment, as the code decides it. -/
def hiddenB (f : Int) (label : Option Str) : Bool :=
  match fromLabel label with
  | .ok (some i) => !i.isVisible f
  | _ => false

theorem fromLabel_of_show {l s : Str} (h : LabelShow l s) : fromLabel (some l) =
    match parse (.str s) none with
    | .error e => .error e
    | .ok info => .ok (some info) := by
  obtain ⟨a, r, hc, hs⟩ := h.cut
  simp only [fromLabel, hc, hs]
  cases parse (.str s) none <;> rfl

theorem hiddenIn_iff (f : Int) (label : Option Str) : HiddenIn f label ↔
    ∃ l s info, label = some l ∧ LabelShow l s ∧ parse (.str s) none = .ok info ∧ info.isVisible f = false := by
  constructor
  · rintro ⟨l, s, is, h1, h2, h3, h4, h5⟩
    obtain ⟨info, hp, hv⟩ := C19_selector_meaning none s is h3 h4
    refine ⟨l, s, info, h1, h2, hp, ?_⟩
    rw [← Bool.not_eq_true, hv]
    rintro ⟨i, hi, hs⟩
    exact h5 i hi hs
  · rintro ⟨l, s, info, h1, h2, hp, hv⟩
    obtain ⟨is, h3, h4⟩ := (C20_only_legal_selectors none s).mp ⟨info, hp⟩
    obtain ⟨info', hp', hv'⟩ := C19_selector_meaning none s is h3 h4
    rw [hp] at hp'
    cases hp'
    refine ⟨l, s, is, h1, h2, h3, h4, fun i hi hs => ?_⟩
    rw [(hv' f).mpr ⟨i, hi, hs⟩] at hv
    cases hv

theorem hiddenB_iff (f : Int) (label : Option Str) : hiddenB f label = true ↔ HiddenIn f label := by
  rw [hiddenIn_iff]
  constructor
  · intro h
    unfold hiddenB at h
    split at h
    · rename_i i hi
      cases label with
      | none => cases hi
      | some l =>
        unfold fromLabel at hi
        dsimp only at hi
        split at hi
        · cases hi
        · rename_i a r hc
          split at hi
          · cases hi
          · rename_i info hp
            cases hi
            exact ⟨l, _, _, rfl, secondPart_spec hc, hp, by simpa using h⟩
    · cases h
  · rintro ⟨l, s, info, rfl, hs, hp, hv⟩
    unfold hiddenB
    rw [fromLabel_of_show hs, hp]
    simp [hv]

theorem goodLabel_iff (label : Option Str) : GoodLabel label ↔ ∃ i, fromLabel label = .ok i := by
  have : GoodLabel label ↔ ∀ l s, label = some l → LabelShow l s → ∃ info, parse (.str s) none = .ok info := by
    unfold GoodLabel
    simp only [C20_only_legal_selectors]
  rw [this]
  constructor
  · intro h
    cases label with
    | none => exact ⟨none, rfl⟩
    | some l =>
      cases hc : cut l with
      | none => exact ⟨none, by simp [fromLabel, hc]⟩
      | some p =>
        obtain ⟨info, hi⟩ := h l _ rfl (secondPart_spec (l := l) (a := p.1) (r := p.2) hc)
        exact ⟨some info, by simp [fromLabel, hc, hi]⟩
  · rintro ⟨i, hi⟩ l s rfl hs
    rw [fromLabel_of_show hs] at hi
    split at hi
    · cases hi
    · rename_i info hp; exact ⟨info, hp⟩

/-! ### Finding hidden elements -/

theorem findHidden_node (step : Int) (p : Nat) (e : Elem) (kids rest : Forest) :
    findHidden step p (.node e kids rest) =
      match labelInfo e with
      | .error er => .error er
      | .ok _ =>
        if hiddenB step e.label then
          match findHidden step p rest with
          | .error er => .error er
          | .ok l => .ok ((p, e.id) :: l)
        else
          match findHidden step e.id kids with
          | .error er => .error er
          | .ok k =>
            match findHidden step p rest with
            | .error er => .error er
            | .ok l => .ok (k ++ l) := by
  rw [findHidden]
  unfold hiddenB labelInfo
  cases fromLabel e.label with
  | error er => rfl
  | ok i => cases i <;> rfl

theorem findHidden_ok (step : Int) (p : Nat) (f : Forest) :
    (∃ l, findHidden step p f = .ok l) ↔ GoodLabels (hiddenB step) f := by
  induction f generalizing p with
  | nil => simp [findHidden, GoodLabels]
  | node e kids rest ihk ihr =>
    rw [findHidden_node, GoodLabels, goodLabel_iff, ← ihr p, ← ihk e.id]
    unfold labelInfo
    cases hl : fromLabel e.label with
    | error er => simp
    | ok i =>
      dsimp only
      cases hh : hiddenB step e.label with
      | true =>
        simp only [if_true]
        cases findHidden step p rest <;> simp
      | false =>
        simp only [Bool.false_eq_true, if_false]
        cases findHidden step e.id kids <;> cases findHidden step p rest <;> simp

theorem findHidden_nil {step : Int} {p : Nat} {f : Forest} (h : findHidden step p f = .ok []) :
    pruneTails (hiddenB step) f = f := by
  induction f generalizing p with
  | nil => rfl
  | node e kids rest ihk ihr =>
    rw [findHidden_node] at h
    split at h
    · cases h
    · rw [pruneTails]
      split at h
      · split at h <;> cases h
      · rename_i hh
        rw [if_neg hh]
        split at h
        · cases h
        · rename_i k hk
          split at h
          · cases h
          · rename_i l hl
            injection h with h
            obtain ⟨rfl, rfl⟩ := List.append_eq_nil_iff.mp h
            rw [ihk hk, ihr hl]

theorem removeIn_none {p c : Nat} {f : Forest} (h : p ∉ f.ids) : removeIn p c f = none := by
  induction f with
  | nil => rfl
  | node e kids rest ihk ihr =>
    simp only [Forest.ids, List.mem_cons, List.mem_append, not_or] at h
    rw [removeIn, if_neg (Ne.symm h.1), ihk h.2.1, ihr h.2.2]

/-- Removing the first element found leaves a list of elements in which the others are found. -/
theorem remove_first {step : Int} {p q c : Nat} {l : List (Nat × Nat)} {f : Forest} (hn : (p :: f.ids).Nodup)
    (h : findHidden step p f = .ok ((q, c) :: l)) :
    ∃ f', (q = p ∧ dropChild c f = some f' ∨ q ∈ f.ids ∧ removeIn q c f = some f') ∧ c ∈ f.ids ∧
      findHidden step p f' = .ok l ∧ pruneTails (hiddenB step) f' = pruneTails (hiddenB step) f ∧ f'.ids.Sublist f.ids := by
  induction f generalizing p q c l with
  | nil => cases h
  | node e kids rest ihk ihr =>
    simp only [Forest.ids, List.nodup_cons, List.mem_cons, List.mem_append, not_or, List.nodup_append] at hn
    obtain ⟨⟨hpe, hpk, hpr⟩, ⟨hek, her⟩, hk, hr, hkr⟩ := hn
    rw [findHidden_node] at h
    split at h
    · cases h
    · rename_i i hi
      split at h
      · rename_i hh
        split at h
        · cases h
        · rename_i l' hl
          injection h with h
          injection h with h1 h2
          injection h1 with h3 h4
          subst h3 h4 h2
          refine ⟨rest, .inl ⟨rfl, by rw [dropChild, if_pos rfl]⟩, by simp [Forest.ids], hl, ?_, ?_⟩
          · rw [pruneTails, if_pos hh]
          · simp only [Forest.ids]
            exact (List.sublist_append_right _ _).cons _
      · rename_i hh
        split at h
        · cases h
        · rename_i k hk'
          split at h
          · cases h
          · rename_i r hr'
            injection h with h
            cases k with
            | cons a k' =>
              injection h with h1 h2
              subst h1
              obtain ⟨kids', hrem, hc, hf, hp, hs⟩ := ihk (List.nodup_cons.mpr ⟨hek, hk⟩) hk'
              refine ⟨.node e kids' rest, .inr ?_, by simp [Forest.ids, hc], ?_, ?_, ?_⟩
              · rcases hrem with ⟨rfl, hd⟩ | ⟨hq, hd⟩
                · exact ⟨by simp [Forest.ids], by rw [removeIn, if_pos rfl, hd]⟩
                · refine ⟨by simp [Forest.ids, hq], ?_⟩
                  rw [removeIn, if_neg (fun he : e.id = q => hek (he ▸ hq)), hd]
              · rw [findHidden_node, hi]
                dsimp only
                rw [if_neg hh, hf, hr']
                exact congrArg Except.ok h2
              · rw [pruneTails, if_neg hh, pruneTails, if_neg hh, hp]
              · simp only [Forest.ids]
                exact (hs.append (List.Sublist.refl _)).cons_cons _
            | nil =>
              simp only [List.nil_append] at h
              subst h
              obtain ⟨rest', hrem, hc, hf, hp, hs⟩ := ihr (List.nodup_cons.mpr ⟨hpr, hr⟩) hr'
              refine ⟨.node e kids rest', ?_, by simp [Forest.ids, hc], ?_, ?_, ?_⟩
              · rcases hrem with ⟨rfl, hd⟩ | ⟨hq, hd⟩
                · left
                  refine ⟨rfl, ?_⟩
                  rw [dropChild, if_neg (fun he : e.id = c => her (he ▸ hc)), hd]
                · right
                  refine ⟨by simp [Forest.ids, hq], ?_⟩
                  rw [removeIn, if_neg (fun he : e.id = q => her (he ▸ hq)), removeIn_none (fun hk => hkr _ hk _ hq rfl), hd]
              · rw [findHidden_node, hi]
                dsimp only
                rw [if_neg hh, hf, hk']
                rfl
              · rw [pruneTails, if_neg hh, pruneTails, if_neg hh, hp]
              · simp only [Forest.ids]
                exact ((List.Sublist.refl _).append hs).cons_cons _

theorem remove_other {p c : Nat} {mem : List Root} (h : ∀ r ∈ mem, p ∉ r.ids) (rs : List Root) :
    remove p c (mem ++ rs) =
      match remove p c rs with
      | .error er => .error er
      | .ok rs' => .ok (mem ++ rs') := by
  induction mem with
  | nil => simp only [List.nil_append]; cases remove p c rs <;> rfl
  | cons r mem ih =>
    rw [List.cons_append, remove, removeIn_none (by
      have := h r (List.mem_cons_self ..)
      simpa [Forest.ids, Root.ids] using this), ih (fun r' hr' => h r' (List.mem_cons_of_mem _ hr'))]
    cases remove p c rs <;> rfl

theorem removeAll_prune {step : Int} {mem : List Root} {l : List (Nat × Nat)} {r : Root} (hn : r.ids.Nodup)
    (hd : ∀ r' ∈ mem, ∀ n ∈ r'.ids, n ∉ r.ids) (h : findHidden step r.e.id r.kids = .ok l) :
    removeAll (mem ++ [r]) l = .ok (mem ++ [⟨r.e, pruneTails (hiddenB step) r.kids⟩]) := by
  induction l generalizing r with
  | nil => rw [removeAll, findHidden_nil h]
  | cons a l ih =>
    obtain ⟨q, c⟩ := a
    obtain ⟨f', hrem, -, hf, hp, hs⟩ := remove_first hn h
    have hq : q ∈ r.ids := by
      rcases hrem with ⟨rfl, -⟩ | ⟨hq, -⟩
      · simp [Root.ids]
      · simp [Root.ids, hq]
    have hsub : (r.e.id :: f'.ids).Sublist r.ids := by
      unfold Root.ids; exact hs.cons_cons _
    rw [removeAll, remove_other (fun r' hr' hm => hd r' hr' q hm hq)]
    have hrm : remove q c [r] = .ok [⟨r.e, f'⟩] := by
      rw [remove, removeIn]
      rcases hrem with ⟨rfl, hd'⟩ | ⟨hq', hd'⟩
      · rw [if_pos rfl, hd']
      · rw [if_neg (by
          intro he
          have := (List.nodup_cons.mp hn).1
          exact this (he ▸ hq')), hd']
    rw [hrm]
    dsimp only
    rw [ih (r := ⟨r.e, f'⟩) (hn.sublist hsub) (fun r' hr' n hm hm' => hd r' hr' n hm (hsub.subset hm')) hf, hp]

/-! ### Copies -/

theorem shift_ids (d : Nat) (f : Forest) : (f.shift d).ids = f.ids.map (· + d) := by
  induction f with
  | nil => rfl
  | node e kids rest ihk ihr => simp [Forest.shift, Forest.ids, ihk, ihr]

theorem copy_ids (d : Nat) (r : Root) : (r.copy d).ids = r.ids.map (· + d) := by
  simp [Root.copy, Root.ids, shift_ids]

theorem lt_fresh {mem : List Root} {r : Root} (hr : r ∈ mem) {n : Nat} (hn : n ∈ r.ids) : n < fresh mem := by
  unfold fresh
  have hmem : n ∈ mem.flatMap Root.ids := List.mem_flatMap.mpr ⟨r, hr, hn⟩
  cases hm : (mem.flatMap Root.ids).max? with
  | none =>
    rw [List.max?_eq_none_iff] at hm
    rw [hm] at hmem; cases hmem
  | some m =>
    have := (List.max?_eq_some_iff.mp hm).2 n hmem
    simp only [Option.getD_some]; omega

theorem dom_shift (d : Nat) (t : Str) (f : Forest) : dom t (f.shift d) = dom t f := by
  induction f generalizing t with
  | nil => rfl
  | node e kids rest ihk ihr => simp [Forest.shift, dom, ihk, ihr]

theorem pruneTails_shift (hid : Option Str → Bool) (d : Nat) (f : Forest) :
    pruneTails hid (f.shift d) = (pruneTails hid f).shift d := by
  induction f with
  | nil => rfl
  | node e kids rest ihk ihr =>
    simp only [Forest.shift, pruneTails, ihk, ihr]
    split <;> rfl

theorem goodLabels_shift (hid : Option Str → Bool) (d : Nat) (f : Forest) : GoodLabels hid (f.shift d) ↔ GoodLabels hid f := by
  induction f with
  | nil => simp [Forest.shift]
  | node e kids rest ihk ihr => simp only [Forest.shift, GoodLabels, ihk, ihr]

theorem createImageData_eq {mem : List Root} {r : Root} (hn : r.ids.Nodup) (step : Int)
    (hg : GoodLabels (hiddenB step) r.kids) :
    createImageData mem r step =
      .ok (mem ++ [Root.copy (fresh mem) ⟨r.e, pruneTails (hiddenB step) r.kids⟩]) := by
  unfold createImageData
  obtain ⟨l, hl⟩ := (findHidden_ok step (r.copy (fresh mem)).e.id (r.copy (fresh mem)).kids).mpr
    ((goodLabels_shift _ _ _).mpr hg)
  dsimp only
  rw [hl]
  dsimp only
  rw [removeAll_prune _ _ hl]
  · simp [Root.copy, pruneTails_shift]
  · rw [copy_ids]
    exact hn.map (fun a b h => by simpa using h)
  · intro r' hr' n hm hm'
    rw [copy_ids] at hm'
    obtain ⟨k, -, rfl⟩ := List.mem_map.mp hm'
    have := lt_fresh hr' hm
    omega

theorem createImageData_ok (mem : List Root) (r : Root) (hn : r.ids.Nodup) (step : Int) :
    (∃ m, createImageData mem r step = .ok m) ↔ GoodLabels (hiddenB step) r.kids := by
  constructor
  · rintro ⟨m, hm⟩
    unfold createImageData at hm
    dsimp only at hm
    split at hm
    · cases hm
    · rename_i l hl
      exact (goodLabels_shift _ _ _).mp ((findHidden_ok _ _ _).mp ⟨l, hl⟩)
  · intro hg; exact ⟨_, createImageData_eq hn step hg⟩

/-! ### DOM -/

def Dom.size : Dom → Nat
  | .nil => 0
  | .chr _ rest => Dom.size rest + 1
  | .elem _ _ k rest => Dom.size k + Dom.size rest + 1

theorem size_chars (s : Str) (d : Dom) : Dom.size (chars s d) = s.length + Dom.size d := by
  induction s with
  | nil => simp [chars]
  | cons c s ih =>
    have : Dom.size (chars (c :: s) d) = Dom.size (chars s d) + 1 := rfl
    rw [this, ih]; simp only [List.length_cons]; omega

theorem prune_chars (hid : Option Str → Bool) (s : Str) (d : Dom) : (chars s d).prune hid = chars s (d.prune hid) := by
  induction s with
  | nil => rfl
  | cons c s ih =>
    show Dom.chr c ((chars s d).prune hid) = _
    rw [ih]; rfl

theorem dom_chars (s : Str) (f : Forest) : dom s f = chars s (dom [] f) := by
  cases f <;> rfl

theorem chars_inj {s : Str} {d d' : Dom} (h : chars s d = chars s d') : d = d' := by
  induction s with
  | nil => exact h
  | cons c s ih => exact ih (by injection h)

theorem size_le (hid : Option Str → Bool) (f : Forest) :
    Dom.size (dom [] (pruneTails hid f)) ≤ Dom.size ((dom [] f).prune hid) := by
  induction f with
  | nil => simp [pruneTails, dom, chars, Dom.prune]
  | node e kids rest ihk ihr =>
    simp only [pruneTails, dom]
    rw [prune_chars]
    show _ ≤ Dom.size (chars [] (if hid e.label then _ else _))
    have hc : chars [] = id := rfl
    rw [hc, id]
    split
    · rw [dom_chars e.tail, prune_chars, size_chars]; omega
    · simp only [dom, chars, List.foldr_nil, Dom.size]
      rw [dom_chars e.text, dom_chars e.text (kids), prune_chars, size_chars, size_chars,
        dom_chars e.tail, dom_chars e.tail rest, prune_chars, size_chars, size_chars]
      omega

/-- Removing an element together with its tail is removing the element exactly if there is no tail. -/
theorem prune_iff (hid : Option Str → Bool) (f : Forest) :
    dom [] (pruneTails hid f) = (dom [] f).prune hid ↔ TailFree hid f := by
  induction f with
  | nil => simp [pruneTails, dom, chars, Dom.prune, TailFree]
  | node e kids rest ihk ihr =>
    simp only [pruneTails, dom, TailFree]
    rw [prune_chars]
    have hc : chars [] = id := rfl
    rw [hc, id]
    simp only [Dom.prune]
    split
    · rw [dom_chars e.tail, prune_chars, ← ihr]
      constructor
      · intro h
        have h1 := congrArg Dom.size h
        rw [size_chars] at h1
        have h2 := size_le hid rest
        have : e.tail = [] := List.eq_nil_of_length_eq_zero (by omega)
        rw [this] at h
        exact ⟨this, h⟩
      · rintro ⟨h1, h2⟩
        rw [h1]; exact h2
    · rw [dom, hc, id, dom_chars e.text, dom_chars e.text kids, prune_chars, dom_chars e.tail, dom_chars e.tail rest, prune_chars,
        ← ihk, ← ihr]
      constructor
      · intro h
        injection h with _ _ h1 h2
        exact ⟨chars_inj h1, chars_inj h2⟩
      · rintro ⟨h1, h2⟩
        rw [h1, h2]

theorem prune_iff' (hid : Option Str → Bool) (t : Str) (f : Forest) :
    dom t (pruneTails hid f) = (dom t f).prune hid ↔ TailFree hid f := by
  rw [dom_chars, dom_chars t f, prune_chars, ← prune_iff]
  exact ⟨chars_inj, fun h => by rw [h]⟩

end Verif.Image
