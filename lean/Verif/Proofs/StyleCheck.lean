import Verif.Spec.StyleCheck

/-! # Lemmas on the checks of text styles -/

namespace Verif.Style
open Spec

/-- The name of a property. -/
def nameOf : Slot → Str
  | .font => "font".toList
  | .size => "size".toList
  | .align => "align".toList
  | .lineSpacing => "line_spacing".toList
  | .color => "color".toList
  | .bold => "bold".toList
  | .italic => "italic".toList
  | .variantNumeric => "variant_numeric".toList
  | .opacity => "opacity".toList
  | .priority => "priority".toList

theorem slotOf_nameOf (s : Slot) : slotOf (nameOf s) = some s := by cases s <;> decide +kernel

theorem nameOf_slotOf {n : Str} {s : Slot} (h : slotOf n = some s) : n = nameOf s := by
  unfold slotOf at h
  repeat' split at h
  all_goals first | (injection h with h; subst h; assumption) | exact absurd h (by simp)

theorem slotOf_iff {n : Str} {s : Slot} : slotOf n = some s ↔ n = nameOf s :=
  ⟨nameOf_slotOf, fun h => h ▸ slotOf_nameOf s⟩

theorem nameOf_inj {s t : Slot} (h : nameOf s = nameOf t) : s = t := by
  have := slotOf_nameOf s
  rw [h, slotOf_nameOf] at this
  injection this with this; exact this.symm

theorem mem_names (n : Str) : n ∈ names ↔ ∃ s, slotOf n = some s := by
  constructor
  · intro h
    simp only [names, List.map_cons, List.map_nil, List.mem_cons, List.not_mem_nil, or_false] at h
    rcases h with h | h | h | h | h | h | h | h | h | h
    · exact ⟨.font, slotOf_iff.2 h⟩
    · exact ⟨.size, slotOf_iff.2 h⟩
    · exact ⟨.align, slotOf_iff.2 h⟩
    · exact ⟨.lineSpacing, slotOf_iff.2 h⟩
    · exact ⟨.color, slotOf_iff.2 h⟩
    · exact ⟨.bold, slotOf_iff.2 h⟩
    · exact ⟨.italic, slotOf_iff.2 h⟩
    · exact ⟨.variantNumeric, slotOf_iff.2 h⟩
    · exact ⟨.opacity, slotOf_iff.2 h⟩
    · exact ⟨.priority, slotOf_iff.2 h⟩
  · rintro ⟨s, h⟩
    rw [nameOf_slotOf h]
    cases s <;> decide +kernel

theorem checkSlot_eq {s : Slot} {v w : PyVal} (h : checkSlot s v = .ok w) : w = v := by
  unfold checkSlot checkString checkNumber checkBool checkChoice at h
  cases s <;> dsimp only at h <;> repeat' split at h
  all_goals first | (injection h with h; exact h.symm) | exact absurd h (by simp)

/-- The values of a property. -/
def Good (s : Slot) (v : PyVal) : Prop := checkSlot s v = .ok v

theorem allowed_slot {n : Str} {v : PyVal} (h : Allowed n v) : ∃ s, slotOf n = some s := by
  cases h with
  | font => exact ⟨.font, by decide +kernel⟩
  | color => exact ⟨.color, by decide +kernel⟩
  | size => exact ⟨.size, by decide +kernel⟩
  | lineSpacing => exact ⟨.lineSpacing, by decide +kernel⟩
  | bold => exact ⟨.bold, by decide +kernel⟩
  | italic => exact ⟨.italic, by decide +kernel⟩
  | left => exact ⟨.align, by decide +kernel⟩
  | middle => exact ⟨.align, by decide +kernel⟩
  | right => exact ⟨.align, by decide +kernel⟩
  | digits => exact ⟨.variantNumeric, by decide +kernel⟩
  | opacity => exact ⟨.opacity, by decide +kernel⟩
  | priority => exact ⟨.priority, by decide +kernel⟩

theorem number_check {v : PyVal} : checkNumber v = .ok v ↔ v = .none ∨ Number v := by
  cases v with
  | none => exact ⟨fun _ => .inl rfl, fun _ => rfl⟩
  | bool b => exact ⟨fun _ => .inr (.bool b), fun _ => rfl⟩
  | int n => exact ⟨fun _ => .inr (.int n), fun _ => rfl⟩
  | float q => exact ⟨fun _ => .inr (.float q), fun _ => rfl⟩
  | str s => exact ⟨fun h => absurd h (by simp [checkNumber, PyVal.isInt, PyVal.isFloat]),
      fun h => by rcases h with h | h <;> cases h⟩
  | other k => exact ⟨fun h => absurd h (by simp [checkNumber, PyVal.isInt, PyVal.isFloat]),
      fun h => by rcases h with h | h <;> cases h⟩

theorem string_check {v : PyVal} : checkString v = .ok v ↔ v = .none ∨ ∃ s, v = .str s := by
  cases v <;> simp [checkString, PyVal.isStr]

theorem bool_check {v : PyVal} : checkBool v = .ok v ↔ v = .none ∨ ∃ b, v = .bool b := by
  cases v <;> simp [checkBool, PyVal.isBool]

theorem choice_check {v : PyVal} {c : List PyVal} : checkChoice v c = .ok v ↔ v ∈ c := by
  by_cases h : v ∈ c <;> simp [checkChoice, h]

theorem ok_none {s : Slot} (h : s ≠ .priority) : Ok (nameOf s) .none :=
  .inr ⟨rfl, (mem_names _).2 ⟨s, slotOf_nameOf s⟩, fun e => h (nameOf_inj (t := .priority) e)⟩

theorem variant_mem {v : PyVal} : v ∈ variantNumericValues ↔ v = .none ∨ ∃ s ∈ digitStyles, v = .str s.toList := by
  constructor
  · intro h
    simp only [variantNumericValues, List.mem_cons, List.not_mem_nil, or_false] at h
    rcases h with h | h | h | h | h | h | h | h | h | h
    · exact .inl h
    all_goals exact .inr ⟨_, by simp only [digitStyles, List.mem_cons, true_or, or_true], h⟩
  · rintro (h | ⟨s, h, rfl⟩)
    · subst h; simp only [variantNumericValues, List.mem_cons, true_or]
    · simp only [digitStyles, List.mem_cons, List.not_mem_nil, or_false] at h
      rcases h with rfl | rfl | rfl | rfl | rfl | rfl | rfl | rfl | rfl <;>
        simp only [variantNumericValues, List.mem_cons, true_or, or_true]

/-- The setters accept the values of the specification. -/
theorem ok_good {s : Slot} {v : PyVal} : Ok (nameOf s) v ↔ Good s v := by
  constructor
  · rintro (h | ⟨rfl, -, h⟩)
    · generalize hn : nameOf s = n at h
      cases h with
      | font t => obtain rfl := nameOf_inj (t := .font) hn; exact rfl
      | color t => obtain rfl := nameOf_inj (t := .color) hn; exact rfl
      | size h => obtain rfl := nameOf_inj (t := .size) hn; exact number_check.2 (.inr h)
      | lineSpacing h => obtain rfl := nameOf_inj (t := .lineSpacing) hn; exact number_check.2 (.inr h)
      | bold b => obtain rfl := nameOf_inj (t := .bold) hn; exact rfl
      | italic b => obtain rfl := nameOf_inj (t := .italic) hn; exact rfl
      | left => obtain rfl := nameOf_inj (t := .align) hn; exact choice_check.2 (by decide +kernel)
      | middle => obtain rfl := nameOf_inj (t := .align) hn; exact choice_check.2 (by decide +kernel)
      | right => obtain rfl := nameOf_inj (t := .align) hn; exact choice_check.2 (by decide +kernel)
      | digits h =>
        obtain rfl := nameOf_inj (t := .variantNumeric) hn
        exact choice_check.2 (variant_mem.2 (.inr ⟨_, h, rfl⟩))
      | opacity h => obtain rfl := nameOf_inj (t := .opacity) hn; exact number_check.2 (.inr h)
      | priority h =>
        obtain rfl := nameOf_inj (t := .priority) hn
        have : v ≠ .none := by rintro rfl; cases h
        show (if v = .none then _ else checkNumber v) = _
        rw [if_neg this]; exact number_check.2 (.inr h)
    · cases s with
      | priority => exact absurd rfl h
      | _ => rfl
  · intro h
    by_cases hv : v = .none ∧ s ≠ .priority
    · rw [hv.1]; exact ok_none hv.2
    refine .inl ?_
    cases s with
    | font =>
      rcases string_check.1 h with e | ⟨t, rfl⟩
      · exact absurd ⟨e, by simp⟩ hv
      · exact .font t
    | color =>
      rcases string_check.1 h with e | ⟨t, rfl⟩
      · exact absurd ⟨e, by simp⟩ hv
      · exact .color t
    | bold =>
      rcases bool_check.1 h with e | ⟨t, rfl⟩
      · exact absurd ⟨e, by simp⟩ hv
      · exact .bold t
    | italic =>
      rcases bool_check.1 h with e | ⟨t, rfl⟩
      · exact absurd ⟨e, by simp⟩ hv
      · exact .italic t
    | size =>
      rcases number_check.1 h with e | h
      · exact absurd ⟨e, by simp⟩ hv
      · exact .size h
    | lineSpacing =>
      rcases number_check.1 h with e | h
      · exact absurd ⟨e, by simp⟩ hv
      · exact .lineSpacing h
    | opacity =>
      rcases number_check.1 h with e | h
      · exact absurd ⟨e, by simp⟩ hv
      · exact .opacity h
    | align =>
      have h := choice_check.1 h
      simp only [alignValues, List.mem_cons, List.not_mem_nil, or_false] at h
      rcases h with e | rfl | rfl | rfl
      · exact absurd ⟨e, by simp⟩ hv
      · exact .left
      · exact .middle
      · exact .right
    | variantNumeric =>
      rcases variant_mem.1 (choice_check.1 h) with e | ⟨t, ht, rfl⟩
      · exact absurd ⟨e, by simp⟩ hv
      · exact .digits ht
    | priority =>
      change (if v = .none then _ else checkNumber v) = _ at h
      split at h
      · simp at h
      · rename_i hn
        rcases number_check.1 h with e | h
        · exact absurd e hn
        · exact .priority h

theorem ok_iff {n : Str} {v : PyVal} : Ok n v ↔ ∃ s, slotOf n = some s ∧ Good s v := by
  constructor
  · intro h
    have : ∃ s, slotOf n = some s := by
      rcases h with h | ⟨-, h, -⟩
      · exact allowed_slot h
      · exact (mem_names n).1 h
    obtain ⟨s, hs⟩ := this
    refine ⟨s, hs, ok_good.1 ?_⟩
    rwa [← nameOf_slotOf hs]
  · rintro ⟨s, hs, h⟩
    rw [nameOf_slotOf hs]; exact ok_good.2 h

theorem assign_good {r : Raw} {s : Slot} {v : PyVal} (h : Good s v) : r.assign s v = .ok (r.put s v) := by
  unfold Raw.assign; rw [show checkSlot s v = .ok v from h]

theorem assign_bad {r : Raw} {s : Slot} {v : PyVal} (h : ¬ Good s v) : ∃ e, r.assign s v = .error e := by
  unfold Raw.assign
  cases hc : checkSlot s v with
  | error e => exact ⟨e, rfl⟩
  | ok w => exact absurd (checkSlot_eq hc ▸ hc) h

theorem put_self (r : Raw) (s : Slot) (v : PyVal) : r.put s v s = v := if_pos rfl

theorem put_other (r : Raw) {s t : Slot} (v : PyVal) (h : t ≠ s) : r.put s v t = r t := if_neg h

theorem assignAll_good {kw : List (Str × PyVal)} : ∀ (ss : List Slot) (r : Raw),
    (∀ s ∈ ss, Good s (argOf kw s)) → ∃ r', assignAll kw ss r = .ok r' ∧
      ∀ s, r' s = if s ∈ ss then argOf kw s else r s
  | [], r, _ => ⟨r, rfl, fun s => by simp⟩
  | s :: ss, r, h => by
    obtain ⟨r', h1, h2⟩ := assignAll_good ss (r.put s (argOf kw s)) (fun t ht => h t (by simp [ht]))
    refine ⟨r', ?_, fun t => ?_⟩
    · unfold assignAll; rw [assign_good (h s (by simp))]; exact h1
    · rw [h2 t]
      by_cases ht : t ∈ ss
      · simp [ht]
      · by_cases e : t = s
        · subst e; simp [ht, put_self]
        · simp [ht, e, put_other _ _ e]

theorem assignAll_bad {kw : List (Str × PyVal)} : ∀ (ss : List Slot) (r : Raw) (s : Slot), s ∈ ss →
    ¬ Good s (argOf kw s) → ∃ e, assignAll kw ss r = .error e
  | s :: ss, r, t, ht, h => by
    unfold assignAll
    by_cases hs : Good s (argOf kw s)
    · rw [assign_good hs]
      rcases List.mem_cons.1 ht with rfl | ht
      · exact absurd hs h
      · exact assignAll_bad ss _ t ht h
    · obtain ⟨e, he⟩ := assign_bad (r := r) hs
      exact ⟨e, by rw [he]⟩

theorem mem_slots (s : Slot) : s ∈ slots := by cases s <;> decide +kernel

theorem slots_nodup : slots.Nodup := by decide +kernel

theorem updateSlots_get (style : Raw) : ∀ (ss : List Slot) (r : Raw) (s : Slot),
    updateSlots style ss r s = if s ∈ ss ∧ style s ≠ .none then style s else r s
  | [], r, s => by simp [updateSlots]
  | t :: ss, r, s => by
    unfold updateSlots
    rw [updateSlots_get style ss _ s]
    by_cases hs : s ∈ ss ∧ style s ≠ .none
    · rw [if_pos hs, if_pos ⟨by simp [hs.1], hs.2⟩]
    · rw [if_neg hs]
      by_cases e : s = t
      · subst e
        by_cases hn : style s ≠ .none
        · rw [if_pos hn, put_self, if_pos ⟨by simp, hn⟩]
        · rw [if_neg hn, if_neg (fun h => hn h.2)]
      · have hr : (if style t ≠ .none then r.put t (style t) else r) s = r s := by
          split
          · exact put_other _ _ e
          · rfl
        rw [hr, if_neg (fun h => hs ⟨(List.mem_cons.1 h.1).resolve_left e, h.2⟩)]

theorem update_get (r style : Raw) (s : Slot) :
    r.update style s = if style s ≠ .none then style s else r s := by
  unfold Raw.update; rw [updateSlots_get]; simp [mem_slots]

theorem good_default (s : Slot) : Good s (slotDefault s) := by cases s <;> rfl

/-- Every value of the style is one the setters accept. -/
def Sound (r : Raw) : Prop := ∀ s, Good s (r s)

theorem newRaw_sound {kw : List (Str × PyVal)} {r : Raw} (h : newRaw kw = .ok r) : Sound r := by
  unfold newRaw at h
  split at h
  · simp at h
  · by_cases hg : ∀ s ∈ slots, Good s (argOf kw s)
    · obtain ⟨r', h1, h2⟩ := assignAll_good slots (fun _ => .none) hg
      rw [h1] at h; injection h with h; subst h
      intro s; rw [h2 s, if_pos (mem_slots s)]; exact hg s (mem_slots s)
    · push Not at hg
      obtain ⟨s, hs, hg⟩ := hg
      obtain ⟨e, he⟩ := assignAll_bad slots (fun _ => .none) s hs hg
      rw [he] at h; simp at h

theorem Sound.update {r s : Raw} (hr : Sound r) (hs : Sound s) : Sound (r.update s) := by
  intro t; rw [update_get]; split
  · exact hs t
  · exact hr t

theorem Sound.setAttr {r r' : Raw} {n : Str} {v : PyVal} (hr : Sound r) (h : r.setAttr n v = .ok r') :
    Sound r' := by
  unfold Raw.setAttr at h
  split at h
  · simp at h
  · rename_i s _
    by_cases hg : Good s v
    · rw [assign_good hg] at h; injection h with h; subst h
      intro t
      by_cases e : t = s
      · subst e; rw [put_self]; exact hg
      · rw [put_other _ _ e]; exact hr t
    · obtain ⟨e, he⟩ := assign_bad (r := r) hg
      rw [he] at h; simp at h

theorem sound_set {h : List Raw} {i : Nat} {r : Raw} (hh : ∀ r ∈ h, Sound r) (hr : Sound r) :
    ∀ x ∈ h.set i r, Sound x := by
  intro x hx
  rcases List.mem_or_eq_of_mem_set hx with hx | rfl
  · exact hh x hx
  · exact hr

theorem sound_append {h : List Raw} {r : Raw} (hh : ∀ r ∈ h, Sound r) (hr : Sound r) :
    ∀ x ∈ h ++ [r], Sound x := by
  intro x hx
  rcases List.mem_append.1 hx with hx | hx
  · exact hh x hx
  · rw [List.mem_singleton] at hx; subst hx; exact hr

theorem exec_sound {h h' : List Raw} {op : StyleOp} (hh : ∀ r ∈ h, Sound r) (he : op.exec h = .ok h') :
    ∀ r ∈ h', Sound r := by
  cases op with
  | new kw =>
    dsimp only [StyleOp.exec] at he
    split at he
    · simp at he
    · rename_i r hr
      injection he with he; subst he; exact sound_append hh (newRaw_sound hr)
  | set i n v =>
    dsimp only [StyleOp.exec] at he
    split at he
    · simp at he
    · rename_i r hr
      split at he
      · simp at he
      · rename_i r' hr'
        injection he with he; subst he
        exact sound_set hh ((hh r (List.mem_of_getElem? hr)).setAttr hr')
  | update i j =>
    dsimp only [StyleOp.exec] at he
    split at he
    · rename_i r s hr hs
      injection he with he; subst he
      exact sound_set hh ((hh r (List.mem_of_getElem? hr)).update (hh s (List.mem_of_getElem? hs)))
    · simp at he
  | copy i =>
    dsimp only [StyleOp.exec] at he
    split at he
    · rename_i r hr
      injection he with he; subst he
      exact sound_append hh (hh r (List.mem_of_getElem? hr))
    · simp at he
  | compose i j =>
    dsimp only [StyleOp.exec] at he
    split at he
    · rename_i r s hr hs
      injection he with he; subst he
      exact sound_append hh ((hh r (List.mem_of_getElem? hr)).update (hh s (List.mem_of_getElem? hs)))
    · simp at he

theorem session_sound : ∀ (ops : List StyleOp) (h : List Raw), (∀ r ∈ h, Sound r) →
    ∀ r ∈ session h ops, Sound r
  | [], _, hh => hh
  | op :: ops, h, hh => by
    unfold session
    split
    · rename_i h' he; exact session_sound ops h' (exec_sound hh he)
    · exact session_sound ops h hh

theorem number_is {v : PyVal} (h : Number v) : ∃ q, Is v q := by
  cases h with
  | int n => exact ⟨_, .int n⟩
  | float q => exact ⟨_, .float q⟩
  | bool b => cases b with
    | true => exact ⟨_, .true⟩
    | false => exact ⟨_, .false⟩

theorem is_ne {v : PyVal} {q : Rat} (h : Is v q) : v ≠ .none := by rintro rfl; cases h

theorem opt_number {v : PyVal} (h : checkNumber v = .ok v) : ∃ q, Opt Is v q := by
  rcases number_check.1 h with rfl | h
  · exact ⟨_, .none⟩
  · obtain ⟨q, hq⟩ := number_is h; exact ⟨_, .some (is_ne hq) hq⟩

theorem opt_string {v : PyVal} (h : checkString v = .ok v) : ∃ q, Opt (fun v s => v = .str s) v q := by
  rcases string_check.1 h with rfl | ⟨s, rfl⟩
  · exact ⟨_, .none⟩
  · exact ⟨some s, .some (by simp) rfl⟩

theorem opt_bool {v : PyVal} (h : checkBool v = .ok v) : ∃ q, Opt (fun v s => v = .bool s) v q := by
  rcases bool_check.1 h with rfl | ⟨s, rfl⟩
  · exact ⟨_, .none⟩
  · exact ⟨some s, .some (by simp) rfl⟩

theorem opt_choice {v : PyVal} (h : v = .none ∨ ∃ s, v = .str s) : ∃ q, Opt (fun v s => v = .str s) v q :=
  opt_string (string_check.2 h)

theorem sound_stands {r : Raw} (h : Sound r) : ∃ t, Stands r t := by
  obtain ⟨a1, h1⟩ := opt_string (h .font)
  obtain ⟨a2, h2⟩ := opt_number (h .size)
  obtain ⟨a3, h3⟩ : ∃ q, Opt (fun v s => v = .str s) (r .align) q := by
    have := choice_check.1 (h .align)
    simp only [alignValues, List.mem_cons, List.not_mem_nil, or_false] at this
    refine opt_choice ?_
    rcases this with e | e | e | e
    · exact .inl e
    all_goals exact .inr ⟨_, e⟩
  obtain ⟨a4, h4⟩ := opt_number (h .lineSpacing)
  obtain ⟨a5, h5⟩ := opt_string (h .color)
  obtain ⟨a6, h6⟩ := opt_bool (h .bold)
  obtain ⟨a7, h7⟩ := opt_bool (h .italic)
  obtain ⟨a8, h8⟩ : ∃ q, Opt (fun v s => v = .str s) (r .variantNumeric) q := by
    rcases variant_mem.1 (choice_check.1 (h .variantNumeric)) with e | ⟨t, _, e⟩
    · exact opt_choice (.inl e)
    · exact opt_choice (.inr ⟨_, e⟩)
  obtain ⟨a9, h9⟩ := opt_number (h .opacity)
  obtain ⟨a10, h10⟩ : ∃ q, Is (r .priority) q := by
    have h := h .priority
    change (if r .priority = .none then _ else checkNumber (r .priority)) = _ at h
    split at h
    · simp at h
    · rename_i hn
      rcases number_check.1 h with e | h
      · exact absurd e hn
      · exact number_is h
  exact ⟨⟨a1, a2, a3, a4, a5, a6, a7, a8, a9, a10⟩, h1, h2, h3, h4, h5, h6, h7, h8, h9, h10⟩

theorem opt_update {α : Type} {R : PyVal → α → Prop} {v w : PyVal} {a b : Option α} (ha : Opt R v a)
    (hb : Opt R w b) : Opt R (if w ≠ .none then w else v) (if b.isSome then b else a) := by
  cases hb with
  | none => simpa using ha
  | some hn hr => rw [if_pos hn]; exact .some hn hr

theorem stands_update {r s : Raw} {t u : TextStyle} (hr : Stands r t) (hs : Stands s u) :
    Stands (r.update s) (t.update u) := by
  constructor
  · rw [update_get]; exact opt_update hr.font hs.font
  · rw [update_get]; exact opt_update hr.size hs.size
  · rw [update_get]; exact opt_update hr.align hs.align
  · rw [update_get]; exact opt_update hr.lineSpacing hs.lineSpacing
  · rw [update_get]; exact opt_update hr.color hs.color
  · rw [update_get]; exact opt_update hr.bold hs.bold
  · rw [update_get]; exact opt_update hr.italic hs.italic
  · rw [update_get]; exact opt_update hr.variantNumeric hs.variantNumeric
  · rw [update_get]; exact opt_update hr.opacity hs.opacity
  · rw [update_get, if_pos (is_ne hs.priority)]; exact hs.priority

end Verif.Style
