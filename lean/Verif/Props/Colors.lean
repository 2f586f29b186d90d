import Verif.Proofs.Colors

/-! # Property C136: colours -/

namespace Verif.Colors
open Spec

/-- Two keywords and the table of `webcolors` for them. -/
def sampleKeyword (n : Str) : Option (Nat × Nat × Nat) :=
  if n = "orange".toList then some (255, 165, 0) else if n = "navy".toList then some (0, 0, 128) else none

/-- See `sampleKeyword`. -/
def sampleTable (n : Str) : Option Str :=
  if n = "orange".toList then some "#ffa500".toList else if n = "navy".toList then some "#000080".toList else none

theorem sample_table : Table sampleKeyword sampleTable := by
  have d : ∀ {c d}, ("0123456789abcdef".toList[d]? = some c) → IsDigit c d := fun h => Or.inl h
  refine ⟨?_, ?_, ?_⟩
  · intro n c h
    unfold sampleKeyword at h
    unfold sampleTable
    split at h
    · rename_i hn
      injection h with h; subst h
      rw [if_pos hn]
      exact ⟨_, rfl, Hex.long (r := 15) (r' := 15) (g := 10) (g' := 5) (b' := 0) (b'' := 0) (d (by decide)) (d (by decide)) (d (by decide)) (d (by decide)) (d (by decide)) (d (by decide))⟩
    · rename_i h0
      split at h
      · rename_i hn
        injection h with h; subst h
        rw [if_neg h0, if_pos hn]
        exact ⟨_, rfl, Hex.long (r := 0) (r' := 0) (g := 0) (g' := 0) (b' := 8) (b'' := 0) (d (by decide)) (d (by decide)) (d (by decide)) (d (by decide)) (d (by decide)) (d (by decide))⟩
      · cases h
  · intro n h
    unfold sampleKeyword at h
    unfold sampleTable
    split at h
    · cases h
    · rename_i h0
      split at h
      · cases h
      · rename_i h1
        rw [if_neg h0, if_neg h1]
  · intro n c h
    unfold sampleKeyword at h
    split at h
    · rename_i hn
      rw [hn]; decide
    · split at h
      · rename_i hn
        rw [hn]; decide
      · cases h

/-- The full claim: a colour of the user guide is painted by Cairo as it is, including its opacity (Cairo is given none). -/
def Faithful (keyword : Str → Option (Nat × Nat × Nat)) (lower : Str → Str) (table : Str → Option Str) : Prop :=
  ∀ s c a, Denotes keyword s c a → getRgb lower table (.str s) = .ok c ∧ a = 1

/-- **C136 is false of the code**: Cairo does not know `rgb(34, 12, 64)`. -/
theorem C136_colors_false : ¬ ∀ keyword lower table, Table keyword table → Lowers lower → Faithful keyword lower table := by
  intro hall
  have hd : Denotes sampleKeyword "rgb(34, 12, 64)".toList ((34 : Nat) / 255, (12 : Nat) / 255, (64 : Nat) / 255) 1 :=
    Denotes.rgb (r := 34) (g := 12) (b := 64) (by decide) (by decide) (by decide) .no
  have h := (hall sampleKeyword (fun s => s.map small) sampleTable sample_table (fun _ _ => rfl) _ _ _ hd).1
  have e : getRgb (fun s => s.map small) sampleTable (.str "rgb(34, 12, 64)".toList) = .error .value := by decide +kernel
  rw [e] at h
  cases h

/-- **C136, what holds.** A string of ASCII characters is a colour for Cairo if and only if it is a keyword, in any case, or a hexadecimal value, and then the
colour is the one it denotes in SVG, for shapes as for texts; anything else, in particular `rgb(…)` and `hsl(…)`, raises a `ValueError`. (A newline at the end is
left out: `webcolors` ignores it after hexadecimal values.) -/
theorem C136_colors_partial {keyword : Str → Option (Nat × Nat × Nat)} {lower : Str → Str} {table : Str → Option Str} (ht : Table keyword table) (hw : Lowers lower)
    (s : Str) (hs : ∀ x ∈ s, x.toNat < 128) (hn : s.getLast? ≠ some '\n') :
    (∀ c, getRgb lower table (.str s) = .ok c ↔ Simple keyword s c) ∧
    ((¬ ∃ c, Simple keyword s c) → getRgb lower table (.str s) = .error .value ∧ textColor lower table (.str s) = .error .value) ∧
    (∀ c, Simple keyword s c → ∃ r g b : Nat, textColor lower table (.str s) = .ok (r, g, b) ∧ c = ((r : Rat) / 65535, (g : Rat) / 65535, (b : Rat) / 65535)) ∧
    (∀ c a, Denotes keyword s c a → ¬ Simple keyword s c → getRgb lower table (.str s) = .error .value) := by
  have good : ∀ c, Simple keyword s c → ∃ r g b : Nat, getRgb lower table (.str s) = .ok c ∧ c = ((r : Rat) / 255, (g : Rat) / 255, (b : Rat) / 255) := by
    intro c hc
    cases hc with
    | @name r g b hk =>
      refine ⟨r, g, b, ?_, rfl⟩
      obtain ⟨hne, hall⟩ := ht.names _ _ hk
      have hh : s.head? ≠ some '#' := by
        intro hh
        cases s with
        | nil => cases hh
        | cons x xs =>
          injection hh with hh; subst hh
          exact absurd (hall (small '#') (by simp)).1 (by decide)
      obtain ⟨t, ht1, ht2⟩ := ht.has _ _ hk
      rw [getRgb, if_neg hh, nameToRgb, hw s hs]
      simp only [ht1, (hex_rgb ht2).2.1]
      rfl
    | @hex r g b hx =>
      refine ⟨r, g, b, ?_, rfl⟩
      obtain ⟨h1, -, t, h2, h3⟩ := hex_rgb hx
      rw [getRgb, if_pos h1]
      simp only [h2, h3]
      rfl
  have bad : (¬ ∃ c, Simple keyword s c) → getRgb lower table (.str s) = .error .value := by
    intro hno
    rw [getRgb]
    split
    · cases hx : normalizeHex s with
      | error e => rw [norm_error hx]
      | ok t =>
        obtain ⟨⟨r, g, b⟩, hc⟩ := norm_hex hx hn
        exact absurd ⟨_, .hex hc⟩ hno
    · unfold nameToRgb
      rw [hw s hs]
      have : keyword (s.map small) = none := by
        cases hk : keyword (s.map small) with
        | none => rfl
        | some c =>
          obtain ⟨r, g, b⟩ := c
          exact absurd ⟨_, .name hk⟩ hno
      simp only [ht.only _ this]
  have iff : ∀ c, getRgb lower table (.str s) = .ok c ↔ Simple keyword s c := by
    intro c
    constructor
    · intro h
      by_cases hx : ∃ c, Simple keyword s c
      · obtain ⟨c', hc'⟩ := hx
        obtain ⟨_, _, _, h', -⟩ := good c' hc'
        rw [h] at h'; injection h' with h'; subst h'; exact hc'
      · rw [bad hx] at h; cases h
    · intro hc
      obtain ⟨_, _, _, h, -⟩ := good c hc
      exact h
  refine ⟨iff, fun hno => ⟨bad hno, ?_⟩, ?_, ?_⟩
  · unfold textColor; rw [bad hno]
  · intro c hc
    obtain ⟨r, g, b, h, e⟩ := good c hc
    refine ⟨257 * r, 257 * g, 257 * b, ?_, ?_⟩
    · unfold textColor toPango
      rw [h, e]
      simp only [pango_level]
    · rw [e]
      push_cast
      refine Prod.ext ?_ (Prod.ext ?_ ?_) <;> simp only <;> ring
  · intro c a hd hns
    apply bad
    have paren : '(' ∈ s → s.head? ≠ some '#' → ¬ ∃ c, Simple keyword s c := by
      rintro hp hh ⟨c', hc'⟩
      cases hc' with
      | name hk =>
        have := ((ht.names _ _ hk).2 '(' (by simp only [List.mem_map]; exact ⟨'(', hp, by decide⟩)).1
        exact absurd this (by decide)
      | hex hx => exact hh (hex_rgb hx).1
    cases hd with
    | simple h => exact absurd h hns
    | rgb => exact paren (by simp) (by simp)
    | hsl => exact paren (by simp) (by simp)

/-- A keyword in mixed case, both forms of hexadecimal values, and what Pango is given. -/
example : getRgb (fun s => s.map small) sampleTable (.str "Orange".toList) = .ok (1, 11 / 17, 0) ∧
    getRgb (fun s => s.map small) sampleTable (.str "#fA0".toList) = .ok (1, 2 / 3, 0) ∧
    textColor (fun s => s.map small) sampleTable (.str "#a0a0a0".toList) = .ok (41120, 41120, 41120) ∧
    getRgb (fun s => s.map small) sampleTable (.str "hsl(30, 100%, 50%, 0.6)".toList) = .error .value := by decide +kernel

/-- The hypotheses are met by the sample table and by colours of all kinds. -/
example : Table sampleKeyword sampleTable ∧ Lowers (fun s => s.map small) ∧ Simple sampleKeyword "Navy".toList ((0 : Nat) / 255, (0 : Nat) / 255, (128 : Nat) / 255) ∧
    Denotes sampleKeyword "hsl(30, 100%, 50%, 0.6)".toList (hslPart (30 : Nat) ((100 : Nat) / 100) ((50 : Nat) / 100) 0, hslPart (30 : Nat) ((100 : Nat) / 100) ((50 : Nat) / 100) 8,
      hslPart (30 : Nat) ((100 : Nat) / 100) ((50 : Nat) / 100) 4) ((6 : Nat) / 10) ∧
    (hslPart 30 1 (1 / 2) 0, hslPart 30 1 (1 / 2) 8, hslPart 30 1 (1 / 2) 4) = (1, 1 / 2, 0) :=
  ⟨sample_table, fun _ _ => rfl, .name (by decide +kernel), .hsl (h := 30) (s := 100) (l := 50) (by decide) (by decide) (by decide) (.some 6 (by decide)), by decide +kernel⟩

end Verif.Colors
