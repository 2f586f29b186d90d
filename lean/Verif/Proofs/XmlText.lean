import Verif.Proofs.Xml

/-! Helper lemmas: single texts and attributes. -/

namespace Verif.Xml
open Spec

theorem eol_append_noCR {u : Str} (h : '\r' ∉ u) (s : Str) : eol (u ++ s) = u ++ eol s := by
  induction u with
  | nil => rfl
  | cons c u ih =>
    simp only [List.mem_cons, not_or] at h
    have hc : c ≠ '\r' := fun e => h.1 e.symm
    rw [List.cons_append, eol]
    · rw [ih h.2]; rfl
    · intro s' e; exact absurd e hc
    · intro e; exact hc e

theorem eol_noCR : ∀ s : Str, '\r' ∉ eol s := by
  intro s
  induction s using eol.induct with
  | case1 s ih => rw [eol]; simpa using ih
  | case2 s hs ih =>
    rw [eol]
    · simpa using ih
    · exact hs
  | case3 c s h1 h2 ih =>
    rw [eol]
    · simp only [List.mem_cons, not_or]
      exact ⟨fun e => h2 e.symm, ih⟩
    · exact h1
    · exact h2
  | case4 => simp [eol]

theorem eol_all (s : Str) : (eol s).all xmlChar = s.all xmlChar := by
  induction s using eol.induct with
  | case1 s ih =>
    rw [eol]
    have h1 : xmlChar '\r' = true := by decide
    have h2 : xmlChar '\n' = true := by decide
    simp [ih, h1, h2]
  | case2 s hs ih =>
    rw [eol]
    · have h1 : xmlChar '\r' = true := by decide
      have h2 : xmlChar '\n' = true := by decide
      simp [ih, h1, h2]
    · exact hs
  | case3 c s h1 h2 ih =>
    rw [eol]
    · simp [ih]
    · exact h1
    · exact h2
  | case4 => rfl

/-- An escaping that leaves line ends alone. -/
structure EscOk (f : Char → Str) : Prop where
  cr : f '\r' = ['\r']
  nl : f '\n' = ['\n']
  other : ∀ c, c ≠ '\r' → '\r' ∉ f c
  head : ∀ c, c ≠ '\n' → ∃ d s, f c = d :: s ∧ d ≠ '\n'

theorem esc1_ok : EscOk esc1 := by
  refine ⟨by decide, by decide, fun c hc => esc1_noCR hc, ?_⟩
  intro c hc
  unfold esc1
  split
  · exact ⟨_, _, rfl, by decide⟩
  · split
    · exact ⟨_, _, rfl, by decide⟩
    · split
      · exact ⟨_, _, rfl, by decide⟩
      · exact ⟨c, [], rfl, hc⟩

theorem tesc1_ok : EscOk tesc1 := by
  refine ⟨by decide, by decide, fun c hc => tesc1_noCR hc, ?_⟩
  intro c hc
  unfold tesc1
  split
  · exact ⟨_, _, rfl, by decide⟩
  · exact esc1_ok.head c hc

theorem eol_cons_cr {s : Str} (h : s.head? ≠ some '\n') : eol ('\r' :: s) = '\n' :: eol s := by
  rw [eol]
  intro s' e
  rw [e] at h; simp at h

theorem eol_flatMap {f : Char → Str} (hf : EscOk f) (s : Str) (d : Char) (w : Str) (hd : d ≠ '\n') (hw : '\r' ∉ d :: w) :
    eol (s.flatMap f ++ d :: w) = (eol s).flatMap f ++ d :: w := by
  induction s using eol.induct with
  | case1 s ih =>
    rw [eol]
    simp only [List.flatMap_cons, hf.cr, hf.nl, List.cons_append, List.nil_append]
    rw [eol, ih]
  | case2 s hs ih =>
    have h1 : eol ('\r' :: s) = '\n' :: eol s := by
      apply eol_cons_cr
      intro h
      cases s with
      | nil => cases h
      | cons c s => simp at h; subst h; exact hs s rfl
    rw [h1]
    simp only [List.flatMap_cons, hf.cr, hf.nl, List.cons_append, List.nil_append]
    rw [eol_cons_cr, ih]
    cases s with
    | nil => simpa using hd
    | cons c s =>
      have hc : c ≠ '\n' := by rintro rfl; exact hs s rfl
      obtain ⟨e, r, he, hne⟩ := hf.head c hc
      simp only [List.flatMap_cons, he, List.cons_append, List.head?_cons]
      intro h; injection h with h; exact hne h
  | case3 c s h1 h2 ih =>
    have h3 : eol (c :: s) = c :: eol s := by
      rw [eol]
      · exact h1
      · exact h2
    rw [h3]
    simp only [List.flatMap_cons, List.append_assoc]
    rw [eol_append_noCR (hf.other c h2), ih]
  | case4 =>
    simp only [List.flatMap_nil, List.nil_append, eol]
    exact eol_id hw

theorem steps_none {s : Str} {c : Char} (hc : c ∈ s) (hx : xmlChar c = false) (st : RState) : steps st s = none := by
  induction s generalizing st with
  | nil => cases hc
  | cons d s ih =>
    simp only [steps]
    rcases List.mem_cons.mp hc with rfl | hc
    · simp [step, hx]
    · cases step st d with
      | none => rfl
      | some st => exact ih hc st

theorem bad_esc {c : Char} (hx : xmlChar c = false) : esc1 c = [c] ∧ tesc1 c = [c] := by
  have h1 : c ≠ '&' := by rintro rfl; exact absurd hx (by decide)
  have h2 : c ≠ '<' := by rintro rfl; exact absurd hx (by decide)
  have h3 : c ≠ '>' := by rintro rfl; exact absurd hx (by decide)
  have h4 : c ≠ ' ' := by rintro rfl; exact absurd hx (by decide)
  simp [tesc1, esc1, h1, h2, h3, h4]

theorem bad_flatMap {f : Char → Str} (hf : ∀ c, xmlChar c = false → f c = [c]) {s : Str} (h : s.all xmlChar = false) :
    ∃ c ∈ s.flatMap f, xmlChar c = false := by
  rw [List.all_eq_false] at h
  obtain ⟨c, hc, hx⟩ := h
  have hx : xmlChar c = false := by simpa using hx
  exact ⟨c, List.mem_flatMap.mpr ⟨c, hc, by rw [hf c hx]; simp⟩, hx⟩

/-! ### a value that ends early -/

/-- The attributes of the start tag being read. -/
def tagAttrs : Mode → Option Attrs
  | .name _ => some []
  | .space _ as => some as
  | .attrName _ as _ => some as
  | .attrEq _ as _ => some as
  | .attrVal _ as _ _ _ => some as
  | .attrRef _ as _ _ _ _ => some as
  | .attrEnd _ as => some as
  | .slash _ as => some as
  | _ => none

/-- What one character can do. -/
inductive Effect (z : Ctx) (m : Mode) : RState → Prop where
  | stay (m') (h : tagAttrs m = tagAttrs m' ∨ (tagAttrs m = none ∧ tagAttrs m' = some []) ∨
      ∃ as x, tagAttrs m = some as ∧ tagAttrs m' = some (as ++ [x])) : Effect z m (z, m')
  | add (g m') (h : tagAttrs m = none) (h' : tagAttrs m' = none) : Effect z m ({ z with cur := z.cur ++ g }, m')
  | opn (n as) (h : tagAttrs m = some as) : Effect z m (openElem z n as)
  | empty (n as) (h : tagAttrs m = some as) : Effect z m ({ z with cur := z.cur ++ Forest.elem n as .nil .nil }, .content [])
  | pop (o n as u) (h : tagAttrs m = none) (hu : z.up = (o, n, as) :: u) :
      Effect z m ({ cur := o ++ Forest.elem n as z.cur .nil, up := u }, .content [])

theorem step_effect {z : Ctx} {m : Mode} {c : Char} {st' : RState} (hs : step (z, m) c = some st') : Effect z m st' := by
  unfold step at hs
  split at hs
  · cases hs
  dsimp only at hs
  cases m with
  | content txt =>
    dsimp only at hs
    split at hs
    · injection hs with hs; subst hs; exact .add _ _ rfl rfl
    · split at hs
      · injection hs with hs; subst hs; exact .stay _ (Or.inl rfl)
      · injection hs with hs; subst hs; exact .stay _ (Or.inl rfl)
  | ref txt e =>
    dsimp only at hs
    split at hs
    · split at hs
      · injection hs with hs; subst hs; exact .stay _ (Or.inl rfl)
      · cases hs
    · injection hs with hs; subst hs; exact .stay _ (Or.inl rfl)
  | lt =>
    dsimp only at hs
    split at hs
    · injection hs with hs; subst hs; exact .stay _ (Or.inl rfl)
    · split at hs
      · injection hs with hs; subst hs; exact .stay _ (Or.inr (Or.inl ⟨rfl, rfl⟩))
      · cases hs
  | name n =>
    dsimp only at hs
    split at hs
    · injection hs with hs; subst hs; exact .stay _ (Or.inl rfl)
    · split at hs
      · injection hs with hs; subst hs; exact .stay _ (Or.inl rfl)
      · split at hs
        · injection hs with hs; subst hs; exact .opn _ _ rfl
        · split at hs
          · injection hs with hs; subst hs; exact .stay _ (Or.inl rfl)
          · cases hs
  | space n as =>
    dsimp only at hs
    split at hs
    · injection hs with hs; subst hs; exact .stay _ (Or.inl rfl)
    · split at hs
      · injection hs with hs; subst hs; exact .stay _ (Or.inl rfl)
      · split at hs
        · injection hs with hs; subst hs; exact .opn _ _ rfl
        · split at hs
          · injection hs with hs; subst hs; exact .stay _ (Or.inl rfl)
          · cases hs
  | attrName n as a =>
    dsimp only at hs
    split at hs
    · injection hs with hs; subst hs; exact .stay _ (Or.inl rfl)
    · split at hs
      · injection hs with hs; subst hs; exact .stay _ (Or.inl rfl)
      · cases hs
  | attrEq n as a =>
    dsimp only at hs
    split at hs
    · injection hs with hs; subst hs; exact .stay _ (Or.inl rfl)
    · cases hs
  | attrVal n as a q v =>
    dsimp only at hs
    split at hs
    · split at hs
      · cases hs
      · injection hs with hs; subst hs; exact .stay _ (Or.inr (Or.inr ⟨_, _, rfl, rfl⟩))
    · split at hs
      · cases hs
      · split at hs
        · injection hs with hs; subst hs; exact .stay _ (Or.inl rfl)
        · split at hs
          · injection hs with hs; subst hs; exact .stay _ (Or.inl rfl)
          · injection hs with hs; subst hs; exact .stay _ (Or.inl rfl)
  | attrRef n as a q v e =>
    dsimp only at hs
    split at hs
    · split at hs
      · injection hs with hs; subst hs; exact .stay _ (Or.inl rfl)
      · cases hs
    · injection hs with hs; subst hs; exact .stay _ (Or.inl rfl)
  | attrEnd n as =>
    dsimp only at hs
    split at hs
    · injection hs with hs; subst hs; exact .stay _ (Or.inl rfl)
    · split at hs
      · injection hs with hs; subst hs; exact .opn _ _ rfl
      · split at hs
        · injection hs with hs; subst hs; exact .stay _ (Or.inl rfl)
        · cases hs
  | slash n as =>
    dsimp only at hs
    split at hs
    · injection hs with hs; subst hs; exact .empty _ _ rfl
    · cases hs
  | endName n =>
    dsimp only at hs
    split at hs
    · split at hs
      · rename_i o m as up hu
        split at hs
        · injection hs with hs; subst hs; exact .pop _ _ _ _ rfl hu
        · cases hs
      · cases hs
    · split at hs
      · injection hs with hs; subst hs; exact .stay _ (Or.inl rfl)
      · cases hs

/-- The forest starts with an element whose first attribute is `p`. -/
def Starts (p : Str × Str) (F : Forest) : Prop := ∃ n as k r, F = .elem n as k r ∧ as.head? = some p

theorem Starts.append {p : Str × Str} {F : Forest} (h : Starts p F) (g : Forest) : Starts p (F ++ g) := by
  obtain ⟨n, as, k, r, rfl, h⟩ := h
  exact ⟨n, as, k, r ++ g, rfl, h⟩

/-- The first attribute of the first element is `p`. -/
def FirstAttr (p : Str × Str) (st : RState) : Prop :=
  match st.1.up.getLast? with
  | some (o, _, as) => Starts p o ∨ (o = .nil ∧ as.head? = some p)
  | none => Starts p st.1.cur ∨ (st.1.cur = .nil ∧ ∃ as, tagAttrs st.2 = some as ∧ as.head? = some p)

theorem step_firstAttr {p : Str × Str} {st st' : RState} {c : Char} (h : FirstAttr p st) (hs : step st c = some st') :
    FirstAttr p st' := by
  obtain ⟨z, m⟩ := st
  have he := step_effect hs
  cases hl : z.up.getLast? with
  | none =>
    have hup : z.up = [] := List.getLast?_eq_none_iff.mp hl
    simp only [FirstAttr, hl] at h
    cases he with
    | stay m' hm =>
      simp only [FirstAttr, hl]
      rcases h with h | ⟨h1, as, h2, h3⟩
      · exact Or.inl h
      · right
        refine ⟨h1, ?_⟩
        rcases hm with hm | ⟨hm, -⟩ | ⟨as', x, hm, hm'⟩
        · exact ⟨as, hm ▸ h2, h3⟩
        · rw [hm] at h2; cases h2
        · rw [hm] at h2; injection h2 with h2; subst h2
          refine ⟨_, hm', ?_⟩
          cases as' with
          | nil => cases h3
          | cons y ys => exact h3
    | add g m' hm hm' =>
      simp only [FirstAttr, hl]
      rcases h with h | ⟨h1, as, h2, h3⟩
      · exact Or.inl (h.append g)
      · rw [hm] at h2; cases h2
    | opn n as hm =>
      simp only [FirstAttr, openElem, hup, List.getLast?_singleton]
      rcases h with h | ⟨h1, as', h2, h3⟩
      · exact Or.inl h
      · rw [hm] at h2; injection h2 with h2; subst h2
        exact Or.inr ⟨h1, h3⟩
    | empty n as hm =>
      simp only [FirstAttr, hl]
      left
      rcases h with h | ⟨h1, as', h2, h3⟩
      · exact h.append _
      · rw [hm] at h2; injection h2 with h2; subst h2
        rw [h1]
        exact ⟨n, as, _, _, rfl, h3⟩
    | pop o n as u hm hu => rw [hup] at hu; cases hu
  | some f =>
    obtain ⟨o, n, as⟩ := f
    simp only [FirstAttr, hl] at h
    cases he with
    | stay m' hm => simpa only [FirstAttr, hl] using h
    | add g m' hm hm' => simpa only [FirstAttr, hl] using h
    | opn n' as' hm =>
      have hne : z.up ≠ [] := by intro e; rw [e] at hl; cases hl
      simp only [FirstAttr, openElem]
      have : ((z.cur, n', as') :: z.up).getLast? = z.up.getLast? := by
        cases hz : z.up with
        | nil => exact absurd hz hne
        | cons y l => simp [List.getLast?_cons_cons]
      rw [this, hl]
      exact h
    | empty n as hm => simpa only [FirstAttr, hl] using h
    | pop o' n' as' u hm hu =>
      cases u with
      | nil =>
        rw [hu] at hl
        simp only [List.getLast?_singleton, Option.some.injEq, Prod.mk.injEq] at hl
        obtain ⟨rfl, rfl, rfl⟩ := hl
        simp only [FirstAttr, List.getLast?_nil]
        left
        rcases h with h | ⟨h1, h2⟩
        · exact h.append _
        · rw [h1]; exact ⟨_, _, _, _, rfl, h2⟩
      | cons y l =>
        rw [hu, List.getLast?_cons_cons] at hl
        simp only [FirstAttr, hl]
        exact h

theorem steps_firstAttr {p : Str × Str} {s : Str} {st st' : RState} (h : FirstAttr p st) (hs : steps st s = some st') :
    FirstAttr p st' := by
  induction s generalizing st with
  | nil => injection hs with hs; subst hs; exact h
  | cons c s ih =>
    simp only [steps] at hs
    split at hs
    · cases hs
    · rename_i st1 h1
      exact ih (step_firstAttr h h1) hs

theorem final_firstAttr {p : Str × Str} {st : RState} {F : Forest} (h : FirstAttr p st) (hf : final st = some F) : Starts p F := by
  obtain ⟨z, m⟩ := st
  cases m with
  | content txt =>
    simp only [final] at hf
    split at hf
    · rename_i hup
      injection hf with hf; subst hf
      simp only [FirstAttr, hup, List.getLast?_nil] at h
      rcases h with h | ⟨-, as, h, -⟩
      · exact h.append _
      · cases h
    · cases hf
  | _ => cases hf

end Verif.Xml
