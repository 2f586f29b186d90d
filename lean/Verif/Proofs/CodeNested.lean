import Verif.Proofs.Code
import Verif.Proofs.MergeNested
import Verif.Spec.Code

/-! The sections of highlighted code. -/

namespace Verif.Text
open Spec

theorem sections_de (ts : List Tok) : ∀ p st, sections p st (de ts) = sections p st ts := by
  induction ts with
  | nil => intro p st; rfl
  | cons t ts ih =>
    intro p st
    by_cases h : t = .text []
    · subst h; simpa [de, sections] using ih p st
    · have : de (t :: ts) = t :: de ts := by simp [de, h]
      rw [this]
      cases t with
      | close => cases st <;> simp [sections, ih]
      | _ => simp [sections, ih]

theorem sections_splitText (st : List Nat) (s : Str) (ts : List Tok) : ∀ p, sections p st (splitText s ++ ts) = sections (p + s.length) st ts := by
  induction s with
  | nil => intro p; simp [splitText_nil, sections]
  | cons c s ih =>
    intro p
    by_cases hc : c = '\n'
    · subst hc
      simp only [splitText_cons_nl, List.cons_append, sections, ih, List.length_cons, List.length_nil]
      congr 1; omega
    · obtain ⟨l, us, h⟩ := splitText_head s
      rw [splitText_cons hc s l us h]
      have := ih (p + 1)
      rw [h] at this
      simp only [List.cons_append, sections, List.length_cons] at this ⊢
      rw [← (by omega : p + 1 + l.length = p + (l.length + 1)), this]
      congr 1; omega

/-- The sections of the formatted stream are those of the lexer. -/
theorem sections_formatStream (vals : List (Str × Str)) : ∀ p, ∀ x ∈ sections p [] (formatStream vals), x ∈ pieces p vals := by
  induction vals with
  | nil => intro p x hx; simp [formatStream, sections] at hx
  | cons y vals ih =>
    obtain ⟨tt, v⟩ := y
    intro p x hx
    rw [← sections_de, formatStream_cons, formatValue_eq] at hx
    simp only [pieces, List.mem_cons]
    split at hx
    · rename_i hv
      simp only [List.cons_append, List.nil_append, sections, sections_de] at hx
      exact .inr (ih _ x (by simpa [hv] using hx))
    · simp only [List.cons_append, List.append_assoc, sections] at hx
      have e : sections p [p] (de (splitText v) ++ (Tok.close :: de (formatStream vals))) =
          sections p [p] (splitText v ++ (.close :: formatStream vals)) := by
        rw [← sections_de (splitText v ++ _), de_append]
        rfl
      rw [List.nil_append, e, sections_splitText] at hx
      simp only [sections, List.mem_cons] at hx
      exact hx.imp id (ih _ x)

theorem sections_simplify_aux (a b c : List Tok)
    (h : ∀ p st, ∀ x ∈ sections p st c, ∃ y ∈ sections p st b, y.1 = x.1 ∧ x.2 ≤ y.2) :
    ∀ p st, ∀ x ∈ sections p st (a ++ c), ∃ y ∈ sections p st (a ++ b), y.1 = x.1 ∧ x.2 ≤ y.2 := by
  induction a with
  | nil => exact h
  | cons t a ih =>
    intro p st x hx
    cases t with
    | close =>
      cases st with
      | nil => exact ih p [] x hx
      | cons s st =>
        simp only [List.cons_append, sections, List.mem_cons] at hx ⊢
        rcases hx with rfl | hx
        · exact ⟨_, .inl rfl, rfl, le_rfl⟩
        · obtain ⟨y, h1, h2⟩ := ih p st x hx
          exact ⟨y, .inr h1, h2⟩
    | _ => exact ih _ _ x hx

theorem sections_simplify {ts r : List Tok} (h : Simplify ts r) :
    ∀ p st, ∀ x ∈ sections p st r, ∃ y ∈ sections p st ts, y.1 = x.1 ∧ x.2 ≤ y.2 := by
  cases h with
  | dropEmpty a b =>
    exact sections_simplify_aux a _ _ (fun p st x hx => ⟨x, by simpa [sections] using hx, rfl, le_rfl⟩)
  | mergeBreaks a n m b =>
    exact sections_simplify_aux a _ _ (fun p st x hx => ⟨x, by simpa [sections, Nat.add_assoc] using hx, rfl, le_rfl⟩)
  | moveOut a n b =>
    refine sections_simplify_aux a _ _ (fun p st x hx => ?_)
    cases st with
    | nil => exact ⟨x, by simpa [sections] using hx, rfl, le_rfl⟩
    | cons s st =>
      simp only [sections, List.mem_cons] at hx ⊢
      rcases hx with rfl | hx
      · exact ⟨_, .inl rfl, rfl, by simp⟩
      · exact ⟨x, .inr hx, rfl, le_rfl⟩
  | dropTrailing a n =>
    have := sections_simplify_aux r [.newline n] [] (fun p st x hx => by simp [sections] at hx)
    simpa using this
  | joinRuns a s t b =>
    exact sections_simplify_aux a _ _ (fun p st x hx => ⟨x, by simpa [sections, Nat.add_assoc] using hx, rfl, le_rfl⟩)

theorem sections_simplifies {ts r : List Tok} (h : Simplifies ts r) :
    ∀ p st, ∀ x ∈ sections p st r, ∃ y ∈ sections p st ts, y.1 = x.1 ∧ x.2 ≤ y.2 := by
  induction h with
  | refl => exact fun p st x hx => ⟨x, hx, rfl, le_rfl⟩
  | step s _ ih =>
    intro p st x hx
    obtain ⟨y, h1, h2, h3⟩ := ih p st x hx
    obtain ⟨z, k1, k2, k3⟩ := sections_simplify s p st y h1
    exact ⟨z, k1, k2.trans h2, h3.trans k3⟩

/-- Every section of the highlighted code lies in a token of the lexer and begins where it begins. -/
theorem sections_highlight {lx : Lexer} {code : Str} {r : List Tok} (h : highlightCode lx code = .ok r) :
    ∀ x ∈ sections 0 [] r, ∃ y ∈ pieces 0 (lx code), y.1 = x.1 ∧ x.2 ≤ y.2 := by
  intro x hx
  obtain ⟨y, h1, h2⟩ := sections_simplifies (normalize_simplifies h) 0 [] x hx
  exact ⟨y, sections_formatStream _ _ y h1, h2⟩

end Verif.Text
