import Verif.Proofs.MergeWhole

/-! Merging with nested styles of which none begins inside a style of the first stream and reaches to its end. -/

namespace Verif.Text
open Spec

/-- How many characters there are up to the end of the `k`-th open section, counted from the innermost. -/
def restK : Nat → List Tok → Nat
  | 0, _ => 0
  | _ + 1, [] => 0
  | k + 1, .text s :: ts => s.length + restK (k + 1) ts
  | k + 1, .newline n :: ts => n + restK (k + 1) ts
  | k + 1, .opn _ :: ts => restK (k + 2) ts
  | k + 1, .close :: ts => restK k ts

/-- No empty tokens. -/
def Solid (l : List Tok) : Prop := ∀ t ∈ l, t ≠ .text [] ∧ t ≠ .newline 0

theorem solid_tail {t : Tok} {l : List Tok} (h : Solid (t :: l)) : Solid l := fun x hx => h x (List.mem_cons_of_mem _ hx)

theorem solid_dropTx {v : Str} {l : List Tok} (h : Solid l) : Solid (dropTx v l) := by
  unfold dropTx; split
  · exact h
  · rename_i hv
    intro t ht
    rcases List.mem_cons.mp ht with rfl | ht
    · simpa using hv
    · exact h t ht

theorem solid_dropNl {v : Nat} {l : List Tok} (h : Solid l) : Solid (dropNl v l) := by
  unfold dropNl; split
  · exact h
  · rename_i hv
    intro t ht
    rcases List.mem_cons.mp ht with rfl | ht
    · simpa using hv
    · exact h t ht

theorem depthOf_dropTx (d : Nat) (v : Str) (l : List Tok) : depth d (dropTx v l) = depth d l := by
  unfold dropTx; split <;> simp

theorem depthOf_dropNl (d : Nat) (v : Nat) (l : List Tok) : depth d (dropNl v l) = depth d l := by
  unfold dropNl; split <;> simp

theorem restK_dropTx (k : Nat) (v : Str) (l : List Tok) : restK (k + 1) (dropTx v l) = v.length + restK (k + 1) l := by
  unfold dropTx; split
  · rename_i h; simp [h]
  · rfl

theorem restK_dropNl (k : Nat) (v : Nat) (l : List Tok) : restK (k + 1) (dropNl v l) = v + restK (k + 1) l := by
  unfold dropNl; split
  · rename_i h; simp [h]
  · rfl

theorem block_endK (r : List Tok) : ∀ d e, depth (d + 1 + e) r = some 0 →
    ∃ k, blockEnd d r = some k ∧ (plainText (r.take k)).length = restK (d + 1) r := by
  induction r with
  | nil => intro d e h; simp at h
  | cons t r ih =>
    intro d e h
    cases t with
    | text s =>
      obtain ⟨k, h1, h2⟩ := ih d e (by simpa using h)
      refine ⟨k + 1, by cases d <;> simp [blockEnd, h1], ?_⟩
      simp only [plainText, restK] at h2 ⊢
      rw [List.take_succ_cons, List.map_cons, List.flatten_cons, List.length_append, h2]
    | newline n =>
      obtain ⟨k, h1, h2⟩ := ih d e (by simpa using h)
      refine ⟨k + 1, by cases d <;> simp [blockEnd, h1], ?_⟩
      simp only [plainText, restK] at h2 ⊢
      rw [List.take_succ_cons, List.map_cons, List.flatten_cons, List.length_append, h2, List.length_replicate]
    | opn n =>
      obtain ⟨k, h1, h2⟩ := ih (d + 1) e (by rw [← h, depth_opn]; congr 1; omega)
      refine ⟨k + 1, by cases d <;> simp [blockEnd, h1], ?_⟩
      simp only [plainText, restK] at h2 ⊢
      rw [List.take_succ_cons, List.map_cons, List.flatten_cons, List.length_append, h2, List.length_nil, Nat.zero_add]
    | close =>
      cases d with
      | zero => exact ⟨0, by simp [blockEnd], by simp [plainText, restK]⟩
      | succ d =>
        obtain ⟨k, h1, h2⟩ := ih d e (by rw [show d + 1 + 1 + e = (d + 1 + e) + 1 by omega] at h; simpa using h)
        refine ⟨k + 1, by simp [blockEnd, h1], ?_⟩
        simp only [plainText, restK] at h2 ⊢
        rw [List.take_succ_cons, List.map_cons, List.flatten_cons, List.length_append, h2, List.length_nil, Nat.zero_add]

theorem block_lengthK (n : Str) (r : List Tok) (e : Nat) (h : depth (1 + e) r = some 0) : (blockText (.opn n :: r)).length = restK 1 r := by
  obtain ⟨k, h1, h2⟩ := block_endK r 0 e (by simpa using h)
  simp only [blockText, h1]
  simp only [plainText] at h2 ⊢
  simpa using h2

/-- The sections that begin in a stream. -/
def extentsK (pos : Nat) : List Tok → List (Nat × Nat)
  | [] => []
  | .text s :: ts => extentsK (pos + s.length) ts
  | .newline n :: ts => extentsK (pos + n) ts
  | .opn _ :: ts => (pos, pos + restK 1 ts) :: extentsK pos ts
  | .close :: ts => extentsK pos ts

theorem extentsK_dropTx (v : Str) (l : List Tok) (pos : Nat) : extentsK pos (dropTx v l) = extentsK (pos + v.length) l := by
  unfold dropTx; split
  · rename_i h; simp [h]
  · rfl

theorem extentsK_dropNl (v : Nat) (l : List Tok) (pos : Nat) : extentsK pos (dropNl v l) = extentsK (pos + v) l := by
  unfold dropNl; split
  · rename_i h; simp [h]
  · rfl

theorem extentsK_sub (ts : List Tok) : ∀ pos (st : List Nat), depth st.length ts = some 0 →
    (∀ y ∈ extentsK pos ts, y ∈ sections pos st ts) ∧ ∀ (i a : Nat), st[i]? = some a → (a, pos + restK (i + 1) ts) ∈ sections pos st ts := by
  induction ts with
  | nil =>
    intro pos st h
    have : st = [] := by simpa using h
    subst this
    exact ⟨by simp [extentsK], by simp⟩
  | cons t ts ih =>
    intro pos st h
    cases t with
    | text s =>
      obtain ⟨h1, h2⟩ := ih (pos + s.length) st (by simpa using h)
      exact ⟨h1, fun i a hi => by simpa [sections, restK, Nat.add_assoc] using h2 i a hi⟩
    | newline n =>
      obtain ⟨h1, h2⟩ := ih (pos + n) st (by simpa using h)
      exact ⟨h1, fun i a hi => by simpa [sections, restK, Nat.add_assoc] using h2 i a hi⟩
    | opn n =>
      obtain ⟨h1, h2⟩ := ih pos (pos :: st) (by simpa using h)
      refine ⟨fun y hy => ?_, fun i a hi => h2 (i + 1) a (by simpa using hi)⟩
      rcases List.mem_cons.mp hy with rfl | hy
      · exact h2 0 pos rfl
      · exact h1 y hy
    | close =>
      cases st with
      | nil => simp at h
      | cons a st =>
        obtain ⟨h1, h2⟩ := ih pos st (by simpa using h)
        refine ⟨fun y hy => List.mem_cons_of_mem _ (h1 y hy), fun i b hi => ?_⟩
        cases i with
        | zero =>
          obtain rfl : a = b := by simpa using hi
          simp [sections, restK]
        | succ i => exact List.mem_cons_of_mem _ (h2 i b (by simpa using hi))

/-- The state of the loop: `k` sections of the second stream are inside the open block of the first, `j` are outside. -/
inductive Inside (S1 : List (Nat × Nat)) : List Bool → Nat → MState → Prop where
  | out {pos l1 l2 i1 i2 s1 s2} (j : Nat) : SimpleMarkup false l1 → depth j l2 = some 0 → Solid l2 →
      Inside S1 (List.replicate j true) pos ⟨l1, l2, i1, i2, s1, s2⟩
  | tok {pos l1 l2 i1 i2 s1 s2} (k j c : Nat) : SimpleMarkup true l1 → depth (k + j) l2 = some 0 → Solid l2 → (c, pos + restOf l1) ∈ S1 → c ≤ pos →
      (k = 0 → c < pos ∨ (l2.head? ≠ some .close ∧ ∀ n r, l2 = .opn n :: r → restK 1 r < restOf l1)) →
      (k ≠ 0 → (c < pos ∨ 0 < restK k l2) ∧ restK k l2 < restOf l1) →
      Inside S1 (List.replicate k true ++ false :: List.replicate j true) pos ⟨l1, l2, i1, i2, s1, s2⟩

theorem inside_plain {S1 : List (Nat × Nat)} {st : List Bool} {pos w : Nat} {l1 l2 m1 m2 : List Tok} {i1 i2 j1 j2 : Nat} {s1 s2 : List Nat}
    (h : Inside S1 st pos ⟨l1, l2, i1, i2, s1, s2⟩) (hw : 0 < w) (f1 : ∀ b, SimpleMarkup b l1 → SimpleMarkup b m1) (f2 : Solid l2 → Solid m2)
    (f3 : ∀ d, depth d m2 = depth d l2) (r1 : restOf l1 = w + restOf m1) (r2 : ∀ k, restK (k + 1) l2 = w + restK (k + 1) m2) :
    Inside S1 st (pos + w) ⟨m1, m2, j1, j2, s1, s2⟩ := by
  cases h with
  | out j a b c => exact .out j (f1 _ a) (by rw [f3]; exact b) (f2 c)
  | tok k j c a b d e f g i =>
    refine .tok k j c (f1 _ a) (by rw [f3]; exact b) (f2 d) ?_ (by omega) (fun _ => .inl (by omega)) (fun hk => ⟨.inl (by omega), ?_⟩)
    · rw [Nat.add_assoc, ← r1]; exact e
    · obtain ⟨k, rfl⟩ := Nat.exists_eq_succ_of_ne_zero hk
      have h1 := (i hk).2
      have h2 := r2 k
      simp only [Nat.succ_eq_add_one] at h1 ⊢
      omega

theorem inside_loop (S1 S2 : List (Nat × Nat)) (hne : ∀ y ∈ S2, y.1 < y.2) (hcr : ∀ x ∈ S1, ∀ y ∈ S2, ¬ Crosses y x) : ∀ (fuel : Nat) (st : List Bool)
    (pos : Nat) (s : MState) (ms : List MTok), Inside S1 st pos s → extents pos s.l1 ⊆ S1 → extentsK pos s.l2 ⊆ S2 → mergeLoop fuel s = .ok ms →
    Nest st ms := by
  intro fuel
  induction fuel with
  | zero => intro st pos s ms _ _ _ h; simp [mergeLoop] at h
  | succ fuel ih =>
    intro st pos s ms hw e1 e2 h
    simp only [mergeLoop] at h
    split at h
    · cases h
    · injection h with h; subst h; exact trivial
    · rename_i m s' hm
      split at h
      · rename_i ms' hms
        injection h with h; subst h
        obtain ⟨hst, hix, hc1, ho1, ho2⟩ := chosen hm
        cases hst with
        | @nl v1 v2 l1 l2 i1 i2 s1 s2 i1' i2' =>
          simp only [extents, extentsK] at e1 e2
          have hv : v1 ≠ 0 ∧ v2 ≠ 0 := by
            cases hw with
            | out j a b c => exact ⟨a.1, by simpa using (c _ (List.mem_cons_self ..)).2⟩
            | tok k j c a b d => exact ⟨a.1, by simpa using (d _ (List.mem_cons_self ..)).2⟩
          refine ih st (pos + min v1 v2) _ ms' ?_ ?_ ?_ hms
          · refine inside_plain hw (by omega) (fun b hb => (simple_dropNl _ _ _).mpr hb.2) (fun hs => solid_dropNl (solid_tail hs))
              (fun d => by rw [depthOf_dropNl, depth_newline]) ?_ ?_
            · rw [rest_dropNl]; simp only [restOf]; omega
            · intro k; rw [restK_dropNl]; simp only [restK]; omega
          · rw [extents_dropNl, show pos + min v1 v2 + (v1 - v2) = pos + v1 by omega]; exact e1
          · rw [extentsK_dropNl, show pos + min v1 v2 + (v2 - v1) = pos + v2 by omega]; exact e2
        | @tx v1 v2 l1 l2 i1 i2 s1 s2 i1' i2' =>
          simp only [extents, extentsK] at e1 e2
          have hv : v1 ≠ [] ∧ v2 ≠ [] := by
            cases hw with
            | out j a b c => exact ⟨a.1, by simpa using (c _ (List.mem_cons_self ..)).1⟩
            | tok k j c a b d => exact ⟨a.1, by simpa using (d _ (List.mem_cons_self ..)).1⟩
          have hv1 := List.length_pos_of_ne_nil hv.1
          have hv2 := List.length_pos_of_ne_nil hv.2
          refine ih st (pos + min v1.length v2.length) _ ms' ?_ ?_ ?_ hms
          · refine inside_plain hw (by omega) (fun b hb => (simple_dropTx _ _ _).mpr hb.2) (fun hs => solid_dropTx (solid_tail hs))
              (fun d => by rw [depthOf_dropTx, depth_text]) ?_ ?_
            · rw [rest_dropTx, List.length_drop]; simp only [restOf]; omega
            · intro k; rw [restK_dropTx, List.length_drop]; simp only [restK]; omega
          · rw [extents_dropTx, List.length_drop, show pos + min v1.length v2.length + (v1.length - v2.length) = pos + v1.length by omega]; exact e1
          · rw [extentsK_dropTx, List.length_drop, show pos + min v1.length v2.length + (v2.length - v1.length) = pos + v2.length by omega]; exact e2
        | @close1 l1 l2 i1 i2 s1 s2 hs =>
          simp only [Nest]
          cases hw with
          | out j a b c => exact absurd a.1 (by decide)
          | tok k j c a b d e f g i =>
            have hk : k = 0 := by
              by_contra hk
              have := (i hk).2
              simp only [restOf] at this
              exact absurd this (Nat.not_lt_zero _)
            subst hk
            exact ⟨rfl, ih _ pos _ ms' (.out j a.2 (by simpa using b) d) e1 e2 hms⟩
        | @close2 l1 l2 i1 i2 s1 s2 hs =>
          simp only [Nest]
          cases hw with
          | out j a b c =>
            cases j with
            | zero => simp at b
            | succ j =>
              simp only [List.replicate_succ, List.erase_cons_head]
              exact ih _ pos _ ms' (.out j a (by simpa using b) (solid_tail c)) e1 e2 hms
          | tok k j c a b d e f g i =>
            cases k with
            | zero =>
              have hc : c < pos := by
                rcases g rfl with hc | hc
                · exact hc
                · exact absurd rfl hc.1
              cases j with
              | zero => simp at b
              | succ j =>
                have : (List.replicate 0 true ++ false :: List.replicate (j + 1) true).erase true = List.replicate 0 true ++ false :: List.replicate j true := by
                  simp [List.replicate_succ]
                rw [this]
                exact ih _ pos _ ms' (.tok 0 j c a (by simpa using b) (solid_tail d) e f (fun _ => .inl hc) (fun h => absurd rfl h)) e1 e2 hms
            | succ k =>
              simp only [List.replicate_succ, List.cons_append, List.erase_cons_head]
              have hi := i (by omega)
              simp only [restK] at hi
              refine ih _ pos _ ms' (.tok k j c a ?_ (solid_tail d) e f ?_ (fun _ => hi)) e1 e2 hms
              · rw [show k + 1 + j = (k + j) + 1 by omega] at b; simpa using b
              · intro hk
                subst hk
                rcases hi.1 with h | h
                · exact .inl h
                · simp [restK] at h
        | @opn1 n l1 l2 i1 i2 s1 s2 =>
          simp only [Nest]
          simp only [extents, List.cons_subset] at e1
          obtain ⟨hnc, hlen⟩ := ho1 n rfl
          cases hw with
          | out j a b c =>
            refine ih (List.replicate 0 true ++ false :: List.replicate j true) pos _ ms'
              (.tok 0 j pos a.2 (by simpa using b) c e1.1 le_rfl (fun _ => .inr ⟨hnc, ?_⟩) (fun h => absurd rfl h)) e1.2 e2 hms
            intro k r hk
            subst hk
            have := hlen k r rfl
            simp only [block_length _ _ a.2, block_lengthK k r j (by rw [← b, depth_opn, Nat.add_comm])] at this
            exact this
          | tok k j c a b d e f g i => exact absurd a.1 (by decide)
        | @opn2 n l1 l2 i1 i2 s1 s2 =>
          simp only [Nest]
          simp only [extentsK, List.cons_subset] at e2
          have hnc := ho2 n rfl
          cases hw with
          | out j a b c =>
            have := ih (List.replicate (j + 1) true) pos _ ms' (.out (j + 1) a (by simpa using b) (solid_tail c)) e1 e2.2 hms
            simpa [List.replicate_succ] using this
          | tok k j c a b d e f g i =>
            have hpos : restOf l1 ≠ 0 := fun h0 => hnc (rest_zero a h0)
            have hn := hne _ e2.1
            simp only at hn
            have := ih (List.replicate (k + 1) true ++ false :: List.replicate j true) pos _ ms'
              (.tok (k + 1) j c a (by rw [← b, depth_opn]; congr 1; omega) (solid_tail d) e f (fun h => absurd h (by omega)) (fun _ => ?_)) e1 e2.2 hms
            · simpa [List.replicate_succ] using this
            · cases k with
              | zero =>
                refine ⟨.inr (by simp only [Nat.zero_add]; omega), ?_⟩
                rcases g rfl with hc | hc
                · have hx := hcr _ e _ e2.1
                  unfold Crosses at hx
                  simp only [not_and, not_le] at hx
                  have := hx hc (by omega)
                  simp only [Nat.zero_add]
                  omega
                · exact hc.2 n _ rfl
              | succ k =>
                have hi := i (by omega)
                simpa only [restK] using hi
      · cases h

end Verif.Text
