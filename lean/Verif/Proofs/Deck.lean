import Verif.Spec.Deck
import Mathlib.Data.List.Nodup
import Mathlib.Data.List.Perm.Basic
import Mathlib.Tactic.Common
import Mathlib.Tactic.Ring
import Init.Data.Nat.ToString

/-! Helper lemmas for decks. -/

namespace Verif.Deck
open Spec

/-! ### names -/

theorem idOf_eq : idOf = Entry.uid := by funext e; cases e <;> rfl

theorem names_nil : names [] = [] := rfl
theorem names_none (u i : Nat) (l : List Entry) : names (.slide u i .none :: l) = names l := rfl
theorem names_other (u i : Nat) (l : List Entry) : names (.slide u i .other :: l) = names l := rfl
theorem names_str (u i : Nat) (n : Str) (l : List Entry) : names (.slide u i (.str n) :: l) = n :: names l := rfl
theorem names_pdf (u : Nat) (f : Str) (l : List Entry) : names (.pdf u f :: l) = names l := rfl

theorem getByName_none {n : Str} {l : List Entry} (h : getByName n l = .ok none) : n ∉ names l := by
  induction l with
  | nil => simp [names]
  | cons e l ih =>
    cases e with
    | pdf u f => cases h
    | slide u i m =>
      simp only [getByName] at h
      split at h
      · cases h
      · rename_i hm
        have := ih h
        cases m with
        | none => simpa [names_nil, names_none, names_other, names_str, names_pdf] using this
        | other => simpa [names_nil, names_none, names_other, names_str, names_pdf] using this
        | str k =>
          have hk : n ≠ k := fun hk => hm (by rw [hk])
          simp only [names_str, List.mem_cons, not_or]
          exact ⟨hk, this⟩

theorem getByName_some {n : Str} {l : List Entry} {u : Nat} (hu : (l.map Entry.uid).Nodup) (hn : (names l).Nodup)
    (h : getByName n l = .ok (some u)) : n ∈ names l ∧ remove u l = l.filter (fun e => nameOf e ≠ some n) := by
  induction l with
  | nil => cases h
  | cons e l ih =>
    cases e with
    | pdf u f => cases h
    | slide v i m =>
      simp only [getByName] at h
      simp only [List.map_cons, List.nodup_cons] at hu
      split at h
      · rename_i hm
        subst hm
        injection h with h; injection h with h; subst h
        simp only [names_str, List.nodup_cons] at hn
        refine ⟨by simp [names_nil, names_none, names_other, names_str, names_pdf], ?_⟩
        rw [List.filter_cons_of_neg (by simp [nameOf])]
        simp only [remove, Entry.uid, if_true]
        symm
        rw [List.filter_eq_self]
        intro e he
        simp only [ne_eq, decide_not, Bool.not_eq_true', decide_eq_false_iff_not]
        intro hx
        exact hn.1 (List.mem_filterMap.mpr ⟨e, he, hx⟩)
      · rename_i hm
        have hn' : (names l).Nodup := by
          cases m with
          | none => simpa [names_nil, names_none, names_other, names_str, names_pdf] using hn
          | other => simpa [names_nil, names_none, names_other, names_str, names_pdf] using hn
          | str k =>
            simp only [names_str, List.nodup_cons] at hn
            exact hn.2
        obtain ⟨h1, h2⟩ := ih hu.2 hn' h
        have hmem : ∃ e ∈ l, e.uid = u := by
          have : ∀ l : List Entry, getByName n l = .ok (some u) → ∃ e ∈ l, e.uid = u := by
            intro l
            induction l with
            | nil => intro h; cases h
            | cons e l ih =>
              intro h
              cases e with
              | pdf a b => cases h
              | slide a b c =>
                simp only [getByName] at h
                split at h
                · injection h with h; injection h with h; exact ⟨.slide a b c, by simp, h⟩
                · obtain ⟨e, he, hx⟩ := ih h
                  exact ⟨e, List.mem_cons_of_mem _ he, hx⟩
          exact this l h
        have hne : v ≠ u := by
          obtain ⟨e, he, hx⟩ := hmem
          rintro rfl
          exact hu.1 (List.mem_map.mpr ⟨e, he, hx⟩)
        constructor
        · cases m with
          | none => simpa [names_nil, names_none, names_other, names_str, names_pdf] using h1
          | other => simpa [names_nil, names_none, names_other, names_str, names_pdf] using h1
          | str k =>
            simp only [names_str, List.mem_cons]
            right; exact h1
        · simp only [remove, Entry.uid, if_neg hne, h2]
          rw [List.filter_cons]
          have : nameOf (.slide v i m) ≠ some n := by
            cases m with
            | none => simp [nameOf]
            | other => simp [nameOf]
            | str k => simp only [nameOf]; intro hx; injection hx with hx; exact hm (by rw [hx])
          simp [this]

theorem getByName_noPdf {n : Str} {l : List Entry} (h : ∀ u f, Entry.pdf u f ∉ l) : ∃ r, getByName n l = .ok r := by
  induction l with
  | nil => exact ⟨none, rfl⟩
  | cons e l ih =>
    cases e with
    | pdf u f => exact absurd (by simp) (h u f)
    | slide u i m =>
      simp only [getByName]
      split
      · exact ⟨_, rfl⟩
      · exact ih (fun u f hm => h u f (List.mem_cons_of_mem _ hm))

/-- Invariant of decks. -/
structure Inv (d : Deck) : Prop where
  uids : (d.slides.map Entry.uid).Nodup
  lt : ∀ e ∈ d.slides, e.uid < d.next
  names : d.policy ≠ .ignore → (names d.slides).Nodup

theorem names_append (l m : List Entry) : names (l ++ m) = names l ++ names m := List.filterMap_append

/-- What a successful `new_slide` does. -/
theorem newSlide_ok {d d' : Deck} (hi : Inv d) {name : Name} {v : Bool} (h : exec d (.newSlide name v) = (d', none)) :
    v = true ∧ d'.policy = d.policy ∧ d'.next = d.next + 1 ∧ ∃ keep, d'.slides = keep ++ [.slide d.next keep.length name] ∧
      ((keep = d.slides ∧ (d.policy ≠ .ignore → ∀ n, name = .str n → n ∉ names d.slides)) ∨
       (d.policy = .replace ∧ ∃ n, name = .str n ∧ n ∈ names d.slides ∧ keep = d.slides.filter (fun e => nameOf e ≠ some n))) := by
  simp only [exec] at h
  split at h
  · cases h
  · rename_i hv
    split at h
    · cases h
    · rename_i slides hs
      injection h with h _; subst h
      refine ⟨by simpa using hv, rfl, rfl, slides, rfl, ?_⟩
      unfold applyNamePolicy at hs
      split at hs
      · rename_i hp
        injection hs with hs
        exact Or.inl ⟨hs.symm, fun h => absurd hp h⟩
      · rename_i hp
        split at hs
        · split at hs
          · injection hs with hs
            exact Or.inl ⟨hs.symm, fun _ n hn => by cases hn⟩
          · cases hs
        · cases hs
        · rename_i n
          split at hs
          · cases hs
          · rename_i hg
            injection hs with hs
            refine Or.inl ⟨hs.symm, ?_⟩
            intro _ m hm
            injection hm with hm; subst hm
            exact getByName_none hg
          · rename_i u hg
            split at hs
            · cases hs
            · rename_i hpu
              injection hs with hs
              obtain ⟨h1, h2⟩ := getByName_some hi.uids (hi.names hp) hg
              refine Or.inr ⟨?_, n, rfl, h1, by rw [← hs, h2]⟩
              revert hp hpu
              cases d.policy <;> simp

theorem exec_inv {d : Deck} (hi : Inv d) (c : Call) : Inv (exec d c).1 ∧ (exec d c).1.policy = d.policy := by
  cases c with
  | addPdf f =>
    refine ⟨⟨?_, ?_, ?_⟩, rfl⟩
    · simp only [exec, List.map_append, List.map_cons, List.map_nil, Entry.uid]
      rw [List.nodup_append]
      refine ⟨hi.uids, by simp, ?_⟩
      intro a ha b hb
      simp only [List.mem_singleton] at hb
      obtain ⟨e, he, rfl⟩ := List.mem_map.mp ha
      have := hi.lt e he
      omega
    · intro e he
      simp only [exec, List.mem_append, List.mem_singleton] at he ⊢
      rcases he with he | rfl
      · have := hi.lt e he; omega
      · simp only [Entry.uid]; omega
    · intro hp
      simp only [exec, names_append]
      simpa [names_nil, names_none, names_other, names_str, names_pdf] using hi.names hp
  | newSlide name v =>
    cases hx : exec d (.newSlide name v) with
    | mk d' o =>
      cases o with
      | some e =>
        have : d' = d := by
          simp only [exec] at hx
          split at hx
          · injection hx with hx _; exact hx.symm
          · split at hx
            · injection hx with hx _; exact hx.symm
            · cases hx
        simp only [this]
        exact ⟨hi, trivial⟩
      | none =>
        obtain ⟨-, hp, hn, keep, hs, hk⟩ := newSlide_ok hi hx
        simp only
        have hsub : keep.Sublist d.slides := by
          rcases hk with ⟨rfl, -⟩ | ⟨-, n, -, -, rfl⟩
          · exact List.Sublist.refl _
          · exact List.filter_sublist
        refine ⟨⟨?_, ?_, ?_⟩, hp⟩
        · rw [hs, List.map_append, List.nodup_append]
          refine ⟨(hi.uids).sublist (hsub.map _), by simp, ?_⟩
          intro a ha b hb
          simp only [List.map_cons, List.map_nil, List.mem_singleton, Entry.uid] at hb
          obtain ⟨e, he, rfl⟩ := List.mem_map.mp ha
          have := hi.lt e (hsub.subset he)
          omega
        · intro e he
          rw [hs] at he
          simp only [List.mem_append, List.mem_singleton] at he
          rcases he with he | rfl
          · have := hi.lt e (hsub.subset he); omega
          · simp only [Entry.uid]; omega
        · intro hpol
          rw [hp] at hpol
          rw [hs, names_append, List.nodup_append]
          have hkn : (names keep).Nodup := (hi.names hpol).sublist (hsub.filterMap _)
          refine ⟨hkn, ?_, ?_⟩
          · cases name <;> simp [names_nil, names_none, names_other, names_str, names_pdf]
          · intro a ha b hb
            cases name with
            | none => simp [names_nil, names_none, names_other, names_str, names_pdf] at hb
            | other => simp [names_nil, names_none, names_other, names_str, names_pdf] at hb
            | str m =>
              simp only [names_str, names_nil, List.mem_singleton] at hb
              subst hb
              rintro rfl
              rcases hk with ⟨rfl, h2⟩ | ⟨-, n, hn', h3, rfl⟩
              · exact h2 hpol _ rfl ha
              · injection hn' with hn'; subst hn'
                obtain ⟨e, he, hx⟩ := List.mem_filterMap.mp ha
                have := (List.mem_filter.mp he).2
                simp [hx] at this

theorem history_inv (policy : Policy) (cs : List Call) : Inv (history policy cs) ∧ (history policy cs).policy = policy := by
  unfold history
  have : ∀ d : Deck, Inv d → Inv (cs.foldl (fun d c => (exec d c).1) d) ∧ (cs.foldl (fun d c => (exec d c).1) d).policy = d.policy := by
    induction cs with
    | nil => intro d hd; exact ⟨hd, rfl⟩
    | cons c cs ih =>
      intro d hd
      obtain ⟨h1, h2⟩ := exec_inv hd c
      obtain ⟨h3, h4⟩ := ih _ h1
      exact ⟨h3, h4.trans h2⟩
  exact this { policy := policy } ⟨List.nodup_nil, (by intro e he; cases he), fun _ => List.nodup_nil⟩

/-! ### pages -/

theorem unitsLoop_mem {pages : Nat → Nat} {pdf : Bool} {l : List Entry} {us : List RUnit}
    (h : unitsLoop pages pdf l = .ok us) (v : RUnit) : v ∈ us ↔ ∃ e ∈ l, Shows pages e v := by
  induction l generalizing us with
  | nil => injection h with h; subst h; simp
  | cons e l ih =>
    simp only [unitsLoop] at h
    split at h
    · cases h
    · rename_i us1 h1
      split at h
      · cases h
      · rename_i us2 h2
        injection h with h; subst h
        rw [List.mem_append, ih h2]
        have key : v ∈ us1 ↔ Shows pages e v := by
          cases e with
          | slide u i m =>
            injection h1 with h1; subst h1
            simp only [List.mem_map, List.mem_range, Shows]
            constructor
            · rintro ⟨k, hk, rfl⟩; exact ⟨k + 1, by omega, by omega, rfl⟩
            · rintro ⟨s, h1, h2, rfl⟩; exact ⟨s - 1, by omega, by rw [show s - 1 + 1 = s by omega]⟩
          | pdf u f =>
            simp only [unitsOf] at h1
            split at h1
            · injection h1 with h1; subst h1; simp [Shows]
            · cases h1
        rw [key]
        simp

theorem shows_slide {pages : Nat → Nat} {e : Entry} {v : RUnit} (h : Shows pages e v) : RUnit.slide v = e.uid := by
  cases e with
  | slide u i m => obtain ⟨s, -, -, rfl⟩ := h; rfl
  | pdf u f => cases h; rfl

theorem unitsLoop_sorted {pages : Nat → Nat} {pdf : Bool} {l : List Entry} {us : List RUnit}
    (hu : (l.map Entry.uid).Nodup) (h : unitsLoop pages pdf l = .ok us) : us.Pairwise (Before l) := by
  induction l generalizing us with
  | nil => injection h with h; subst h; exact List.Pairwise.nil
  | cons e l ih =>
    simp only [List.map_cons, List.nodup_cons] at hu
    simp only [unitsLoop] at h
    split at h
    · cases h
    · rename_i us1 h1
      split at h
      · cases h
      · rename_i us2 h2
        injection h with h; subst h
        rw [List.pairwise_append]
        have hs1 : ∀ v ∈ us1, RUnit.slide v = e.uid := by
          intro v hv
          have : unitsLoop pages pdf [e] = .ok us1 := by simp [unitsLoop, h1]
          obtain ⟨e', he', hx⟩ := (unitsLoop_mem this v).mp hv
          simp only [List.mem_singleton] at he'
          subst he'
          exact shows_slide hx
        have hs2 : ∀ v ∈ us2, RUnit.slide v ∈ l.map Entry.uid := by
          intro v hv
          obtain ⟨e', he', hx⟩ := (unitsLoop_mem h2 v).mp hv
          rw [shows_slide hx]; exact List.mem_map.mpr ⟨e', he', rfl⟩
        refine ⟨?_, ?_, ?_⟩
        · cases e with
          | slide u i m =>
            injection h1 with h1; subst h1
            rw [List.pairwise_map]
            exact List.pairwise_lt_range.imp (fun h => Or.inr ⟨rfl, by simp only [RUnit.step]; omega⟩)
          | pdf u f =>
            simp only [unitsOf] at h1
            split at h1
            · injection h1 with h1; subst h1; exact List.pairwise_singleton _ _
            · cases h1
        · refine (ih hu.2 h2).imp_of_mem ?_
          intro a b ha hb hab
          have na : e.uid ≠ RUnit.slide a := fun h => hu.1 (h ▸ hs2 a ha)
          have nb : e.uid ≠ RUnit.slide b := fun h => hu.1 (h ▸ hs2 b hb)
          rcases hab with hab | hab
          · left
            rw [idOf_eq] at hab ⊢
            simp only [List.map_cons]
            rw [List.idxOf_cons_ne _ na, List.idxOf_cons_ne _ nb]; omega
          · right; exact hab
        · intro a ha b hb
          left
          have nb : e.uid ≠ RUnit.slide b := fun h => hu.1 (h ▸ hs2 b hb)
          rw [idOf_eq]
          simp only [List.map_cons, hs1 a ha]
          rw [List.idxOf_cons_self, List.idxOf_cons_ne _ nb]; omega

/-! ### grids -/

/-- The cells of a page filled with `us`. -/
def cellsOf (cx w h : Nat) (us : List RUnit) : List (Nat × Nat × RUnit) :=
  us.mapIdx (fun j u => ((place cx w h j).1, (place cx w h j).2, u))

theorem cellsOf_snoc (cx w h : Nat) (us : List RUnit) (u : RUnit) :
    cellsOf cx w h (us ++ [u]) = cellsOf cx w h us ++ [((us.length % cx) * w, (us.length / cx) * h, u)] := by
  simp [cellsOf, List.mapIdx_append, place]

theorem cellsOf_length (cx w h : Nat) (us : List RUnit) : (cellsOf cx w h us).length = us.length := by simp [cellsOf]

theorem isSlide_eq : isSlide = RUnit.isSvg := by funext u; cases u <;> rfl

/-- A unit that is no slide is not put in a grid. -/
theorem groupLoop_alone (cx cy w h : Nat) (us : List RUnit) : ∀ (new : List Page) (cells : List (Nat × Nat × RUnit)),
    (∀ c ∈ cells, c.2.2.isSvg = true) → (∀ p ∈ new, ∀ u ∈ Page.units p, u.isSvg = false → p = .single u) →
    ∀ p ∈ groupLoop cx cy w h us new cells, ∀ u ∈ Page.units p, u.isSvg = false → p = .single u := by
  have grid : ∀ (new : List Page) (cells : List (Nat × Nat × RUnit)) (W H : Nat), (∀ c ∈ cells, c.2.2.isSvg = true) →
      (∀ p ∈ new, ∀ u ∈ Page.units p, u.isSvg = false → p = .single u) →
      ∀ p ∈ new ++ [.grid W H cells], ∀ u ∈ Page.units p, u.isSvg = false → p = .single u := by
    intro new cells W H hc hn p hp u hu hs
    rcases List.mem_append.mp hp with hp | hp
    · exact hn p hp u hu hs
    · rw [List.mem_singleton] at hp
      subst hp
      simp only [Page.units, List.mem_map] at hu
      obtain ⟨c, hc', rfl⟩ := hu
      rw [hc c hc'] at hs
      cases hs
  induction us with
  | nil =>
    intro new cells hc hn p hp u hu hs
    rw [groupLoop] at hp
    split at hp
    · exact grid new cells _ _ hc hn p hp u hu hs
    · exact hn p hp u hu hs
  | cons v us ih =>
    intro new cells hc hn
    rw [groupLoop]
    cases hv : v.isSvg with
    | false =>
      simp only [Bool.not_false, if_true]
      refine ih _ _ hc ?_
      intro p hp u hu hs
      rcases List.mem_append.mp hp with hp | hp
      · exact hn p hp u hu hs
      · rw [List.mem_singleton] at hp
        subst hp
        simp only [Page.units, List.mem_singleton] at hu
        rw [hu]
    | true =>
      simp only [Bool.not_true, Bool.false_eq_true, if_false]
      split
      · exact ih _ _ (by simpa using hv) (grid new cells _ _ hc hn)
      · refine ih _ _ ?_ hn
        intro c hc'
        rcases List.mem_append.mp hc' with hc' | hc'
        · exact hc c hc'
        · rw [List.mem_singleton] at hc'
          subst hc'
          exact hv

/-- The loop on svg units only: full pages, then a last page. -/
theorem groupLoop_svg (cx cy w h : Nat) (hpos : 0 < cx * cy) (us : List RUnit) (hsvg : ∀ u ∈ us, u.isSvg = true) :
    ∀ (new : List Page) (cur : List RUnit), cur.length ≤ cx * cy →
      ∃ pages : List (List RUnit), groupLoop cx cy w h us new (cellsOf cx w h cur) =
          new ++ pages.map (fun p => .grid (w * cx) (h * cy) (cellsOf cx w h p)) ∧
        pages.flatten = cur ++ us ∧ (∀ p ∈ pages, p ≠ [] ∧ p.length ≤ cx * cy) ∧
        (∀ i, i + 1 < pages.length → (pages[i]?.map List.length) = some (cx * cy)) := by
  induction us with
  | nil =>
    intro new cur hc
    simp only [groupLoop, cellsOf_length]
    by_cases h0 : 0 < cur.length
    · rw [if_pos h0]
      refine ⟨[cur], by simp, by simp, ?_, ?_⟩
      · intro p hp
        simp only [List.mem_singleton] at hp
        subst hp
        exact ⟨by intro h; rw [h] at h0; simp at h0, hc⟩
      · intro i hi; simp at hi
    · rw [if_neg h0]
      have : cur = [] := List.eq_nil_of_length_eq_zero (by omega)
      subst this
      exact ⟨[], by simp, by simp, by simp, by simp⟩
  | cons u us ih =>
    intro new cur hc
    have hu : u.isSvg = true := hsvg u (by simp)
    have hus : ∀ v ∈ us, v.isSvg = true := fun v hv => hsvg v (List.mem_cons_of_mem _ hv)
    simp only [groupLoop, hu, Bool.not_true, Bool.false_eq_true, if_false, cellsOf_length]
    by_cases hfull : cur.length = cx * cy
    · rw [if_pos hfull]
      have e : [(0 % cx * w, 0 / cx * h, u)] = cellsOf cx w h [u] := by simp [cellsOf, place]
      rw [e]
      obtain ⟨pages, h1, h2, h3, h4⟩ := ih hus (new ++ [.grid (w * cx) (h * cy) (cellsOf cx w h cur)]) [u] (by simp only [List.length_singleton]; omega)
      refine ⟨cur :: pages, by rw [h1]; simp, by simp [h2], ?_, ?_⟩
      · intro p hp
        rcases List.mem_cons.mp hp with rfl | hp
        · exact ⟨(by intro h; rw [h, List.length_nil] at hfull; omega), hc⟩
        · exact h3 p hp
      · intro i hi
        cases i with
        | zero => simp [hfull]
        | succ i =>
          simp only [List.getElem?_cons_succ]
          exact h4 i (by simp at hi; omega)
    · rw [if_neg hfull]
      have e := cellsOf_snoc cx w h cur u
      rw [← e]
      obtain ⟨pages, h1, h2, h3, h4⟩ := ih hus new (cur ++ [u]) (by simp; omega)
      exact ⟨pages, h1, by simp [h2], h3, h4⟩

/-- Chunks of equal length: where each element is. -/
theorem chunks_getElem {L : Nat} : ∀ (pages : List (List RUnit)),
    (∀ p ∈ pages, p ≠ [] ∧ p.length ≤ L) → (∀ i, i + 1 < pages.length → (pages[i]?.map List.length) = some L) →
    ∀ k j, j < L → (pages[k]?.bind (fun p => p[j]?)) = pages.flatten[k * L + j]? := by
  intro pages
  induction pages with
  | nil => intro _ _ k j _; simp
  | cons p pages ih =>
    intro h1 h2 k j hj
    have ih := ih (fun q hq => h1 q (List.mem_cons_of_mem _ hq)) (fun i hi => by
      have := h2 (i + 1) (by simp; omega)
      simpa using this)
    cases k with
    | zero =>
      simp only [List.getElem?_cons_zero, Option.bind_some, List.flatten_cons, Nat.zero_mul, Nat.zero_add]
      rw [List.getElem?_append]
      split
      · rfl
      · rename_i hlt
        cases pages with
        | nil => simp; omega
        | cons q qs =>
          have := h2 0 (by simp)
          simp at this
          omega
    | succ k =>
      simp only [List.getElem?_cons_succ, List.flatten_cons]
      cases pages with
      | nil =>
        have hp := (h1 p (by simp)).2
        have e : p.length ≤ (k + 1) * L + j := by
          have : (k + 1) * L = k * L + L := by ring
          omega
        simp [e]
      | cons q qs =>
        have hl := h2 0 (by simp)
        simp at hl
        rw [List.getElem?_append_right (by rw [hl]; have : (k + 1) * L = k * L + L := by ring
                                           omega)]
        rw [hl, ih k j hj]
        congr 1
        have : (k + 1) * L = k * L + L := by ring
        omega

/-- The number of chunks. -/
theorem chunks_length {L : Nat} : ∀ (pages : List (List RUnit)),
    (∀ p ∈ pages, p ≠ [] ∧ p.length ≤ L) → (∀ i, i + 1 < pages.length → (pages[i]?.map List.length) = some L) →
    pages.flatten.length ≤ pages.length * L ∧ (pages ≠ [] → (pages.length - 1) * L < pages.flatten.length) := by
  intro pages
  induction pages with
  | nil => intro _ _; simp
  | cons p pages ih =>
    intro h1 h2
    obtain ⟨i1, i2⟩ := ih (fun q hq => h1 q (List.mem_cons_of_mem _ hq)) (fun i hi => by
      have := h2 (i + 1) (by simp; omega)
      simpa using this)
    obtain ⟨hp1, hp2⟩ := h1 p (by simp)
    have hp0 : 0 < p.length := List.length_pos_of_ne_nil hp1
    simp only [List.flatten_cons, List.length_append, List.length_cons]
    constructor
    · have : (pages.length + 1) * L = pages.length * L + L := by ring
      omega
    · intro _
      cases pages with
      | nil => simp; exact hp0
      | cons q qs =>
        have hl := h2 0 (by simp)
        simp at hl
        have := i2 (by simp)
        simp only [List.length_cons, Nat.add_sub_cancel] at this ⊢
        have : (qs.length + 1) * L = qs.length * L + L := by ring
        omega

/-! ### order with PDFs -/

/-- All units of the pages. -/
def allUnits (ps : List Page) : List RUnit := ps.flatMap Page.units

theorem allUnits_append (a b : List Page) : allUnits (a ++ b) = allUnits a ++ allUnits b := List.flatMap_append

theorem groupLoop_units (cx cy w h : Nat) (us : List RUnit) : ∀ (new : List Page) (cells : List (Nat × Nat × RUnit)),
    (∀ c ∈ cells, c.2.2.isSvg = true) →
    (allUnits (groupLoop cx cy w h us new cells)).filter RUnit.isSvg =
      (allUnits new).filter RUnit.isSvg ++ cells.map (·.2.2) ++ us.filter RUnit.isSvg ∧
    (allUnits (groupLoop cx cy w h us new cells)).filter (fun u => !u.isSvg) =
      (allUnits new).filter (fun u => !u.isSvg) ++ us.filter (fun u => !u.isSvg) := by
  induction us with
  | nil =>
    intro new cells hc
    have hf : (cells.map (·.2.2)).filter RUnit.isSvg = cells.map (·.2.2) := by
      rw [List.filter_eq_self]
      intro u hu
      obtain ⟨c, hc', rfl⟩ := List.mem_map.mp hu
      exact hc c hc'
    have hf2 : (cells.map (·.2.2)).filter (fun u => !u.isSvg) = [] := by
      rw [List.filter_eq_nil_iff]
      intro u hu
      obtain ⟨c, hc', rfl⟩ := List.mem_map.mp hu
      simp [hc c hc']
    simp only [groupLoop]
    split
    · rw [allUnits_append]
      simp only [allUnits, List.flatMap_cons, List.flatMap_nil, Page.units, List.append_nil, List.filter_append,
        List.filter_nil, hf, hf2, and_self]
    · rename_i h0
      have : cells = [] := List.eq_nil_of_length_eq_zero (by omega)
      subst this
      simp
  | cons u us ih =>
    intro new cells hc
    have hf : (cells.map (·.2.2)).filter RUnit.isSvg = cells.map (·.2.2) := by
      rw [List.filter_eq_self]
      intro u hu
      obtain ⟨c, hc', rfl⟩ := List.mem_map.mp hu
      exact hc c hc'
    have hf2 : (cells.map (·.2.2)).filter (fun u => !u.isSvg) = [] := by
      rw [List.filter_eq_nil_iff]
      intro u hu
      obtain ⟨c, hc', rfl⟩ := List.mem_map.mp hu
      simp [hc c hc']
    simp only [groupLoop]
    cases hu : u.isSvg with
    | false =>
      simp only [Bool.not_false, if_true]
      obtain ⟨i1, i2⟩ := ih (new ++ [.single u]) cells hc
      rw [i1, i2, allUnits_append]
      simp [allUnits, Page.units, hu]
    | true =>
      simp only [Bool.not_true, Bool.false_eq_true, if_false]
      split
      · obtain ⟨i1, i2⟩ := ih (new ++ [.grid (w * cx) (h * cy) cells]) [(0 % cx * w, 0 / cx * h, u)] (by simpa using hu)
        rw [i1, i2, allUnits_append]
        simp only [allUnits, List.flatMap_cons, List.flatMap_nil, Page.units, List.append_nil, List.filter_append,
          hf, hf2, List.map_cons, List.map_nil, List.filter_cons, hu, Bool.not_true, Bool.false_eq_true, if_false, if_true]
        simp
      · obtain ⟨i1, i2⟩ := ih new (cells ++ [((cells.length % cx) * w, (cells.length / cx) * h, u)]) (by
          intro c hc'
          rcases List.mem_append.mp hc' with hc' | hc'
          · exact hc c hc'
          · simp only [List.mem_singleton] at hc'; subst hc'; exact hu)
        rw [i1, i2]
        simp [hu]

/-- In the loop PDFs come out before everything that is pending. -/
theorem groupLoop_order (cx cy w h : Nat) (us : List RUnit) :
    ∀ (new : List Page) (cells : List (Nat × Nat × RUnit)), cells ≠ [] → (∀ c ∈ cells, c.2.2.isSvg = true) →
      allUnits (groupLoop cx cy w h us new cells) = allUnits new ++ cells.map (·.2.2) ++ us → ∀ u ∈ us, u.isSvg = true := by
  induction us with
  | nil => intro _ _ _ _ _ u hu; cases hu
  | cons u us ih =>
    intro new cells hne hsvg heq
    simp only [groupLoop] at heq
    cases hu : u.isSvg with
    | false =>
      exfalso
      simp only [hu, Bool.not_false, if_true] at heq
      have prefix_new : ∀ (us : List RUnit) (new : List Page) (cells), ∃ r, allUnits (groupLoop cx cy w h us new cells) = allUnits new ++ r := by
        intro us
        induction us with
        | nil =>
          intro new cells
          simp only [groupLoop]
          split
          · exact ⟨_, allUnits_append _ _⟩
          · exact ⟨[], by simp⟩
        | cons v us ih =>
          intro new cells
          simp only [groupLoop]
          split
          · obtain ⟨r, hr⟩ := ih (new ++ [.single v]) cells
            exact ⟨_, by rw [hr, allUnits_append, List.append_assoc]⟩
          · split
            · obtain ⟨r, hr⟩ := ih (new ++ [.grid (w * cx) (h * cy) cells]) [(0 % cx * w, 0 / cx * h, v)]
              exact ⟨_, by rw [hr, allUnits_append, List.append_assoc]⟩
            · exact ih new _
      obtain ⟨r, hr⟩ := prefix_new us (new ++ [.single u]) cells
      rw [hr, allUnits_append, List.append_assoc, List.append_assoc] at heq
      have heq := List.append_cancel_left heq
      cases cells with
      | nil => exact hne rfl
      | cons c cs =>
        simp only [allUnits, List.flatMap_cons, List.flatMap_nil, Page.units, List.append_nil, List.singleton_append,
          List.map_cons, List.cons_append, List.cons.injEq] at heq
        have := hsvg c (by simp)
        rw [← heq.1, hu] at this
        cases this
    | true =>
      simp only [hu, Bool.not_true, Bool.false_eq_true, if_false] at heq
      intro v hv
      rcases List.mem_cons.mp hv with rfl | hv
      · exact hu
      split at heq
      · refine ih (new ++ [.grid (w * cx) (h * cy) cells]) [(0 % cx * w, 0 / cx * h, u)] (by simp) (by simpa using hu) ?_ v hv
        rw [heq, allUnits_append]
        simp [allUnits, Page.units]
      · refine ih new (cells ++ [((cells.length % cx) * w, (cells.length / cx) * h, u)]) (by simp) ?_ ?_ v hv
        · intro c hc'
          rcases List.mem_append.mp hc' with hc' | hc'
          · exact hsvg c hc'
          · simp only [List.mem_singleton] at hc'; subst hc'; exact hu
        · rw [heq]; simp

/-! ### file names -/

theorem natStr_inj {a b : Nat} (h : natStr a = natStr b) : a = b := by
  unfold natStr at h
  have h1 := @Nat.ofDigitChars_ten_toDigits a
  rw [h, Nat.ofDigitChars_ten_toDigits] at h1
  exact h1.symm

theorem dash_notin_natStr (n : Nat) : '-' ∉ natStr n := by
  intro h
  have := Nat.isDigit_of_mem_toDigits (b := 10) (by omega) (by omega) h
  exact absurd this (by decide)

theorem split_dash {a b c d : Str} (ha : '-' ∉ a) (hc : '-' ∉ c) (h : a ++ '-' :: b = c ++ '-' :: d) : a = c ∧ b = d := by
  induction a generalizing c with
  | nil =>
    cases c with
    | nil => simpa using h
    | cons x c => simp at h; exact absurd (by rw [← h.1]; simp) hc
  | cons x a ih =>
    cases c with
    | nil => simp at h; exact absurd (by rw [h.1]; simp) ha
    | cons y c =>
      simp only [List.cons_append, List.cons.injEq] at h
      obtain ⟨h1, h2⟩ := ih (by simp at ha; exact ha.2) (by simp at hc; exact hc.2) h.2
      exact ⟨by rw [h.1, h1], h2⟩

theorem debugFile_inj {u i s u' i' s' : Nat} (h : debugFile (.svg u i s) = debugFile (.svg u' i' s')) : i = i' ∧ s = s' := by
  simp only [debugFile, Option.some.injEq] at h
  have h : natStr i ++ '-' :: (natStr s ++ ".svg".toList) = natStr i' ++ '-' :: (natStr s' ++ ".svg".toList) := by
    simpa using h
  obtain ⟨h1, h2⟩ := split_dash (dash_notin_natStr i) (dash_notin_natStr i') h
  exact ⟨natStr_inj h1, natStr_inj (List.append_cancel_right h2)⟩

/-- Without replacing, the index of a slide is its position. -/
theorem history_index {policy : Policy} (hp : policy ≠ .replace) (cs : List Call) :
    ∀ (k u i : Nat) (name : Name), (history policy cs).slides[k]? = some (Entry.slide u i name) → i = k := by
  unfold history
  have : ∀ d : Deck, Inv d → d.policy = policy → (∀ (k u i : Nat) (name : Name), d.slides[k]? = some (Entry.slide u i name) → i = k) →
      ∀ (k u i : Nat) (name : Name), (cs.foldl (fun d c => (exec d c).1) d).slides[k]? = some (Entry.slide u i name) → i = k := by
    induction cs with
    | nil => intro d _ _ h; exact h
    | cons c cs ih =>
      intro d hi hpol h
      refine ih _ (exec_inv hi c).1 ((exec_inv hi c).2.trans hpol) ?_
      intro k u i name hk
      cases c with
      | addPdf f =>
        simp only [exec] at hk
        rw [List.getElem?_append] at hk
        split at hk
        · exact h k u i name hk
        · cases hx : k - d.slides.length with
          | zero => rw [hx] at hk; simp at hk
          | succ m => rw [hx] at hk; simp at hk
      | newSlide nm v =>
        cases hx : exec d (.newSlide nm v) with
        | mk d' o =>
          dsimp only at hk; rw [hx] at hk
          cases o with
          | some e =>
            have : d' = d := by
              simp only [exec] at hx
              split at hx
              · injection hx with hx _; exact hx.symm
              · split at hx
                · injection hx with hx _; exact hx.symm
                · cases hx
            rw [this] at hk
            exact h k u i name hk
          | none =>
            obtain ⟨-, -, -, keep, hs, hkeep⟩ := newSlide_ok hi hx
            rcases hkeep with ⟨rfl, -⟩ | ⟨hr, -⟩
            · simp only [hs] at hk
              rw [List.getElem?_append] at hk
              split at hk
              · exact h k u i name hk
              · rename_i hlt
                cases hx : k - d.slides.length with
                | zero => rw [hx] at hk; simp at hk; omega
                | succ m => rw [hx] at hk; simp at hk
            · exact absurd (hpol.symm.trans hr) hp
  exact this { policy := policy } ⟨List.nodup_nil, (by intro e he; cases he), fun _ => List.nodup_nil⟩ rfl (by simp)

end Verif.Deck
