import Verif.Spec.ImageFile
import Mathlib.Data.List.Induction

namespace Verif.ImageFile
open Verif.Cache (Bytes)
open Verif.ImageFile.Spec

variable {D B : Type}

/-! ### kinds -/

theorem dispatch_iff (s : Source) (t : Str) (k : Kind) : dispatch s t = .ok k ↔ Takes s (some t) k := by
  constructor
  · intro h
    unfold dispatch at h
    split at h
    · rename_i ht; subst ht
      split at h
      · injection h with h; subst h; exact .path (by simp [types])
      · cases h
    · split at h
      · rename_i ht; subst ht
        split at h
        · injection h with h; subst h; exact .path (by simp [types])
        · cases h
      · split at h
        · rename_i ht
          injection h with h; subst h
          have hm : (t, Kind.bitmap) ∈ types := by rcases ht with rfl | rfl <;> simp [types]
          cases s with
          | path f => exact .path hm
          | bytes b => exact .bytes hm
          | stream i => exact .stream hm
        · cases h
  · intro h
    have key : ∀ k, (t, k) ∈ types → dispatch (.path []) t = .ok k ∧ (k = .bitmap → dispatch s t = .ok k) := by
      intro k hm
      simp only [types, List.mem_cons, List.not_mem_nil, or_false, Prod.mk.injEq] at hm
      rcases hm with ⟨rfl, rfl⟩ | ⟨rfl, rfl⟩ | ⟨rfl, rfl⟩ | ⟨rfl, rfl⟩
      · exact ⟨rfl, fun h => by cases h⟩
      · exact ⟨rfl, fun h => by cases h⟩
      · exact ⟨rfl, fun _ => rfl⟩
      · exact ⟨rfl, fun _ => rfl⟩
    cases h with
    | path hm => exact (key _ hm).1
    | bytes hm => exact (key _ hm).2 rfl
    | stream hm => exact (key _ hm).2 rfl

theorem last_of_suffix {a : Str} {f : Str} (h : a <:+ f) : a.length ≤ f.length ∧ f.drop (f.length - a.length) = a := by
  obtain ⟨p, rfl⟩ := h
  simp

theorem two_suffixes {a b f : Str} (ha : a <:+ f) (hb : b <:+ f) (h : a.length ≤ b.length) : a <:+ b := by
  exact List.suffix_of_suffix_length_le ha hb h

theorem kindOf_iff (s : Source) (t : Option Str) (k : Kind) : kindOf s t = .ok k ↔ Takes s t k := by
  cases t with
  | some t => exact dispatch_iff s t k
  | none =>
    cases s with
    | bytes b => exact ⟨fun h => (by cases h), fun h => (by cases h)⟩
    | stream i => exact ⟨fun h => (by cases h), fun h => (by cases h)⟩
    | path f =>
      have hno : ∀ {a b : Str}, a <:+ f → b <:+ f → a.length ≤ b.length → ¬ a <:+ b → False := fun h1 h2 h3 h4 => h4 (two_suffixes h1 h2 h3)
      constructor
      · intro h
        simp only [kindOf, detect] at h
        split at h
        · cases h
        · rename_i t ht
          split at ht
          · rename_i hs; obtain ⟨p, rfl⟩ := hs
            injection ht with ht; subst ht
            injection h with h; subst h
            exact .extension (by simp [extensions])
          · split at ht
            · rename_i hs; obtain ⟨p, rfl⟩ := hs
              injection ht with ht; subst ht
              injection h with h; subst h
              exact .extension (by simp [extensions])
            · split at ht
              · rename_i hs; obtain ⟨p, rfl⟩ := hs
                injection ht with ht; subst ht
                injection h with h; subst h
                exact .extension (by simp [extensions])
              · split at ht
                · rename_i hs
                  injection ht with ht; subst ht
                  injection h with h; subst h
                  rcases hs with ⟨p, rfl⟩ | ⟨p, rfl⟩
                  · exact .extension (by simp [extensions])
                  · exact .extension (by simp [extensions])
                · cases ht
      · intro h
        obtain ⟨ext, hs, hm⟩ : ∃ ext, ext <:+ f ∧ (ext, k) ∈ extensions := by
          cases h with
          | extension hm => exact ⟨_, ⟨_, rfl⟩, hm⟩
        simp only [extensions, List.mem_cons, List.not_mem_nil, or_false, Prod.mk.injEq] at hm
        simp only [kindOf, detect]
        rcases hm with ⟨rfl, rfl⟩ | ⟨rfl, rfl⟩ | ⟨rfl, rfl⟩ | ⟨rfl, rfl⟩ | ⟨rfl, rfl⟩
        · rw [if_pos hs]; rfl
        · rw [if_neg (fun h => hno h hs (by decide) (by decide)), if_pos hs]; rfl
        · rw [if_neg (fun h => hno h hs (by decide) (by decide)), if_neg (fun h => hno h hs (by decide) (by decide)), if_pos hs]; rfl
        · rw [if_neg (fun h => hno h hs (by decide) (by decide)), if_neg (fun h => hno h hs (by decide) (by decide)),
            if_neg (fun h => hno h hs (by decide) (by decide)), if_pos (.inl hs)]; rfl
        · rw [if_neg (fun h => hno h hs (by decide) (by decide)), if_neg (fun h => hno h hs (by decide) (by decide)),
            if_neg (fun h => hno h hs (by decide) (by decide)), if_pos (.inr hs)]; rfl

theorem takes_unique {s : Source} {t : Option Str} {k k' : Kind} (h : Takes s t k) (h' : Takes s t k') : k = k' := by
  rw [← kindOf_iff] at h h'
  rw [h] at h'
  injection h'

/-! ### the first of its kind -/

theorem filesAt_snoc (files : Str → Option Bytes) (h : List Op) (op : Op) : filesAt files (h ++ [op]) = filesAfter (filesAt files h) op := by
  simp [filesAt]

theorem streamsAt_snoc (streams : Nat → Bytes) (h : List Op) (op : Op) : streamsAt streams (h ++ [op]) = streamsAfter (streamsAt streams h) op := by
  simp [streamsAt]

theorem first_nil {X : Type} {reads : (Str → Option Bytes) → Op → X → Prop} {files : Str → Option Bytes} {x : X} : ¬ First reads files [] x := by
  rintro ⟨h1, op, h2, h, -⟩
  simp at h

/-- The first one after one more operation. -/
theorem first_snoc {X : Type} {reads : (Str → Option Bytes) → Op → X → Prop} {files : Str → Option Bytes} {h : List Op} {op : Op} {x : X} :
    First reads files (h ++ [op]) x ↔ First reads files h x ∨ ((∀ y, ¬ First reads files h y) ∧ reads (filesAt files h) op x) := by
  constructor
  · rintro ⟨h1, o, h2, e, hr, hno⟩
    rcases List.eq_nil_or_concat h2 with rfl | ⟨h3, o', rfl⟩
    · have := List.append_inj' e rfl
      obtain ⟨rfl, e2⟩ := this
      simp only [List.cons.injEq, and_true] at e2
      subst e2
      right
      refine ⟨?_, hr⟩
      rintro y ⟨h3, o, h4, e, hr', -⟩
      exact hno _ _ _ _ e hr'
    · have e' : h ++ [op] = (h1 ++ o :: h3) ++ [o'] := by simp [e]
      obtain ⟨rfl, -⟩ := List.append_inj' e' rfl
      exact .inl ⟨h1, o, h3, rfl, hr, hno⟩
  · rintro (⟨h1, o, h2, rfl, hr, hno⟩ | ⟨hno, hr⟩)
    · exact ⟨h1, o, h2 ++ [op], by simp, hr, hno⟩
    · refine ⟨h, op, [], rfl, hr, ?_⟩
      -- an earlier one would give a first one
      have key : ∀ n h3 op' h4 y, h3.length = n → h = h3 ++ op' :: h4 → ¬ reads (filesAt files h3) op' y := by
        intro n
        induction n using Nat.strongRecOn with
        | _ n ih =>
          intro h3 op' h4 y hn e hr'
          refine hno y ⟨h3, op', h4, e, hr', ?_⟩
          intro h5 op'' h6 z e' hr''
          exact ih h5.length (by rw [← hn, e']; simp) h5 op'' (h6 ++ op' :: h4) z rfl (by rw [e, e']; simp) hr''
      intro h3 op' h4 y e
      exact key _ h3 op' h4 y rfl e

theorem first_unique {X : Type} {reads : (Str → Option Bytes) → Op → X → Prop} {files : Str → Option Bytes} {x y : X}
    (hu : ∀ fs op x y, reads fs op x → reads fs op y → x = y) {h : List Op} (hx : First reads files h x) (hy : First reads files h y) : x = y := by
  induction h using List.reverseRecOn with
  | nil => exact (first_nil hx).elim
  | append_singleton h op ih =>
    rcases first_snoc.mp hx with hx | ⟨hx, hx'⟩
    · rcases first_snoc.mp hy with hy | ⟨hy, -⟩
      · exact ih hx hy
      · exact (hy _ hx).elim
    · rcases first_snoc.mp hy with hy | ⟨-, hy'⟩
      · exact (hx _ hy).elim
      · exact hu _ _ _ _ hx' hy'

theorem failed_snoc {l : Libs D B} {files : Str → Option Bytes} {h : List Op} {op : Op} {b : Bytes} :
    Failed l files (h ++ [op]) b ↔ Failed l files h b ∨
      ∃ f t, op = .image (.path f) t ∧ Takes (.path f) t .ora ∧ filesAt files h f = some b ∧ l.ora b = none ∧
        ∀ d, ¬ First (fun fs op => ReadsDoc l fs op f) files h d := by
  constructor
  · rintro ⟨h1, f, t, h2, e, ht, hf, hb, hd⟩
    rcases List.eq_nil_or_concat h2 with rfl | ⟨h3, o', rfl⟩
    · obtain ⟨rfl, e2⟩ := List.append_inj' e rfl
      simp only [List.cons.injEq, and_true] at e2
      subst e2
      exact .inr ⟨f, t, rfl, ht, hf, hb, hd⟩
    · have e' : h ++ [op] = (h1 ++ .image (.path f) t :: h3) ++ [o'] := by simp [e]
      obtain ⟨rfl, -⟩ := List.append_inj' e' rfl
      exact .inl ⟨h1, f, t, h3, rfl, ht, hf, hb, hd⟩
  · rintro (⟨h1, f, t, h2, rfl, ht, hf, hb, hd⟩ | ⟨f, t, rfl, ht, hf, hb, hd⟩)
    · exact ⟨h1, f, t, h2 ++ [op], by simp, ht, hf, hb, hd⟩
    · exact ⟨h, f, t, [], rfl, ht, hf, hb, hd⟩

/-! ### the state after a history -/

theorem lookup_cons {K V : Type} [DecidableEq K] (d : List (K × V)) (k k' : K) (v : V) :
    lookup ((k, v) :: d) k' = if k = k' then some v else lookup d k' := by
  unfold lookup
  by_cases h : k = k'
  · simp [h]
  · simp [h]

structure Inv (l : Libs D B) (files0 : Str → Option Bytes) (streams0 : Nat → Bytes) (h : List Op) (s : St D B) : Prop where
  files : s.files = filesAt files0 h
  streams : s.streams = streamsAt streams0 h
  docs : ∀ f d, lookup s.docs f = some d ↔ First (fun fs op => ReadsDoc l fs op f) files0 h d
  bitmaps : ∀ f b, lookup s.bitmaps (.path f) = some b ↔ First (fun fs op => ReadsBitmap l fs op f) files0 h b
  bytes : ∀ b m data, lookup s.bitmaps (.bytes b) = some (m, data) → data = b ∧ l.bitmap b = some m
  stuck : ∀ b, b ∈ s.stuck ↔ Failed l files0 h b

theorem none_iff {X : Type} {o : Option X} {P : X → Prop} (h : ∀ d, o = some d ↔ P d) : o = none ↔ ∀ d, ¬ P d := by
  constructor
  · intro ho d hp
    rw [(h d).mpr hp] at ho; cases ho
  · intro hn
    cases ho : o with
    | none => rfl
    | some d => exact (hn d ((h d).mp ho)).elim

theorem readsDoc_path {l : Libs D B} {files : Str → Option Bytes} {f g : Str} {t : Option Str} {d : D} :
    ReadsDoc l files (.image (.path f) t) g d ↔ f = g ∧ ∃ k b, Takes (.path f) t k ∧ files f = some b ∧ docOf l k b = some d := by
  constructor
  · rintro ⟨t', k, b, e, h⟩
    injection e with e1 e2; injection e1 with e1; subst e1; subst e2
    exact ⟨rfl, k, b, h⟩
  · rintro ⟨rfl, k, b, h⟩
    exact ⟨t, k, b, rfl, h⟩

theorem readsBitmap_path {l : Libs D B} {files : Str → Option Bytes} {f g : Str} {t : Option Str} {b : B × Bytes} :
    ReadsBitmap l files (.image (.path f) t) g b ↔ f = g ∧ Takes (.path f) t .bitmap ∧ files f = some b.2 ∧ l.bitmap b.2 = some b.1 := by
  constructor
  · rintro ⟨t', e, h⟩
    injection e with e1 e2; injection e1 with e1; subst e1; subst e2
    exact ⟨rfl, h⟩
  · rintro ⟨rfl, h⟩
    exact ⟨t, rfl, h⟩

/-- One more operation that reads nothing new: nothing is kept or lost. -/
theorem inv_same {l : Libs D B} {files : Str → Option Bytes} {streams : Nat → Bytes} {h : List Op} {s s' : St D B} {op : Op}
    (hi : Inv l files streams h s) (hf : s'.files = filesAfter s.files op) (hs : s'.streams = streamsAfter s.streams op)
    (hd : s'.docs = s.docs) (hb : s'.bitmaps = s.bitmaps) (hk : s'.stuck = s.stuck)
    (nd : ∀ f d, (∀ y, ¬ First (fun fs op => ReadsDoc l fs op f) files h y) → ¬ ReadsDoc l s.files op f d)
    (nb : ∀ f b, (∀ y, ¬ First (fun fs op => ReadsBitmap l fs op f) files h y) → ¬ ReadsBitmap l s.files op f b)
    (nf : ∀ f t b, op = .image (.path f) t → Takes (.path f) t .ora → s.files f = some b → l.ora b = none →
      (∀ d, ¬ First (fun fs op => ReadsDoc l fs op f) files h d) → b ∈ s.stuck) : Inv l files streams (h ++ [op]) s' := by
  refine ⟨?_, ?_, ?_, ?_, ?_, ?_⟩
  · rw [filesAt_snoc, hf, hi.files]
  · rw [streamsAt_snoc, hs, hi.streams]
  · intro f d
    rw [hd, hi.docs, first_snoc]
    exact ⟨.inl, fun h' => h'.elim id fun ⟨h1, h2⟩ => (nd f d h1 (hi.files ▸ h2)).elim⟩
  · intro f b
    rw [hb, hi.bitmaps, first_snoc]
    exact ⟨.inl, fun h' => h'.elim id fun ⟨h1, h2⟩ => (nb f b h1 (hi.files ▸ h2)).elim⟩
  · rw [hb]; exact hi.bytes
  · intro b
    rw [hk, failed_snoc]
    exact ⟨fun h' => .inl ((hi.stuck b).mp h'), fun h' => h'.elim (hi.stuck b).mpr fun ⟨f, t, e, ht, h1, h2, h3⟩ => nf f t b e ht (hi.files ▸ h1) h2 h3⟩

/-- A call for a document that finds no new one. -/
theorem inv_old {l : Libs D B} {files : Str → Option Bytes} {streams : Nat → Bytes} {h : List Op} {s : St D B} {f : Str} {t : Option Str} {k : Kind}
    (hi : Inv l files streams h s) (hT : Takes (.path f) t k) (hk : k ≠ .bitmap)
    (hn : (∀ d, ¬ First (fun fs op => ReadsDoc l fs op f) files h d) →
      s.files f = none ∨ ∃ b, s.files f = some b ∧ docOf l k b = none ∧ (k = .ora → b ∈ s.stuck)) :
    Inv l files streams (h ++ [.image (.path f) t]) s := by
  refine inv_same hi rfl rfl rfl rfl rfl ?_ ?_ ?_
  · intro g d h1 h2
    obtain ⟨rfl, k', b, ht, h3, h4⟩ := readsDoc_path.mp h2
    rw [takes_unique ht hT] at h4
    rcases hn h1 with h5 | ⟨b', h5, h6, -⟩
    · rw [h3] at h5; cases h5
    · rw [h3] at h5; injection h5 with h5; subst h5
      rw [h4] at h6; cases h6
  · intro g c h1 h2
    obtain ⟨rfl, ht, -⟩ := readsBitmap_path.mp h2
    exact hk (takes_unique hT ht)
  · intro g t' b e ht h1 h2 h3
    injection e with e1 e2; injection e1 with e1; subst e1; subst e2
    rcases hn h3 with h5 | ⟨b', h5, -, h6⟩
    · rw [h1] at h5; cases h5
    · rw [h1] at h5; injection h5 with h5; subst h5
      exact h6 (takes_unique hT ht)

/-- A call that finds a new document. -/
theorem inv_new {l : Libs D B} {files : Str → Option Bytes} {streams : Nat → Bytes} {h : List Op} {s : St D B} {f : Str} {t : Option Str} {k : Kind}
    {data : Bytes} {d : D} (hi : Inv l files streams h s) (hT : Takes (.path f) t k) (hk : k ≠ .bitmap) (hl : lookup s.docs f = none)
    (hf : s.files f = some data) (hd : docOf l k data = some d) :
    Inv l files streams (h ++ [.image (.path f) t]) { s with docs := (f, d) :: s.docs } := by
  have hfirst := (none_iff (hi.docs f)).mp hl
  refine ⟨?_, ?_, ?_, ?_, hi.bytes, ?_⟩
  · rw [filesAt_snoc]; exact hi.files
  · rw [streamsAt_snoc]; exact hi.streams
  · intro g c
    rw [lookup_cons, first_snoc, ← hi.files, readsDoc_path]
    by_cases hg : f = g
    · subst hg
      rw [if_pos rfl]
      constructor
      · intro h'; injection h' with h'; subst h'
        exact .inr ⟨hfirst, rfl, k, data, hT, hf, hd⟩
      · rintro (h' | ⟨-, -, k', b, ht, h1, h2⟩)
        · exact (hfirst _ h').elim
        · rw [hf] at h1; injection h1 with h1; subst h1
          rw [takes_unique ht hT, hd] at h2
          exact h2
    · rw [if_neg hg, hi.docs]
      exact ⟨.inl, fun h' => h'.elim id fun h2 => (hg h2.2.1).elim⟩
  · intro g c
    rw [first_snoc, hi.bitmaps, ← hi.files, readsBitmap_path]
    refine ⟨.inl, fun h' => h'.elim id ?_⟩
    rintro ⟨-, rfl, ht, -⟩
    exact (hk (takes_unique hT ht)).elim
  · intro b
    rw [failed_snoc, ← hi.files]
    refine ⟨fun h' => .inl ((hi.stuck b).mp h'), fun h' => h'.elim (hi.stuck b).mpr ?_⟩
    rintro ⟨g, t', e, ht, h1, h2, -⟩
    injection e with e1 e2; injection e1 with e1; subst e1; subst e2
    rw [takes_unique hT ht] at hd
    rw [hf] at h1; injection h1 with h1; subst h1
    rw [docOf, h2] at hd; cases hd

theorem inv_image {l : Libs D B} {files : Str → Option Bytes} {streams : Nat → Bytes} {h : List Op} {s : St D B} (src : Source) (t : Option Str)
    (hi : Inv l files streams h s) : Inv l files streams (h ++ [.image src t]) (image l s src t).2 := by
  have hstr : ∀ i, (∀ k, ¬ Takes (.stream i) t k) → streamsAfter s.streams (.image (.stream i) t) = s.streams := by
    intro i hn
    funext j
    simp only [streamsAfter]
    rw [if_neg (fun h => hn _ h.2)]
  cases hk : kindOf src t with
  | error e =>
    have hno : ∀ k, ¬ Takes src t k := fun k h => by rw [(kindOf_iff _ _ _).mpr h] at hk; cases hk
    have he : (image l s src t).2 = s := by simp only [image, hk]
    rw [he]
    refine inv_same hi rfl ?_ rfl rfl rfl ?_ ?_ ?_
    · cases src with
      | stream i => exact (hstr i hno).symm
      | path f => rfl
      | bytes b => rfl
    · rintro f d - ⟨t', k, b, e, ht, -⟩
      injection e with e1 e2; subst e1; subst e2
      exact hno _ ht
    · rintro f d - ⟨t', e, ht, -⟩
      injection e with e1 e2; subst e1; subst e2
      exact hno _ ht
    · rintro f t' b e ht - - -
      injection e with e1 e2; subst e1; subst e2
      exact (hno _ ht).elim
  | ok k =>
    have hT := (kindOf_iff _ _ _).mp hk
    cases k with
    | bitmap =>
      have he : (image l s src t).2 = (loadBitmap l s src).2 := by simp only [image, hk]
      rw [he]
      have nd : ∀ f d, (∀ y, ¬ First (fun fs op => ReadsDoc l fs op f) files h y) → ¬ ReadsDoc l s.files (.image src t) f d := by
        rintro f d - ⟨t', k, b, e, ht, -, hd⟩
        injection e with e1 e2; subst e1; subst e2
        rw [takes_unique ht hT] at hd
        cases hd
      have nf : ∀ f t' b, Op.image src t = .image (.path f) t' → Takes (.path f) t' .ora → s.files f = some b → l.ora b = none →
          (∀ d, ¬ First (fun fs op => ReadsDoc l fs op f) files h d) → b ∈ s.stuck := by
        rintro f t' b e ht - - -
        injection e with e1 e2; subst e1; subst e2
        cases takes_unique ht hT
      cases src with
      | stream i =>
        have : (loadBitmap l s (.stream i)).2 = { s with streams := fun j => if j = i then [] else s.streams j } := by
          simp only [loadBitmap, readHelper]
          cases l.bitmap (s.streams i) <;> rfl
        rw [this]
        refine inv_same hi rfl ?_ rfl rfl rfl nd ?_ nf
        · funext j
          simp only [streamsAfter]
          by_cases hj : j = i
          · rw [if_pos hj, if_pos ⟨hj, hT⟩]
          · rw [if_neg hj, if_neg (fun h => hj h.1)]
        · rintro f b - ⟨t', e, -⟩
          injection e with e1; cases e1
      | bytes b =>
        have nb : ∀ f c, (∀ y, ¬ First (fun fs op => ReadsBitmap l fs op f) files h y) → ¬ ReadsBitmap l s.files (.image (.bytes b) t) f c := by
          rintro f c - ⟨t', e, -⟩
          injection e with e1; cases e1
        simp only [loadBitmap, readHelper]
        cases hl : lookup s.bitmaps (.bytes b) with
        | some p => exact inv_same hi rfl rfl rfl rfl rfl nd nb nf
        | none =>
          dsimp only
          cases hb : l.bitmap b with
          | none => exact inv_same hi rfl rfl rfl rfl rfl nd nb nf
          | some m =>
            dsimp only
            have h0 := inv_same (s' := s) hi rfl rfl rfl rfl rfl nd nb nf
            refine ⟨h0.files, h0.streams, h0.docs, ?_, ?_, h0.stuck⟩
            · intro f c
              rw [lookup_cons, if_neg (by intro h; cases h)]
              exact h0.bitmaps f c
            · intro c m' data
              rw [lookup_cons]
              split
              · rename_i e
                injection e with e; subst e
                intro h; injection h with h; injection h with h1 h2; subst h1; subst h2
                exact ⟨rfl, hb⟩
              · exact h0.bytes c m' data
      | path f =>
        simp only [loadBitmap, readHelper]
        cases hl : lookup s.bitmaps (.path f) with
        | some p =>
          refine inv_same hi rfl rfl rfl rfl rfl nd ?_ nf
          intro g c hn hr
          obtain ⟨rfl, -⟩ := readsBitmap_path.mp hr
          exact hn _ ((hi.bitmaps _ _).mp hl)
        | none =>
          dsimp only
          cases hf : s.files f with
          | none =>
            refine inv_same hi rfl rfl rfl rfl rfl nd ?_ nf
            intro g c hn hr
            obtain ⟨rfl, -, h1, -⟩ := readsBitmap_path.mp hr
            rw [hf] at h1; cases h1
          | some data =>
            dsimp only
            cases hb : l.bitmap data with
            | none =>
              refine inv_same hi rfl rfl rfl rfl rfl nd ?_ nf
              intro g c hn hr
              obtain ⟨rfl, -, h1, h2⟩ := readsBitmap_path.mp hr
              rw [hf] at h1; injection h1 with h1; subst h1
              rw [hb] at h2; cases h2
            | some m =>
              dsimp only
              have hfirst := (none_iff (hi.bitmaps f)).mp hl
              refine ⟨?_, ?_, ?_, ?_, ?_, ?_⟩
              · rw [filesAt_snoc]; exact hi.files
              · rw [streamsAt_snoc]; exact hi.streams
              · intro g d
                rw [first_snoc]
                exact ⟨fun h' => .inl ((hi.docs g d).mp h'), fun h' => h'.elim (hi.docs g d).mpr fun ⟨h1, h2⟩ => (nd g d h1 (hi.files ▸ h2)).elim⟩
              · intro g c
                rw [lookup_cons, first_snoc, ← hi.files, readsBitmap_path]
                by_cases hg : f = g
                · subst hg
                  rw [if_pos rfl]
                  constructor
                  · intro h'; injection h' with h'; subst h'
                    exact .inr ⟨hfirst, rfl, hT, hf, hb⟩
                  · rintro (h' | ⟨-, -, -, h1, h2⟩)
                    · exact (hfirst _ h').elim
                    · rw [hf] at h1; injection h1 with h1
                      rw [← h1, hb] at h2; injection h2 with h2
                      rw [h1, h2]
                · rw [if_neg (by intro h'; injection h' with h'; exact hg h'), hi.bitmaps]
                  exact ⟨.inl, fun h' => h'.elim id fun h2 => (hg h2.2.1).elim⟩
              · intro c m' data'
                rw [lookup_cons, if_neg (by intro h; cases h)]
                exact hi.bytes c m' data'
              · intro b
                rw [failed_snoc]
                exact ⟨fun h' => .inl ((hi.stuck b).mp h'), fun h' => h'.elim (hi.stuck b).mpr fun ⟨g, t', e, ht, h1, h2, h3⟩ => nf g t' b e ht (hi.files ▸ h1) h2 h3⟩
    | svg =>
      obtain ⟨f, rfl⟩ : ∃ f, src = .path f := by cases hT <;> exact ⟨_, rfl⟩
      have he : (image l s (.path f) t).2 = (loadSvg l s f).2 := by simp only [image, hk]
      rw [he]
      simp only [loadSvg]
      cases hl : lookup s.docs f with
      | some d => exact inv_old hi hT (by decide) (fun h => (h _ ((hi.docs _ _).mp hl)).elim)
      | none =>
        dsimp only
        cases hf : s.files f with
        | none => exact inv_old hi hT (by decide) (fun _ => .inl hf)
        | some data =>
          dsimp only
          cases hd : l.doc data with
          | none => exact inv_old hi hT (by decide) (fun _ => .inr ⟨data, hf, hd, fun h => by cases h⟩)
          | some d => exact inv_new hi hT (by decide) hl hf hd
    | ora =>
      obtain ⟨f, rfl⟩ : ∃ f, src = .path f := by cases hT <;> exact ⟨_, rfl⟩
      have he : (image l s (.path f) t).2 = (loadOra l s f).2 := by simp only [image, hk]
      rw [he]
      simp only [loadOra]
      cases hl : lookup s.docs f with
      | some d =>
        simp only [loadSvg, hl]
        exact inv_old hi hT (by decide) (fun h => (h _ ((hi.docs _ _).mp hl)).elim)
      | none =>
        dsimp only
        cases hf : s.files f with
        | none => exact inv_old hi hT (by decide) (fun _ => .inl hf)
        | some data =>
          dsimp only
          by_cases hs : data ∈ s.stuck
          · rw [if_pos hs]
            obtain ⟨_, _, _, _, _, _, _, hno, _⟩ := (hi.stuck data).mp hs
            exact inv_old hi hT (by decide) (fun _ => .inr ⟨data, hf, hno, fun _ => hs⟩)
          · rw [if_neg hs]
            cases hd : l.ora data with
            | some d =>
              have : lookup ((f, d) :: s.docs) f = some d := by rw [lookup_cons, if_pos rfl]
              simp only [loadSvg, this]
              exact inv_new hi hT (by decide) hl hf hd
            | none =>
              dsimp only
              have hfirst := (none_iff (hi.docs f)).mp hl
              refine ⟨?_, ?_, ?_, ?_, hi.bytes, ?_⟩
              · rw [filesAt_snoc]; exact hi.files
              · rw [streamsAt_snoc]; exact hi.streams
              · intro g d
                rw [first_snoc, hi.docs, ← hi.files, readsDoc_path]
                refine ⟨.inl, fun h' => h'.elim id ?_⟩
                rintro ⟨-, rfl, k, b, ht, h1, h2⟩
                rw [takes_unique ht hT] at h2
                rw [hf] at h1; injection h1 with h1; subst h1
                rw [docOf, hd] at h2; cases h2
              · intro g c
                rw [first_snoc, hi.bitmaps, ← hi.files, readsBitmap_path]
                refine ⟨.inl, fun h' => h'.elim id ?_⟩
                rintro ⟨-, rfl, ht, -⟩
                cases takes_unique ht hT
              · intro b
                rw [failed_snoc, List.mem_cons, ← hi.files]
                constructor
                · rintro (rfl | h')
                  · exact .inr ⟨f, t, rfl, hT, hf, hd, hfirst⟩
                  · exact .inl ((hi.stuck b).mp h')
                · rintro (h' | ⟨g, t', e, -, h1, -⟩)
                  · exact .inr ((hi.stuck b).mpr h')
                  · injection e with e1 e2; injection e1 with e1; subst e1
                    rw [hf] at h1; injection h1 with h1
                    exact .inl h1.symm

theorem inv_run {l : Libs D B} {s0 : St D B} (h0 : s0.docs = [] ∧ s0.bitmaps = [] ∧ s0.stuck = []) (h : List Op) :
    Inv l s0.files s0.streams h (run l s0 h) := by
  induction h using List.reverseRecOn with
  | nil =>
    refine ⟨rfl, rfl, ?_, ?_, ?_, ?_⟩
    · intro f d
      simp only [run, List.foldl_nil, h0.1, lookup, List.find?_nil, Option.map_none]
      exact ⟨fun h => (by cases h), fun h => (first_nil h).elim⟩
    · intro f d
      simp only [run, List.foldl_nil, h0.2.1, lookup, List.find?_nil, Option.map_none]
      exact ⟨fun h => (by cases h), fun h => (first_nil h).elim⟩
    · intro b m data
      simp only [run, List.foldl_nil, h0.2.1, lookup, List.find?_nil, Option.map_none]
      intro h; cases h
    · intro b
      simp only [run, List.foldl_nil, h0.2.2, List.not_mem_nil, false_iff]
      rintro ⟨h1, f, t, h2, e, -⟩
      simp at e
  | append_singleton h op ih =>
    have : run l s0 (h ++ [op]) = step l (run l s0 h) op := by simp [run]
    rw [this]
    cases op with
    | image src t => exact inv_image src t ih
    | file f b =>
      refine inv_same ih rfl rfl rfl rfl rfl ?_ ?_ ?_
      · rintro g d - ⟨t, k, b, e, -⟩; cases e
      · rintro g d - ⟨t, e, -⟩; cases e
      · rintro g t b e; cases e
    | stream i b =>
      refine inv_same ih rfl rfl rfl rfl rfl ?_ ?_ ?_
      · rintro g d - ⟨t, k, b, e, -⟩; cases e
      · rintro g d - ⟨t, e, -⟩; cases e
      · rintro g t b e; cases e

end Verif.ImageFile
