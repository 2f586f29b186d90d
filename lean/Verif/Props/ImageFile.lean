import Verif.Proofs.ImageFile

/-! # C125: pictures are those of their files -/

namespace Verif.ImageFile
open Verif.Cache (Bytes)
open Verif.ImageFile.Spec

variable {D B : Type}

/-- A program with a new deck. -/
def New (s : St D B) : Prop := s.docs = [] ∧ s.bitmaps = [] ∧ s.stuck = []

/-- What a call of `image` does after a history. -/
def shows (l : Libs D B) (s : St D B) (h : List Op) (src : Source) (t : Option Str) : Out D B := (image l (run l s h) src t).1

/-- What a bitmap with these contents is, if there are any. -/
def fresh (l : Libs D B) : Option Bytes → Out D B
  | none => .raises .fileNotFound
  | some b =>
    match l.bitmap b with
    | some m => .bitmap m b
    | none => .raises .value

/-- **C125 is false**: a figure that is written again under the same name is shown as it was the first time. -/
theorem C125_pictures_false :
    ∃ (l : Libs Unit Nat) (s : St Unit Nat) (h : List Op) (src : Source), New s ∧ Takes src none .bitmap ∧
      (∃ f b m, src = .path f ∧ filesAt s.files h f = some b ∧ l.bitmap b = some m ∧ shows l s h src none ≠ .bitmap m b) := by
  refine ⟨⟨fun _ => none, fun _ => none, fun b => some b.length⟩, { files := fun _ => none, streams := fun _ => [] },
    [.file "fig.png".toList (some [1]), .image (.path "fig.png".toList) none, .file "fig.png".toList (some [2, 2])], .path "fig.png".toList, ⟨rfl, rfl, rfl⟩, ?_,
    "fig.png".toList, [2, 2], 2, rfl, ?_, rfl, ?_⟩
  · exact .extension (stem := "fig".toList) (by decide)
  · decide +kernel
  · decide +kernel

theorem takes_path {f : Str} {t : Option Str} {k : Kind} (h : Takes (.path f) t k) : kindOf (.path f) t = .ok k := (kindOf_iff _ _ _).mpr h

/-- **C125 (partial).** Which calls are accepted, and what they show: from a file the deck shows what it read the first time it read this file successfully (as a
bitmap, or as a document of any kind), and what the file contains now if there was no such time; bytes are always shown as they are, of a file object what remains to
be read. Nothing but pictures in ORA can wait for ever, and only if a conversion of the same contents failed before. -/
theorem C125_pictures_partial (l : Libs D B) (s : St D B) (hs : New s) (h : List Op) (t : Option Str) :
    (∀ src, (∀ k, ¬ Takes src t k) → ∃ msg, shows l s h src t = .raises (.user msg)) ∧
    (∀ f, Takes (.path f) t .bitmap →
      (∀ b, First (fun fs op => ReadsBitmap l fs op f) s.files h b → shows l s h (.path f) t = .bitmap b.1 b.2) ∧
      ((∀ b, ¬ First (fun fs op => ReadsBitmap l fs op f) s.files h b) → shows l s h (.path f) t = fresh l (filesAt s.files h f))) ∧
    (∀ b, Takes (.bytes b) t .bitmap → shows l s h (.bytes b) t = fresh l (some b)) ∧
    (∀ i, Takes (.stream i) t .bitmap → shows l s h (.stream i) t = fresh l (some (streamsAt s.streams h i))) ∧
    (∀ f k, Takes (.path f) t k → k ≠ .bitmap →
      (∀ d, First (fun fs op => ReadsDoc l fs op f) s.files h d → shows l s h (.path f) t = .doc d) ∧
      ((∀ d, ¬ First (fun fs op => ReadsDoc l fs op f) s.files h d) →
        (filesAt s.files h f = none → shows l s h (.path f) t = .raises .fileNotFound) ∧
        (∀ b, filesAt s.files h f = some b →
          (∀ d, docOf l k b = some d → shows l s h (.path f) t = .doc d) ∧
          (docOf l k b = none → ¬ (k = .ora ∧ Failed l s.files h b) → shows l s h (.path f) t = .raises .value) ∧
          (k = .ora → Failed l s.files h b → shows l s h (.path f) t = .hangs)))) := by
  have hi := inv_run (l := l) hs h
  refine ⟨fun src hn => ?_, fun f hT => ⟨fun b hb => ?_, fun hn => ?_⟩, fun b hT => ?_, fun i hT => ?_, fun f k hT hk => ⟨fun d hd => ?_, fun hn => ⟨fun hf => ?_, fun b hf => ⟨fun d hd => ?_, fun hd hx => ?_, fun hko hx => ?_⟩⟩⟩⟩
  · have key : ∀ (t' : Str), (∀ k, ¬ Takes src (some t') k) → ∃ msg, dispatch src t' = .error (.user msg) := by
      intro t' hn
      cases hd : dispatch src t' with
      | ok k => exact (hn k ((dispatch_iff _ _ _).mp hd)).elim
      | error e =>
        unfold dispatch at hd
        split at hd
        · split at hd
          · cases hd
          · injection hd with hd; exact ⟨_, by rw [← hd]⟩
        · split at hd
          · split at hd
            · cases hd
            · injection hd with hd; exact ⟨_, by rw [← hd]⟩
          · split at hd
            · cases hd
            · injection hd with hd; exact ⟨_, by rw [← hd]⟩
    have : ∃ msg, kindOf src t = .error (.user msg) := by
      cases t with
      | some t' => exact key t' hn
      | none =>
        simp only [kindOf]
        cases hd : detect src with
        | error e =>
          dsimp only
          cases src with
          | bytes b => injection hd with hd; exact ⟨_, by rw [← hd]⟩
          | stream b => injection hd with hd; exact ⟨_, by rw [← hd]⟩
          | path f =>
            simp only [detect] at hd
            repeat' split at hd
            all_goals first | (cases hd; done) | (injection hd with hd; exact ⟨_, by rw [← hd]⟩)
        | ok t' =>
          dsimp only
          cases hd' : dispatch src t' with
          | ok k => exact (hn k ((kindOf_iff _ _ _).mp (by simp only [kindOf, hd, hd']))).elim
          | error e =>
            obtain ⟨msg, hm⟩ := key t' (fun k hk => by rw [(dispatch_iff _ _ _).mpr hk] at hd'; cases hd')
            rw [hd'] at hm
            exact ⟨msg, hm⟩
    obtain ⟨msg, hm⟩ := this
    exact ⟨msg, by simp only [shows, image, hm]⟩
  · simp only [shows, image, takes_path hT, loadBitmap, (hi.bitmaps f b).mpr hb]
  · simp only [shows, image, takes_path hT, loadBitmap, (none_iff (hi.bitmaps f)).mpr hn, readHelper, hi.files]
    cases filesAt s.files h f with
    | none => rfl
    | some b =>
      dsimp only [fresh]
      cases l.bitmap b <;> rfl
  · have hk := (kindOf_iff _ _ _).mpr hT
    simp only [shows, image, hk, loadBitmap, readHelper, fresh]
    cases hl : lookup (run l s h).bitmaps (.bytes b) with
    | some p =>
      obtain ⟨m, data⟩ := p
      obtain ⟨rfl, hm⟩ := hi.bytes _ _ _ hl
      simp only [hm]
    | none =>
      dsimp only
      cases l.bitmap b <;> rfl
  · have hk := (kindOf_iff _ _ _).mpr hT
    simp only [shows, image, hk, loadBitmap, readHelper, fresh, hi.streams]
    cases l.bitmap (streamsAt s.streams h i) <;> rfl
  · have hl := (hi.docs f d).mpr hd
    cases k with
    | bitmap => exact (hk rfl).elim
    | svg => simp only [shows, image, takes_path hT, loadSvg, hl]
    | ora => simp only [shows, image, takes_path hT, loadOra, loadSvg, hl]
  · have hl := (none_iff (hi.docs f)).mpr hn
    rw [← hi.files] at hf
    cases k with
    | bitmap => exact (hk rfl).elim
    | svg => simp only [shows, image, takes_path hT, loadSvg, hl, hf]
    | ora => simp only [shows, image, takes_path hT, loadOra, hl, hf]
  · have hl := (none_iff (hi.docs f)).mpr hn
    rw [← hi.files] at hf
    cases k with
    | bitmap => exact (hk rfl).elim
    | svg =>
      simp only [docOf] at hd
      simp only [shows, image, takes_path hT, loadSvg, hl, hf, hd]
    | ora =>
      simp only [docOf] at hd
      have hx : b ∉ (run l s h).stuck := fun hb => by
        obtain ⟨_, _, _, _, _, _, _, hno, _⟩ := (hi.stuck b).mp hb
        rw [hd] at hno; cases hno
      have : lookup ((f, d) :: (run l s h).docs) f = some d := by rw [lookup_cons, if_pos rfl]
      simp only [shows, image, takes_path hT, loadOra, hl, hf, hd, if_neg hx, loadSvg, this]
  · have hl := (none_iff (hi.docs f)).mpr hn
    rw [← hi.files] at hf
    cases k with
    | bitmap => exact (hk rfl).elim
    | svg =>
      simp only [docOf] at hd
      simp only [shows, image, takes_path hT, loadSvg, hl, hf, hd]
    | ora =>
      simp only [docOf] at hd
      have hx' : b ∉ (run l s h).stuck := fun hb => hx ⟨rfl, (hi.stuck b).mp hb⟩
      simp only [shows, image, takes_path hT, loadOra, hl, hf, hd, if_neg hx']
  · have hl := (none_iff (hi.docs f)).mpr hn
    rw [← hi.files] at hf
    subst hko
    simp only [shows, image, takes_path hT, loadOra, hl, hf, if_pos ((hi.stuck b).mpr hx)]

theorem filesAt_untouched {files : Str → Option Bytes} {f : Str} : ∀ {h1 h2 : List Op}, Untouched f h2 → filesAt files (h1 ++ h2) f = filesAt files h1 f := by
  intro h1 h2
  induction h2 using List.reverseRecOn with
  | nil => intro _; rw [List.append_nil]
  | append_singleton h2 op ih =>
    intro hu
    rw [← List.append_assoc, filesAt_snoc, ← ih (fun o ho b => hu o (by simp [ho]) b)]
    cases op with
    | image s t => rfl
    | stream i b => rfl
    | file g b =>
      simp only [filesAfter]
      rw [if_neg]
      rintro rfl
      exact hu (.file f b) (by simp) b rfl

/-- Where a call of `image` with the file is, if there are none in the first part. -/
theorem split_used {f : Str} {h1 h2 p q : List Op} {t : Option Str} (hu : Unused f h1) (e : h1 ++ h2 = p ++ .image (.path f) t :: q) :
    ∃ r, p = h1 ++ r ∧ h2 = r ++ .image (.path f) t :: q := by
  rcases List.append_eq_append_iff.mp e with ⟨r, rfl, hr⟩ | ⟨r, e1, e2⟩
  · exact ⟨r, rfl, hr⟩
  · cases r with
    | nil => exact ⟨[], by simp [e1], by simpa using e2.symm⟩
    | cons o r =>
      injection e2 with e2 e3
      exact (hu (.image (.path f) t) (by rw [e1, e2]; simp) t rfl).elim

/-- **C125, files that stay as they are.** If a file has not been changed since it was used for the first time, and not been used as a picture of another kind, it is
shown as it is. -/
theorem C125_unchanged_partial (l : Libs D B) (s : St D B) (hs : New s) (h1 h2 : List Op) (f : Str) (t : Option Str) (k : Kind) (b : Bytes)
    (hT : Takes (.path f) t k) (hun : Unused f h1) (hto : Untouched f h2) (hk : ∀ t' k', .image (.path f) t' ∈ h2 → Takes (.path f) t' k' → k' = k)
    (hb : filesAt s.files (h1 ++ h2) f = some b) :
    (∀ m, k = .bitmap → l.bitmap b = some m → shows l s (h1 ++ h2) (.path f) t = .bitmap m b) ∧
    (∀ d, docOf l k b = some d → shows l s (h1 ++ h2) (.path f) t = .doc d) := by
  obtain ⟨-, hbm, -, -, hdoc⟩ := C125_pictures_partial l s hs (h1 ++ h2) t
  have hsame : ∀ {r q : List Op} {t' : Option Str}, h2 = r ++ .image (.path f) t' :: q → filesAt s.files (h1 ++ r) f = some b := by
    intro r q t' e
    rw [filesAt_untouched (fun o ho => hto o (by rw [e]; simp [ho])), ← filesAt_untouched hto]
    exact hb
  constructor
  · rintro m rfl hm
    by_cases hF : ∃ c, First (fun fs op => ReadsBitmap l fs op f) s.files (h1 ++ h2) c
    · obtain ⟨c, hF⟩ := hF
      rw [(hbm f hT).1 c hF]
      obtain ⟨p, op, q, e, ⟨t', rfl, -, hc1, hc2⟩, -⟩ := hF
      obtain ⟨r, rfl, e2⟩ := split_used hun e
      rw [hsame e2] at hc1
      injection hc1 with hc1
      rw [← hc1, hm] at hc2
      injection hc2 with hc2
      rw [← hc1, ← hc2]
    · rw [(hbm f hT).2 (fun c hc => hF ⟨c, hc⟩), hb]
      simp only [fresh, hm]
  · intro d hd
    have hkb : k ≠ .bitmap := by rintro rfl; cases hd
    by_cases hF : ∃ c, First (fun fs op => ReadsDoc l fs op f) s.files (h1 ++ h2) c
    · obtain ⟨c, hF⟩ := hF
      rw [(hdoc f k hT hkb).1 c hF]
      obtain ⟨p, op, q, e, ⟨t', k', b', rfl, hT', hc1, hc2⟩, -⟩ := hF
      obtain ⟨r, rfl, e2⟩ := split_used hun e
      rw [hsame e2] at hc1
      injection hc1 with hc1
      rw [hk t' k' (by rw [e2]; simp) hT', ← hc1, hd] at hc2
      injection hc2 with hc2
      rw [hc2]
    · exact (((hdoc f k hT hkb).2 (fun c hc => hF ⟨c, hc⟩)).2 b hb).1 d hd

/-- A figure that is used twice; between the uses another file is written. -/
example : shows (D := Unit) ⟨fun _ => none, fun _ => none, fun b => some b.length⟩ { files := fun _ => none, streams := fun _ => [] }
    [.file "fig.png".toList (some [1]), .image (.path "fig.png".toList) none, .file "other.png".toList (some [2, 2])] (.path "fig.png".toList) none = .bitmap 1 [1] := by
  exact (C125_unchanged_partial (D := Unit) ⟨fun _ => none, fun _ => none, fun b => some b.length⟩ { files := fun _ => none, streams := fun _ => [] } ⟨rfl, rfl, rfl⟩
    [.file "fig.png".toList (some [1])] [.image (.path "fig.png".toList) none, .file "other.png".toList (some [2, 2])] "fig.png".toList none .bitmap [1]
    (.extension (stem := "fig".toList) (by decide)) (by intro o ho t; simp at ho; subst ho; intro h; cases h)
    (by
      intro o ho b
      simp only [List.mem_cons, List.not_mem_nil, or_false] at ho
      rcases ho with rfl | rfl
      · intro h; cases h
      · intro h; injection h with h; exact absurd h (by decide))
    (by
      intro t' k' hm hT
      have h1 : t' = none := by
        simp only [List.mem_cons, List.not_mem_nil, or_false, Op.image.injEq, true_and, reduceCtorEq, or_false] at hm
        exact hm
      subst h1
      exact takes_unique hT (.extension (stem := "fig".toList) (ext := ".png".toList) (by decide)))
    (by decide +kernel)).1 1 rfl rfl

/-- The same file object used twice: the second time nothing remains to be read. -/
example : shows (D := Unit) ⟨fun _ => none, fun _ => none, fun b => if b = [] then none else some b.length⟩ { files := fun _ => none, streams := fun _ => [7] }
    [.image (.stream 0) (some "png".toList)] (.stream 0) (some "png".toList) = .raises .value := by decide +kernel

/-- A picture in ORA that cannot be converted is an error the first time, and the second time the program hangs. -/
example : shows (D := Unit) (B := Unit) ⟨fun _ => none, fun _ => none, fun _ => none⟩ { files := fun _ => some [7], streams := fun _ => [] }
      [] (.path "a.ora".toList) none = .raises .value ∧
    shows (D := Unit) (B := Unit) ⟨fun _ => none, fun _ => none, fun _ => none⟩ { files := fun _ => some [7], streams := fun _ => [] }
      [.image (.path "a.ora".toList) none] (.path "b.ora".toList) none = .hangs := by decide +kernel

/-- The extension is taken literally. -/
example : ∃ msg, shows (D := Unit) (B := Unit) ⟨fun _ => none, fun _ => none, fun _ => none⟩ { files := fun _ => some [7], streams := fun _ => [] }
      [] (.path "PHOTO.JPG".toList) none = .raises (.user msg) := ⟨"Cannot detect image type from extension", by decide +kernel⟩

end Verif.ImageFile
