import Verif.Model.Cache

/-! # Lemmas about the caches -/

namespace Verif.Cache

/-! ### Names -/

theorem encode_inj {a b : Str} (h : encode a = encode b) : a = b := by
  unfold encode at h
  have h1 : a.utf8Encode = b.utf8Encode := by
    unfold List.utf8Encode
    rw [h]
  have h2 := congrArg ByteArray.utf8Decode? h1
  rw [List.utf8Decode?_utf8Encode, List.utf8Decode?_utf8Encode] at h2
  have h3 := Option.some.inj h2
  simpa using congrArg Array.toList h3

theorem encode_append (a b : Str) : encode (a ++ b) = encode a ++ encode b := by
  simp [encode, List.flatMap_append]

/-- Before the first occurrence of a character that the prefixes do not contain. -/
theorem split_first {c : Char} : ∀ {a b x y : Str}, c ∉ a → c ∉ b → a ++ c :: x = b ++ c :: y → a = b ∧ x = y
  | [], [], x, y, _, _, h => by
    injection h with _ h
    exact ⟨rfl, h⟩
  | [], d :: b, x, y, _, hb, h => by
    injection h with h _
    exact absurd (by simp [h]) hb
  | d :: a, [], x, y, ha, _, h => by
    injection h with h _
    exact absurd (by simp [h]) ha
  | d :: a, e :: b, x, y, ha, hb, h => by
    injection h with h1 h2
    obtain ⟨h3, h4⟩ := split_first (fun hc => ha (List.mem_cons_of_mem _ hc)) (fun hc => hb (List.mem_cons_of_mem _ hc)) h2
    exact ⟨by rw [h1, h3], h4⟩

/-- What is assumed of the hash: no collisions, and the result has no full stop (it has hexadecimal digits). -/
structure GoodHash (digest : Bytes → Str) : Prop where
  inj : ∀ a b, digest a = digest b → a = b
  dot : ∀ a, '.' ∉ digest a

theorem fileName_inj {digest : Bytes → Str} (h : GoodHash digest) {v v' : Str} {i i' : Input} {t t' : Str}
    (he : fileName digest v i t = fileName digest v' i' t') :
    encode ("elsie-".toList ++ v ++ "/".toList) ++ i.data = encode ("elsie-".toList ++ v' ++ "/".toList) ++ i'.data ∧ t = t' := by
  unfold fileName at he
  simp only [List.append_assoc] at he
  have he := List.append_cancel_left he
  obtain ⟨h1, h2⟩ := split_first (h.dot _) (h.dot _) (show _ ++ '.' :: t = _ ++ '.' :: t' from he)
  exact ⟨by simpa [List.append_assoc] using h.inj _ _ h1, h2⟩

/-! ### The directory -/

theorem read_write (d : Disk) (n m : Str) (b : Bytes) : (d.write n b).read m = if m = n then some b else d.read m := by
  unfold Disk.read Disk.write
  by_cases h : m = n
  · subst h; simp
  · rw [if_neg h, List.find?_cons_of_neg (by simpa using Ne.symm h)]
    congr 1
    induction d with
    | nil => rfl
    | cons e d ih =>
      by_cases he : e.1 = n
      · rw [List.filter_cons_of_neg (by simp [he]), ih, List.find?_cons_of_neg (by rw [he]; simpa using Ne.symm h)]
      · rw [List.filter_cons_of_pos (by simpa using he), List.find?_cons, List.find?_cons, ih]

theorem read_remove (d : Disk) (n m : Str) : (d.remove n).read m = if m = n then none else d.read m := by
  have := read_write d n m []
  unfold Disk.read Disk.write at this
  unfold Disk.read Disk.remove
  by_cases h : m = n
  · subst h; simp
  · rw [if_neg h] at this ⊢
    rw [List.find?_cons_of_neg (by simpa using Ne.symm h)] at this
    exact this

theorem read_isSome (d : Disk) (n : Str) : d.read n ≠ none ↔ n ∈ d.map (·.1) := by
  unfold Disk.read
  induction d with
  | nil => simp
  | cons e d ih =>
    by_cases h : e.1 = n
    · simp [h]
    · rw [List.find?_cons_of_neg (by simpa using h), ih]
      simp [Ne.symm h]

theorem removeAll_ok {ns : List Str} : ∀ {d : Disk}, ns.Nodup → (∀ n ∈ ns, d.read n ≠ none) →
    (removeAll d ns).1 = .done ∧ ∀ m, (removeAll d ns).2.read m = if m ∈ ns then none else d.read m := by
  induction ns with
  | nil => intro d _ _; exact ⟨rfl, fun m => by simp [removeAll]⟩
  | cons n ns ih =>
    intro d hnd hall
    obtain ⟨hn, hnd⟩ := List.nodup_cons.mp hnd
    unfold removeAll
    cases hr : d.read n with
    | none => exact absurd hr (hall n (by simp))
    | some b =>
      dsimp only
      obtain ⟨h1, h2⟩ := ih (d := d.remove n) hnd (by
        intro m hm
        rw [read_remove, if_neg (by rintro rfl; exact hn hm)]
        exact hall m (List.mem_cons_of_mem _ hm))
      refine ⟨h1, ?_⟩
      intro m
      rw [h2, read_remove]
      by_cases hmn : m = n
      · simp [hmn]
      · simp [hmn]

theorem removeAll_fails {ns : List Str} : ∀ {d : Disk}, (∃ n ∈ ns, d.read n = none) → (removeAll d ns).1 = .raised .fileNotFound := by
  induction ns with
  | nil => rintro d ⟨n, hn, _⟩; cases hn
  | cons n ns ih =>
    rintro d ⟨m, hm, hd⟩
    unfold removeAll
    cases hr : d.read n with
    | none => rfl
    | some b =>
      dsimp only
      rcases List.mem_cons.mp hm with rfl | hm
      · rw [hd] at hr; cases hr
      · exact ih ⟨m, hm, by rw [read_remove]; split <;> simp [hd]⟩

/-- Files are only removed by `remove_unused`. -/
theorem removeAll_sub {ns : List Str} : ∀ {d : Disk} (m : Str) (b : Bytes), (removeAll d ns).2.read m = some b → d.read m = some b := by
  induction ns with
  | nil => intro d m b h; exact h
  | cons n ns ih =>
    intro d m b h
    unfold removeAll at h
    cases hr : d.read n with
    | none => rw [hr] at h; exact h
    | some b' =>
      rw [hr] at h
      have := ih m b h
      rw [read_remove] at this
      split at this
      · cases this
      · exact this

/-! ### Operations -/

/-- The name an operation is about. -/
def Op.name (w : World) (v : Str) : Op → Option Str
  | .ensure i t => some (fileName w.digest v i t)
  | .get i t => some (fileName w.digest v i t)
  | .prune => none

def Op.isPrune : Op → Bool
  | .prune => true
  | _ => false

/-- All known files except some are in the directory. -/
def Present (s : Fs) (bad : Str → Prop) : Prop := ∀ n ∈ s.cacheFiles, bad n ∨ s.disk.read n ≠ none

/-- What an operation, other than pruning, does. -/
structure OpSpec (w : World) (s : Fs) (op : Op) (n : Str) : Prop where
  version : (doOp w s op).2.version = s.version
  touched : (doOp w s op).2.touched = n :: s.touched
  known : ∀ m, m ∈ (doOp w s op).2.cacheFiles → m = n ∨ m ∈ s.cacheFiles
  keeps : ∀ m, m ∈ s.cacheFiles → m ∈ (doOp w s op).2.cacheFiles
  same : n ∈ s.cacheFiles → (doOp w s op).2.disk = s.disk
  others : ∀ m, m ≠ n → (doOp w s op).2.disk.read m = s.disk.read m
  added : n ∉ s.cacheFiles → n ∈ (doOp w s op).2.cacheFiles → (doOp w s op).2.disk.read n ≠ none
  stays : ∀ m, s.disk.read m ≠ none → (doOp w s op).2.disk.read m ≠ none
  nodup : s.cacheFiles.Nodup → (doOp w s op).2.cacheFiles.Nodup
  path : ∀ m, (doOp w s op).1 = .path m → m = n ∧ n ∈ (doOp w s op).2.cacheFiles
  notFound : (doOp w s op).1 = .raised .fileNotFound → n ∈ s.cacheFiles ∧ s.disk.read n = none

theorem opSpec (w : World) (s : Fs) (op : Op) (n : Str) (hn : op.name w s.version = some n) : OpSpec w s op n := by
  have hstay : ∀ (b : Bytes) (m : Str), s.disk.read m ≠ none → (s.disk.write n b).read m ≠ none := by
    intro b m h
    rw [read_write]
    split
    · simp
    · exact h
  have hother : ∀ (b : Bytes) (m : Str), m ≠ n → (s.disk.write n b).read m = s.disk.read m := by
    intro b m h
    rw [read_write, if_neg h]
  cases op with
  | prune => cases hn
  | ensure i t =>
    cases hn
    by_cases h1 : fileName w.digest s.version i t ∈ s.inProgress
    · have e : doOp w s (.ensure i t) = (.blocks, { s with touched := fileName w.digest s.version i t :: s.touched }) := by
        simp [doOp, ensure, h1]
      constructor <;> rw [e] <;> simp_all
    · by_cases h2 : fileName w.digest s.version i t ∈ s.cacheFiles
      · have e : doOp w s (.ensure i t) = (.path (fileName w.digest s.version i t), { s with touched := fileName w.digest s.version i t :: s.touched }) := by
          simp [doOp, ensure, h1, h2]
        constructor <;> rw [e] <;> simp_all
      · cases h3 : w.make s.version t i with
        | ok b =>
          have e : doOp w s (.ensure i t) = (.path (fileName w.digest s.version i t), { s with touched := fileName w.digest s.version i t :: s.touched, disk := s.disk.write (fileName w.digest s.version i t) b, cacheFiles := fileName w.digest s.version i t :: s.cacheFiles }) := by
            simp [doOp, ensure, h1, h2, h3]
          constructor <;> rw [e] <;> simp_all [read_write]
        | fails l =>
          cases l with
          | none =>
            have e : doOp w s (.ensure i t) = (.raised (.user "constructor"), { s with touched := fileName w.digest s.version i t :: s.touched, inProgress := fileName w.digest s.version i t :: s.inProgress }) := by
              simp [doOp, ensure, h1, h2, h3]
            constructor <;> rw [e] <;> simp_all
          | some b =>
            have e : doOp w s (.ensure i t) = (.raised (.user "constructor"), { s with touched := fileName w.digest s.version i t :: s.touched, inProgress := fileName w.digest s.version i t :: s.inProgress, disk := s.disk.write (fileName w.digest s.version i t) b }) := by
              simp [doOp, ensure, h1, h2, h3]
            constructor <;> rw [e] <;> simp_all [read_write]
  | get i t =>
    cases hn
    by_cases h2 : fileName w.digest s.version i t ∈ s.cacheFiles
    · cases h3 : s.disk.read (fileName w.digest s.version i t) with
      | none =>
        have e : doOp w s (.get i t) = (.raised .fileNotFound, { s with touched := fileName w.digest s.version i t :: s.touched }) := by
          simp [doOp, get, h2, h3]
        constructor <;> rw [e] <;> simp_all
      | some b =>
        have e : doOp w s (.get i t) = (.contents b, { s with touched := fileName w.digest s.version i t :: s.touched }) := by
          simp [doOp, get, h2, h3]
        constructor <;> rw [e] <;> simp_all
    · cases h3 : w.make s.version t i with
      | ok b =>
        have e : doOp w s (.get i t) = (.contents b, { s with touched := fileName w.digest s.version i t :: s.touched, disk := s.disk.write (fileName w.digest s.version i t) b, cacheFiles := fileName w.digest s.version i t :: s.cacheFiles }) := by
          simp [doOp, get, h2, h3]
        constructor <;> rw [e] <;> simp_all [read_write]
      | fails l =>
        have e : doOp w s (.get i t) = (.raised (.user "constructor"), { s with touched := fileName w.digest s.version i t :: s.touched }) := by
          simp [doOp, get, h2, h3]
        constructor <;> rw [e] <;> simp_all

theorem present_op {w : World} {s : Fs} {op : Op} {n : Str} {bad : Str → Prop} (hn : op.name w s.version = some n) (h : Present s bad) :
    Present (doOp w s op).2 bad := by
  have sp := opSpec w s op n hn
  intro m hm
  by_cases hk : m ∈ s.cacheFiles
  · rcases h m hk with h | h
    · exact .inl h
    · exact .inr (sp.stays m h)
  · rcases sp.known m hm with rfl | h'
    · exact .inr (sp.added hk hm)
    · exact absurd h' hk

end Verif.Cache
