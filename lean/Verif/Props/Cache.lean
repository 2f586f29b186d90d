import Verif.Proofs.Cache

/-! # Properties C73, C74, C77 and C90: the file cache -/

namespace Verif.Cache

/-! ### C77 -/

/-- **C77**: in a session (one version), if the hash has no collisions and its results have no full stop, two requests share a file only if they have the same bytes and the
same type; for two strings, or for two byte strings, that means that they are equal. -/
theorem C77_names (digest : Bytes → Str) (h : GoodHash digest) (v : Str) (i i' : Input) (t t' : Str)
    (he : fileName digest v i t = fileName digest v i' t') :
    t = t' ∧ i.data = i'.data ∧ (∀ a b, i = .text a → i' = .text b → a = b) ∧ (∀ a b, i = .bytes a → i' = .bytes b → a = b) := by
  obtain ⟨h1, h2⟩ := fileName_inj h he
  have h3 := List.append_cancel_left h1
  refine ⟨h2, h3, ?_, ?_⟩
  · rintro a b rfl rfl
    exact encode_inj h3
  · rintro a b rfl rfl
    exact h3

/-- A hash without collisions: every bit is written as a character. -/
def bits (b : Bytes) : Str := b.flatMap fun x => (List.range 8).map fun k => if x.toNat.testBit k then '1' else '0'

theorem bits_good : GoodHash bits := by
  constructor
  · intro a
    induction a with
    | nil =>
      intro b h
      cases b with
      | nil => rfl
      | cons y b => simp [bits] at h
    | cons x a ih =>
      intro b h
      cases b with
      | nil => simp [bits] at h
      | cons y b =>
        have h' : ((List.range 8).map fun k => if x.toNat.testBit k then '1' else '0') ++ bits a =
            ((List.range 8).map fun k => if y.toNat.testBit k then '1' else '0') ++ bits b := h
        obtain ⟨h1, h2⟩ := List.append_inj h' (by simp)
        have hxy : x = y := by
          apply UInt8.toNat_inj.mp
          apply Nat.eq_of_testBit_eq
          intro k
          by_cases hk : k < 8
          · have := congrArg (fun l => l[k]?) h1
            simp [hk] at this
            cases hx : x.toNat.testBit k <;> cases hy : y.toNat.testBit k <;> simp [hx, hy] at this ⊢
          · have hx : x.toNat < 2 ^ k := Nat.lt_of_lt_of_le x.toNat_lt (Nat.pow_le_pow_right (by decide) (by omega))
            have hy : y.toNat < 2 ^ k := Nat.lt_of_lt_of_le y.toNat_lt (Nat.pow_le_pow_right (by decide) (by omega))
            rw [Nat.testBit_lt_two_pow hx, Nat.testBit_lt_two_pow hy]
        rw [hxy, ih b h2]
  · intro a ha
    simp only [bits, List.mem_flatMap, List.mem_map] at ha
    obtain ⟨x, _, k, _, hk⟩ := ha
    split at hk <;> exact absurd hk (by decide)

example : fileName bits "3".toList (.text "a".toList) "svg".toList ≠ fileName bits "3".toList (.text "b".toList) "svg".toList := by decide +kernel

/-! ### C73 -/

/-- Constructors that write what they are given. -/
def copying : World := { digest := bits, make := fun _ _ i => .ok i.data }

/-- The file for a text in sessions of version 3. -/
def nameOf (a : String) : Str := fileName bits "3".toList (.text a.toList) "pdf".toList

/-- **C73 is false of the code**: once a file was pruned, `ensure` returns it although it does not exist, `get` fails, … -/
theorem C73_reuse_false : ¬ ∀ w disk v ops op n, op = Op.ensure n "pdf".toList →
    ∀ m, (doOp w (after w (openFs disk v) ops) op).1 = .path m → (doOp w (after w (openFs disk v) ops) op).2.disk.read m ≠ none := by
  intro h
  exact h copying [(nameOf "a", [97])] "3".toList [.prune] (.ensure (.text "a".toList) "pdf".toList) (.text "a".toList) rfl (nameOf "a") (by decide +kernel) (by decide +kernel)

theorem C73_get_false : ¬ ∀ w disk v ops n t, (doOp w (after w (openFs disk v) ops) (.get n t)).1 ≠ .raised .fileNotFound := by
  intro h
  exact h copying [(nameOf "a", [97])] "3".toList [.prune] (.text "a".toList) "pdf".toList (by decide +kernel)

/-- … and whenever pruning has removed a file, pruning again fails. -/
theorem C73_again_false (s : Fs) (n : Str) (h1 : s.disk.read n ≠ none) (h2 : (removeUnused s).2.disk.read n = none) :
    (removeUnused (removeUnused s).2).1 = .raised .fileNotFound := by
  have hmem : n ∈ s.cacheFiles.filter fun n => n ∉ s.touched := by
    refine Classical.byContradiction fun hno => ?_
    have hkeep : ∀ (ns : List Str) (d : Disk), n ∉ ns → (removeAll d ns).2.read n = d.read n := by
      intro ns
      induction ns with
      | nil => intro d _; rfl
      | cons m ns ih =>
        intro d hn
        unfold removeAll
        cases d.read m with
        | none => rfl
        | some b =>
          dsimp only
          rw [ih _ (fun h => hn (List.mem_cons_of_mem _ h)), read_remove, if_neg (by rintro rfl; exact hn (by simp))]
    exact h1 ((hkeep _ s.disk hno).symm.trans h2)
  exact removeAll_fails ⟨n, hmem, h2⟩

example : (nameOf "a") ∈ (openFs [(nameOf "a", [97])] "3".toList).cacheFiles ∧ (removeUnused (openFs [(nameOf "a", [97])] "3".toList)).2.disk.read (nameOf "a") = none := by
  decide +kernel

/-- The names asked for. -/
def requested (w : World) (v : Str) (ops : List Op) : List Str := ops.filterMap (·.name w v)

/-- What holds after some operations without pruning. -/
structure Since (w : World) (s0 : Fs) (bad : Str → Prop) (ops : List Op) (s : Fs) : Prop where
  version : s.version = s0.version
  touched : ∀ n, n ∈ s.touched ↔ n ∈ s0.touched ∨ n ∈ requested w s0.version ops
  known : ∀ n, n ∈ s.cacheFiles → n ∈ s0.cacheFiles ∨ n ∈ requested w s0.version ops
  keeps : ∀ n, n ∈ s0.cacheFiles → n ∈ s.cacheFiles
  nodup : s.cacheFiles.Nodup
  present : Present s bad

theorem since_ops {w : World} {bad : Str → Prop} : ∀ {ops : List Op} {s0 : Fs}, (∀ op ∈ ops, op.isPrune = false) → s0.cacheFiles.Nodup → Present s0 bad →
    Since w s0 bad ops (after w s0 ops) ∧ ∀ e ∈ doOps w s0 ops, ∀ n, e.1.name w s0.version = some n → ¬ bad n →
      e.2.1 ≠ .raised .fileNotFound ∧ ∀ m, e.2.1 = .path m → m = n ∧ e.2.2.disk.read n ≠ none
  | [], s0, _, hn, hp => ⟨⟨rfl, by simp [requested, after], by simp [after]; exact fun n h => .inl h, fun _ h => h, hn, hp⟩, by simp [doOps]⟩
  | op :: ops, s0, hops, hn, hp => by
    have hop := hops op (by simp)
    obtain ⟨n, hname⟩ : ∃ n, op.name w s0.version = some n := by
      cases op with
      | prune => cases hop
      | ensure i t => exact ⟨_, rfl⟩
      | get i t => exact ⟨_, rfl⟩
    have sp := opSpec w s0 op n hname
    have hp1 := present_op hname hp
    obtain ⟨h1, h2⟩ := since_ops (w := w) (ops := ops) (fun o ho => hops o (List.mem_cons_of_mem _ ho)) (sp.nodup hn) hp1
    have hreq : ∀ m, m ∈ requested w s0.version (op :: ops) ↔ m = n ∨ m ∈ requested w s0.version ops := by
      intro m; simp [requested, hname]
    have hv := sp.version
    refine ⟨⟨h1.version.trans hv, ?_, ?_, fun m hm => h1.keeps m (sp.keeps m hm), h1.nodup, h1.present⟩, ?_⟩
    · intro m
      rw [hreq]
      have := h1.touched m
      rw [hv, sp.touched] at this
      simp only [List.mem_cons] at this
      rw [show after w s0 (op :: ops) = after w (doOp w s0 op).2 ops from rfl, this]
      constructor
      · rintro ((h | h) | h) <;> simp [h]
      · rintro (h | h | h) <;> simp [h]
    · intro m hm
      rw [hreq]
      have := h1.known m hm
      rw [hv] at this
      rcases this with h | h
      · rcases sp.known m h with h | h <;> simp [h]
      · simp [h]
    · intro e he m hem hb
      rcases List.mem_cons.mp he with rfl | he
      · have : n = m := Option.some.inj (hname.symm.trans hem)
        subst this
        refine ⟨?_, ?_⟩
        · intro hnf
          obtain ⟨a1, a2⟩ := sp.notFound hnf
          rcases hp n a1 with h | h
          · exact hb h
          · exact h a2
        · intro m hm
          obtain ⟨rfl, a2⟩ := sp.path m hm
          refine ⟨rfl, ?_⟩
          rcases hp1 m a2 with h | h
          · exact absurd h hb
          · exact h
      · have := h2 e he m
        rw [hv] at this
        exact this hem hb

/-- **C73, the part that holds**: take any directory and any session that makes any requests, then prunes, then makes more requests. Before pruning, every request gets
an existing file (or the exception of its constructor, see C72). Pruning succeeds and removes exactly the cache files that were there at the beginning and were
not asked for; everything else keeps its contents. After it, requests for all other files get existing files. (Missing: requests for removed
files, and pruning again.) -/
theorem C73_prune_partial (w : World) (disk0 : Disk) (v : Str) (hd : (disk0.map (·.1)).Nodup) (ops1 ops2 : List Op)
    (h1 : ∀ op ∈ ops1, op.isPrune = false) (h2 : ∀ op ∈ ops2, op.isPrune = false) :
    let s1 := after w (openFs disk0 v) ops1
    let removed := fun n => "cache.".toList <+: n ∧ disk0.read n ≠ none ∧ n ∉ requested w v ops1
    (∀ e ∈ doOps w (openFs disk0 v) ops1, ∀ n, e.1.name w v = some n → e.2.1 ≠ .raised .fileNotFound ∧ ∀ m, e.2.1 = .path m → m = n ∧ e.2.2.disk.read n ≠ none) ∧
    (removeUnused s1).1 = .done ∧
    (∀ n, removed n → (removeUnused s1).2.disk.read n = none) ∧
    (∀ n, ¬ removed n → (removeUnused s1).2.disk.read n = s1.disk.read n) ∧
    (∀ e ∈ doOps w (removeUnused s1).2 ops2, ∀ n, e.1.name w v = some n → ¬ removed n →
      e.2.1 ≠ .raised .fileNotFound ∧ ∀ m, e.2.1 = .path m → m = n ∧ e.2.2.disk.read n ≠ none) := by
  intro s1 removed
  have hopen : ∀ n, n ∈ (openFs disk0 v).cacheFiles ↔ disk0.read n ≠ none ∧ "cache.".toList <+: n := by
    intro n
    rw [read_isSome]
    simp [openFs, List.mem_filter, List.isPrefixOf_iff_prefix]
  have hnd : (openFs disk0 v).cacheFiles.Nodup := hd.filter _
  have hpres : Present (openFs disk0 v) (fun _ => False) := fun n hn => .inr ((hopen n).mp hn).1
  obtain ⟨a1, a2⟩ := since_ops (w := w) (ops := ops1) h1 hnd hpres
  have hmem : ∀ n, n ∈ s1.cacheFiles.filter (fun n => n ∉ s1.touched) ↔ removed n := by
    intro n
    rw [List.mem_filter]
    simp only [decide_eq_true_eq]
    rw [a1.touched]
    simp only [openFs, List.not_mem_nil, false_or]
    constructor
    · rintro ⟨b1, b2⟩
      rcases a1.known n b1 with b3 | b3
      · obtain ⟨b4, b5⟩ := (hopen n).mp b3
        exact ⟨b5, b4, b2⟩
      · exact absurd b3 b2
    · rintro ⟨b1, b2, b3⟩
      exact ⟨a1.keeps n ((hopen n).mpr ⟨b2, b1⟩), b3⟩
  have hall : ∀ n ∈ s1.cacheFiles.filter (fun n => n ∉ s1.touched), s1.disk.read n ≠ none := by
    intro n hn
    rcases a1.present n (List.mem_filter.mp hn).1 with h | h
    · exact absurd h id
    · exact h
  obtain ⟨r1, r2⟩ := removeAll_ok (a1.nodup.filter _) hall
  have r3 : ∀ n, (removeUnused s1).2.disk.read n = if n ∈ s1.cacheFiles.filter (fun n => n ∉ s1.touched) then none else s1.disk.read n := r2
  refine ⟨fun e he n hn => a2 e he n hn id, r1, ?_, ?_, ?_⟩
  · intro n hn
    rw [r3, if_pos ((hmem n).mpr hn)]
  · intro n hn
    rw [r3, if_neg (fun h => hn ((hmem n).mp h))]
  · have hv : (removeUnused s1).2.version = v := a1.version
    have hp2 : Present (removeUnused s1).2 removed := by
      intro n hn
      by_cases hrm : removed n
      · exact .inl hrm
      · right
        rw [r3, if_neg (fun h => hrm ((hmem n).mp h))]
        rcases a1.present n hn with h | h
        · exact absurd h id
        · exact h
    obtain ⟨_, c2⟩ := since_ops (w := w) (ops := ops2) (s0 := (removeUnused s1).2) h2 a1.nodup hp2
    rw [hv] at c2
    exact c2

/-- A session with an old file `a` that uses `b` only. -/
example : (sessions copying [(nameOf "a", [97])] [("3".toList, [.ensure (.text "b".toList) "pdf".toList, .prune, .get (.text "b".toList) "pdf".toList])]).2 = [(nameOf "b", [98])] := by
  decide +kernel

/-! ### C90 -/

/-- No version, with a slash after it, is the beginning of another one. -/
def Separate (versions : List Str) : Prop :=
  ∀ v ∈ versions, ∀ v' ∈ versions, encode (v ++ "/".toList) <+: encode (v' ++ "/".toList) → v = v'

/-- Every file that could be used, but for the `bad` ones, contains what its constructor writes. -/
def Correct (w : World) (versions : List Str) (bad : Str → Prop) (disk : Disk) : Prop :=
  ∀ v ∈ versions, ∀ i t b, ¬ bad (fileName w.digest v i t) → disk.read (fileName w.digest v i t) = some b → w.make v t i = .ok b

theorem names_apart {w : World} (hw : GoodHash w.digest) {versions : List Str} (hs : Separate versions) {v v' : Str} (hv : v ∈ versions) (hv' : v' ∈ versions)
    {i i' : Input} {t t' : Str} (he : fileName w.digest v i t = fileName w.digest v' i' t') : v = v' ∧ i.data = i'.data ∧ t = t' := by
  obtain ⟨h1, h2⟩ := fileName_inj hw he
  rw [show "elsie-".toList ++ v ++ "/".toList = "elsie-".toList ++ (v ++ "/".toList) from List.append_assoc _ _ _,
    show "elsie-".toList ++ v' ++ "/".toList = "elsie-".toList ++ (v' ++ "/".toList) from List.append_assoc _ _ _, encode_append, encode_append (_) (v' ++ _), List.append_assoc,
    List.append_assoc] at h1
  have h1 := List.append_cancel_left h1
  have hvv : v = v' := by
    rcases List.prefix_or_prefix_of_prefix (List.prefix_append _ _) (h1 ▸ List.prefix_append (encode (v' ++ "/".toList)) i'.data) with h | h
    · exact hs v hv v' hv' h
    · exact (hs v' hv' v hv h).symm
  subst hvv
  exact ⟨rfl, List.append_cancel_left h1, h2⟩

/-- The bytes of an input: a text is encoded. -/
def bytesOf : Input → Bytes
  | .text s => encode s
  | .bytes b => b

/-- A constructor does the same for a text and for the bytes of this text. -/
def SameBytes (w : World) : Prop := ∀ v t i i', bytesOf i = bytesOf i' → w.make v t i = w.make v t i'

theorem bytesOf_data (i : Input) : bytesOf i = i.data := by cases i <;> rfl

theorem correct_write {w : World} (hw : GoodHash w.digest) (hu : SameBytes w) {versions : List Str} (hs : Separate versions) {bad : Str → Prop} {d : Disk} (hc : Correct w versions bad d) {v : Str} (hv : v ∈ versions)
    {i : Input} {t : Str} {b : Bytes} (hb : w.make v t i = .ok b) : Correct w versions bad (d.write (fileName w.digest v i t) b) := by
  intro v' hv' i' t' b' hbad hr
  rw [read_write] at hr
  split at hr
  · rename_i he
    obtain ⟨rfl, h1, h2⟩ := names_apart hw hs hv' hv he
    rw [h2, hu _ t i' i (by rw [bytesOf_data, bytesOf_data, h1]), hb, Option.some.inj hr]
  · exact hc v' hv' i' t' b' hbad hr

/-- The contents an operation gives are what its constructor, of this version, writes. -/
def Right (w : World) (version : Str) (op : Op) (out : Out) (disk : Disk) : Prop :=
  match op with
  | .prune => True
  | .ensure i t => ∀ n, out = .path n → ∀ b, disk.read n = some b → w.make version t i = .ok b
  | .get i t => ∀ b, out = .contents b → w.make version t i = .ok b

theorem right_op {w : World} (hw : GoodHash w.digest) (hu : SameBytes w) (hm : ∀ v t d b, w.make v t d ≠ .fails (some b)) {versions : List Str} (hs : Separate versions) {bad : Str → Prop} {s : Fs}
    (hv : s.version ∈ versions) (hc : Correct w versions bad s.disk) (op : Op) :
    ((∀ n, op.name w s.version = some n → ¬ bad n) → Right w s.version op (doOp w s op).1 (doOp w s op).2.disk) ∧ Correct w versions bad (doOp w s op).2.disk ∧ (doOp w s op).2.version = s.version := by
  cases op with
  | prune =>
    refine ⟨fun _ => trivial, ?_, rfl⟩
    intro v' hv' i' t' b' hbad hr
    exact hc v' hv' i' t' b' hbad (removeAll_sub _ _ hr)
  | ensure i t =>
    simp only [doOp, ensure]
    split
    · exact ⟨fun _ n h => (by cases h), hc, rfl⟩
    · split
      · refine ⟨?_, hc, rfl⟩
        intro hbad n hn b hb
        cases hn
        exact hc _ hv i t b (hbad _ rfl) hb
      · cases hmk : w.make s.version t i with
        | ok b =>
          have hc' := correct_write hw hu hs hc hv hmk
          refine ⟨?_, hc', rfl⟩
          intro hbad n hn b' hb'
          cases hn
          exact hc' _ hv i t b' (hbad _ rfl) hb'
        | fails l =>
          cases l with
          | none => exact ⟨fun _ n h => (by cases h), hc, rfl⟩
          | some b => exact absurd hmk (hm _ _ _ _)
  | get i t =>
    simp only [doOp, get]
    split
    · split
      · rename_i b hb
        refine ⟨?_, hc, rfl⟩
        intro hbad b' hb'
        cases hb'
        exact hc _ hv i t b (hbad _ rfl) hb
      · exact ⟨fun _ b h => (by cases h), hc, rfl⟩
    · cases hmk : w.make s.version t i with
      | ok b =>
        refine ⟨?_, correct_write hw hu hs hc hv hmk, rfl⟩
        intro _ b' hb'
        cases hb'
        exact hmk
      | fails l => exact ⟨fun _ b h => (by cases h), hc, rfl⟩

theorem right_ops {w : World} (hw : GoodHash w.digest) (hu : SameBytes w) (hm : ∀ v t d b, w.make v t d ≠ .fails (some b)) {versions : List Str} (hs : Separate versions) {bad : Str → Prop} :
    ∀ {ops : List Op} {s : Fs}, s.version ∈ versions → Correct w versions bad s.disk →
    (∀ e ∈ doOps w s ops, (∀ n, e.1.name w s.version = some n → ¬ bad n) → Right w s.version e.1 e.2.1 e.2.2.disk) ∧ Correct w versions bad (after w s ops).disk ∧ (after w s ops).version = s.version
  | [], s, _, hc => ⟨by simp [doOps], hc, rfl⟩
  | op :: ops, s, hv, hc => by
    obtain ⟨h1, h2, h3⟩ := right_op hw hu hm hs hv hc op
    obtain ⟨h4, h5, h6⟩ := right_ops hw hu hm hs (ops := ops) (s := (doOp w s op).2) (by rw [h3]; exact hv) h2
    refine ⟨?_, h5, h6.trans h3⟩
    intro e he
    rcases List.mem_cons.mp he with rfl | he
    · exact h1
    · rw [h3] at h4
      exact h4 e he

/-- **C90**: take any sequence of sessions (with any versions of Elsie and Inkscape of which none, with a slash, is the beginning of another one, and any requests and prunings), starting with a
directory without wrong files, for instance an empty one. If failing constructors leave no file, and constructors do not distinguish a text from its bytes, then no request ever gets contents other than those its own constructor,
in the version of its session, would write. -/
theorem C90_contents (w : World) (hw : GoodHash w.digest) (hu : SameBytes w) (hm : ∀ v t d b, w.make v t d ≠ .fails (some b)) (disk : Disk) (ss : List (Str × List Op))
    (hs : Separate (ss.map (·.1))) (hc : Correct w (ss.map (·.1)) (fun _ => False) disk) :
    ∀ x ∈ (sessions w disk ss).1, ∀ e ∈ x.2, Right w x.1 e.1 e.2.1 e.2.2.disk := by
  have key : ∀ (versions : List Str), Separate versions → ∀ ss disk, (∀ x ∈ ss, x.1 ∈ versions) → Correct w versions (fun _ => False) disk →
      ∀ x ∈ (sessions w disk ss).1, ∀ e ∈ x.2, Right w x.1 e.1 e.2.1 e.2.2.disk := by
    intro versions hs ss
    induction ss with
    | nil => intro disk _ _ x hx; simp [sessions] at hx
    | cons y ss ih =>
      obtain ⟨v, ops⟩ := y
      intro disk hv hc x hx
      obtain ⟨h1, h2, _⟩ := right_ops hw hu hm hs (ops := ops) (s := openFs disk v) (hv (v, ops) (by simp)) hc
      rcases List.mem_cons.mp hx with rfl | hx
      · exact fun e he => h1 e he fun _ _ h => h
      · exact ih _ (fun x hx => hv x (List.mem_cons_of_mem _ hx)) h2 x hx
  exact key _ hs ss disk (fun x hx => List.mem_map.mpr ⟨x, hx, rfl⟩) hc

example : SameBytes copying := fun _ t i i' h => by
  rw [bytesOf_data, bytesOf_data] at h
  simp only [copying, h]

/-- Two versions that write different files for the same text: the second session does not get the file of the first one. -/
example : ((sessions { digest := bits, make := fun v _ _ => .ok (encode v) } [] [("3".toList, [.ensure (.text "a".toList) "pdf".toList]), ("4".toList, [.get (.text "a".toList) "pdf".toList])]).1.map
    fun x => x.2.map fun e => e.2.1) = [[.path (fileName bits "3".toList (.text "a".toList) "pdf".toList)], [.contents (encode "4".toList)]] := by
  decide +kernel

example : Separate ["3.0/Inkscape 1.0".toList, "3.0/Inkscape 1.0.1".toList] := by
  intro v hv v' hv' h
  simp only [List.mem_cons, List.not_mem_nil, or_false] at hv hv'
  rw [← List.isPrefixOf_iff_prefix] at h
  rcases hv with rfl | rfl <;> rcases hv' with rfl | rfl <;> first | rfl | (revert h; decide +kernel)

example (w : World) (versions : List Str) : Correct w versions (fun _ => False) [] := by
  intro v _ i t b _ h
  cases h

/-- **The conditions of C90 matter**: a constructor that fails after writing a part of its file leaves a file that the next session uses. -/
theorem C90_failing_needed : ¬ ∀ (w : World), GoodHash w.digest → SameBytes w → ∀ ss : List (Str × List Op), Separate (ss.map (·.1)) →
    ∀ x ∈ (sessions w [] ss).1, ∀ e ∈ x.2, Right w x.1 e.1 e.2.1 e.2.2.disk := by
  intro h
  let w : World := { digest := bits, make := fun _ _ _ => .fails (some [97]) }
  let ss : List (Str × List Op) := [("3".toList, [.ensure (.text "a".toList) "pdf".toList]), ("3".toList, [.ensure (.text "a".toList) "pdf".toList])]
  have h1 := h w bits_good (fun _ _ _ _ _ => rfl) ss (by
    intro a ha b hb _
    simp [ss] at ha hb
    rw [ha, hb])
  have h2 := h1 ("3".toList, doOps w (openFs [(nameOf "a", [97])] "3".toList) [.ensure (.text "a".toList) "pdf".toList]) (by
    refine List.mem_cons_of_mem _ (List.mem_cons.mpr (.inl ?_))
    rfl) _ (List.mem_singleton.mpr rfl)
  have h3 := h2 (nameOf "a") (by decide +kernel) [97] (by decide +kernel)
  exact absurd h3 (by decide +kernel)

/-- The other condition matters too: a text and the same text given as bytes have one file, whichever comes first. -/
theorem C90_bytes_needed : ¬ ∀ (w : World), GoodHash w.digest → (∀ v t d b, w.make v t d ≠ .fails (some b)) → ∀ ss : List (Str × List Op), Separate (ss.map (·.1)) →
    ∀ x ∈ (sessions w [] ss).1, ∀ e ∈ x.2, Right w x.1 e.1 e.2.1 e.2.2.disk := by
  intro h
  let w : World := { digest := bits, make := fun _ _ i => match i with | .text _ => .ok [1] | .bytes _ => .ok [2] }
  let ops : List Op := [.ensure (.text "a".toList) "svg".toList, .get (.bytes [97]) "svg".toList]
  have h1 := h w bits_good (fun _ t d b => by cases d <;> simp [w]) [("3".toList, ops)] (by
    intro a ha b hb _
    simp at ha hb
    rw [ha, hb])
  have h2 := h1 ("3".toList, doOps w (openFs [] "3".toList) ops) (List.mem_cons_self ..) _ (List.mem_cons_of_mem _ (List.mem_singleton.mpr rfl)) [1] (by decide +kernel)
  exact absurd h2 (by decide +kernel)

/-! ### C74 -/

/-- **C74 is false of the code**: a file that was being written when the process died is used by the next session. -/
theorem C74_crash_false : ¬ ∀ w, GoodHash w.digest → (∀ v t d b, w.make v t d ≠ .fails (some b)) → ∀ v ops op disk', Crash w (after w (openFs [] v) ops) op disk' →
    ∀ ops', ∀ e ∈ doOps w (openFs disk' v) ops', Right w v e.1 e.2.1 e.2.2.disk := by
  intro h
  have hc : Crash copying (after copying (openFs [] "3".toList) []) (.get (.text "ab".toList) "pdf".toList) (Disk.write [] (nameOf "ab") [97]) :=
    Crash.writing (w := copying) (s := openFs [] "3".toList) (.text "ab".toList) "pdf".toList [97, 98] [97] (.inr rfl) (by decide +kernel) (by decide +kernel) (by decide +kernel) (by decide)
  have := h copying bits_good (by intro _ t d b hb; cases hb) "3".toList [] _ _ hc [.get (.text "ab".toList) "pdf".toList] _ (List.mem_singleton.mpr rfl) [97] (by decide +kernel)
  exact absurd this (by decide +kernel)

theorem prefix_fileName (digest : Bytes → Str) (v : Str) (i : Input) (t : Str) : "cache.".toList <+: fileName digest v i t := by
  unfold fileName
  rw [List.append_assoc, List.append_assoc]
  exact List.prefix_append _ _

theorem nodup_write {d : Disk} (h : (d.map (·.1)).Nodup) (n : Str) (b : Bytes) : ((d.write n b).map (·.1)).Nodup := by
  rw [Disk.write, List.map_cons, List.nodup_cons]
  refine ⟨?_, h.sublist (List.filter_sublist.map _)⟩
  simp

theorem nodup_removeAll {ns : List Str} : ∀ {d : Disk}, (d.map (·.1)).Nodup → ((removeAll d ns).2.map (·.1)).Nodup := by
  induction ns with
  | nil => exact fun h => h
  | cons n ns ih =>
    intro d h
    unfold removeAll
    cases d.read n with
    | none => exact h
    | some b => exact ih (h.sublist (List.filter_sublist.map _))

theorem nodup_op (w : World) {s : Fs} (h : (s.disk.map (·.1)).Nodup) (op : Op) : ((doOp w s op).2.disk.map (·.1)).Nodup := by
  cases op with
  | prune => exact nodup_removeAll h
  | ensure i t =>
    simp only [doOp, ensure]
    split
    · exact h
    · split
      · exact h
      · split
        · exact nodup_write h _ _
        · exact h
        · exact nodup_write h _ _
  | get i t =>
    simp only [doOp, get]
    split
    · split <;> exact h
    · split
      · exact nodup_write h _ _
      · exact h

theorem nodup_after (w : World) : ∀ {ops : List Op} {s : Fs}, (s.disk.map (·.1)).Nodup → ((after w s ops).disk.map (·.1)).Nodup
  | [], _, h => h
  | op :: ops, _, h => nodup_after w (ops := ops) (nodup_op w h op)

/-- **C74, the part that holds**: let the process die during any operation. If it was not writing a cache file, the next session never gets wrong contents. If it was writing one,
all other requests of the next session get the right contents, and if the next session prunes without having asked for the file, the file is gone. (Missing: requests for the
file that was being written.) -/
theorem C74_crash_partial (w : World) (hw : GoodHash w.digest) (hu : SameBytes w) (hm : ∀ v t d b, w.make v t d ≠ .fails (some b)) (disk0 : Disk) (v : Str) (hc : Correct w [v] (fun _ => False) disk0)
    (hd : (disk0.map (·.1)).Nodup) (ops : List Op) (op : Op) (disk' : Disk) (h : Crash w (after w (openFs disk0 v) ops) op disk') :
    (∀ ops', ∀ e ∈ doOps w (openFs disk' v) ops', Right w v e.1 e.2.1 e.2.2.disk) ∨
      ∃ n, op.name w v = some n ∧
        (∀ ops', ∀ e ∈ doOps w (openFs disk' v) ops', e.1.name w v ≠ some n → Right w v e.1 e.2.1 e.2.2.disk) ∧
        (∀ ops', (∀ op' ∈ ops', op'.isPrune = false) → n ∉ requested w v ops' → (removeUnused (after w (openFs disk' v) ops')).2.disk.read n = none) := by
  have hsep : Separate [v] := by
    intro a ha b hb _
    simp at ha hb
    rw [ha, hb]
  obtain ⟨_, h2, hver⟩ := right_ops hw hu hm hsep (ops := ops) (s := openFs disk0 v) (by simp [openFs]) hc
  have hver : (after w (openFs disk0 v) ops).version = v := hver
  cases h with
  | before => exact .inl fun ops' e he => (right_ops hw hu hm hsep (ops := ops') (s := openFs _ v) (by simp [openFs]) h2).1 e he fun _ _ h => h
  | complete =>
    obtain ⟨_, h4, _⟩ := right_op hw hu hm hsep (s := after w (openFs disk0 v) ops) (by rw [hver]; simp) h2 op
    exact .inl fun ops' e he => (right_ops hw hu hm hsep (ops := ops') (s := openFs _ v) (by simp [openFs]) h4).1 e he fun _ _ h => h
  | writing i t b part hop _ _ _ _ =>
    right
    simp only [hver]
    refine ⟨fileName w.digest v i t, by rcases hop with rfl | rfl <;> rfl, ?_, ?_⟩
    · intro ops' e he hne
      have hc' : Correct w [v] (fun m => m = fileName w.digest v i t) ((after w (openFs disk0 v) ops).disk.write (fileName w.digest v i t) part) := by
        intro v' hv' i' t' b' hbad hr
        rw [read_write, if_neg hbad] at hr
        exact h2 v' hv' i' t' b' id hr
      refine (right_ops hw hu hm hsep (ops := ops') (s := openFs _ v) (by simp [openFs]) hc').1 e he ?_
      rintro n hn rfl
      exact hne hn
    · intro ops' hops hreq
      have hnd := nodup_write (nodup_after w (ops := ops) (s := openFs disk0 v) hd) (fileName w.digest v i t) part
      obtain ⟨_, _, r, _⟩ := C73_prune_partial w _ v hnd ops' [] hops (by simp)
      have hpre := prefix_fileName w.digest v i t
      have hread : Disk.read ((after w (openFs disk0 v) ops).disk.write (fileName w.digest v i t) part) (fileName w.digest v i t) ≠ none := by
        rw [read_write, if_pos rfl]
        exact Option.some_ne_none _
      exact r _ ⟨hpre, hread, hreq⟩

end Verif.Cache
