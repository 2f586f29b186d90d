import Verif.Spec.Output
import Verif.Props.Cache

/-! # Lemmas: exporting units -/

namespace Verif.Book
open Spec
open Verif.Cache (World Fs Bytes Disk Op encode fileName openFs after doOp GoodHash SameBytes Correct Separate Present opSpec present_op right_op)

/-- A cache from which nothing is missing, whose files are right, and in which only failing constructors have not come to an end. -/
structure Ready (w : World) (v : Str) (s : Fs) : Prop where
  version : s.version = v
  correct : Correct w [v] (fun _ => False) s.disk
  present : Present s (fun _ => False)
  nodup : s.cacheFiles.Nodup
  stuck : ∀ n ∈ s.inProgress, ∃ i t, n = fileName w.digest v i t ∧ ∀ b, w.make v t i ≠ .ok b

theorem separate_one (v : Str) : Separate [v] := by
  intro a ha b hb _
  simp at ha hb
  rw [ha, hb]

theorem ready_open {w : World} {disk : Disk} {v : Str} (hc : Correct w [v] (fun _ => False) disk) (hd : (disk.map (·.1)).Nodup) : Ready w v (openFs disk v) := by
  refine ⟨rfl, hc, ?_, hd.filter _, (by intro n hn; cases hn)⟩
  intro n hn
  right
  rw [Verif.Cache.read_isSome]
  exact (List.mem_filter.mp hn).1

variable {w : World} (hw : GoodHash w.digest) (hu : SameBytes w) (hm : ∀ v t d b, w.make v t d ≠ .fails (some b))
include hw hu hm

theorem ready_op {v : Str} {s : Fs} (h : Ready w v s) {op : Op} (hp : op.isPrune = false) : Ready w v (doOp w s op).2 := by
  obtain ⟨n, hname⟩ : ∃ n, op.name w s.version = some n := by
    cases op with
    | prune => cases hp
    | ensure i t => exact ⟨_, rfl⟩
    | get i t => exact ⟨_, rfl⟩
  have sp := opSpec w s op n hname
  obtain ⟨-, h2, -⟩ := right_op hw hu hm (separate_one v) (by rw [h.version]; simp) h.correct op
  refine ⟨sp.version.trans h.version, h2, present_op hname h.present, sp.nodup h.nodup, ?_⟩
  intro m hmem
  cases op with
  | prune => cases hp
  | get i t =>
    apply h.stuck
    revert hmem
    simp only [doOp, Verif.Cache.get]
    split
    · split <;> exact id
    · split <;> exact id
  | ensure i t =>
    revert hmem
    simp only [doOp, Verif.Cache.ensure]
    split
    · exact h.stuck m
    · split
      · exact h.stuck m
      · cases hmk : w.make s.version t i with
        | ok b => exact h.stuck m
        | fails l =>
          have key : m ∈ fileName w.digest s.version i t :: s.inProgress → ∃ i t, m = fileName w.digest v i t ∧ ∀ b, w.make v t i ≠ .ok b := by
            intro hx
            rcases List.mem_cons.mp hx with rfl | hx
            · exact ⟨i, t, by rw [h.version], fun b hb => by rw [← h.version, hmk] at hb; cases hb⟩
            · exact h.stuck m hx
          cases l with
          | none => exact key
          | some b => exact key

theorem ready_ops {v : Str} : ∀ {ops : List Op} {s : Fs}, (∀ op ∈ ops, op.isPrune = false) → Ready w v s → Ready w v (after w s ops)
  | [], _, _, h => h
  | op :: ops, s, hp, h => ready_ops (ops := ops) (fun o ho => hp o (.tail _ ho)) (ready_op hw hu hm h (hp op (by simp)))

/-- Without files from earlier sessions, everything in the cache is in use, so nothing is ever pruned. -/
theorem ready_fresh {v : Str} : ∀ {ops : List Op} {s : Fs}, Ready w v s → s.cacheFiles ⊆ s.touched → Ready w v (after w s ops)
  | [], _, h, _ => h
  | op :: ops, s, h, ht => by
    by_cases hp : op.isPrune = false
    · obtain ⟨n, hname⟩ : ∃ n, op.name w s.version = some n := by
        cases op with
        | prune => cases hp
        | ensure i t => exact ⟨_, rfl⟩
        | get i t => exact ⟨_, rfl⟩
      have sp := opSpec w s op n hname
      refine ready_fresh (ops := ops) (ready_op hw hu hm h hp) ?_
      intro m hm'
      rw [sp.touched]
      rcases sp.known m hm' with rfl | h1
      · simp
      · exact List.mem_cons_of_mem _ (ht h1)
    · cases op with
      | ensure i t => exact absurd rfl hp
      | get i t => exact absurd rfl hp
      | prune =>
        have e : s.cacheFiles.filter (fun n => n ∉ s.touched) = [] := by
          rw [List.filter_eq_nil_iff]
          intro n hn
          simp [ht hn]
        have e2 : (doOp w s .prune).2 = s := by
          simp only [doOp, Verif.Cache.removeUnused, e, Verif.Cache.removeAll]
        show Ready w v (after w (doOp w s .prune).2 ops)
        rw [e2]
        exact ready_fresh (ops := ops) h ht

/-- The file is in the cache and in use. -/
def InUse (s : Fs) (n : Str) : Prop := n ∈ s.cacheFiles ∧ n ∈ s.touched

theorem exportDoc_ok {v : Str} {s : Fs} (h : Ready w v s) {type doc : Str} {b : Bytes} (hb : w.make v type (.bytes (encode doc)) = .ok b) :
    ∃ s', exportDoc w s type doc = (.ok (some (.cached (fileName w.digest v (.bytes (encode doc)) type))), s') ∧ Ready w v s' ∧
      InUse s' (fileName w.digest v (.bytes (encode doc)) type) ∧ ∀ n, InUse s n → InUse s' n := by
  have hr := ready_op hw hu hm h (op := .ensure (.bytes (encode doc)) type) rfl
  have sp := opSpec w s (.ensure (.bytes (encode doc)) type) _ rfl
  have hv := h.version
  have hno : fileName w.digest v (.bytes (encode doc)) type ∉ s.inProgress := by
    intro hx
    obtain ⟨i, t, h1, h2⟩ := h.stuck _ hx
    obtain ⟨-, h3, rfl⟩ := Verif.Cache.names_apart hw (separate_one v) (List.mem_singleton.mpr rfl) (List.mem_singleton.mpr rfl) h1
    refine h2 b ?_
    rw [← hu v type (.bytes (encode doc)) i (by rw [Verif.Cache.bytesOf_data, Verif.Cache.bytesOf_data, h3]), hb]
  have hpath : (doOp w s (.ensure (.bytes (encode doc)) type)).1 = .path (fileName w.digest v (.bytes (encode doc)) type) := by
    simp only [doOp, Verif.Cache.ensure, hv, hb]
    rw [if_neg hno]
    split <;> rfl
  refine ⟨(doOp w s (.ensure (.bytes (encode doc)) type)).2, ?_, hr, ?_, ?_⟩
  · have e : Verif.Cache.ensure w s (.bytes (encode doc)) type = doOp w s (.ensure (.bytes (encode doc)) type) := rfl
    unfold exportDoc
    rw [e, show doOp w s (.ensure (.bytes (encode doc)) type) =
      (.path (fileName w.digest v (.bytes (encode doc)) type), (doOp w s (.ensure (.bytes (encode doc)) type)).2) from Prod.ext hpath rfl]
  · refine ⟨(hv ▸ (sp.path _ hpath).2 : _), ?_⟩
    rw [sp.touched, hv]
    simp
  · intro n hn
    refine ⟨sp.keeps n hn.1, ?_⟩
    rw [sp.touched]
    exact List.mem_cons_of_mem _ hn.2

/-- The file of a unit, in use if it is in the cache. -/
def FileOf (w : World) (v type : Str) (s : Fs) (u : Out) (f : File) : Prop :=
  match u with
  | .sheet (.pdf _ g) => f = .given g
  | .sheet (.page _ _ _ doc) | .grid doc => f = .cached (fileName w.digest v (.bytes (encode doc)) type) ∧ InUse s (fileName w.digest v (.bytes (encode doc)) type)

omit hw hu hm in
theorem FileOf.mono {v type : Str} {s s' : Fs} (hs : ∀ n, InUse s n → InUse s' n) {u : Out} {f : File} (h : FileOf w v type s u f) : FileOf w v type s' u f := by
  cases u with
  | grid doc => exact ⟨h.1, hs _ h.2⟩
  | sheet sh =>
    cases sh with
    | pdf _ g => exact h
    | page _ _ _ doc => exact ⟨h.1, hs _ h.2⟩

omit hw hu hm in
/-- A file in use has the right contents. -/
theorem FileOf.read {src : Str → Option Bytes} {v type : Str} {s : Fs} (hr : Ready w v s) {u : Out} {f : File} (h : FileOf w v type s u f) (hc : content w v src type u ≠ none) :
    readFile src s f = content w v src type u := by
  have key : ∀ doc, (∃ b, w.make v type (.bytes (encode doc)) = .ok b) → InUse s (fileName w.digest v (.bytes (encode doc)) type) →
      s.disk.read (fileName w.digest v (.bytes (encode doc)) type) = (match w.make v type (.bytes (encode doc)) with | .ok b => some b | .fails _ => none) := by
    rintro doc ⟨b, hb⟩ hin
    rcases hr.present _ hin.1 with h | h
    · exact absurd h id
    · cases hd : s.disk.read (fileName w.digest v (.bytes (encode doc)) type) with
      | none => exact absurd hd h
      | some b' =>
        have := hr.correct v (List.mem_singleton.mpr rfl) (.bytes (encode doc)) type b' id hd
        rw [this]
  have ok : ∀ doc, (match w.make v type (.bytes (encode doc)) with | .ok b => some b | .fails _ => none) ≠ none → ∃ b, w.make v type (.bytes (encode doc)) = .ok b := by
    intro doc h
    cases hk : w.make v type (.bytes (encode doc)) with
    | ok b => exact ⟨b, rfl⟩
    | fails l => rw [hk] at h; exact absurd rfl h
  cases u with
  | grid doc =>
    obtain ⟨rfl, hin⟩ := h
    exact key doc (ok doc hc) hin
  | sheet sh =>
    cases sh with
    | pdf _ g => cases h; rfl
    | page _ _ _ doc =>
      obtain ⟨rfl, hin⟩ := h
      exact key doc (ok doc hc) hin

theorem exportUnit_ok {src : Str → Option Bytes} {v : Str} {s : Fs} (h : Ready w v s) {type : Str} {u : Out} (hc : content w v src type u ≠ none) (hp : isPdf u = true → type = "pdf".toList) :
    ∃ s' f, exportUnit w s type u = (.ok (some f), s') ∧ Ready w v s' ∧ FileOf w v type s' u f ∧ ∀ n, InUse s n → InUse s' n := by
  have ok : ∀ doc, (match w.make v type (.bytes (encode doc)) with | .ok b => some b | .fails _ => none) ≠ none → ∃ b, w.make v type (.bytes (encode doc)) = .ok b := by
    intro doc h
    cases hk : w.make v type (.bytes (encode doc)) with
    | ok b => exact ⟨b, rfl⟩
    | fails l => rw [hk] at h; exact absurd rfl h
  cases u with
  | grid doc =>
    obtain ⟨b, hb⟩ := ok doc hc
    obtain ⟨s', h1, h2, h3, h4⟩ := exportDoc_ok hw hu hm h hb
    exact ⟨s', _, h1, h2, ⟨rfl, h3⟩, h4⟩
  | sheet sh =>
    cases sh with
    | pdf _ g => exact ⟨s, .given g, by simp only [exportUnit, if_pos (hp rfl)], h, rfl, fun _ h => h⟩
    | page _ _ _ doc =>
      obtain ⟨b, hb⟩ := ok doc hc
      obtain ⟨s', h1, h2, h3, h4⟩ := exportDoc_ok hw hu hm h hb
      exact ⟨s', _, h1, h2, ⟨rfl, h3⟩, h4⟩

omit hw hu hm in
/-- What a merger has after more files. -/
def Merger.more (m : Merger) (files : List File) (parts : List Bytes) : Merger :=
  match m with
  | .list fs => .list (fs ++ files)
  | .external c fs => .external c (fs ++ files)
  | .pypdf ps => .pypdf (ps ++ parts)

theorem exportAll_ok {src : Str → Option Bytes} {v type : Str} : ∀ {units : List Out} {s : Fs} {m : Merger}, Ready w v s → (∀ u ∈ units, content w v src type u ≠ none) →
    (∀ u ∈ units, isPdf u = true → type = "pdf".toList) →
    ∃ s' files, exportAll w src type s m units = (.ok (m.more files (units.filterMap (content w v src type))), s') ∧ Ready w v s' ∧
      List.Forall₂ (FileOf w v type s') units files ∧ ∀ n, InUse s n → InUse s' n
  | [], s, m, h, _, _ => ⟨s, [], by cases m <;> simp [exportAll, Merger.more], h, .nil, fun _ h => h⟩
  | u :: us, s, m, h, hc, hp => by
    obtain ⟨s1, f, h1, h2, h3, h4⟩ := exportUnit_ok hw hu hm h (hc u (by simp)) (hp u (by simp))
    have hread := h3.read (src := src) h2 (hc u (by simp))
    obtain ⟨b, hb⟩ : ∃ b, content w v src type u = some b := Option.ne_none_iff_exists'.mp (hc u (by simp))
    rw [hb] at hread
    have happ : m.append src s1 f = .ok (m.more [f] [b]) := by
      cases m with
      | list fs => rfl
      | external c fs => rfl
      | pypdf ps => simp only [Merger.append, hread, Merger.more]
    obtain ⟨s2, files, h5, h6, h7, h8⟩ := exportAll_ok (units := us) (m := m.more [f] [b]) h2 (fun u hu => hc u (.tail _ hu)) (fun u hu => hp u (.tail _ hu))
    refine ⟨s2, f :: files, ?_, h6, .cons (h3.mono h8) h7, fun n hn => h8 n (h4 n hn)⟩
    simp only [exportAll, h1, happ, h5, List.filterMap_cons, hb]
    cases m <;> simp [Merger.more]

end Verif.Book
