import Verif.Model.ImageFile

/-! # Specification for reading pictures -/

namespace Verif.ImageFile.Spec
open Verif.Cache (Bytes)

variable {D B : Type}

/-- The extensions of file names. -/
def extensions : List (Str × Kind) :=
  [(".svg".toList, .svg), (".ora".toList, .ora), (".png".toList, .bitmap), (".jpeg".toList, .bitmap), (".jpg".toList, .bitmap)]

/-- The names of types. -/
def types : List (Str × Kind) := [("svg".toList, .svg), ("ora".toList, .ora), ("png".toList, .bitmap), ("jpeg".toList, .bitmap)]

/-- Which kind of picture a call takes. -/
inductive Takes : Source → Option Str → Kind → Prop where
  | extension {stem ext k} : (ext, k) ∈ extensions → Takes (.path (stem ++ ext)) none k
  | path {f t k} : (t, k) ∈ types → Takes (.path f) (some t) k
  | bytes {b t} : (t, .bitmap) ∈ types → Takes (.bytes b) (some t) .bitmap
  | stream {i t} : (t, .bitmap) ∈ types → Takes (.stream i) (some t) .bitmap

/-- The contents of the files after an operation. -/
def filesAfter (files : Str → Option Bytes) : Op → Str → Option Bytes
  | .file f b => fun g => if g = f then b else files g
  | _ => files

/-- The contents of the files after a history. -/
def filesAt (files : Str → Option Bytes) (h : List Op) : Str → Option Bytes := h.foldl filesAfter files

open Classical in
/-- What remains to be read of file objects after an operation: a call that takes one reads all of it. -/
noncomputable def streamsAfter (streams : Nat → Bytes) : Op → Nat → Bytes
  | .stream i b => fun j => if j = i then b else streams j
  | .image (.stream i) t => fun j => if j = i ∧ Takes (.stream i) t .bitmap then [] else streams j
  | _ => streams

noncomputable def streamsAt (streams : Nat → Bytes) (h : List Op) : Nat → Bytes := h.foldl streamsAfter streams

/-- The document in a file. -/
def docOf (l : Libs D B) : Kind → Bytes → Option D
  | .svg => l.doc
  | .ora => l.ora
  | .bitmap => fun _ => none

/-- With these files, this operation reads the document `d` from the file `f`. -/
def ReadsDoc (l : Libs D B) (files : Str → Option Bytes) (op : Op) (f : Str) (d : D) : Prop :=
  ∃ t k b, op = .image (.path f) t ∧ Takes (.path f) t k ∧ files f = some b ∧ docOf l k b = some d

/-- With these files, this operation reads the bitmap `b` from the file `f`. -/
def ReadsBitmap (l : Libs D B) (files : Str → Option Bytes) (op : Op) (f : Str) (b : B × Bytes) : Prop :=
  ∃ t, op = .image (.path f) t ∧ Takes (.path f) t .bitmap ∧ files f = some b.2 ∧ l.bitmap b.2 = some b.1

/-- In the history `h`, the first operation of a kind (given with the files it finds) found `x`. -/
def First {X : Type} (reads : (Str → Option Bytes) → Op → X → Prop) (files : Str → Option Bytes) (h : List Op) (x : X) : Prop :=
  ∃ h1 op h2, h = h1 ++ op :: h2 ∧ reads (filesAt files h1) op x ∧
    ∀ h3 op' h4 y, h1 = h3 ++ op' :: h4 → ¬ reads (filesAt files h3) op' y

/-- Somebody tried to convert these contents from ORA, for a file of which no document had been read before, and failed. -/
def Failed (l : Libs D B) (files : Str → Option Bytes) (h : List Op) (b : Bytes) : Prop :=
  ∃ h1 f t h2, h = h1 ++ .image (.path f) t :: h2 ∧ Takes (.path f) t .ora ∧ filesAt files h1 f = some b ∧ l.ora b = none ∧
    ∀ d, ¬ First (fun fs op => ReadsDoc l fs op f) files h1 d

/-- The file is not touched. -/
def Untouched (f : Str) (h : List Op) : Prop := ∀ op ∈ h, ∀ b, op ≠ .file f b

/-- The file is not shown. -/
def Unused (f : Str) (h : List Op) : Prop := ∀ op ∈ h, ∀ t, op ≠ .image (.path f) t

end Verif.ImageFile.Spec
