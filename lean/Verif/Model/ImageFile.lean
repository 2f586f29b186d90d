import Verif.Model.Cache

/-! # Model of reading pictures

elsie/boxtree/boxmixin.py:438-535, 567-598 and elsie/utils/files.py: which kind of picture a call of `image` takes, and what the deck keeps of the
files that were read. Pillow, lxml and `convert_ora_to_svg` (Model/Ora.lean) are parameters. What is done with a picture after it was read
is in Model/Image.lean and Model/Scene.lean. -/

namespace Verif.ImageFile
open Verif.Cache (Bytes)

/-- The first argument of `image`: a file name, bytes, or a file object (given by its identity). -/
inductive Source where
  | path (f : Str)
  | bytes (b : Bytes)
  | stream (id : Nat)
  deriving DecidableEq, Repr

inductive Kind where
  | svg
  | ora
  | bitmap
  deriving DecidableEq, Repr

/-- The libraries: `doc` is `et.parse`, `ora` is `convert_ora_to_svg` with `et.parse` of its result, `bitmap` is `Image.open` with size and type
of the picture; `none` if they raise. -/
structure Libs (D B : Type) where
  doc : Bytes → Option D
  ora : Bytes → Option D
  bitmap : Bytes → Option B

/-- What happens in a call: a document or a bitmap (with its data) is shown, an exception is raised, or it waits for ever. -/
inductive Out (D B : Type) where
  | doc (d : D)
  | bitmap (b : B) (data : Bytes)
  | raises (e : Err)
  | hangs
  deriving DecidableEq, Repr

/-- The files, what remains to be read of the file objects, and what the deck keeps: `docs` and `bitmaps` are the entries of `temp_cache` with the
second component "svg" and "bitmap", `stuck` are the contents of the names in `FsCache.in_progress`. -/
structure St (D B : Type) where
  files : Str → Option Bytes
  streams : Nat → Bytes
  docs : List (Str × D) := []
  bitmaps : List (Source × B × Bytes) := []
  stuck : List Bytes := []

/-- elsie/boxtree/boxmixin.py:481-496: the type from the extension. -/
def detect : Source → Except Err Str
  | .path f =>
    if ".svg".toList <:+ f then .ok "svg".toList
    else if ".ora".toList <:+ f then .ok "ora".toList
    else if ".png".toList <:+ f then .ok "png".toList
    else if ".jpeg".toList <:+ f ∨ ".jpg".toList <:+ f then .ok "jpeg".toList
    else .error (.user "Cannot detect image type from extension")
  | _ => .error (.user "image_type has to be specified")

/-- elsie/boxtree/boxmixin.py:498-513: the branches on `image_type`. -/
def dispatch (s : Source) (t : Str) : Except Err Kind :=
  if t = "svg".toList then
    match s with
    | .path _ => .ok .svg
    | _ => .error (.user "source of SVG has to be filename")
  else if t = "ora".toList then
    match s with
    | .path _ => .ok .ora
    | _ => .error (.user "source of ORA has to be filename")
  else if t = "png".toList ∨ t = "jpeg".toList then .ok .bitmap
  else .error (.user "Unknown image type")

/-- elsie/boxtree/boxmixin.py:481-513. -/
def kindOf (s : Source) : Option Str → Except Err Kind
  | none =>
    match detect s with
    | .error e => .error e
    | .ok t => dispatch s t
  | some t => dispatch s t

/-- `dict.get`. -/
def lookup {K V : Type} [DecidableEq K] (d : List (K × V)) (k : K) : Option V := (d.find? (·.1 = k)).map (·.2)

variable {D B : Type}

/-- elsie/utils/files.py:1-8 `read_helper`; a file object is read to its end. -/
def readHelper (s : St D B) : Source → Option Bytes × St D B
  | .path f => (s.files f, s)
  | .bytes b => (some b, s)
  | .stream i => (some (s.streams i), { s with streams := fun j => if j = i then [] else s.streams j })

/-- elsie/boxtree/boxmixin.py:516-537: the beginning of `_image_bitmap`. -/
def loadBitmap (l : Libs D B) (s : St D B) (src : Source) : Out D B × St D B :=
  let entry := match src with
    | .stream _ => none
    | _ => lookup s.bitmaps src
  match entry with
  | some (b, data) => (.bitmap b data, s)
  | none =>
    match readHelper s src with
    | (none, s) => (.raises .fileNotFound, s)
    | (some data, s) =>
      match l.bitmap data with
      | none => (.raises .value, s)
      | some b =>
        match src with
        | .stream _ => (.bitmap b data, s)
        | _ => (.bitmap b data, { s with bitmaps := (src, b, data) :: s.bitmaps })

/-- elsie/boxtree/boxmixin.py:594-598: the beginning of `_image_svg`. -/
def loadSvg (l : Libs D B) (s : St D B) (f : Str) : Out D B × St D B :=
  match lookup s.docs f with
  | some d => (.doc d, s)
  | none =>
    match s.files f with
    | none => (.raises .fileNotFound, s)
    | some data =>
      match l.doc data with
      | none => (.raises .value, s)
      | some d => (.doc d, { s with docs := (f, d) :: s.docs })

/-- elsie/boxtree/boxmixin.py:567-583 `_image_ora`, with `ensure_by_file` and `ensure` of the cache (Model/Cache.lean) for a hash without collisions and a
sound directory (C90): the conversion of the same contents is the same, and after a conversion that failed the next one waits for ever. -/
def loadOra (l : Libs D B) (s : St D B) (f : Str) : Out D B × St D B :=
  match lookup s.docs f with
  | some _ => loadSvg l s f
  | none =>
    match s.files f with
    | none => (.raises .fileNotFound, s)
    | some data =>
      if data ∈ s.stuck then (.hangs, s)
      else
        match l.ora data with
        | none => (.raises .value, { s with stuck := data :: s.stuck })
        | some d => loadSvg l { s with docs := (f, d) :: s.docs } f

/-- elsie/boxtree/boxmixin.py:438-513 `image`, up to where the picture has been read. -/
def image (l : Libs D B) (s : St D B) (src : Source) (type : Option Str) : Out D B × St D B :=
  match kindOf src type with
  | .error e => (.raises e, s)
  | .ok .bitmap => loadBitmap l s src
  | .ok .svg =>
    match src with
    | .path f => loadSvg l s f
    | _ => (.raises .assertion, s)
  | .ok .ora =>
    match src with
    | .path f => loadOra l s f
    | _ => (.raises .assertion, s)

/-- What happens in a program with one deck: somebody writes or removes a file, sets what a file object has to read, or adds a picture to a slide. -/
inductive Op where
  | file (f : Str) (b : Option Bytes)
  | stream (i : Nat) (b : Bytes)
  | image (src : Source) (type : Option Str)
  deriving DecidableEq, Repr

def step (l : Libs D B) (s : St D B) : Op → St D B
  | .file f b => { s with files := fun g => if g = f then b else s.files g }
  | .stream i b => { s with streams := fun j => if j = i then b else s.streams j }
  | .image src t => (image l s src t).2

/-- The state after a history; the deck is new at the beginning. -/
def run (l : Libs D B) (s : St D B) (h : List Op) : St D B := h.foldl (step l) s

end Verif.ImageFile
