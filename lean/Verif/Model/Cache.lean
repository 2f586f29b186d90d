import Verif.Model.Py

/-! # Model of the caches used by one thread

elsie/utils/cache.py `FsCache` and the query cache of elsie/render/backends/svg/backend.py. The hash function is a parameter. What a
constructor writes is a parameter, too. The contents of files are byte strings; a directory is a list of named files. -/

namespace Verif.Cache

abbrev Bytes := List UInt8

/-- `str.encode()` (UTF-8). -/
def encode (s : Str) : Bytes := s.flatMap String.utf8EncodeChar

/-- The data given to `ensure` and `get`: a string or bytes. -/
inductive Input where
  | text (s : Str)
  | bytes (b : Bytes)
  deriving DecidableEq, Repr

/-- elsie/utils/cache.py:24-25. -/
def Input.data : Input → Bytes
  | .text s => encode s
  | .bytes b => b

/-- elsie/utils/cache.py:9-11 and 22-27 `_get_filename`: `sha1(f"elsie-{version}/" + data).hexdigest()`. -/
def fileName (digest : Bytes → Str) (version : Str) (input : Input) (type : Str) : Str :=
  "cache.".toList ++ digest (encode ("elsie-".toList ++ version ++ "/".toList) ++ input.data) ++ ".".toList ++ type

/-! ### The directory -/

abbrev Disk := List (Str × Bytes)

def Disk.read (d : Disk) (n : Str) : Option Bytes := (d.find? fun e => e.1 == n).map (·.2)

def Disk.write (d : Disk) (n : Str) (b : Bytes) : Disk := (n, b) :: d.filter fun e => e.1 != n

def Disk.remove (d : Disk) (n : Str) : Disk := d.filter fun e => e.1 != n

/-- What a constructor does: write the file, or raise after it has written something or nothing. -/
inductive Made where
  | ok (b : Bytes)
  | fails (left : Option Bytes)
  deriving DecidableEq, Repr

/-- What is fixed: the hash and the constructors. -/
structure World where
  digest : Bytes → Str
  /-- by version, type and input: another version of Elsie or Inkscape may write something else; the constructor gets the input as it is, text or bytes (elsie/utils/cache.py:55 and 76) -/
  make : Str → Str → Input → Made

/-- A cache object and the directory. -/
structure Fs where
  disk : Disk
  version : Str
  cacheFiles : List Str
  touched : List Str := []
  inProgress : List Str := []

/-- What a call does. -/
inductive Out where
  | path (name : Str)
  | contents (b : Bytes)
  | done
  | raised (e : Err)
  | blocks
  deriving DecidableEq, Repr

/-- elsie/utils/cache.py:8-21 `FsCache.__init__`. -/
def openFs (disk : Disk) (version : Str) : Fs :=
  { disk, version, cacheFiles := (disk.map (·.1)).filter fun n => "cache.".toList.isPrefixOf n }

/-- elsie/utils/cache.py:39-60 `ensure` (waiting on collisions) in a program with one thread. A wait is for ever. -/
def ensure (w : World) (s : Fs) (input : Input) (type : Str) : Out × Fs :=
  let n := fileName w.digest s.version input type
  let s := { s with touched := n :: s.touched }
  if n ∈ s.inProgress then (.blocks, s)
  else if n ∈ s.cacheFiles then (.path n, s)
  else
    match w.make s.version type input with
    | .ok b => (.path n, { s with disk := s.disk.write n b, cacheFiles := n :: s.cacheFiles })
    | .fails none => (.raised (.user "constructor"), { s with inProgress := n :: s.inProgress })
    | .fails (some b) => (.raised (.user "constructor"), { s with inProgress := n :: s.inProgress, disk := s.disk.write n b })

/-- elsie/utils/cache.py:66-80 `get`. Its constructor returns the contents. -/
def get (w : World) (s : Fs) (input : Input) (type : Str) : Out × Fs :=
  let n := fileName w.digest s.version input type
  let s := { s with touched := n :: s.touched }
  if n ∈ s.cacheFiles then
    match s.disk.read n with
    | some b => (.contents b, s)
    | none => (.raised .fileNotFound, s)
  else
    match w.make s.version type input with
    | .ok b => (.contents b, { s with disk := s.disk.write n b, cacheFiles := n :: s.cacheFiles })
    | .fails _ => (.raised (.user "constructor"), s)

/-- The loop of `remove_unused`. -/
def removeAll (disk : Disk) : List Str → Out × Disk
  | [] => (.done, disk)
  | n :: ns =>
    match disk.read n with
    | none => (.raised .fileNotFound, disk)
    | some _ => removeAll (disk.remove n) ns

/-- elsie/utils/cache.py:62-64 `remove_unused`. -/
def removeUnused (s : Fs) : Out × Fs :=
  let r := removeAll s.disk (s.cacheFiles.filter fun n => n ∉ s.touched)
  (r.1, { s with disk := r.2 })

/-- The operations of a session. -/
inductive Op where
  | ensure (input : Input) (type : Str)
  | get (input : Input) (type : Str)
  | prune
  deriving DecidableEq, Repr

def doOp (w : World) (s : Fs) : Op → Out × Fs
  | .ensure i t => ensure w s i t
  | .get i t => get w s i t
  | .prune => removeUnused s

/-- The results of operations, with the states after them. -/
def doOps (w : World) (s : Fs) : List Op → List (Op × Out × Fs)
  | [] => []
  | op :: ops => (op, doOp w s op) :: doOps w (doOp w s op).2 ops

/-- The state after operations. -/
def after (w : World) (s : Fs) : List Op → Fs
  | [] => s
  | op :: ops => after w (doOp w s op).2 ops

/-- Sessions one after the other, each with its version. -/
def sessions (w : World) (disk : Disk) : List (Str × List Op) → List (Str × List (Op × Out × Fs)) × Disk
  | [] => ([], disk)
  | (v, ops) :: rest =>
    let r := sessions w (after w (openFs disk v) ops).disk rest
    ((v, doOps w (openFs disk v) ops) :: r.1, r.2)

/-! ### Crashes -/

/-- The contents of the directory if the process dies during an operation: nothing was written yet, only a part of the new
file was written, or the operation was complete. -/
inductive Crash (w : World) (s : Fs) (op : Op) : Disk → Prop where
  | before : Crash w s op s.disk
  | complete : Crash w s op (doOp w s op).2.disk
  | writing (i : Input) (t : Str) (b part : Bytes) : (op = .ensure i t ∨ op = .get i t) → fileName w.digest s.version i t ∉ s.cacheFiles →
      fileName w.digest s.version i t ∉ s.inProgress →
      w.make s.version t i = .ok b → part <+: b → Crash w s op (s.disk.write (fileName w.digest s.version i t) part)

/-! ### Queries -/

/-- A query: the method and the SVG, elsie/render/backends/svg/backend.py:105. -/
abbrev Query := Str × Str

/-- elsie/render/backends/svg/backend.py:135-139, the contents of `queries3.cache`. JSON turns the tuples of the keys into lists and
`_load_query_cache` turns them back; numbers are written so that they are read back exactly. -/
structure QueryFile (V : Type) where
  version : Str
  inkscape : Str
  queries : List (Query × V)

/-- The part of `InkscapeBackend` about queries. Dictionaries are lists of pairs; the first pair for a key counts. -/
structure Backend (V : Type) where
  inkscape : Str
  queryCache : List (Query × V)
  used : List (Query × V) := []

/-- `dict.get`. -/
def lookup {V : Type} (d : List (Query × V)) (k : Query) : Option V := (d.find? fun e => e.1 == k).map (·.2)

/-- elsie/render/backends/svg/backend.py:116-131 `_load_query_cache`. -/
def loadQueries {V : Type} (elsie inkscape : Str) : Option (QueryFile V) → List (Query × V)
  | none => []
  | some q =>
    if q.version ≠ elsie then []
    else if q.inkscape ≠ inkscape then []
    else q.queries

/-- elsie/render/backends/svg/backend.py:68-69. -/
def openBackend {V : Type} (elsie inkscape : Str) (file : Option (QueryFile V)) : Backend V :=
  { inkscape, queryCache := loadQueries elsie inkscape file }

/-- elsie/render/backends/svg/backend.py:104-111 `process_query`; `measure` is `compute_query`. -/
def processQuery {V : Type} (measure : Query → Except Err V) (b : Backend V) (k : Query) : Except Err V × Backend V :=
  match lookup b.queryCache k with
  | some v => (.ok v, { b with used := (k, v) :: b.used })
  | none =>
    match measure k with
    | .error e => (.error e, b)
    | .ok v => (.ok v, { b with queryCache := (k, v) :: b.queryCache, used := (k, v) :: b.used })

/-- elsie/render/backends/svg/backend.py:82-84 `prune_cache`. The two dictionaries are different objects afterwards. -/
def pruneQueries {V : Type} (b : Backend V) : Backend V := { b with queryCache := b.used, used := [] }

/-- elsie/render/backends/svg/backend.py:86-87 and 133-141 `save_cache`. -/
def saveQueries {V : Type} (elsie : Str) (b : Backend V) : QueryFile V := { version := elsie, inkscape := b.inkscape, queries := b.queryCache }

/-- The part of `SlideDeck.render` about the query cache, elsie/slides/slidedeck.py:336-340: no measurements are made during rendering (they are
made when texts and inline boxes are created, elsie/text/textboxitem.py:34 and 155-160). -/
def renderQueries {V : Type} (elsie : Str) (prune save : Bool) (b : Backend V) (file : Option (QueryFile V)) : Backend V × Option (QueryFile V) :=
  let b := if prune then pruneQueries b else b
  (b, if save then some (saveQueries elsie b) else file)

/-- What happens to the query cache. -/
inductive QOp where
  /-- a new process with these versions of Elsie and Inkscape -/
  | start (elsie inkscape : Str)
  | query (k : Query)
  | render (prune save : Bool)
  deriving DecidableEq, Repr

/-- The running process, with its version of Elsie, and the file. -/
structure QSt (V : Type) where
  running : Option (Str × Backend V) := none
  file : Option (QueryFile V) := none

/-- `measure` gives the results of a version of Elsie with a version of Inkscape. Without a process, nothing happens. -/
def qStep {V : Type} (measure : Str → Str → Query → Except Err V) (s : QSt V) : QOp → Option (Except Err V) × QSt V
  | .start elsie inkscape => (none, { s with running := some (elsie, openBackend elsie inkscape s.file) })
  | .query k =>
    match s.running with
    | none => (none, s)
    | some (elsie, b) =>
      let r := processQuery (measure elsie b.inkscape) b k
      (some r.1, { s with running := some (elsie, r.2) })
  | .render prune save =>
    match s.running with
    | none => (none, s)
    | some (elsie, b) =>
      let r := renderQueries elsie prune save b s.file
      (none, { running := some (elsie, r.1), file := r.2 })

/-- The state after a history. -/
def qRun {V : Type} (measure : Str → Str → Query → Except Err V) (s : QSt V) : List QOp → QSt V
  | [] => s
  | op :: ops => qRun measure (qStep measure s op).2 ops

/-- `json.dump` and `json.load` for the contents of the file (elsie/render/backends/svg/backend.py:119-120 and 140-141), as texts; `load` fails on what is not JSON. -/
structure Json (V : Type) where
  dump : QueryFile V → Str
  load : Str → Option (QueryFile V)

/-- elsie/render/backends/svg/backend.py:68 and 116-131 with the file as it is on the disk. A text that is not JSON raises `JSONDecodeError`, which is a `ValueError`. -/
def openFile {V : Type} (json : Json V) (elsie inkscape : Str) : Option Str → Except Err (Backend V)
  | none => .ok (openBackend elsie inkscape none)
  | some s =>
    match json.load s with
    | none => .error .value
    | some f => .ok (openBackend elsie inkscape (some f))

/-- The file if the process dies in `_save_query_cache`, elsie/render/backends/svg/backend.py:133-141: `open(cache_file, "w")` empties the file, then it is written from its beginning. -/
inductive SaveCrash {V : Type} (json : Json V) (elsie : Str) (b : Backend V) (old : Option Str) : Option Str → Prop where
  | before : SaveCrash json elsie b old old
  | writing (part : Str) : part <+: json.dump (saveQueries elsie b) → SaveCrash json elsie b old (some part)

end Verif.Cache
