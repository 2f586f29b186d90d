import Verif.Model.Grid
import Verif.Model.Cache

/-! # Model of what `render` delivers

elsie/slides/slidedeck.py:365-386, elsie/render/pdfmerge.py and the `export` methods of elsie/render/render.py, with Inkscape. What Inkscape makes of a
document is a parameter (`World.make`, with the documents as bytes), as are the files of the user (`src`). Progress output is left out. -/

namespace Verif.Book
open Verif.Cache (World Fs Bytes encode)

/-- A file given to the merger: one of the cache, or one of the user. -/
inductive File where
  | cached (name : Str)
  | given (filename : Str)
  deriving DecidableEq, Repr

/-- The path of a file (elsie/utils/cache.py:29-30 with a separator). -/
def File.path (dir : Str) : File → Str
  | .cached n => dir ++ "/".toList ++ n
  | .given f => f

def readFile (src : Str → Option Bytes) (s : Fs) : File → Option Bytes
  | .cached n => s.disk.read n
  | .given f => src f

/-- elsie/render/render.py:40-47 `SvgRenderUnit.export`. (An `ensure` that waits for ever has no result; it is an exception here.) -/
def exportDoc (w : World) (s : Fs) (type : Str) (doc : Str) : Except Err (Option File) × Fs :=
  match Verif.Cache.ensure w s (.bytes (encode doc)) type with
  | (.path n, s) => (.ok (some (.cached n)), s)
  | (.raised e, s) => (.error e, s)
  | (_, s) => (.error .assertion, s)

/-- elsie/render/render.py:40-47 and 59-61: `unit.export`. -/
def exportUnit (w : World) (s : Fs) (type : Str) : Out → Except Err (Option File) × Fs
  | .sheet (.page _ _ _ doc) => exportDoc w s type doc
  | .grid doc => exportDoc w s type doc
  | .sheet (.pdf _ f) => if type = "pdf".toList then (.ok (some (.given f)), s) else (.ok none, s)

/-- A merger and what it has got: `[]`, `ExternalMerger`, `PyPdfMerger` (which reads a file when it is appended). -/
inductive Merger where
  | list (files : List File)
  | external (command : List Str) (files : List File)
  | pypdf (parts : List Bytes)

/-- elsie/render/pdfmerge.py:42-47. -/
def getMerger (name : Str) : Except Err Merger :=
  if name = "pypdf".toList then .ok (.pypdf [])
  else if name = "pdfunite".toList then .ok (.external ["pdfunite".toList, "INPUTS".toList, "OUTPUT".toList] [])
  else .error (.user "Unknown pdfmerger")

/-- `append`: elsie/render/pdfmerge.py:9-10 and 34-35, and of lists. -/
def Merger.append (src : Str → Option Bytes) (s : Fs) (m : Merger) (f : File) : Except Err Merger :=
  match m with
  | .list fs => .ok (.list (fs ++ [f]))
  | .external c fs => .ok (.external c (fs ++ [f]))
  | .pypdf parts =>
    match readFile src s f with
    | none => .error .fileNotFound
    | some b => .ok (.pypdf (parts ++ [b]))

/-- elsie/slides/slidedeck.py:371-374: the loop. -/
def exportAll (w : World) (src : Str → Option Bytes) (type : Str) : Fs → Merger → List Out → Except Err Merger × Fs
  | s, m, [] => (.ok m, s)
  | s, m, u :: us =>
    match exportUnit w s type u with
    | (.error e, s) => (.error e, s)
    | (.ok none, s) => exportAll w src type s m us
    | (.ok (some f), s) =>
      match m.append src s f with
      | .error e => (.error e, s)
      | .ok m => exportAll w src type s m us

/-- elsie/render/pdfmerge.py:12-20: the arguments of the command. -/
def commandArgs (command files : List Str) (output : Str) : List Str :=
  command.flatMap fun c => if c = "INPUTS".toList then files else if c = "OUTPUT".toList then [output] else [c]

/-- What was done: a list of files was returned; a document with these parts was written; a command was called. -/
inductive Result where
  | files (l : List File)
  | written (output : Str) (parts : List Bytes)
  | called (args : List Str)
  deriving DecidableEq, Repr

/-- `merger.write` (elsie/render/pdfmerge.py:12-25 and 37-39), or the list itself. -/
def Merger.write (dir output : Str) : Merger → Result
  | .list fs => .files fs
  | .external c fs => .called (commandArgs c (fs.map (File.path dir)) output)
  | .pypdf parts => .written output parts

/-- elsie/slides/slidedeck.py:365-368: the merger. -/
def chooseMerger (type : Str) (pdfMerger : Option Str) : Except Err Merger :=
  if type = "pdf".toList then
    match pdfMerger with
    | some n => getMerger n
    | none => .ok (.list [])
  else .ok (.list [])

/-- elsie/slides/slidedeck.py:365-386. -/
def deliver (w : World) (src : Str → Option Bytes) (dir : Str) (s : Fs) (units : List Out) (type : Str) (pdfMerger : Option Str) (output : Str) (prune : Bool) :
    Except Err Result × Fs :=
  match chooseMerger type pdfMerger with
  | .error e => (.error e, s)
  | .ok m =>
    match exportAll w src type s m units with
    | (.error e, s) => (.error e, s)
    | (.ok m, s) =>
      if prune then
        match Verif.Cache.removeUnused s with
        | (.raised e, s) => (.error e, s)
        | (_, s) => (.ok (m.write dir output), s)
      else (.ok (m.write dir output), s)

/-- elsie/slides/slidedeck.py:263-386 `render` with Inkscape. -/
def renderOutput (w : World) (src : Str → Option Bytes) (dir : Str) (fmt : Rat → Str) (s : Fs) (b : Book) (type : Str) (pdfMerger : Option Str) (output : Str)
    (slidesPerPage : Option (Nat × Nat)) (prune : Bool) : Except Err Result × Fs :=
  match renderUnits fmt b (type = "pdf".toList) slidesPerPage with
  | .error e => (.error e, s)
  | .ok units => deliver w src dir s units type pdfMerger output prune

end Verif.Book
