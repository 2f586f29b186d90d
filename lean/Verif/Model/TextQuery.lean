import Verif.Model.Xml
import Verif.Model.SvgDraw
import Verif.Model.TextBoxItem

/-! # Model of measuring texts with Inkscape

elsie/render/backends/svg/backend.py (`compute_text_width`, `compute_text_x`, `_text_query`), elsie/render/backends/svg/query.py and
the calls in elsie/text/textboxitem.py. What Inkscape answers is external. -/

namespace Verif.TextQuery
open Verif.Text Verif.Xml Verif.Style
open Verif.SvgDraw (joinWith)

/-- The id that is asked for (elsie/render/backends/svg/backend.py:100 and elsie/render/backends/svg/query.py:13-17). -/
def target : Str := "target".toList

/-- elsie/render/backends/svg/backend.py:98-102 `_text_query`: the data of the query. The text is drawn at (0, 0). -/
def textQuery (fmt : Rat → Str) (toks : List Tok) (style : TextStyle) (styles : Str → Option TextStyle) (idIndex : Option Nat) :
    Except Err Str :=
  match mkEnv fmt (fmt 0) (fmt 0) style styles (some target) idIndex none with
  | .error e => .error e
  | .ok env =>
    match drawText env {} toks with
    | .error e => .error e
    | .ok xml => xml.toString

/-- elsie/render/backends/svg/utils.py:7-18 `svg_begin(xml)`: the attributes. -/
def svgSets : List (Str × Str × Bool) :=
  [("xmlns".toList, "http://www.w3.org/2000/svg".toList, true),
    ("xmlns:xlink".toList, "http://www.w3.org/1999/xlink".toList, true)]

/-- elsie/render/backends/svg/query.py:7-11 (and 13): the document that is sent. -/
def queryDoc (data : Str) : Except Err Str :=
  match run {} ([.element "svg".toList] ++ svgSets.map (fun s => .set s.1 s.2.1 s.2.2) ++ [.raw data, .close (some "svg".toList)]) with
  | .error e => .error e
  | .ok x => x.toString

/-- elsie/render/backends/svg/query.py:13-19 with elsie/render/inkscape.py:63-70: the document, the id and the command for a
method. -/
def computeQuery (method data : Str) : Except Err (Str × Str × Str) :=
  match queryDoc data with
  | .error e => .error e
  | .ok doc =>
    if method = "inkscape-w".toList then .ok (doc, target, "query-width".toList)
    else if method = "inkscape-h".toList then .ok (doc, target, "query-height".toList)
    else if method = "inkscape-x".toList then .ok (doc, target, "query-x".toList)
    else .error (.user "Invalid method")

/-- elsie/render/backends/svg/backend.py:89-96 and 104-108 for a query that is not in the cache. -/
def ask (fmt : Rat → Str) (method : Str) (toks : List Tok) (style : TextStyle) (styles : Str → Option TextStyle)
    (idIndex : Option Nat) : Except Err (Str × Str × Str) :=
  match textQuery fmt toks style styles idIndex with
  | .error e => .error e
  | .ok data => computeQuery method data

/-- elsie/text/textboxitem.py:67: what is asked about a text. -/
def wholeQuery (fmt : Rat → Str) (toks : List Tok) (style : TextStyle) (styles : Str → Option TextStyle) :
    Except Err (Str × Str × Str) :=
  ask fmt "inkscape-w".toList toks style styles none

/-- elsie/text/textboxitem.py:128-134 and 152-160: what is asked for an inline box, the position and the width. An index
below 0 is the index of no token. -/
def inlineQueries (fmt : Rat → Str) (toks : List Tok) (style : TextStyle) (styles : Str → Option TextStyle) (name : Str) (nth : Nat) :
    Except Err ((Str × Str × Str) × (Str × Str × Str)) :=
  match inlineBoxIndex toks name nth with
  | .error e => .error e
  | .ok index =>
    match extractLine toks index with
    | .error e => .error e
    | .ok (line, j) =>
      let idIndex := if j < 0 then line.length else j.toNat
      match ask fmt "inkscape-x".toList line style styles (some idIndex) with
      | .error e => .error e
      | .ok qx =>
        match ask fmt "inkscape-w".toList line style styles (some idIndex) with
        | .error e => .error e
        | .ok qw => .ok (qx, qw)

end Verif.TextQuery
