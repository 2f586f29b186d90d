import Verif.Spec.Xml
import Verif.Spec.Text

/-! # Specification: drawn text -/

namespace Verif.Xml.Spec
open Verif.Text Verif.Style

/-- The texts of the lines of a token stream. -/
def lineTexts : List Tok → List Str
  | [] => [[]]
  | .newline _ :: ts => [] :: lineTexts ts
  | .text s :: ts =>
    match lineTexts ts with
    | [] => [s]
    | l :: ls => (s ++ l) :: ls
  | .opn _ :: ts => lineTexts ts
  | .close :: ts => lineTexts ts

/-- The sizes of the line breaks. -/
def breaks : List Tok → List Nat
  | [] => []
  | .newline n :: ts => n :: breaks ts
  | _ :: ts => breaks ts

/-- A forest of lines: one `tspan` per line. -/
def linesForest : List (Attrs × Forest) → Forest
  | [] => .nil
  | (as, k) :: rest => .elem "tspan".toList as k (linesForest rest)

/-- Strings that reach the reader unchanged as attribute values. -/
def OkStr (s : Str) : Prop := Plain s ∧ '\'' ∉ s

/-- The strings of a style. -/
structure StyleOk (s : TextStyle) : Prop where
  font : ∀ f, s.font = some f → OkStr f
  color : ∀ f, s.color = some f → OkStr f
  variant : ∀ f, s.variantNumeric = some f → OkStr f

/-- The strings of a call. -/
structure EnvOk (env : Env) : Prop where
  fmt : ∀ r, OkStr (env.fmt r)
  x : OkStr env.x
  y : OkStr env.y
  transform : ∀ t, env.transform = some t → OkStr t
  id : ∀ t, env.id = some t → OkStr t
  style : StyleOk env.style
  styles : ∀ n s, env.styles n = some s → StyleOk s

/-- Line breaks are only inside styles that are in the table and whose priority is not below that of any style opened
before (in particular this holds if all priorities are equal, as by default). `prev` are the priorities so far, `good`
says so for each open style, innermost first. -/
def SafeBreaks (styles : Str → Option TextStyle) (prev : List Rat) (good : List Bool) : List Tok → Prop
  | [] => True
  | .text _ :: ts => SafeBreaks styles prev good ts
  | .newline _ :: ts => good.all id = true ∧ SafeBreaks styles prev good ts
  | .opn n :: ts =>
    match styles n with
    | none => SafeBreaks styles prev (false :: good) ts
    | some s => SafeBreaks styles (s.priority :: prev) (prev.all (· ≤ s.priority) :: good) ts
  | .close :: ts => SafeBreaks styles prev good.tail ts

/-- The names of the styles that are open after a token stream, innermost first. -/
def openNames : List Str → List Tok → List Str
  | st, [] => st
  | st, .opn n :: ts => openNames (n :: st) ts
  | st, .close :: ts => openNames st.tail ts
  | st, .text _ :: ts => openNames st ts
  | st, .newline _ :: ts => openNames st ts

/-- The style in force: the innermost one that is applied. -/
def innermost : List (Option TextStyle) → Option TextStyle
  | [] => none
  | some s :: _ => some s
  | none :: rest => innermost rest

/-- The documented rule: is the style applied inside `stack`? -/
def applied (stack : List (Option TextStyle)) (s : TextStyle) : Option TextStyle :=
  match innermost stack with
  | some t => if t.priority ≤ s.priority then some s else none
  | none => some s

/-- The open styles after a token stream, innermost first, `none` for those not applied. -/
def stackAfter (styles : Str → Option TextStyle) : List (Option TextStyle) → List Tok → List (Option TextStyle)
  | st, [] => st
  | st, .opn n :: ts => stackAfter styles ((styles n).bind (applied st) :: st) ts
  | st, .close :: ts => stackAfter styles st.tail ts
  | st, .text _ :: ts => stackAfter styles st ts
  | st, .newline _ :: ts => stackAfter styles st ts

/-- Every style that is applied directly inside a style that is not applied has the priority of the style in force
there. -/
def Calm (styles : Str → Option TextStyle) : List (Option TextStyle) → List Tok → Prop
  | _, [] => True
  | st, .opn n :: ts =>
    (∀ s t, st.head? = some none → (styles n).bind (applied st) = some s → innermost st = some t → s.priority = t.priority) ∧
      Calm styles ((styles n).bind (applied st) :: st) ts
  | st, .close :: ts => Calm styles st.tail ts
  | st, .text _ :: ts => Calm styles st ts
  | st, .newline _ :: ts => Calm styles st ts

/-- Line breaks are only inside styles that are applied. -/
def BreaksApplied (styles : Str → Option TextStyle) : List (Option TextStyle) → List Tok → Prop
  | _, [] => True
  | st, .opn n :: ts => BreaksApplied styles ((styles n).bind (applied st) :: st) ts
  | st, .close :: ts => BreaksApplied styles st.tail ts
  | st, .text _ :: ts => BreaksApplied styles st ts
  | st, .newline _ :: ts => (∀ s ∈ st, s ≠ none) ∧ BreaksApplied styles st ts

/-- The attributes that say how text looks. -/
def fontNames : List Str := ["font-family".toList, "font-size".toList, "style".toList]

def fontOnly (as : Attrs) : Attrs := as.filter (fun a => fontNames.contains a.1)

/-- The SVG attributes of a style: only what the style sets. -/
def styleAttrs (fmt : Rat → Str) (s : TextStyle) : Attrs :=
  let css := (s.color.toList.flatMap (fun c => "fill:".toList ++ c ++ ";".toList)) ++
    (s.opacity.toList.flatMap (fun o => "fill-opacity:".toList ++ fmt o ++ ";".toList)) ++
    (if s.bold = some true then "font-weight: bold;".toList else []) ++
    (if s.italic = some true then "font-style: italic;".toList else [])
  (s.font.toList.map (fun f => ("font-family".toList, f))) ++ (s.size.toList.map (fun z => ("font-size".toList, fmt z))) ++
    (if css = [] then [] else [("style".toList, css)])

/-- A style that is not applied has no attributes. -/
def optAttrs (fmt : Rat → Str) : Option TextStyle → Attrs
  | none => []
  | some s => styleAttrs fmt s

/-- The attributes of the elements around every character, innermost first. -/
def Forest.chars (above : List Attrs) : Forest → List (Char × List Attrs)
  | .nil => []
  | .text s r => s.map (fun c => (c, above)) ++ r.chars above
  | .elem _ as k r => k.chars (fontOnly as :: above) ++ r.chars above

/-- What has to be around every character of a text: the attributes of the open styles that are applied (`stack`, the
last one is the style of the text), innermost first, and those of the line (`line`), which are nothing for the first
line and the style of the text for the others. -/
def expected (fmt : Rat → Str) (styles : Str → Option TextStyle) (base : TextStyle) :
    List (Option TextStyle) → Attrs → List Tok → List (Char × List Attrs)
  | _, _, [] => []
  | st, line, .opn n :: ts => expected fmt styles base ((styles n).bind (applied st) :: st) line ts
  | st, line, .close :: ts => expected fmt styles base st.tail line ts
  | st, line, .text s :: ts =>
    s.map (fun c => (c, st.dropLast.map (optAttrs fmt) ++ [line])) ++ expected fmt styles base st line ts
  | st, _, .newline _ :: ts => expected fmt styles base st (styleAttrs fmt base) ts

/-- What a reader makes of characters and attributes. -/
def asRead (l : List (Char × List Attrs)) : List (Char × List Attrs) :=
  l.map (fun p => (if p.1 = ' ' then '\xa0' else p.1, p.2.map (fun as => as.map (fun a => (a.1, attrText a.2)))))

end Verif.Xml.Spec
