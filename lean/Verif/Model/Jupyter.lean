import Verif.Model.Py

/-! # Model of elsie/render/jupyter.py: a slide in a notebook

The page is the part of the document below the wrapper of one slide; its class is a fresh identifier, so that the selectors of the script only find elements below it. -/

namespace Verif.Jupyter

/-- `<div class='elsie-step step-i'>content</div>`; `shown` is false if `style.display` is `none`. -/
structure Fragment where
  classes : List Str
  content : Str
  shown : Bool
deriving DecidableEq

/-- elsie/render/jupyter.py:113-118: the buttons and the text between them. -/
structure Controls where
  nextDisabled : Bool
  previousDisabled : Bool
  text : Str
deriving DecidableEq

/-- The page and the variable `active_step` of its script. `controls` is `none` for a slide with one step. -/
structure Page where
  fragments : List Fragment
  controls : Option Controls
  active : Int
deriving DecidableEq

/-- `n.toString()`, `str(n)`. -/
def intStr (n : Int) : Str := if n < 0 then '-' :: natStr n.natAbs else natStr n.natAbs

/-- elsie/render/jupyter.py:99-102. -/
def fragmentsOf (contents : List Str) : List Fragment :=
  contents.zipIdx.map fun c => { classes := ["elsie-step".toList, "step-".toList ++ natStr (c.2 + 1)], content := c.1, shown := true }

/-- `querySelector` for elements with both classes, followed by setting `display` to `block`: the first such element. `none` if there is no such element, an error of the script. -/
def showFirst (a b : Str) : List Fragment → Option (List Fragment)
  | [] => none
  | f :: fs => if a ∈ f.classes ∧ b ∈ f.classes then some ({ f with shown := true } :: fs) else (showFirst a b fs).map (f :: ·)

/-- elsie/render/jupyter.py:29-31. -/
def hide (f : Fragment) : Fragment := if "elsie-step".toList ∈ f.classes then { f with shown := false } else f

/-- elsie/render/jupyter.py:21-33 `updateState`. -/
def updateState (maxStep : Int) (step : Int) (p : Page) : Option Page :=
  match p.controls with
  | none => none
  | some _ =>
    let controls : Controls := { nextDisabled := step ≥ maxStep, previousDisabled := step ≤ 1, text := "Fragment: ".toList ++ intStr step }
    match showFirst "elsie-step".toList ("step-".toList ++ intStr step) (p.fragments.map hide) with
    | none => none
    | some fs => some { p with fragments := fs, controls := some controls }

/-- elsie/render/jupyter.py:35-38: the new `active_step`. -/
def newActive (maxStep offset active : Int) : Int := if active + offset ≥ 1 ∧ active + offset ≤ maxStep then active + offset else active

/-- elsie/render/jupyter.py:34-40 `moveStep`. -/
def moveStep (maxStep : Int) (offset : Int) (p : Page) : Option Page :=
  updateState maxStep (newActive maxStep offset p.active) { p with active := newActive maxStep offset p.active }

/-- elsie/render/jupyter.py:97-122 `render_slide_html`, once the browser has run the script (line 47). -/
def openPage (contents : List Str) : Option Page :=
  let fragments := fragmentsOf contents
  if fragments.length > 1 then
    updateState fragments.length 1
      { fragments := fragments, controls := some { nextDisabled := false, previousDisabled := false, text := "Fragment: 1".toList }, active := 1 }
  else some { fragments := fragments, controls := none, active := 1 }

/-- elsie/render/jupyter.py:41-46: clicks on the buttons, `true` is the button for the next step. -/
def click (contents : List Str) (next : Bool) (p : Page) : Option Page := moveStep contents.length (if next then 1 else -1) p

def clicks (contents : List Str) : List Bool → Page → Option Page
  | [], p => some p
  | c :: cs, p => (click contents c p).bind (clicks contents cs)

end Verif.Jupyter
