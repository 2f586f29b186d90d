import Verif.Proofs.XmlText
import Verif.Spec.DrawText
import Verif.Proofs.TextBasic

/-! Helper lemmas for drawn text. -/

namespace Verif.Xml
open Spec Verif.Text Verif.Style

/-- A successful run of the zipper is a successful run of the writer. -/
theorem Good.go {x : Xml} {a a' : A} {os : List Op} (h : Good x a) (hv : ∀ o ∈ os, Valid o) (hd : SetsDistinct (seen a) os)
    (ha : arun a os = some a') : ∃ x', Xml.run x os = .ok x' ∧ Good x' a' := by
  have hraw : ∀ o ∈ os, ∀ t, o ≠ .raw t := by
    rintro o ho t rfl; exact hv _ ho
  obtain ⟨x', hx'⟩ := (run_agree h.toAgree os hraw).2 a' ha
  obtain ⟨a1, ha1, hg⟩ := h.run hv hd hx'
  rw [ha] at ha1
  injection ha1 with ha1
  subst ha1
  exact ⟨x', hx', hg⟩

/-! ### attributes -/

abbrev toSet (s : Str × Str × Bool) : Op := .set s.1 s.2.1 s.2.2
abbrev toAttr (s : Str × Str × Bool) : Str × Str := (s.1, s.2.1)

theorem arun_sets (sets : List (Str × Str × Bool)) (cur : Forest) (o : Forest) (n : Str) (as : Attrs) (up) :
    arun { cur := cur, up := (o, n, as) :: up, isOpen := true } (sets.map toSet) =
      some { cur := cur, up := (o, n, as ++ sets.map toAttr) :: up, isOpen := true } := by
  induction sets generalizing as with
  | nil => simp [arun]
  | cons s sets ih =>
    simp only [List.map_cons, arun, aexec, if_true]
    rw [ih]
    simp

theorem setsDistinct_sets {sets : List (Str × Str × Bool)} {rest : List Op} {sn : List Str}
    (h1 : (sn ++ sets.map (·.1)).Nodup) (h2 : SetsDistinct (sn ++ sets.map (·.1)) rest) :
    SetsDistinct sn (sets.map toSet ++ rest) := by
  induction sets generalizing sn with
  | nil => simpa using h2
  | cons s sets ih =>
    simp only [List.map_cons, List.cons_append, SetsDistinct]
    have e : sn ++ s.1 :: sets.map (·.1) = (sn ++ [s.1]) ++ sets.map (·.1) := by simp
    simp only [List.map_cons] at h1 h2
    constructor
    · intro hm
      rw [List.nodup_append] at h1
      exact h1.2.2 _ hm s.1 (by simp) rfl
    · rw [e] at h1 h2
      exact ih h1 h2

/-- The style attribute of a style. -/
def styleStr (fmt : Rat → Str) (s : TextStyle) : Str :=
  (match s.color with | some c => "fill:".toList ++ c ++ ";".toList | none => []) ++
  (match s.opacity with | some o => "fill-opacity:".toList ++ fmt o ++ ";".toList | none => []) ++
  (if s.bold = some true then "font-weight: bold;".toList else []) ++
  (if s.italic = some true then "font-style: italic;".toList else [])

/-- The attributes of a style. -/
def fontSets (fmt : Rat → Str) (s : TextStyle) : List (Str × Str × Bool) :=
  (s.font.toList.map (fun f => ("font-family".toList, f, true))) ++
  (s.size.toList.map (fun z => ("font-size".toList, fmt z, true))) ++
  (if styleStr fmt s = [] then [] else [("style".toList, styleStr fmt s, true)])

theorem fontOps_eq (fmt : Rat → Str) (s : TextStyle) : fontOps fmt s = (fontSets fmt s).map toSet := by
  have e : fontOps fmt s = (match s.font with | some f => [Op.set "font-family".toList f true] | none => []) ++
      (match s.size with | some z => [Op.set "font-size".toList (fmt z) true] | none => []) ++
      (if styleStr fmt s ≠ [] then [Op.set "style".toList (styleStr fmt s) true] else []) := rfl
  rw [e]
  unfold fontSets
  generalize styleStr fmt s = w
  simp only [List.map_append]
  congr 1
  · congr 1
    · cases s.font <;> rfl
    · cases s.size <;> rfl
  · by_cases h : w = [] <;> simp [h]

theorem fontSets_names (fmt : Rat → Str) (s : TextStyle) :
    ((fontSets fmt s).map (·.1)).Sublist ["font-family".toList, "font-size".toList, "style".toList] := by
  unfold fontSets
  generalize styleStr fmt s = w
  simp only [List.map_append]
  refine List.Sublist.append (l₂ := ["font-family".toList, "font-size".toList]) (r₂ := ["style".toList]) ?_ ?_
  · refine List.Sublist.append (l₂ := ["font-family".toList]) ?_ ?_
    · cases s.font
      · exact List.nil_sublist _
      · exact List.Sublist.refl _
    · cases s.size
      · exact List.nil_sublist _
      · exact List.Sublist.refl _
  · split
    · exact List.nil_sublist _
    · exact List.Sublist.refl _

theorem Spec.OkStr.append {a b : Str} (ha : OkStr a) (hb : OkStr b) : OkStr (a ++ b) := by
  refine ⟨?_, ?_⟩
  · intro c hc
    rcases List.mem_append.mp hc with h | h
    · exact ha.1 c h
    · exact hb.1 c h
  · simp only [List.mem_append, not_or]; exact ⟨ha.2, hb.2⟩

theorem okStr_nil : OkStr [] := ⟨fun c hc => (by cases hc), (by simp)⟩

theorem okStr_of_decide {s : Str} (h : (s.all (fun c => xmlChar c && c != '\r' && c != '\'')) = true) : OkStr s := by
  rw [List.all_eq_true] at h
  refine ⟨?_, ?_⟩
  · intro c hc
    have := h c hc
    simp only [Bool.and_eq_true, bne_iff_ne, ne_eq] at this
    exact ⟨this.1.1, this.1.2⟩
  · intro hm
    have := h _ hm
    simp at this

theorem styleStr_ok {fmt : Rat → Str} (hf : ∀ r, OkStr (fmt r)) {s : TextStyle} (hs : StyleOk s) : OkStr (styleStr fmt s) := by
  unfold styleStr
  refine Spec.OkStr.append (Spec.OkStr.append (OkStr.append ?_ ?_) ?_) ?_
  · cases h : s.color with
    | none => exact okStr_nil
    | some c =>
      have h1 : OkStr "fill:".toList := okStr_of_decide (by decide)
      have h2 : OkStr ";".toList := okStr_of_decide (by decide)
      exact (h1.append (hs.color c h)).append h2
  · cases h : s.opacity with
    | none => exact okStr_nil
    | some c =>
      have h1 : OkStr "fill-opacity:".toList := okStr_of_decide (by decide)
      have h2 : OkStr ";".toList := okStr_of_decide (by decide)
      exact (h1.append (hf c)).append h2
  · split
    · exact okStr_of_decide (by decide)
    · exact okStr_nil
  · split
    · exact okStr_of_decide (by decide)
    · exact okStr_nil

theorem fontSets_ok {fmt : Rat → Str} (hf : ∀ r, OkStr (fmt r)) {s : TextStyle} (hs : StyleOk s) :
    ∀ t ∈ fontSets fmt s, OkStr t.2.1 := by
  intro t ht
  have hw := styleStr_ok hf hs
  unfold fontSets at ht
  generalize styleStr fmt s = w at hw ht
  rw [List.mem_append, List.mem_append] at ht
  rcases ht with (ht | ht) | ht
  · obtain ⟨f, h, rfl⟩ := List.mem_map.mp ht
    exact hs.font f (Option.mem_toList.mp h)
  · obtain ⟨f, h, rfl⟩ := List.mem_map.mp ht
    exact hf f
  · by_cases h : w = []
    · rw [if_pos h] at ht; cases ht
    · rw [if_neg h, List.mem_singleton] at ht
      subst ht; exact hw

theorem validName_of_decide {s : Str} (h : (match s with | [] => false | c :: r => nameStart c && r.all nameChar) = true) : ValidName s := by
  cases s with
  | nil => cases h
  | cons c r =>
    simp only [Bool.and_eq_true, List.all_eq_true] at h
    exact h

/-- Names of all attributes of texts. -/
def attrNames : List Str :=
  ["id".toList, "x".toList, "y".toList, "transform".toList, "text-anchor".toList, "xml:space".toList, "dy".toList,
    "font-family".toList, "font-size".toList, "style".toList, "font-variant-numeric".toList]

theorem attrNames_valid {n : Str} (h : n ∈ attrNames) : ValidName n := by
  simp only [attrNames, List.mem_cons, List.not_mem_nil, or_false] at h
  rcases h with rfl | rfl | rfl | rfl | rfl | rfl | rfl | rfl | rfl | rfl | rfl
  all_goals exact validName_of_decide (by decide)

theorem sets_valid {sets : List (Str × Str × Bool)} (hn : ∀ s ∈ sets, s.1 ∈ attrNames) (hv : ∀ s ∈ sets, OkStr s.2.1) :
    ∀ o ∈ sets.map toSet, Valid o := by
  intro o ho
  obtain ⟨s, hs, rfl⟩ := List.mem_map.mp ho
  exact ⟨attrNames_valid (hn s hs), (hv s hs).1, (hv s hs).2⟩

theorem fontSets_in (fmt : Rat → Str) (s : TextStyle) : ∀ t ∈ fontSets fmt s, t.1 ∈ attrNames := by
  intro t ht
  have := (fontSets_names fmt s).subset (List.mem_map_of_mem (f := (·.1)) ht)
  simp only [attrNames]
  simp only [List.mem_cons, List.not_mem_nil, or_false] at this ⊢
  rcases this with h | h | h <;> simp [h]

/-! ### forests of lines -/

theorem textOf_append : ∀ f g : Forest, (f ++ g).textOf = f.textOf ++ g.textOf
  | .nil, g => rfl
  | .text s r, g => by
    show s ++ (r ++ g).textOf = _
    rw [textOf_append r g]; simp [Forest.textOf]
  | .elem n a k r, g => by
    show k.textOf ++ (r ++ g).textOf = _
    rw [textOf_append r g]; simp [Forest.textOf]

theorem textOf_textNode (p : Str) : (textNode p).textOf = p := by
  cases p <;> simp [textNode, Forest.textOf]

theorem textOf_norm (p : Str) (f : Forest) : (norm p f).textOf = p ++ nbsp f.textOf := by
  induction f generalizing p with
  | nil => simp [norm, textOf_textNode, Forest.textOf, nbsp]
  | text s r ih => simp [norm, ih, Forest.textOf, nbsp]
  | elem n a k r ih1 ih2 =>
    simp only [norm, textOf_append, textOf_textNode, Forest.textOf, ih1, ih2, nbsp]
    simp

theorem linesForest_snoc (l : List (Attrs × Forest)) (as : Attrs) (k : Forest) :
    linesForest (l ++ [(as, k)]) = linesForest l ++ Forest.elem "tspan".toList as k .nil := by
  induction l with
  | nil => rfl
  | cons a l ih =>
    obtain ⟨b, c⟩ := a
    show Forest.elem _ b c (linesForest (l ++ [(as, k)])) = _
    rw [ih]; rfl

theorem norm_linesForest (l : List (Attrs × Forest)) :
    norm [] (linesForest l) = linesForest (l.map (fun x => (x.1.map (fun y => (y.1, attrText y.2)), norm [] x.2))) := by
  induction l with
  | nil => rfl
  | cons a l ih =>
    obtain ⟨b, c⟩ := a
    show textNode [] ++ Forest.elem _ _ _ (norm [] (linesForest l)) = _
    rw [ih]; rfl

/-! ### the state of the loop -/

/-- The current line: `done` are the finished lines, `la` the attributes of the current line, `ta` those of the text,
`bot` is what is before the text and around it. -/
inductive LineSt (bot : Forest × List (Forest × Str × Attrs)) (done : List (Attrs × Forest)) (la ta : Attrs) :
    List (Option TextStyle) → List (Forest × Str × Attrs) → Forest → Str → Prop where
  | base (s cur) : LineSt bot done la ta [s] ((linesForest done, "tspan".toList, la) :: (bot.1, "text".toList, ta) :: bot.2) cur cur.textOf
  | push {act up outer t} (s) (as : Attrs) (cur : Forest) : LineSt bot done la ta act up outer t →
      LineSt bot done la ta (s :: act) ((outer, "tspan".toList, as) :: up) cur (t ++ cur.textOf)

theorem LineSt.text {bot done la ta act up cur t} (h : LineSt bot done la ta act up cur t) (s : Str) :
    LineSt bot done la ta act up (cur ++ Forest.text s .nil) (t ++ s) := by
  have e : (cur ++ Forest.text s .nil).textOf = cur.textOf ++ s := by rw [textOf_append]; simp [Forest.textOf]
  cases h with
  | base s' cur => rw [← e]; exact .base _ _
  | push s' as cur h => rw [List.append_assoc, ← e]; exact .push _ _ _ h

theorem LineSt.pop {bot done la ta act} {s : Option TextStyle} {up cur t} (h : LineSt bot done la ta (s :: act) up cur t) (hne : act ≠ []) :
    ∃ outer as up', up = (outer, "tspan".toList, as) :: up' ∧
      LineSt bot done la ta act up' (outer ++ Forest.elem "tspan".toList as cur .nil) t := by
  cases h with
  | base => exact absurd rfl hne
  | @push _ up' outer t' _ as _ h =>
    refine ⟨outer, as, up', rfl, ?_⟩
    have e : (outer ++ Forest.elem "tspan".toList as cur .nil).textOf = outer.textOf ++ cur.textOf := by
      rw [textOf_append]; simp [Forest.textOf]
    cases h with
    | base s' o => rw [← e]; exact .base _ _
    | push s' as' o h => rw [List.append_assoc, ← e]; exact .push _ _ _ h

theorem LineSt.ne_nil {bot done la ta act up cur t} (h : LineSt bot done la ta act up cur t) : act ≠ [] ∧ up ≠ [] := by
  cases h <;> simp

/-- Closing all styles finishes the line. -/
theorem LineSt.closeAll {bot done la ta act up cur t} (h : LineSt bot done la ta act up cur t) (b : Bool) :
    ∃ k, k.textOf = t ∧ arun { cur := cur, up := up, isOpen := b } (act.map (fun _ => Op.close (some "tspan".toList))) =
      some { cur := linesForest (done ++ [(la, k)]), up := (bot.1, "text".toList, ta) :: bot.2, isOpen := false } := by
  induction act generalizing up cur b with
  | nil => exact absurd rfl h.ne_nil.1
  | cons s act ih =>
    by_cases hne : act = []
    · subst hne
      cases h with
      | base =>
        refine ⟨cur, rfl, ?_⟩
        simp only [List.map_cons, List.map_nil, arun, aexec, or_true, if_true, linesForest_snoc]
      | push _ _ _ h => exact absurd rfl h.ne_nil.1
    · obtain ⟨outer, as, up', rfl, h'⟩ := h.pop hne
      obtain ⟨k, hk, ha⟩ := ih h' false
      refine ⟨k, hk, ?_⟩
      simp only [List.map_cons, arun, aexec, or_true, if_true]
      exact ha

theorem arun_element (a : A) (n : Str) (sets : List (Str × Str × Bool)) :
    arun a (.element n :: sets.map toSet) = some { cur := .nil, up := (a.cur, n, sets.map toAttr) :: a.up, isOpen := true } := by
  simp only [arun, aexec]
  rw [arun_sets]
  simp

/-- The attributes of a reopened style. -/
def reopenSets (env : Env) (n : Nat) (j : Nat) (s : TextStyle) : List (Str × Str × Bool) :=
  [("xml:space".toList, "preserve".toList, true)] ++
  (if j = 0 then [("x".toList, env.x, true), ("dy".toList, env.fmt (env.lineSize * n), true)] else []) ++ fontSets env.fmt s

theorem reopenOps_eq (env : Env) (n j : Nat) (s : TextStyle) :
    reopenOps env n (j, some s) = .element "tspan".toList :: (reopenSets env n j s).map toSet := by
  unfold reopenOps reopenSets
  simp only [fontOps_eq, List.map_append, List.cons_append, List.nil_append, List.map_cons, List.map_nil]
  split <;> rfl

/-- Reopening all styles after a line break, from outside; `l` is what is still to be reopened. -/
theorem reopen_rest (env : Env) (n : Nat) {bot done la ta} : ∀ (l : List (Nat × Option TextStyle)), (∀ p ∈ l, p.1 ≠ 0 ∧ p.2.isSome) →
    ∀ {act up}, LineSt bot done la ta act up .nil [] →
    ∃ up', arun { cur := .nil, up := up, isOpen := true } (l.flatMap (reopenOps env n)) = some { cur := .nil, up := up', isOpen := true } ∧
      LineSt bot done la ta ((l.map (·.2)).reverse ++ act) up' .nil [] := by
  intro l
  induction l with
  | nil => intro _ act up h; exact ⟨up, rfl, h⟩
  | cons p l ih =>
    intro hl act up h
    obtain ⟨j, s⟩ := p
    obtain ⟨s, rfl⟩ := Option.isSome_iff_exists.mp (hl (j, s) (by simp)).2
    rw [List.flatMap_cons, reopenOps_eq, arun_append, arun_element, Option.bind_some]
    have h2 := LineSt.push (some s) ((reopenSets env n j s).map toAttr) .nil h
    obtain ⟨up', h3, h4⟩ := ih (fun q hq => hl q (List.mem_cons_of_mem _ hq)) h2
    exact ⟨up', h3, by simpa using h4⟩

theorem reopen_all (env : Env) (n : Nat) {bot : Forest × List (Forest × Str × Attrs)} {done : List (Attrs × Forest)} {ta : Attrs} (act : List (Option TextStyle)) (hne : act ≠ [])
    (hact : ∀ s ∈ act, s.isSome = true) :
    ∃ s up', arun { cur := linesForest done, up := (bot.1, "text".toList, ta) :: bot.2, isOpen := false }
        ((enumerate act.reverse).flatMap (reopenOps env n)) = some { cur := .nil, up := up', isOpen := true } ∧
      LineSt bot done ((reopenSets env n 0 s).map toAttr) ta act up' .nil [] := by
  cases hr : act.reverse with
  | nil => exact absurd (List.reverse_eq_nil_iff.mp hr) hne
  | cons o rest =>
    have hmem : ∀ q ∈ o :: rest, q.isSome = true := by
      intro q hq; apply hact; rw [← List.mem_reverse, hr]; exact hq
    obtain ⟨s, rfl⟩ := Option.isSome_iff_exists.mp (hmem o (by simp))
    refine ⟨s, ?_⟩
    unfold enumerate
    rw [List.zipIdx_cons, List.map_cons, List.flatMap_cons, reopenOps_eq, arun_append, arun_element, Option.bind_some]
    have h0 := LineSt.base (bot := bot) (done := done) (la := (reopenSets env n 0 s).map toAttr) (ta := ta) (some s) .nil
    obtain ⟨up', h1, h2⟩ := reopen_rest env n (bot := bot) (done := done) (la := (reopenSets env n 0 s).map toAttr) (ta := ta)
      ((rest.zipIdx (0 + 1)).map (fun p => (p.2, p.1))) (by
        intro p hp
        obtain ⟨q, hq, rfl⟩ := List.mem_map.mp hp
        have h3 := List.mem_zipIdx hq
        refine ⟨by simp only; omega, ?_⟩
        exact hmem _ (List.mem_cons_of_mem _ (by
          have := List.fst_mem_of_mem_zipIdx hq
          exact this))) (act := [some s]) h0
    refine ⟨up', h1, ?_⟩
    have e : ((List.map (fun p => (p.2, p.1)) (rest.zipIdx (0 + 1))).map (·.2)).reverse ++ [some s] = act := by
      rw [List.map_map]
      have : (List.map ((fun x => x.2) ∘ fun p => (p.2, p.1)) (rest.zipIdx (0 + 1)) : List (Option TextStyle)) = rest := by
        have := List.zipIdx_map_fst (0 + 1) rest
        simpa [Function.comp_def] using this
      rw [this, ← List.reverse_cons, ← hr, List.reverse_reverse]
    rw [e] at h2
    exact h2

/-! ### the calls are valid -/

/-- No attribute twice, whatever was set before. -/
def SD (ops : List Op) : Prop := ∀ sn, SetsDistinct sn ops

theorem sd_nil : SD [] := fun _ => trivial

theorem sd_close {ops : List Op} (arg) (h : SD ops) : SD (.close arg :: ops) := fun sn => h sn

theorem sd_block (n : Str) {sets : List (Str × Str × Bool)} {rest : List Op} (h1 : (sets.map (·.1)).Nodup) (h2 : SD rest) :
    SD (.element n :: sets.map toSet ++ rest) := by
  intro sn
  show SetsDistinct [] (sets.map toSet ++ rest)
  exact setsDistinct_sets (by simpa using h1) (h2 _)

theorem tspan_valid : ValidName "tspan".toList := validName_of_decide (by decide)
theorem text_valid : ValidName "text".toList := validName_of_decide (by decide)

theorem reopenSets_nodup (env : Env) (n j : Nat) (s : TextStyle) : ((reopenSets env n j s).map (·.1)).Nodup := by
  have h := fontSets_names env.fmt s
  unfold reopenSets
  rw [List.map_append]
  have h2 : ((if j = 0 then [("x".toList, env.x, true), ("dy".toList, env.fmt (env.lineSize * n), true)] else [] :
      List (Str × Str × Bool)).map (·.1)).Sublist ["x".toList, "dy".toList] := by
    split
    · exact List.Sublist.refl _
    · exact List.nil_sublist _
  have h3 : (List.map (·.1) ([("xml:space".toList, "preserve".toList, true)] ++
      (if j = 0 then [("x".toList, env.x, true), ("dy".toList, env.fmt (env.lineSize * n), true)] else [])) ++
      List.map (·.1) (fontSets env.fmt s)).Sublist
      ((["xml:space".toList] ++ ["x".toList, "dy".toList]) ++ ["font-family".toList, "font-size".toList, "style".toList]) := by
    refine List.Sublist.append ?_ h
    rw [List.map_append]
    exact List.Sublist.append (List.Sublist.refl _) h2
  exact List.Sublist.nodup h3 (by decide)

theorem mem_attrNames_of {l : List Str} {n : Str} (hn : n ∈ l) (h : (l.all (fun n => attrNames.contains n)) = true) : n ∈ attrNames := by
  rw [List.all_eq_true] at h
  simpa using h n hn

theorem reopenSets_valid {env : Env} (he : EnvOk env) (n j : Nat) {s : TextStyle} (hs : StyleOk s) :
    ∀ o ∈ (reopenSets env n j s).map toSet, Valid o := by
  apply sets_valid
  · intro t ht
    unfold reopenSets at ht
    rw [List.mem_append, List.mem_append] at ht
    rcases ht with (ht | ht) | ht
    · rw [List.mem_singleton] at ht; subst ht; decide
    · split at ht
      · simp only [List.mem_cons, List.not_mem_nil, or_false] at ht
        rcases ht with rfl | rfl
        · exact mem_attrNames_of (l := ["x".toList]) (by simp) (by decide)
        · exact mem_attrNames_of (l := ["dy".toList]) (by simp) (by decide)
      · cases ht
    · exact fontSets_in _ _ _ ht
  · intro t ht
    unfold reopenSets at ht
    rw [List.mem_append, List.mem_append] at ht
    rcases ht with (ht | ht) | ht
    · rw [List.mem_singleton] at ht; subst ht; exact okStr_of_decide (by decide)
    · split at ht
      · simp only [List.mem_cons, List.not_mem_nil, or_false] at ht
        rcases ht with rfl | rfl
        · exact he.x
        · exact he.fmt _
      · cases ht
    · exact fontSets_ok he.fmt hs _ ht

theorem reopenOps_valid {env : Env} (he : EnvOk env) (n : Nat) (l : List (Nat × Option TextStyle))
    (hl : ∀ p ∈ l, ∀ s, p.2 = some s → StyleOk s) : (∀ o ∈ l.flatMap (reopenOps env n), Valid o) ∧ SD (l.flatMap (reopenOps env n)) := by
  induction l with
  | nil => exact ⟨fun o ho => (by cases ho), sd_nil⟩
  | cons p l ih =>
    obtain ⟨ih1, ih2⟩ := ih (fun q hq => hl q (List.mem_cons_of_mem _ hq))
    obtain ⟨j, s⟩ := p
    rw [List.flatMap_cons]
    cases s with
    | none => exact ⟨ih1, ih2⟩
    | some s =>
      have hs := hl (j, some s) (by simp) s rfl
      rw [reopenOps_eq]
      refine ⟨?_, sd_block _ (reopenSets_nodup env n j s) ih2⟩
      intro o ho
      rcases List.mem_append.mp ho with ho | ho
      · rcases List.mem_cons.mp ho with rfl | ho
        · exact tspan_valid
        · exact reopenSets_valid he n j hs o ho
      · exact ih1 o ho

theorem closes_valid {α : Type} (l : List α) (n : Str) {rest : List Op} (h : (∀ o ∈ rest, Valid o) ∧ SD rest) :
    (∀ o ∈ l.map (fun _ => Op.close (some n)) ++ rest, Valid o) ∧ SD (l.map (fun _ => Op.close (some n)) ++ rest) := by
  induction l with
  | nil => exact h
  | cons a l ih =>
    refine ⟨?_, sd_close _ ih.2⟩
    intro o ho
    rcases List.mem_cons.mp ho with rfl | ho
    · trivial
    · exact ih.1 o ho

theorem newlineOps_valid {env : Env} (he : EnvOk env) (n : Nat) (act : List (Option TextStyle))
    (hl : ∀ s, some s ∈ act → StyleOk s) : (∀ o ∈ newlineOps env n act, Valid o) ∧ SD (newlineOps env n act) := by
  unfold newlineOps
  apply closes_valid
  apply reopenOps_valid he
  intro p hp s hs
  unfold enumerate at hp
  obtain ⟨q, hq, rfl⟩ := List.mem_map.mp hp
  apply hl
  have := List.fst_mem_of_mem_zipIdx hq
  simp only at hs
  rw [hs, List.mem_reverse] at this
  exact this

/-- The attributes of an opened style. -/
def beginSets (env : Env) (i : Nat) (s : Option TextStyle) : List (Str × Str × Bool) :=
  (match env.id with | some id => if env.idIndex = some i then [("id".toList, id, true)] else [] | none => []) ++
  [("xml:space".toList, "preserve".toList, true)] ++
  (match s with | some s => fontSets env.fmt s | none => [])

theorem beginOps_eq (env : Env) (i : Nat) (s : Option TextStyle) :
    beginOps env i s = .element "tspan".toList :: (beginSets env i s).map toSet := by
  unfold beginOps beginSets
  simp only [List.map_append, List.cons_append, List.nil_append]
  congr 1
  congr 1
  · congr 1
    cases env.id with
    | none => rfl
    | some id => by_cases h : env.idIndex = some i <;> simp [h]
  · cases s with
    | none => rfl
    | some s => exact fontOps_eq _ _

theorem beginOps_valid {env : Env} (he : EnvOk env) (i : Nat) (s : Option TextStyle) (hs : ∀ t, s = some t → StyleOk t) :
    (∀ o ∈ beginOps env i s, Valid o) ∧ SD (beginOps env i s) := by
  rw [beginOps_eq]
  constructor
  · intro o ho
    rcases List.mem_cons.mp ho with rfl | ho
    · exact tspan_valid
    · refine sets_valid ?_ ?_ o ho
      · intro t ht
        unfold beginSets at ht
        rw [List.mem_append, List.mem_append] at ht
        rcases ht with (ht | ht) | ht
        · cases hi : env.id with
          | none => rw [hi] at ht; cases ht
          | some id =>
            rw [hi] at ht
            by_cases h : env.idIndex = some i
            · simp only [h, if_true, List.mem_singleton] at ht
              subst ht
              exact mem_attrNames_of (l := ["id".toList]) (by simp) (by decide)
            · simp [h] at ht
        · rw [List.mem_singleton] at ht; subst ht
          exact mem_attrNames_of (l := ["xml:space".toList]) (by simp) (by decide)
        · cases s with
          | none => cases ht
          | some s => exact fontSets_in _ _ _ ht
      · intro t ht
        unfold beginSets at ht
        rw [List.mem_append, List.mem_append] at ht
        rcases ht with (ht | ht) | ht
        · cases hi : env.id with
          | none => rw [hi] at ht; cases ht
          | some id =>
            rw [hi] at ht
            by_cases h : env.idIndex = some i
            · simp only [h, if_true, List.mem_singleton] at ht
              subst ht
              exact he.id id hi
            · simp [h] at ht
        · rw [List.mem_singleton] at ht; subst ht; exact okStr_of_decide (by decide)
        · cases s with
          | none => cases ht
          | some s => exact fontSets_ok he.fmt (hs s rfl) _ ht
  · have := sd_block "tspan".toList (sets := beginSets env i s) (rest := []) (by
      have : ((beginSets env i s).map (·.1)).Sublist
          ((["id".toList] ++ ["xml:space".toList]) ++ ["font-family".toList, "font-size".toList, "style".toList]) := by
        unfold beginSets
        rw [List.map_append, List.map_append]
        refine List.Sublist.append (List.Sublist.append ?_ (List.Sublist.refl _)) ?_
        · cases env.id with
          | none => exact List.nil_sublist _
          | some id =>
            by_cases h : env.idIndex = some i
            · simp only [h, if_true]; exact List.Sublist.refl _
            · simp [h]
        · cases s with
          | none => exact List.nil_sublist _
          | some s => exact fontSets_names _ _
      exact List.Sublist.nodup this (by decide)) sd_nil
    simpa using this

/-! ### the loop -/

/-- Prepend to the first line. -/
def consHead (t : Str) : List Str → List Str
  | [] => [t]
  | l :: ls => (t ++ l) :: ls

theorem consHead_lineTexts_text (t s : Str) (ts : List Tok) : consHead t (lineTexts (.text s :: ts)) = consHead (t ++ s) (lineTexts ts) := by
  simp only [lineTexts]
  cases lineTexts ts <;> simp [consHead]

theorem lineTexts_ne_nil (ts : List Tok) : lineTexts ts ≠ [] := by
  induction ts with
  | nil => simp [lineTexts]
  | cons t ts ih =>
    cases t with
    | text s => simp only [lineTexts]; split <;> simp
    | newline n => simp [lineTexts]
    | opn n => exact ih
    | close => exact ih

/-- The attributes of a line that starts with a line break. -/
def LineAttrs (env : Env) (n : Nat) (as : Attrs) : Prop :=
  ∃ rest, as = ("xml:space".toList, "preserve".toList) :: ("x".toList, env.x) :: ("dy".toList, env.fmt (env.lineSize * n)) :: rest

theorem lineAttrs_reopen (env : Env) (n : Nat) (s : TextStyle) : LineAttrs env n ((reopenSets env n 0 s).map toAttr) := by
  refine ⟨(fontSets env.fmt s).map toAttr, ?_⟩
  simp [reopenSets]

/-- The flags `good` are right for the active styles. -/
structure ActOk (env : Env) (prev : List Rat) (good : List Bool) (st : DrawSt) : Prop where
  flags : List.Forall₂ (fun g s => g = true → Option.isSome s = true) good st.active
  prio : st.prio ∈ prev
  prios : ∀ s, some s ∈ st.active → s.priority ∈ prev
  ok : ∀ s, some s ∈ st.active → StyleOk s
  last : st.active.getLast? = some (some env.style)

theorem drawLoop_ok {env : Env} (he : EnvOk env) {bot : Forest × List (Forest × Str × Attrs)} (ta : Attrs) (toks : List Tok) :
    ∀ (i : Nat) (prev : List Rat) (good : List Bool) (st : DrawSt) (a : A) (done : List (Attrs × Forest)) (la : Attrs) (t : Str),
    (∀ n, Tok.opn n ∈ toks → env.styles n = none → n.head? = some '#') →
    (∀ s, Tok.text s ∈ toks → Plain s) →
    SafeBreaks env.styles prev good toks →
    depth (st.active.length - 1) toks = some 0 →
    ActOk env prev good st → Good st.xml a → LineSt bot done la ta st.active a.up a.cur t →
    ∃ st' a' done' la' t' news, drawLoop env i st toks = .ok st' ∧ Good st'.xml a' ∧ st'.active = [some env.style] ∧
      LineSt bot done' la' ta st'.active a'.up a'.cur t' ∧
      done'.map (fun x => x.2.textOf) ++ [t'] = done.map (fun x => x.2.textOf) ++ consHead t (lineTexts toks) ∧
      done'.map (·.1) ++ [la'] = done.map (·.1) ++ la :: news ∧ List.Forall₂ (LineAttrs env) (breaks toks) news := by
  induction toks with
  | nil =>
    intro i prev good st a done la t _ _ _ hdep hact hg hline
    refine ⟨st, a, done, la, t, [], rfl, hg, ?_, hline, by simp [lineTexts, consHead], rfl, .nil⟩
    rw [depth_nil] at hdep
    injection hdep with hdep
    have hl := hact.last
    have hne := hline.ne_nil.1
    match hst : st.active with
    | [] => exact absurd hst hne
    | [s] => rw [hst] at hl; simpa using hl
    | _ :: _ :: _ => rw [hst] at hdep; simp at hdep
  | cons tok toks ih =>
    intro i prev good st a done la t hsty hplain hsafe hdep hact hg hline
    have hsty' : ∀ n, Tok.opn n ∈ toks → env.styles n = none → n.head? = some '#' := fun n hn => hsty n (List.mem_cons_of_mem _ hn)
    have hplain' : ∀ s, Tok.text s ∈ toks → Plain s := fun n hn => hplain n (List.mem_cons_of_mem _ hn)
    obtain ⟨cur, up, op⟩ := a
    cases tok with
    | text s =>
      have ha : arun { cur := cur, up := up, isOpen := op } [.text s] =
          some { cur := cur ++ Forest.text s .nil, up := up, isOpen := false } := rfl
      obtain ⟨x', hx', hg'⟩ := hg.go (by
        intro o ho; rw [List.mem_singleton] at ho; subst ho; exact hplain s (by simp)) (by trivial) ha
      obtain ⟨st', a', done', la', t', news, h1, h2, h3, h4, h5, h6, h7⟩ := ih (i + 1) prev good { st with xml := x' } _ done la (t ++ s)
        hsty' hplain' hsafe (by rw [depth_text] at hdep; exact hdep) ⟨hact.1, hact.2, hact.3, hact.4, hact.5⟩ hg' (hline.text s)
      refine ⟨st', a', done', la', t', news, ?_, h2, h3, h4, ?_, h6, h7⟩
      · simp only [drawLoop, drawTok, hx']; exact h1
      · rw [consHead_lineTexts_text]; exact h5
    | newline n =>
      have hgood : ∀ s ∈ st.active, s.isSome = true := by
        intro s hs
        have h1 := hsafe.1
        have hfl := hact.flags
        generalize st.active = act at hs hfl
        clear hdep hact hg hline hsafe
        induction hfl with
        | nil => cases hs
        | cons h _ ih2 =>
          rw [List.all_cons, Bool.and_eq_true] at h1
          rcases List.mem_cons.mp hs with rfl | hs
          · exact h h1.1
          · exact ih2 h1.2 hs
      obtain ⟨k, hk, hcl⟩ := hline.closeAll op
      obtain ⟨s, up', hre, hls⟩ := reopen_all env n (done := done ++ [(la, k)]) (ta := ta) st.active hline.ne_nil.1 hgood
      have ha : arun { cur := cur, up := up, isOpen := op } (newlineOps env n st.active) = some { cur := .nil, up := up', isOpen := true } := by
        unfold newlineOps
        rw [arun_append, hcl]; exact hre
      have hv := newlineOps_valid he n st.active hact.ok
      obtain ⟨x', hx', hg'⟩ := hg.go hv.1 (hv.2 _) ha
      obtain ⟨st', a', done', la', t', news, h1, h2, h3, h4, h5, h6, h7⟩ := ih (i + 1) prev good { st with xml := x' } _
        (done ++ [(la, k)]) _ [] hsty' hplain' hsafe.2 (by rw [depth_newline] at hdep; exact hdep)
        ⟨hact.1, hact.2, hact.3, hact.4, hact.5⟩ hg' hls
      refine ⟨st', a', done', la', t', _ :: news, ?_, h2, h3, h4, ?_, ?_, .cons (lineAttrs_reopen env n s) h7⟩
      · simp only [drawLoop, drawTok, hx']; exact h1
      · rw [h5]
        simp only [lineTexts, List.map_append, List.map_cons, List.map_nil, hk, consHead, List.append_nil, List.append_assoc,
          List.cons_append, List.nil_append]
        cases hlt : lineTexts toks with
        | nil => exact absurd hlt (lineTexts_ne_nil toks)
        | cons l ls => simp [consHead]
      · rw [h6]; simp
    | opn name =>
      have hfound : ¬ (env.styles name = none ∧ name.head? ≠ some '#') := by
        rintro ⟨h1, h2⟩; exact h2 (hsty name (by simp) h1)
      obtain ⟨s, hsd⟩ : ∃ s, pick st.prio (env.styles name) = s := ⟨_, rfl⟩
      have hsok : ∀ u, s = some u → env.styles name = some u := by
        intro u hu
        rw [← hsd] at hu
        cases hw : env.styles name with
        | none => rw [hw] at hu; cases hu
        | some w =>
          rw [hw] at hu
          simp only [pick] at hu
          split at hu
          · cases hu
          · exact hu
      have hv := beginOps_valid he i s (fun u hu => he.styles name u (hsok u hu))
      have ha := arun_element { cur := cur, up := up, isOpen := op } "tspan".toList (beginSets env i s)
      rw [← beginOps_eq] at ha
      obtain ⟨x', hx', hg'⟩ := hg.go hv.1 (hv.2 _) ha
      have hlen : st.active.length ≠ 0 := by
        have := hline.ne_nil.1
        cases h : st.active
        · exact absurd h this
        · simp
      have hls := LineSt.push s ((beginSets env i s).map toAttr) .nil hline
      have key : ∃ prev' good', SafeBreaks env.styles prev' good' toks ∧
          ActOk env prev' good' { xml := x', active := s :: st.active, prio := updPrio st.prio (some s) } := by
        simp only [SafeBreaks] at hsafe
        have hlast : (s :: st.active).getLast? = some (some env.style) := by
          rw [List.getLast?_cons, hact.last]; rfl
        cases hn : env.styles name with
        | none =>
          rw [hn] at hsafe
          have hs0 : s = none := by rw [← hsd, hn]; rfl
          refine ⟨prev, false :: good, hsafe, ⟨.cons (by simp) hact.flags, ?_, ?_, ?_, hlast⟩⟩
          · rw [hs0]; exact hact.prio
          · intro u hu
            rcases List.mem_cons.mp hu with hu | hu
            · rw [hs0] at hu; cases hu
            · exact hact.prios u hu
          · intro u hu
            rcases List.mem_cons.mp hu with hu | hu
            · rw [hs0] at hu; cases hu
            · exact hact.ok u hu
        | some w =>
          rw [hn] at hsafe
          refine ⟨w.priority :: prev, _, hsafe, ⟨.cons ?_ hact.flags, ?_, ?_, ?_, hlast⟩⟩
          · intro hall
            rw [List.all_eq_true] at hall
            have := hall _ hact.prio
            simp only [decide_eq_true_eq] at this
            rw [← hsd, hn]
            have hnot : ¬ (st.prio > w.priority) := Rat.not_lt.mpr this
            simp only [pick, if_neg hnot, Option.isSome]
          · cases hs : s with
            | none => exact List.mem_cons_of_mem _ hact.prio
            | some u =>
              have := hsok u hs
              rw [hn] at this; injection this with this
              subst this
              exact List.mem_cons_self
          · intro u hu
            rcases List.mem_cons.mp hu with hu | hu
            · have := hsok u hu.symm
              rw [hn] at this; injection this with this
              subst this
              exact List.mem_cons_self
            · exact List.mem_cons_of_mem _ (hact.prios u hu)
          · intro u hu
            rcases List.mem_cons.mp hu with hu | hu
            · exact he.styles name u (hsok u hu.symm)
            · exact hact.ok u hu
      obtain ⟨prev', good', hsafe', hact'⟩ := key
      obtain ⟨st', a', done', la', t', news, h1, h2, h3, h4, h5, h6, h7⟩ := ih (i + 1) prev' good' _ _ done la _
        hsty' hplain' hsafe' (by
          rw [depth_opn] at hdep
          rw [← hdep]
          congr 1
          simp only [List.length_cons]
          omega) hact' hg' hls
      refine ⟨st', a', done', la', t', news, ?_, h2, h3, h4, ?_, h6, h7⟩
      · have hb : drawTok env i st (.opn name) =
            .ok { xml := x', active := s :: st.active, prio := updPrio st.prio (some s) } := by
          simp only [drawTok]
          rw [if_neg hfound, hsd, hx']
        simp only [drawLoop, hb]; exact h1
      · simpa [Forest.textOf, lineTexts] using h5
    | close =>
      have hlen : ∃ s rest, st.active = s :: rest ∧ rest ≠ [] := by
        have := hline.ne_nil.1
        match h : st.active with
        | [] => exact absurd h this
        | [s] => rw [h] at hdep; simp at hdep
        | s :: r :: rs => exact ⟨s, r :: rs, rfl, by simp⟩
      obtain ⟨s, rest, hst, hne⟩ := hlen
      rw [hst] at hline
      obtain ⟨outer, as, up', hup, hline'⟩ := hline.pop hne
      simp only at hup
      subst hup
      have ha : arun { cur := cur, up := (outer, "tspan".toList, as) :: up', isOpen := op } [.close (some "tspan".toList)] =
          some { cur := outer ++ Forest.elem "tspan".toList as cur .nil, up := up', isOpen := false } := by
        simp only [arun, aexec, or_true, if_true]
      obtain ⟨x', hx', hg'⟩ := hg.go (by
        intro o ho; rw [List.mem_singleton] at ho; subst ho; trivial) (by trivial) ha
      have hfl := hact.flags
      rw [hst] at hfl
      cases hfl with
      | @cons g _ gs _ hg0 hgs =>
      obtain ⟨st', a', done', la', t', news, h1, h2, h3, h4, h5, h6, h7⟩ := ih (i + 1) prev gs
        { xml := x', active := rest, prio := updPrio st.prio rest.head? } _ done la t
        hsty' hplain' hsafe (by
          rw [hst] at hdep
          have : (s :: rest).length - 1 = (rest.length - 1) + 1 := by
            have : rest.length ≠ 0 := by simpa using hne
            simp only [List.length_cons]; omega
          rw [this, depth_close_succ] at hdep
          exact hdep) ⟨hgs, (by
            have hp := hact.prios
            rw [hst] at hp
            cases rest with
            | nil => exact absurd rfl hne
            | cons r rs =>
              cases r with
              | none => exact hact.prio
              | some w => exact hp w (by simp)),
          fun u hu => hact.prios u (by rw [hst]; exact List.mem_cons_of_mem _ hu),
          fun u hu => hact.ok u (by rw [hst]; exact List.mem_cons_of_mem _ hu), (by
            have := hact.last
            rw [hst, List.getLast?_cons_of_ne_nil hne] at this
            exact this)⟩ hg' hline'
      refine ⟨st', a', done', la', t', news, ?_, h2, h3, h4, h5, h6, h7⟩
      have hb : drawTok env i st .close =
          .ok { xml := x', active := rest, prio := updPrio st.prio rest.head? } := by
        simp only [drawTok, hx', hst]
      simp only [drawLoop, hb]; exact h1

/-! ### the opening of the text -/

/-- The attributes of the text element. -/
def textSets (env : Env) (anchor : Str) : List (Str × Str × Bool) :=
  (match env.id with | some id => if env.idIndex = none then [("id".toList, id, true)] else [] | none => []) ++
  [("x".toList, env.x, true), ("y".toList, env.y, true)] ++
  (match env.transform with | some t => [("transform".toList, t, true)] | none => []) ++
  [("text-anchor".toList, anchor, true)] ++ fontSets env.fmt env.style

/-- The attributes of the first line. -/
def lineSets (env : Env) : List (Str × Str × Bool) :=
  (match env.style.variantNumeric with
    | some v => if v ≠ [] then [("font-variant-numeric".toList, v, true)] else []
    | none => [])

theorem headOps_eq (env : Env) (anchor : Str) : headOps env anchor =
    (.element "text".toList :: (textSets env anchor).map toSet) ++ (.element "tspan".toList :: (lineSets env).map toSet) := by
  have h1 : idOps env = (match env.id with | some id => if env.idIndex = none then [("id".toList, id, true)] else [] | none => [] :
        List (Str × Str × Bool)).map toSet := by
    unfold idOps
    cases env.id with
    | none => rfl
    | some id => dsimp only; split <;> rfl
  have h2 : transformOps env =
      (match env.transform with | some t => [("transform".toList, t, true)] | none => [] : List (Str × Str × Bool)).map toSet := by
    unfold transformOps
    cases env.transform <;> rfl
  have h3 : variantOps env = (lineSets env).map toSet := by
    unfold lineSets variantOps
    cases env.style.variantNumeric with
    | none => rfl
    | some v => dsimp only; split <;> rfl
  unfold headOps textSets
  rw [h1, h2, h3, fontOps_eq]
  simp only [List.map_append, List.map_cons, List.map_nil, List.append_assoc, List.cons_append, List.nil_append]

theorem textSets_names (env : Env) (anchor : Str) : ((textSets env anchor).map (·.1)).Sublist
    ((((["id".toList] ++ ["x".toList, "y".toList]) ++ ["transform".toList]) ++ ["text-anchor".toList]) ++
      ["font-family".toList, "font-size".toList, "style".toList]) := by
  unfold textSets
  simp only [List.map_append]
  refine List.Sublist.append (List.Sublist.append (List.Sublist.append (List.Sublist.append ?_ (List.Sublist.refl _)) ?_)
    (List.Sublist.refl _)) (fontSets_names _ _)
  · cases env.id with
    | none => exact List.nil_sublist _
    | some id =>
      by_cases h : env.idIndex = none
      · simp only [h, if_true]; exact List.Sublist.refl _
      · simp [h]
  · cases env.transform with
    | none => exact List.nil_sublist _
    | some t => exact List.Sublist.refl _

theorem textSets_lookup (env : Env) (an : Str) :
    (((textSets env an).map toAttr).map (fun y => (y.1, attrText y.2))).lookup "x".toList = some (attrText env.x) ∧
    (((textSets env an).map toAttr).map (fun y => (y.1, attrText y.2))).lookup "y".toList = some (attrText env.y) := by
  unfold textSets
  simp only [List.append_assoc]
  cases env.id with
  | none => exact ⟨rfl, rfl⟩
  | some id =>
    by_cases h : env.idIndex = none
    · simp only [h, if_true]; exact ⟨rfl, rfl⟩
    · simp only [h, if_false]; exact ⟨rfl, rfl⟩

theorem lookup_none_of_names {l : List (Str × Str)} {k : Str} (h : k ∉ l.map (·.1)) : l.lookup k = none := by
  induction l with
  | nil => rfl
  | cons p l ih =>
    simp only [List.map_cons, List.mem_cons, not_or] at h
    rw [List.lookup_cons, ih h.2, beq_eq_false_iff_ne.mpr h.1]

theorem textSets_lookup2 (env : Env) (an : Str) :
    (((textSets env an).map toAttr).map (fun y => (y.1, attrText y.2))).lookup "transform".toList = env.transform.map attrText ∧
    (((textSets env an).map toAttr).map (fun y => (y.1, attrText y.2))).lookup "text-anchor".toList = some (attrText an) := by
  have hf : (((fontSets env.fmt env.style).map toAttr).map (fun y => (y.1, attrText y.2))).lookup "transform".toList = none := by
    apply lookup_none_of_names
    have h := fontSets_names env.fmt env.style
    simp only [List.map_map, Function.comp_def, toAttr]
    intro hm
    have := h.subset hm
    revert this; decide
  unfold textSets
  simp only [List.append_assoc]
  have tail : ∀ pre, (∀ x ∈ pre, x.1 ≠ "transform".toList) → (∀ x ∈ pre, x.1 ≠ "text-anchor".toList) → ∀ (r : List (Str × Str × Bool)),
      (((pre ++ r).map toAttr).map (fun y => (y.1, attrText y.2))).lookup "transform".toList =
        ((r.map toAttr).map (fun y => (y.1, attrText y.2))).lookup "transform".toList ∧
      (((pre ++ r).map toAttr).map (fun y => (y.1, attrText y.2))).lookup "text-anchor".toList =
        ((r.map toAttr).map (fun y => (y.1, attrText y.2))).lookup "text-anchor".toList := by
    intro pre h1 h2 r
    induction pre with
    | nil => exact ⟨rfl, rfl⟩
    | cons p pre ih =>
      have ih := ih (fun x hx => h1 x (List.mem_cons_of_mem _ hx)) (fun x hx => h2 x (List.mem_cons_of_mem _ hx))
      have a1 : ("transform".toList == p.1) = false := beq_eq_false_iff_ne.mpr (h1 p (by simp)).symm
      have a2 : ("text-anchor".toList == p.1) = false := beq_eq_false_iff_ne.mpr (h2 p (by simp)).symm
      simp only [List.cons_append, List.map_cons, List.lookup_cons, toAttr, a1, a2]
      exact ih
  have hid : ∀ x ∈ (match env.id with | some id => if env.idIndex = none then [("id".toList, id, true)] else [] | none => [] : List (Str × Str × Bool)),
      x.1 = "id".toList := by
    intro x hx
    cases hi : env.id with
    | none => rw [hi] at hx; cases hx
    | some id =>
      rw [hi] at hx
      by_cases h : env.idIndex = none
      · simp only [h, if_true, List.mem_singleton] at hx; rw [hx]
      · simp only [h, if_false, List.not_mem_nil] at hx
  have k1 := tail _ (fun x hx => by rw [hid x hx]; decide) (fun x hx => by rw [hid x hx]; decide)
    ([("x".toList, env.x, true), ("y".toList, env.y, true)] ++
      ((match env.transform with | some t => [("transform".toList, t, true)] | none => []) ++
        ([("text-anchor".toList, an, true)] ++ fontSets env.fmt env.style)))
  rw [k1.1, k1.2]
  cases env.transform with
  | none => exact ⟨hf, rfl⟩
  | some t => exact ⟨rfl, rfl⟩

theorem forall₂_of_map {α β γ : Type} {R : α → γ → Prop} {f : β → γ} {l : List α} {m : List β} (h : List.Forall₂ R l (m.map f)) :
    List.Forall₂ (fun a b => R a (f b)) l m := by
  induction m generalizing l with
  | nil => cases h; exact .nil
  | cons b m ih => cases h with | cons h1 h2 => exact .cons h1 (ih h2)

theorem forall₂_length {α β : Type} {R : α → β → Prop} {l : List α} {m : List β} (h : List.Forall₂ R l m) : l.length = m.length := by
  induction h with
  | nil => rfl
  | cons _ _ ih => simp [ih]

theorem forall₂_imp {α β : Type} {R S : α → β → Prop} {l : List α} {m : List β} (h : ∀ a b, R a b → S a b) (h2 : List.Forall₂ R l m) :
    List.Forall₂ S l m := by
  induction h2 with
  | nil => exact .nil
  | cons h1 _ ih => exact .cons (h _ _ h1) ih

theorem forall₂_to_map {α β γ : Type} {R : α → γ → Prop} {f : β → γ} {l : List α} {m : List β}
    (h : List.Forall₂ (fun a b => R a (f b)) l m) : List.Forall₂ R l (m.map f) := by
  induction h with
  | nil => exact .nil
  | cons h1 _ ih => exact .cons h1 ih

theorem textSets_ok {env : Env} (he : EnvOk env) {anchor : Str} (ha : OkStr anchor) : ∀ s ∈ textSets env anchor, OkStr s.2.1 := by
  intro s hs
  unfold textSets at hs
  simp only [List.mem_append] at hs
  rcases hs with (((hs | hs) | hs) | hs) | hs
  · cases hi : env.id with
    | none => rw [hi] at hs; cases hs
    | some id =>
      rw [hi] at hs
      by_cases h : env.idIndex = none
      · simp only [h, if_true, List.mem_singleton] at hs
        subst hs; exact he.id id hi
      · simp [h] at hs
  · simp only [List.mem_cons, List.not_mem_nil, or_false] at hs
    rcases hs with rfl | rfl
    · exact he.x
    · exact he.y
  · cases ht : env.transform with
    | none => rw [ht] at hs; cases hs
    | some t =>
      rw [ht] at hs
      simp only [List.mem_singleton] at hs
      subst hs; exact he.transform t ht
  · simp only [List.mem_singleton] at hs
    subst hs; exact ha
  · exact fontSets_ok he.fmt he.style s hs

theorem headOps_valid {env : Env} (he : EnvOk env) {anchor : Str} (ha : OkStr anchor) :
    (∀ o ∈ headOps env anchor, Valid o) ∧ SD (headOps env anchor) := by
  rw [headOps_eq]
  have hls : (lineSets env).map (·.1) = [] ∨ (lineSets env).map (·.1) = ["font-variant-numeric".toList] := by
    unfold lineSets
    cases env.style.variantNumeric with
    | none => exact .inl rfl
    | some v => by_cases h : v = [] <;> simp [h]
  refine ⟨?_, sd_block _ ((textSets_names env anchor).nodup (by decide)) ?_⟩
  · intro o ho
    rcases List.mem_append.mp ho with ho | ho
    · rcases List.mem_cons.mp ho with rfl | ho
      · exact text_valid
      · refine sets_valid ?_ (textSets_ok he ha) o ho
        intro t ht
        exact mem_attrNames_of ((textSets_names env anchor).subset (List.mem_map_of_mem ht)) (by decide)
    · rcases List.mem_cons.mp ho with rfl | ho
      · exact tspan_valid
      · refine sets_valid ?_ ?_ o ho
        · intro t ht
          have : t.1 ∈ (lineSets env).map (·.1) := List.mem_map_of_mem ht
          rcases hls with h | h
          · rw [h] at this; cases this
          · rw [h] at this
            exact mem_attrNames_of this (by decide)
        · intro t ht
          unfold lineSets at ht
          cases hv : env.style.variantNumeric with
          | none => rw [hv] at ht; cases ht
          | some v =>
            rw [hv] at ht
            by_cases h : v = []
            · simp [h] at ht
            · simp only [ne_eq, h, not_false_eq_true, if_true, List.mem_singleton] at ht
              subst ht
              exact he.style.variant v hv
  · have := sd_block "tspan".toList (sets := lineSets env) (rest := []) (by rcases hls with h | h <;> simp [h]) sd_nil
    simpa using this

/-! ### line breaks inside styles that are not applied -/

/-- `d` lines and styles are open in the output. -/
def StackIs (x : Xml) (d : Nat) : Prop := x.stack = List.replicate d "tspan".toList ++ ["text".toList]

theorem run_sets_stack (sets : List (Str × Str × Bool)) {x x' : Xml} (h : run x (sets.map toSet) = .ok x') : x'.stack = x.stack := by
  induction sets generalizing x with
  | nil => injection h with h; subst h; rfl
  | cons s sets ih =>
    simp only [List.map_cons, run, exec] at h
    split at h
    · cases h
    · rename_i e he
      split at he
      · cases he
      · injection he with he
        rw [ih h, ← he]

theorem run_block_stack (n : Str) (sets : List (Str × Str × Bool)) {x x' : Xml} (h : run x (.element n :: sets.map toSet) = .ok x') :
    x'.stack = n :: x.stack := by
  simp only [run, exec] at h
  rw [run_sets_stack sets h, closeTag_stack]

theorem run_close_stack {x x' : Xml} {d : Nat} (hx : StackIs x d) (h : run x [.close (some "tspan".toList)] = .ok x') :
    ∃ d', d = d' + 1 ∧ StackIs x' d' := by
  cases d with
  | zero =>
    simp only [run, exec] at h
    rw [hx] at h
    simp only [List.replicate_zero, List.nil_append] at h
    rw [if_pos (by decide)] at h
    cases h
  | succ d =>
    refine ⟨d, rfl, ?_⟩
    simp only [run, exec] at h
    rw [hx] at h
    simp only [List.replicate_succ, List.cons_append] at h
    rw [if_neg (by simp)] at h
    split at h
    · cases h
    · rename_i y hy
      injection h with h
      split at hy
      · injection hy with hy; rw [← h, ← hy]; rfl
      · injection hy with hy; rw [← h, ← hy]; rfl

theorem run_closes_stack {α : Type} (l : List α) {rest : List Op} {x x' : Xml} {d : Nat} (hx : StackIs x d)
    (h : run x (l.map (fun _ => Op.close (some "tspan".toList)) ++ rest) = .ok x') :
    ∃ d' y, d = d' + l.length ∧ StackIs y d' ∧ run y rest = .ok x' := by
  induction l generalizing x d with
  | nil => exact ⟨d, x, rfl, hx, h⟩
  | cons a l ih =>
    have e : List.map (fun _ => Op.close (some "tspan".toList)) (a :: l) ++ rest =
      [Op.close (some "tspan".toList)] ++ (l.map (fun _ => Op.close (some "tspan".toList)) ++ rest) := rfl
    rw [e, run_append] at h
    split at h
    · cases h
    · rename_i y hy
      obtain ⟨d', rfl, hd'⟩ := run_close_stack hx hy
      obtain ⟨d2, z, h2, h3, h4⟩ := ih hd' h
      exact ⟨d2, z, by rw [h2, List.length_cons]; omega, h3, h4⟩

theorem run_reopen_stack (env : Env) (n : Nat) (l : List (Nat × Option TextStyle)) {x x' : Xml} {d : Nat} (hx : StackIs x d)
    (h : run x (l.flatMap (reopenOps env n)) = .ok x') : StackIs x' (d + (l.filter (fun p => p.2.isSome)).length) := by
  induction l generalizing x d with
  | nil => injection h with h; subst h; exact hx
  | cons p l ih =>
    obtain ⟨j, s⟩ := p
    rw [List.flatMap_cons] at h
    cases s with
    | none =>
      rw [List.filter_cons_of_neg (by simp)]
      exact ih hx h
    | some s =>
      rw [List.filter_cons_of_pos (by simp), List.length_cons, reopenOps_eq, run_append] at *
      split at h
      · cases h
      · rename_i y hy
        have hy' : StackIs y (d + 1) := by
          unfold StackIs
          rw [run_block_stack _ _ hy, hx]; rfl
        have := ih hy' h
        rwa [show d + 1 + (l.filter (fun p => p.2.isSome)).length = d + ((l.filter (fun p => p.2.isSome)).length + 1) by omega] at this

theorem enumerate_filter (act : List (Option TextStyle)) :
    ((enumerate act.reverse).filter (fun p => p.2.isSome)).length = (act.filter Option.isSome).length := by
  unfold enumerate
  have key : ∀ (l : List (Option TextStyle)) (k : Nat),
      (((l.zipIdx k).map (fun p => (p.2, p.1))).filter (fun p => p.2.isSome)).length = (l.filter Option.isSome).length := by
    intro l
    induction l with
    | nil => intro k; rfl
    | cons a l ih =>
      intro k
      rw [List.zipIdx_cons, List.map_cons, List.filter_cons, List.filter_cons]
      cases a <;> simp [ih]
  rw [key, List.filter_reverse, List.length_reverse]

/-- One token keeps the bound on what is open. -/
theorem drawTok_stack {env : Env} {i : Nat} {st st' : DrawSt} {tok : Tok} (h : drawTok env i st tok = .ok st') {d : Nat}
    (hx : StackIs st.xml d) (hd : d ≤ st.active.length) :
    ∃ d', StackIs st'.xml d' ∧ d' ≤ st'.active.length ∧ (d < st.active.length → d' < st'.active.length) ∧
      (∀ n, tok = .newline n → none ∈ st.active → d' < st'.active.length) ∧
      st'.active = (match tok with
        | .opn n => pick st.prio (env.styles n) :: st.active
        | .close => st.active.tail
        | _ => st.active) := by
  cases tok with
  | text t =>
    simp only [drawTok, run, exec] at h
    injection h with h; subst h
    refine ⟨d, ?_, hd, id, (by intro n h; cases h), rfl⟩
    exact (closeTag_stack _).trans hx
  | newline n =>
    simp only [drawTok] at h
    split at h
    · cases h
    · rename_i x hr
      injection h with h; subst h
      unfold newlineOps at hr
      obtain ⟨d', y, h1, h2, h3⟩ := run_closes_stack st.active hx hr
      have h4 := run_reopen_stack env n _ h2 h3
      rw [enumerate_filter] at h4
      have hle := List.length_filter_le Option.isSome st.active
      refine ⟨_, h4, ?_, ?_, ?_, rfl⟩
      · show d' + (st.active.filter Option.isSome).length ≤ st.active.length
        omega
      · intro hlt; omega
      · intro m _ hnone
        show d' + (st.active.filter Option.isSome).length < st.active.length
        have : (st.active.filter Option.isSome).length < st.active.length := by
          rcases Nat.lt_or_ge (st.active.filter Option.isSome).length st.active.length with h | h
          · exact h
          · have := List.length_filter_eq_length_iff.mp (Nat.le_antisymm hle h) none hnone
            cases this
        omega
  | opn name =>
    simp only [drawTok] at h
    split at h
    · cases h
    · split at h
      · cases h
      · rename_i x hr
        injection h with h; subst h
        rw [beginOps_eq] at hr
        refine ⟨d + 1, ?_, ?_, ?_, (by intro n h; cases h), rfl⟩
        · unfold StackIs
          rw [run_block_stack _ _ hr, hx]; rfl
        · simpa using hd
        · intro h; simpa using h
  | close =>
    simp only [drawTok] at h
    split at h
    · cases h
    · rename_i x hr
      obtain ⟨d', rfl, hd'⟩ := run_close_stack hx hr
      cases hact : st.active with
      | nil => rw [hact] at h; cases h
      | cons a rest =>
        rw [hact] at h hd
        simp only at h
        injection h with h; subst h
        refine ⟨d', hd', ?_, ?_, (by intro n h; cases h), rfl⟩
        · simp only [List.length_cons] at hd ⊢; omega
        · intro h; simp only [List.length_cons] at h ⊢; omega

theorem drawLoop_append (env : Env) (i : Nat) (st : DrawSt) (a b : List Tok) :
    drawLoop env i st (a ++ b) = match drawLoop env i st a with | .error e => .error e | .ok st => drawLoop env (i + a.length) st b := by
  induction a generalizing i st with
  | nil => rfl
  | cons t a ih =>
    simp only [List.cons_append, drawLoop]
    split
    · rfl
    · rw [ih, List.length_cons, show i + 1 + a.length = i + (a.length + 1) by omega]

theorem drawLoop_stack {env : Env} {toks : List Tok} {i : Nat} {st st' : DrawSt} (h : drawLoop env i st toks = .ok st') {d : Nat}
    (hx : StackIs st.xml d) (hd : d ≤ st.active.length) :
    ∃ d', StackIs st'.xml d' ∧ d' ≤ st'.active.length ∧ (d < st.active.length → d' < st'.active.length) := by
  induction toks generalizing i st d with
  | nil => injection h with h; subst h; exact ⟨d, hx, hd, id⟩
  | cons t toks ih =>
    simp only [drawLoop] at h
    split at h
    · cases h
    · rename_i st1 h1
      obtain ⟨d1, a1, a2, a3, _, _⟩ := drawTok_stack h1 hx hd
      obtain ⟨d2, b1, b2, b3⟩ := ih h a1 a2
      exact ⟨d2, b1, b2, fun h => b3 (a3 h)⟩

/-- Names that are not in the table stay unapplied. -/
theorem drawLoop_names {env : Env} {toks : List Tok} {i : Nat} {st st' : DrawSt} (h : drawLoop env i st toks = .ok st') {names : List Str}
    {d : Nat} (hx : StackIs st.xml d) (hd : d ≤ st.active.length)
    (hn : List.Forall₂ (fun n s => env.styles n = none → s = none) names st.active.dropLast) (hne : st.active ≠ [])
    (hdep : (depth names.length toks).isSome) :
    List.Forall₂ (fun n s => env.styles n = none → s = none) (openNames names toks) st'.active.dropLast ∧
      st'.active.length = (openNames names toks).length + 1 ∧ st'.active.getLast? = st.active.getLast? := by
  induction toks generalizing i st d names with
  | nil =>
    injection h with h; subst h
    refine ⟨hn, ?_, rfl⟩
    have := forall₂_length hn
    rw [List.length_dropLast] at this
    have : st.active.length ≠ 0 := by simpa using hne
    show _ = names.length + 1
    omega
  | cons t toks ih =>
    simp only [drawLoop] at h
    split at h
    · cases h
    · rename_i st1 h1
      obtain ⟨d1, a1, a2, _, _, hact⟩ := drawTok_stack h1 hx hd
      cases t with
      | text s => have hact' : st.active = st1.active := hact.symm; rw [hact'] at hn hne ⊢; exact ih h a1 a2 hn hne (by rw [depth_text] at hdep; exact hdep)
      | newline s => have hact' : st.active = st1.active := hact.symm; rw [hact'] at hn hne ⊢; exact ih h a1 a2 hn hne (by rw [depth_newline] at hdep; exact hdep)
      | opn s =>
        have hl : st1.active.getLast? = st.active.getLast? := by rw [hact]; exact List.getLast?_cons_of_ne_nil hne
        rw [← hl]
        refine ih (names := s :: names) h a1 a2 ?_ (by rw [hact]; simp) (by rw [depth_opn] at hdep; exact hdep)
        rw [hact]
        simp only
        rw [List.dropLast_cons_of_ne_nil hne]
        refine .cons ?_ hn
        intro hs; rw [hs]; rfl
      | close =>
        cases names with
        | nil => simp at hdep
        | cons n names =>
          simp only at hact
          cases hst : st.active with
          | nil => exact absurd hst hne
          | cons s rest =>
            rw [hst] at hn hact
            simp only [List.tail_cons] at hact
            by_cases hr : rest = []
            · subst hr; cases hn
            · rw [List.dropLast_cons_of_ne_nil hr] at hn
              cases hn with
              | cons _ hn =>
                rw [List.getLast?_cons_of_ne_nil hr, ← hact]
                exact ih (names := names) h a1 a2 (by rw [hact]; exact hn) (by rw [hact]; exact hr) (by simpa using hdep)

end Verif.Xml
