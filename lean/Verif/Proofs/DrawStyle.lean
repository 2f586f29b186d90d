import Verif.Proofs.DrawText

/-! Helper lemmas for the styles of drawn text. -/

namespace Verif.Xml
open Spec Verif.Text Verif.Text.Spec Verif.Style

theorem fontSets_attrs (fmt : Rat → Str) (s : TextStyle) : (fontSets fmt s).map toAttr = styleAttrs fmt s := by
  have h : styleStr fmt s = (s.color.toList.flatMap (fun c => "fill:".toList ++ c ++ ";".toList)) ++
    (s.opacity.toList.flatMap (fun o => "fill-opacity:".toList ++ fmt o ++ ";".toList)) ++
    (if s.bold = some true then "font-weight: bold;".toList else []) ++
    (if s.italic = some true then "font-style: italic;".toList else []) := by
    unfold styleStr
    congr 3
    · cases s.color
      · rfl
      · simp only [Option.toList, List.flatMap_cons, List.flatMap_nil, List.append_nil]
    · cases s.opacity
      · rfl
      · simp only [Option.toList, List.flatMap_cons, List.flatMap_nil, List.append_nil]
  unfold fontSets styleAttrs
  rw [h]
  generalize (s.color.toList.flatMap (fun c => "fill:".toList ++ c ++ ";".toList)) ++
    (s.opacity.toList.flatMap (fun o => "fill-opacity:".toList ++ fmt o ++ ";".toList)) ++
    (if s.bold = some true then "font-weight: bold;".toList else []) ++
    (if s.italic = some true then "font-style: italic;".toList else []) = w
  simp only [List.map_append, List.map_map]
  congr 1
  by_cases hw : w = []
  · rw [if_pos hw, if_pos hw]; rfl
  · rw [if_neg hw, if_neg hw]; rfl

theorem fontOnly_append (a b : Attrs) : fontOnly (a ++ b) = fontOnly a ++ fontOnly b := List.filter_append _ _

theorem fontOnly_style (fmt : Rat → Str) (s : TextStyle) : fontOnly (styleAttrs fmt s) = styleAttrs fmt s := by
  unfold fontOnly
  rw [List.filter_eq_self]
  intro a ha
  rw [← fontSets_attrs] at ha
  obtain ⟨t, ht, rfl⟩ := List.mem_map.mp ha
  have := (fontSets_names fmt s).subset (List.mem_map_of_mem (f := (·.1)) ht)
  show fontNames.contains t.1 = true
  rw [List.contains_iff_mem]
  exact this

theorem fontOnly_reopen (env : Env) (n j : Nat) (s : TextStyle) : fontOnly ((reopenSets env n j s).map toAttr) = styleAttrs env.fmt s := by
  unfold reopenSets
  rw [List.map_append, fontOnly_append, fontSets_attrs, fontOnly_style, List.map_append, fontOnly_append]
  have h1 : fontOnly (List.map toAttr [("xml:space".toList, "preserve".toList, true)]) = [] := by decide
  have h2 : fontOnly (List.map toAttr (if j = 0 then [("x".toList, env.x, true), ("dy".toList, env.fmt (env.lineSize * n), true)] else [])) = [] := by
    split
    · rfl
    · rfl
  rw [h1, h2]; rfl

theorem fontOnly_begin (env : Env) (i : Nat) (s : Option TextStyle) : fontOnly ((beginSets env i s).map toAttr) = optAttrs env.fmt s := by
  unfold beginSets
  rw [List.map_append, fontOnly_append, List.map_append, fontOnly_append]
  have h1 : fontOnly (List.map toAttr [("xml:space".toList, "preserve".toList, true)]) = [] := by decide
  rw [h1]
  have h3 : ∀ l m k : Attrs, l = [] → m = k → l ++ [] ++ m = k := by
    intro l m k hl hm; rw [hl, hm]; rfl
  apply h3
  · cases env.id with
    | none => rfl
    | some id => dsimp only; split <;> rfl
  · cases s with
    | none => rfl
    | some s => exact (congrArg fontOnly (fontSets_attrs env.fmt s)).trans (fontOnly_style env.fmt s)

theorem fontOnly_line (env : Env) : fontOnly ((lineSets env).map toAttr) = [] := by
  unfold lineSets
  cases env.style.variantNumeric with
  | none => rfl
  | some v => dsimp only; split <;> rfl

theorem fontOnly_text (env : Env) (an : Str) : fontOnly ((textSets env an).map toAttr) = styleAttrs env.fmt env.style := by
  unfold textSets
  simp only [List.map_append, fontOnly_append]
  have h3 : ∀ a b c d m k : Attrs, a = [] → b = [] → c = [] → d = [] → m = k → a ++ b ++ c ++ d ++ m = k := by
    intro a b c d m k ha hb hc hd hm; rw [ha, hb, hc, hd, hm]; rfl
  apply h3
  · cases env.id with
    | none => rfl
    | some id => dsimp only; split <;> rfl
  · rfl
  · cases env.transform <;> rfl
  · rfl
  · exact (congrArg fontOnly (fontSets_attrs env.fmt env.style)).trans (fontOnly_style env.fmt env.style)

/-! ### characters of forests -/

theorem chars_append (ab : List Attrs) : ∀ f g : Forest, (f ++ g).chars ab = f.chars ab ++ g.chars ab
  | .nil, g => rfl
  | .text s r, g => by
    show s.map _ ++ (r ++ g).chars ab = _
    rw [chars_append ab r g]; simp [Forest.chars]
  | .elem n a k r, g => by
    show k.chars _ ++ (r ++ g).chars ab = _
    rw [chars_append ab r g]; simp [Forest.chars]

theorem chars_textNode (ab : List Attrs) (p : Str) : (textNode p).chars ab = p.map (fun c => (c, ab)) := by
  cases p <;> simp [textNode, Forest.chars]

theorem fontOnly_attrText (as : Attrs) : fontOnly (as.map (fun a => (a.1, attrText a.2))) = (fontOnly as).map (fun a => (a.1, attrText a.2)) := by
  unfold fontOnly
  rw [List.filter_map]
  rfl

theorem asRead_append (a b) : asRead (a ++ b) = asRead a ++ asRead b := List.map_append

theorem chars_norm (p : Str) (ab : List Attrs) (f : Forest) :
    (norm p f).chars (ab.map (fun as => as.map (fun a => (a.1, attrText a.2)))) =
      p.map (fun c => (c, ab.map (fun as => as.map (fun a => (a.1, attrText a.2))))) ++ asRead (f.chars ab) := by
  induction f generalizing p ab with
  | nil => simp [norm, chars_textNode, Forest.chars, asRead]
  | text s r ih =>
    simp only [norm, ih, Forest.chars, asRead_append, List.map_append, List.append_assoc]
    congr 2
    simp [asRead, nbsp]
  | elem n a k r ih1 ih2 =>
    simp only [norm, chars_append, chars_textNode, Forest.chars, asRead_append]
    have h1 := ih1 [] (fontOnly a :: ab)
    rw [List.map_cons, ← fontOnly_attrText] at h1
    rw [h1, ih2 [] ab]
    simp

/-! ### the state of the loop with styles -/

/-- Like `LineSt`, with what is around every character; `ab` is what is around the current position. -/
inductive LineSty (fmt : Rat → Str) (done : List (Attrs × Forest)) (la ta : Attrs) :
    List (Option TextStyle) → List Attrs → List (Forest × Str × Attrs) → Forest → List (Char × List Attrs) → Prop where
  | base (s cur) : LineSty fmt done la ta [s] [fontOnly la] [(linesForest done, "tspan".toList, la), (.nil, "text".toList, ta)] cur
      (cur.chars [fontOnly la])
  | push {act ab up outer t} (s) (as : Attrs) (cur : Forest) : LineSty fmt done la ta act ab up outer t → fontOnly as = optAttrs fmt s →
      LineSty fmt done la ta (s :: act) (fontOnly as :: ab) ((outer, "tspan".toList, as) :: up) cur (t ++ cur.chars (fontOnly as :: ab))

theorem LineSty.around {fmt done la ta act ab up cur t} (h : LineSty fmt done la ta act ab up cur t) :
    ab = act.dropLast.map (optAttrs fmt) ++ [fontOnly la] := by
  induction h with
  | base => rfl
  | push s as cur h hf ih =>
    have hne : ∀ {act ab up cur t}, LineSty fmt done la ta act ab up cur t → act ≠ [] := by
      intro _ _ _ _ _ h; cases h <;> simp
    rw [List.dropLast_cons_of_ne_nil (hne h), List.map_cons, hf, ih]; rfl

theorem LineSty.text {fmt done la ta act ab up cur t} (h : LineSty fmt done la ta act ab up cur t) (s : Str) :
    LineSty fmt done la ta act ab up (cur ++ Forest.text s .nil) (t ++ s.map (fun c => (c, ab))) := by
  have e : ∀ ab, (cur ++ Forest.text s .nil).chars ab = cur.chars ab ++ s.map (fun c => (c, ab)) := by
    intro ab; rw [chars_append]; simp [Forest.chars]
  cases h with
  | base s' cur => rw [← e]; exact .base _ _
  | push s' as cur h hf => rw [List.append_assoc, ← e]; exact .push _ _ _ h hf

theorem LineSty.ne_nil {fmt done la ta act ab up cur t} (h : LineSty fmt done la ta act ab up cur t) : act ≠ [] ∧ up ≠ [] := by
  cases h <;> simp

theorem LineSty.pop {fmt done la ta act} {s : Option TextStyle} {ab up cur t} (h : LineSty fmt done la ta (s :: act) ab up cur t) (hne : act ≠ []) :
    ∃ outer as up' ab', up = (outer, "tspan".toList, as) :: up' ∧
      LineSty fmt done la ta act ab' up' (outer ++ Forest.elem "tspan".toList as cur .nil) t := by
  cases h with
  | base => exact absurd rfl hne
  | @push _ ab' up' outer t' _ as _ h hf =>
    refine ⟨outer, as, up', ab', rfl, ?_⟩
    have e : ∀ ab, (outer ++ Forest.elem "tspan".toList as cur .nil).chars ab = outer.chars ab ++ cur.chars (fontOnly as :: ab) := by
      intro ab; rw [chars_append]; simp [Forest.chars]
    cases h with
    | base s' o => rw [← e]; exact .base _ _
    | push s' as' o h hf' => rw [List.append_assoc, ← e]; exact .push _ _ _ h hf'

theorem LineSty.closeAll {fmt done la ta act ab up cur t} (h : LineSty fmt done la ta act ab up cur t) (b : Bool) :
    ∃ k, k.chars [fontOnly la] = t ∧ arun { cur := cur, up := up, isOpen := b } (act.map (fun _ => Op.close (some "tspan".toList))) =
      some { cur := linesForest (done ++ [(la, k)]), up := [(.nil, "text".toList, ta)], isOpen := false } := by
  induction act generalizing up cur b ab with
  | nil => exact absurd rfl h.ne_nil.1
  | cons s act ih =>
    by_cases hne : act = []
    · subst hne
      cases h with
      | base =>
        refine ⟨cur, rfl, ?_⟩
        simp only [List.map_cons, List.map_nil, arun, aexec, or_true, if_true, linesForest_snoc]
      | push _ _ _ h => exact absurd rfl h.ne_nil.1
    · obtain ⟨outer, as, up', ab', rfl, h'⟩ := h.pop hne
      obtain ⟨k, hk, ha⟩ := ih h' false
      refine ⟨k, hk, ?_⟩
      simp only [List.map_cons, arun, aexec, or_true, if_true]
      exact ha

theorem reopen_rest_sty (env : Env) (n : Nat) {done la ta} : ∀ (l : List (Nat × Option TextStyle)), (∀ p ∈ l, p.1 ≠ 0 ∧ p.2.isSome) →
    ∀ {act ab up}, LineSty env.fmt done la ta act ab up .nil [] →
    ∃ up' ab', arun { cur := .nil, up := up, isOpen := true } (l.flatMap (reopenOps env n)) = some { cur := .nil, up := up', isOpen := true } ∧
      LineSty env.fmt done la ta ((l.map (·.2)).reverse ++ act) ab' up' .nil [] := by
  intro l
  induction l with
  | nil => intro _ act ab up h; exact ⟨up, ab, rfl, h⟩
  | cons p l ih =>
    intro hl act ab up h
    obtain ⟨j, s⟩ := p
    obtain ⟨s, rfl⟩ := Option.isSome_iff_exists.mp (hl (j, s) (by simp)).2
    rw [List.flatMap_cons, reopenOps_eq, arun_append, arun_element, Option.bind_some]
    have h2 := LineSty.push (some s) ((reopenSets env n j s).map toAttr) .nil h (fontOnly_reopen env n j s)
    obtain ⟨up', ab', h3, h4⟩ := ih (fun q hq => hl q (List.mem_cons_of_mem _ hq)) h2
    exact ⟨up', ab', h3, by simpa using h4⟩

theorem reopen_all_sty (env : Env) (n : Nat) {done : List (Attrs × Forest)} {ta : Attrs} (act : List (Option TextStyle)) (hne : act ≠ [])
    (hact : ∀ s ∈ act, s.isSome = true) :
    ∃ s la up' ab', act.getLast? = some (some s) ∧ fontOnly la = styleAttrs env.fmt s ∧
      arun { cur := linesForest done, up := [(.nil, "text".toList, ta)], isOpen := false }
        ((enumerate act.reverse).flatMap (reopenOps env n)) = some { cur := .nil, up := up', isOpen := true } ∧
      LineSty env.fmt done la ta act ab' up' .nil [] := by
  cases hr : act.reverse with
  | nil => exact absurd (List.reverse_eq_nil_iff.mp hr) hne
  | cons o rest =>
    have hmem : ∀ q ∈ o :: rest, q.isSome = true := by
      intro q hq; apply hact; rw [← List.mem_reverse, hr]; exact hq
    obtain ⟨s, rfl⟩ := Option.isSome_iff_exists.mp (hmem o (by simp))
    refine ⟨s, (reopenSets env n 0 s).map toAttr, ?_⟩
    unfold enumerate
    rw [List.zipIdx_cons, List.map_cons, List.flatMap_cons, reopenOps_eq, arun_append, arun_element, Option.bind_some]
    have h0 := LineSty.base (fmt := env.fmt) (done := done) (la := (reopenSets env n 0 s).map toAttr) (ta := ta) (some s) .nil
    obtain ⟨up', ab', h1, h2⟩ := reopen_rest_sty env n (done := done) (la := (reopenSets env n 0 s).map toAttr) (ta := ta)
      ((rest.zipIdx (0 + 1)).map (fun p => (p.2, p.1))) (by
        intro p hp
        obtain ⟨q, hq, rfl⟩ := List.mem_map.mp hp
        have h3 := List.mem_zipIdx hq
        refine ⟨by simp only; omega, ?_⟩
        exact hmem _ (List.mem_cons_of_mem _ (by
          have := List.fst_mem_of_mem_zipIdx hq
          exact this))) (act := [some s]) h0
    refine ⟨up', ab', ?_, fontOnly_reopen env n 0 s, h1, ?_⟩
    · rw [← List.head?_reverse, hr]; rfl
    have e : ((List.map (fun p => (p.2, p.1)) (rest.zipIdx (0 + 1))).map (·.2)).reverse ++ [some s] = act := by
      rw [List.map_map]
      have : (List.map ((fun x => x.2) ∘ fun p => (p.2, p.1)) (rest.zipIdx (0 + 1)) : List (Option TextStyle)) = rest := by
        have := List.zipIdx_map_fst (0 + 1) rest
        simpa [Function.comp_def] using this
      rw [this, ← List.reverse_cons, ← hr, List.reverse_reverse]
    rw [e] at h2
    exact h2

/-! ### the priority -/

/-- Styles opened inside a style that is not applied have the priority in force. -/
def CalmSt : List (Option TextStyle) → Prop
  | [] => True
  | s :: rest => (∀ u t, s = some u → rest.head? = some none → innermost rest = some t → u.priority = t.priority) ∧ CalmSt rest

theorem innermost_isSome {l : List (Option TextStyle)} {s : TextStyle} (h : l.getLast? = some (some s)) : ∃ t, innermost l = some t := by
  induction l with
  | nil => cases h
  | cons a l ih =>
    cases a with
    | some t => exact ⟨t, rfl⟩
    | none =>
      by_cases hl : l = []
      · subst hl; cases h
      · rw [List.getLast?_cons_of_ne_nil hl] at h
        exact ih h

theorem pick_applied {st : List (Option TextStyle)} {prio : Rat} {t : TextStyle} (h : innermost st = some t) (hp : prio = t.priority)
    (o : Option TextStyle) : pick prio o = o.bind (applied st) := by
  cases o with
  | none => rfl
  | some s =>
    simp only [pick, Option.bind_some, applied, h, hp]
    by_cases hle : t.priority ≤ s.priority
    · rw [if_neg (Rat.not_lt.mpr hle), if_pos hle]
    · rw [if_pos (Rat.not_le.mp hle), if_neg hle]

theorem linesChars_append (a b : List (Attrs × Forest)) :
    (linesForest (a ++ b)).chars [] = (linesForest a).chars [] ++ (linesForest b).chars [] := by
  induction a with
  | nil => rfl
  | cons p a ih =>
    obtain ⟨as, k⟩ := p
    show k.chars _ ++ (linesForest (a ++ b)).chars [] = _
    rw [ih]
    simp [linesForest, Forest.chars]

theorem drawLoop_sty {env : Env} (he : EnvOk env) (ta : Attrs) (toks : List Tok) :
    ∀ (i : Nat) (st : DrawSt) (a : A) (done : List (Attrs × Forest)) (la : Attrs) (ab : List Attrs) (t : List (Char × List Attrs)),
    (∀ n, Tok.opn n ∈ toks → env.styles n = none → n.head? = some '#') →
    (∀ s, Tok.text s ∈ toks → Plain s) →
    Calm env.styles st.active toks → BreaksApplied env.styles st.active toks →
    depth (st.active.length - 1) toks = some 0 →
    (∀ u, innermost st.active = some u → st.prio = u.priority) → CalmSt st.active → (∀ s, some s ∈ st.active → StyleOk s) →
    st.active.getLast? = some (some env.style) →
    Good st.xml a → LineSty env.fmt done la ta st.active ab a.up a.cur t →
    ∃ st' a' done' la' ab' t', drawLoop env i st toks = .ok st' ∧ Good st'.xml a' ∧ st'.active = [some env.style] ∧
      LineSty env.fmt done' la' ta st'.active ab' a'.up a'.cur t' ∧
      (linesForest done').chars [] ++ t' = (linesForest done).chars [] ++ t ++ expected env.fmt env.styles env.style st.active (fontOnly la) toks := by
  induction toks with
  | nil =>
    intro i st a done la ab t _ _ _ _ hdep _ _ _ hlast hg hline
    refine ⟨st, a, done, la, ab, t, rfl, hg, ?_, hline, by simp [expected]⟩
    rw [depth_nil] at hdep
    injection hdep with hdep
    have hne := hline.ne_nil.1
    match hst : st.active with
    | [] => exact absurd hst hne
    | [s] => rw [hst] at hlast; simpa using hlast
    | _ :: _ :: _ => rw [hst] at hdep; simp at hdep
  | cons tok toks ih =>
    intro i st a done la ab t hsty hplain hcalm hbr hdep hprio hcs hok hlast hg hline
    have hsty' : ∀ n, Tok.opn n ∈ toks → env.styles n = none → n.head? = some '#' := fun n hn => hsty n (List.mem_cons_of_mem _ hn)
    have hplain' : ∀ s, Tok.text s ∈ toks → Plain s := fun n hn => hplain n (List.mem_cons_of_mem _ hn)
    obtain ⟨cur, up, op⟩ := a
    cases tok with
    | text s =>
      have ha : arun { cur := cur, up := up, isOpen := op } [.text s] =
          some { cur := cur ++ Forest.text s .nil, up := up, isOpen := false } := rfl
      obtain ⟨x', hx', hg'⟩ := hg.go (by
        intro o ho; rw [List.mem_singleton] at ho; subst ho; exact hplain s (by simp)) (by trivial) ha
      obtain ⟨st', a', done', la', ab', t', h1, h2, h3, h4, h5⟩ := ih (i + 1) { st with xml := x' } _ done la ab _
        hsty' hplain' hcalm hbr (by rw [depth_text] at hdep; exact hdep) hprio hcs hok hlast hg' (hline.text s)
      refine ⟨st', a', done', la', ab', t', ?_, h2, h3, h4, ?_⟩
      · simp only [drawLoop, drawTok, hx']; exact h1
      · rw [h5, expected, ← hline.around]
        simp only [List.append_assoc]
    | newline n =>
      have hgood : ∀ s ∈ st.active, s.isSome = true := by
        intro s hs
        have := hbr.1 s hs
        cases s with
        | none => exact absurd rfl this
        | some _ => rfl
      obtain ⟨k, hk, hcl⟩ := hline.closeAll op
      obtain ⟨s, la2, up', ab2, hl2, hla2, hre, hls⟩ := reopen_all_sty env n (done := done ++ [(la, k)]) (ta := ta) st.active hline.ne_nil.1 hgood
      rw [hlast] at hl2
      injection hl2 with hl2
      injection hl2 with hl2
      subst hl2
      have ha : arun { cur := cur, up := up, isOpen := op } (newlineOps env n st.active) = some { cur := .nil, up := up', isOpen := true } := by
        unfold newlineOps
        rw [arun_append, hcl]; exact hre
      have hv := newlineOps_valid he n st.active hok
      obtain ⟨x', hx', hg'⟩ := hg.go hv.1 (hv.2 _) ha
      obtain ⟨st', a', done', la', ab', t', h1, h2, h3, h4, h5⟩ := ih (i + 1) { st with xml := x' } _
        (done ++ [(la, k)]) la2 ab2 [] hsty' hplain' hcalm hbr.2 (by rw [depth_newline] at hdep; exact hdep) hprio hcs hok hlast hg' hls
      refine ⟨st', a', done', la', ab', t', ?_, h2, h3, h4, ?_⟩
      · simp only [drawLoop, drawTok, hx']; exact h1
      · rw [h5, linesChars_append, hla2, expected]
        have : (linesForest [(la, k)]).chars [] = t := by
          simp only [linesForest, Forest.chars, List.append_nil]; exact hk
        rw [this]; simp
    | opn name =>
      have hfound : ¬ (env.styles name = none ∧ name.head? ≠ some '#') := by
        rintro ⟨h1, h2⟩; exact h2 (hsty name (by simp) h1)
      obtain ⟨t0, ht0⟩ := innermost_isSome hlast
      have hpa := pick_applied ht0 (hprio t0 ht0) (env.styles name)
      obtain ⟨s, hsd⟩ : ∃ s, pick st.prio (env.styles name) = s := ⟨_, rfl⟩
      rw [hsd] at hpa
      have hsok : ∀ u, s = some u → env.styles name = some u := by
        intro u hu
        rw [← hsd] at hu
        cases hw : env.styles name with
        | none => rw [hw] at hu; cases hu
        | some w =>
          rw [hw] at hu
          simp only [pick] at hu
          split at hu
          · cases hu
          · exact hu
      have hv := beginOps_valid he i s (fun u hu => he.styles name u (hsok u hu))
      have ha := arun_element { cur := cur, up := up, isOpen := op } "tspan".toList (beginSets env i s)
      rw [← beginOps_eq] at ha
      obtain ⟨x', hx', hg'⟩ := hg.go hv.1 (hv.2 _) ha
      have hlen : st.active.length ≠ 0 := by
        have := hline.ne_nil.1
        cases h : st.active
        · exact absurd h this
        · simp
      have hls := LineSty.push s ((beginSets env i s).map toAttr) .nil hline (fontOnly_begin env i s)
      simp only [Calm, BreaksApplied] at hcalm hbr
      rw [← hpa] at hcalm hbr
      obtain ⟨st', a', done', la', ab', t', h1, h2, h3, h4, h5⟩ := ih (i + 1)
        { xml := x', active := s :: st.active, prio := updPrio st.prio (some s) } _ done la _ _
        hsty' hplain' hcalm.2 hbr (by
          rw [depth_opn] at hdep
          rw [← hdep]
          congr 1
          simp only [List.length_cons]
          omega) (by
          intro u hu
          cases s with
          | none => exact hprio u hu
          | some w => injection hu with hu; subst hu; rfl)
        ⟨fun u t hu hh ht => hcalm.1 u t hh hu ht, hcs⟩ (by
          intro u hu
          rcases List.mem_cons.mp hu with hu | hu
          · exact he.styles name u (hsok u hu.symm)
          · exact hok u hu) (by
          show (s :: st.active).getLast? = _
          rw [List.getLast?_cons_of_ne_nil hline.ne_nil.1, hlast]) hg' hls
      refine ⟨st', a', done', la', ab', t', ?_, h2, h3, h4, ?_⟩
      · have hb : drawTok env i st (.opn name) =
            .ok { xml := x', active := s :: st.active, prio := updPrio st.prio (some s) } := by
          simp only [drawTok]
          rw [if_neg hfound, hsd, hx']
        simp only [drawLoop, hb]; exact h1
      · rw [h5, expected, ← hpa]
        simp [Forest.chars]
    | close =>
      have hlen : ∃ s rest, st.active = s :: rest ∧ rest ≠ [] := by
        have := hline.ne_nil.1
        match h : st.active with
        | [] => exact absurd h this
        | [s] => rw [h] at hdep; simp at hdep
        | s :: r :: rs => exact ⟨s, r :: rs, rfl, by simp⟩
      obtain ⟨s, rest, hst, hne⟩ := hlen
      rw [hst] at hline hcalm hbr hcs hprio hlast
      obtain ⟨outer, as, up', ab', hup, hline'⟩ := hline.pop hne
      simp only at hup
      subst hup
      have ha : arun { cur := cur, up := (outer, "tspan".toList, as) :: up', isOpen := op } [.close (some "tspan".toList)] =
          some { cur := outer ++ Forest.elem "tspan".toList as cur .nil, up := up', isOpen := false } := by
        simp only [arun, aexec, or_true, if_true]
      obtain ⟨x', hx', hg'⟩ := hg.go (by
        intro o ho; rw [List.mem_singleton] at ho; subst ho; trivial) (by trivial) ha
      have hlast' : rest.getLast? = some (some env.style) := by
        rw [List.getLast?_cons_of_ne_nil hne] at hlast; exact hlast
      obtain ⟨st', a', done', la', ab2, t', h1, h2, h3, h4, h5⟩ := ih (i + 1)
        { xml := x', active := rest, prio := updPrio st.prio rest.head? } _ done la _ t
        hsty' hplain' hcalm hbr (by
          rw [hst] at hdep
          have : (s :: rest).length - 1 = (rest.length - 1) + 1 := by
            have : rest.length ≠ 0 := by simpa using hne
            simp only [List.length_cons]; omega
          rw [this, depth_close_succ] at hdep
          exact hdep) (by
          intro u hu
          show updPrio st.prio rest.head? = u.priority
          cases rest with
          | nil => exact absurd rfl hne
          | cons r rs =>
            cases r with
            | some w => injection hu with hu; subst hu; rfl
            | none =>
              show st.prio = u.priority
              cases s with
              | none => exact hprio u hu
              | some v =>
                rw [hprio v rfl]
                exact hcs.1 v u rfl rfl hu)
        hcs.2 (fun u hu => hok u (by rw [hst]; exact List.mem_cons_of_mem _ hu)) hlast' hg' hline'
      refine ⟨st', a', done', la', ab2, t', ?_, h2, h3, h4, ?_⟩
      · have hb : drawTok env i st .close = .ok { xml := x', active := rest, prio := updPrio st.prio rest.head? } := by
          simp only [drawTok, hx', hst]
        simp only [drawLoop, hb]; exact h1
      · rw [h5, expected, hst]; rfl

end Verif.Xml
