import Verif.Spec.SvgDraw
import Verif.Proofs.Ora

/-! # Lemmas about reading the shapes of an SVG page -/

namespace Verif.SvgDraw
open Spec Verif.Xml Verif.Ora
open Verif.Xml.Spec (Attrs Forest OkStr isWs attrText ValidName norm)
open Verif.CairoDraw (Pt midPoint findCentroid given nonzero)

/-! ### words -/

theorem wordsFrom_split (sep : Char → Bool) {c : Char} (hc : sep c = true) (b : Str) : ∀ (a cur : Str),
    wordsFrom sep cur (a ++ c :: b) = wordsFrom sep cur a ++ words sep b
  | [], cur => by simp [wordsFrom, hc, words]
  | x :: a, cur => by
    simp only [List.cons_append, wordsFrom]
    split
    · rw [wordsFrom_split sep hc b a, List.append_assoc]
    · exact wordsFrom_split sep hc b a _

theorem words_split (sep : Char → Bool) {c : Char} (hc : sep c = true) (a b : Str) : words sep (a ++ c :: b) = words sep a ++ words sep b :=
  wordsFrom_split sep hc b a []

theorem wordsFrom_none (sep : Char → Bool) : ∀ (a cur : Str), (∀ c ∈ a, sep c = false) → wordsFrom sep cur a = flush (cur ++ a)
  | [], cur, _ => by simp [wordsFrom]
  | x :: a, cur, h => by
    simp only [wordsFrom, h x (by simp), Bool.false_eq_true, if_false]
    rw [wordsFrom_none sep a _ (fun c hc => h c (by simp [hc]))]
    simp

theorem words_one (sep : Char → Bool) {a : Str} (h : ∀ c ∈ a, sep c = false) (hne : a ≠ []) : words sep a = [a] := by
  unfold words
  rw [wordsFrom_none sep a [] h]
  cases a with
  | nil => exact absurd rfl hne
  | cons x xs => rfl

theorem words_join (sep : Char → Bool) {c : Char} (hc : sep c = true) : ∀ ls : List Str, words sep (joinWith [c] ls) = ls.flatMap (words sep)
  | [] => rfl
  | [a] => by simp [joinWith]
  | a :: b :: ls => by
    simp only [joinWith, List.append_assoc, List.cons_append, List.nil_append]
    rw [words_split sep hc, words_join sep hc (b :: ls)]
    simp

theorem all?_append {α β : Type} (f : α → Option β) : ∀ (a b : List α) {x y : List β}, all? f a = some x → all? f b = some y → all? f (a ++ b) = some (x ++ y)
  | [], b, x, y, ha, hb => by
    simp only [all?] at ha
    cases ha
    exact hb
  | p :: a, b, x, y, ha, hb => by
    simp only [all?] at ha
    cases hp : f p with
    | none => rw [hp] at ha; cases ha
    | some q =>
      cases hr : all? f a with
      | none => rw [hp, hr] at ha; cases ha
      | some r =>
        rw [hp, hr] at ha
        cases ha
        simp only [List.cons_append, all?, hp, all?_append f a b hr hb]

theorem all?_map {α β : Type} {f : α → Option β} {as : List α} {bs : List β} (h : List.Forall₂ (fun a b => f a = some b) as bs) : all? f as = some bs := by
  induction h with
  | nil => rfl
  | cons h _ ih => simp [all?, h, ih]

/-! ### characters -/

theorem mem_join {c : Char} {sep : Str} : ∀ {ls : List Str}, c ∈ joinWith sep ls → c ∈ sep ∨ ∃ l ∈ ls, c ∈ l
  | [], h => by simp [joinWith] at h
  | [a], h => .inr ⟨a, by simp, by simpa [joinWith] using h⟩
  | a :: b :: ls, h => by
    simp only [joinWith, List.mem_append] at h
    rcases h with (h | h) | h
    · exact .inr ⟨a, by simp, h⟩
    · exact .inl h
    · rcases mem_join h with h | ⟨l, hl, h⟩
      · exact .inl h
      · exact .inr ⟨l, List.mem_cons_of_mem _ hl, h⟩

/-- A string of an attribute that is read as it is. -/
structure Clean (s : Str) : Prop where
  ok : OkStr s
  same : attrText s = s

theorem clean_of {s : Str} (ok : OkStr s) (h : ∀ c ∈ s, isWs c = true → c = ' ') : Clean s := by
  refine ⟨ok, ?_⟩
  unfold attrText
  conv_rhs => rw [← List.map_id s]
  apply List.map_congr_left
  intro c hc
  by_cases hw : isWs c = true
  · rw [if_pos hw, h c hc hw]; rfl
  · rw [if_neg hw]; rfl

theorem okStr_iff {s : Str} : OkStr s ↔ ∀ c ∈ s, Xml.Spec.xmlChar c = true ∧ c ≠ '\r' ∧ c ≠ '\'' := by
  constructor
  · rintro ⟨h1, h2⟩ c hc
    exact ⟨(h1 c hc).1, (h1 c hc).2, by rintro rfl; exact h2 hc⟩
  · intro h
    exact ⟨fun c hc => ⟨(h c hc).1, (h c hc).2.1⟩, fun hc => (h _ hc).2.2 rfl⟩

/-- The same for one character. -/
def goodChar (c : Char) : Prop := Xml.Spec.xmlChar c = true ∧ c ≠ '\r' ∧ c ≠ '\'' ∧ (isWs c = true → c = ' ')

instance (c : Char) : Decidable (goodChar c) := inferInstanceAs (Decidable (_ ∧ _ ∧ _ ∧ _))

theorem clean_iff {s : Str} : Clean s ↔ ∀ c ∈ s, goodChar c := by
  constructor
  · rintro ⟨h1, h2⟩ c hc
    have h1 := okStr_iff.mp h1 c hc
    refine ⟨h1.1, h1.2.1, h1.2.2, fun hw => ?_⟩
    unfold attrText at h2
    have : ∀ (l : Str), l.map (fun c => if isWs c then ' ' else c) = l → ∀ c ∈ l, isWs c = true → c = ' ' := by
      intro l
      induction l with
      | nil => intro _ c hc; simp at hc
      | cons x l ih =>
        intro h c hc hw
        simp only [List.map_cons, List.cons.injEq] at h
        rcases List.mem_cons.mp hc with rfl | hc
        · rw [if_pos hw] at h; exact h.1.symm
        · exact ih h.2 c hc hw
    exact this s h2 c hc hw
  · intro h
    exact clean_of (okStr_iff.mpr fun c hc => ⟨(h c hc).1, (h c hc).2.1, (h c hc).2.2.1⟩) fun c hc => (h c hc).2.2.2

theorem Clean.append {a b : Str} (ha : Clean a) (hb : Clean b) : Clean (a ++ b) := by
  rw [clean_iff] at *
  intro c hc
  rcases List.mem_append.mp hc with hc | hc
  · exact ha c hc
  · exact hb c hc

theorem clean_dec {s : Str} (h : ∀ c ∈ s, goodChar c) : Clean s := clean_iff.mpr h

theorem clean_join {sep : Str} (hs : Clean sep) {ls : List Str} (h : ∀ l ∈ ls, Clean l) : Clean (joinWith sep ls) := by
  rw [clean_iff]
  intro c hc
  rcases mem_join hc with hc | ⟨l, hl, hc⟩
  · exact clean_iff.mp hs c hc
  · exact clean_iff.mp (h l hl) c hc

theorem digit_range {c : Char} (h : c.isDigit = true) : 48 ≤ c.toNat ∧ c.toNat ≤ 57 := by
  simp only [Char.isDigit, Bool.and_eq_true, decide_eq_true_eq] at h
  exact ⟨UInt32.le_iff_toNat_le.mp h.1, UInt32.le_iff_toNat_le.mp h.2⟩

theorem numChar_cases {c : Char} (h : numChar c = true) : c.isDigit = true ∨ c = '.' ∨ c = '-' ∨ c = '+' ∨ c = 'e' := by
  simpa [numChar, or_assoc] using h

theorem digit_ne {c d : Char} (h : c.isDigit = true) (hd : d.isDigit = false) : c ≠ d := by
  rintro rfl
  rw [h] at hd
  cases hd

theorem num_ne {c d : Char} (h : numChar c = true) (hd : numChar d = false) : c ≠ d := by
  rintro rfl
  rw [h] at hd
  cases hd

theorem num_noWs {c : Char} (h : numChar c = true) : isWs c = false := by
  have n1 := num_ne h (d := ' ') (by decide)
  have n2 := num_ne h (d := '\t') (by decide)
  have n3 := num_ne h (d := '\n') (by decide)
  have n4 := num_ne h (d := '\r') (by decide)
  simp [isWs, n1, n2, n3, n4]

theorem num_good {c : Char} (h : numChar c = true) : goodChar c := by
  refine ⟨?_, num_ne h (by decide), num_ne h (by decide), fun hw => by rw [num_noWs h] at hw; cases hw⟩
  rcases numChar_cases h with h | rfl | rfl | rfl | rfl
  · have := digit_range h
    unfold Xml.Spec.xmlChar
    have : (0x20 ≤ c.toNat && c.toNat ≤ 0xD7FF) = true := by simp; omega
    rw [this]; simp
  all_goals decide

theorem num_noComma {c : Char} (h : numChar c = true) : commaWs c = false := by
  have n1 := num_ne h (d := ',') (by decide)
  simp [commaWs, n1, num_noWs h]

theorem num_noCommand {c : Char} (h : numChar c = true) : isCommand c = false := by
  rcases numChar_cases h with h | rfl | rfl | rfl | rfl
  · have hr := digit_range h
    have : c.isAlpha = false := by
      rw [Bool.eq_false_iff]
      intro ha
      simp only [Char.isAlpha, Char.isUpper, Char.isLower, Bool.or_eq_true, Bool.and_eq_true, decide_eq_true_eq] at ha
      have e1 : c.val.toNat = c.toNat := rfl
      rcases ha with ⟨h1, h2⟩ | ⟨h1, h2⟩
      · have := UInt32.le_iff_toNat_le.mp h1
        have e : 'A'.val.toNat = 65 := rfl
        omega
      · have := UInt32.le_iff_toNat_le.mp h1
        have e : 'a'.val.toNat = 97 := rfl
        omega
    simp [isCommand, this]
  all_goals decide

/-! ### numbers -/

section
variable {fmt : Rat → Str} {read : Str → Option Rat}

theorem fmt_ne (hn : Numbers fmt read) (q : Rat) : fmt q ≠ [] := by
  intro h
  have := hn.back q
  rw [h, hn.empty] at this
  cases this

theorem fmt_clean (hn : Numbers fmt read) (q : Rat) : Clean (fmt q) := clean_iff.mpr fun c hc => num_good (hn.chars q c hc)

theorem words_fmt (hn : Numbers fmt read) (q : Rat) : words commaWs (fmt q) = [fmt q] :=
  words_one _ (fun c hc => num_noComma (hn.chars q c hc)) (fmt_ne hn q)

theorem words_pair (hn : Numbers fmt read) (p : Pt) : words commaWs (pairStr fmt p) = [fmt p.1, fmt p.2] := by
  show words commaWs ((fmt p.1 ++ [',']) ++ fmt p.2) = _
  rw [List.append_assoc, List.singleton_append, words_split _ (by decide), words_fmt hn, words_fmt hn]
  rfl

theorem pair_clean (hn : Numbers fmt read) (p : Pt) : Clean (pairStr fmt p) :=
  ((fmt_clean hn _).append (clean_dec (by decide))).append (fmt_clean hn _)

theorem points_clean (hn : Numbers fmt read) (ps : List Pt) : Clean (pointsStr fmt ps) := by
  apply clean_join (clean_dec (by decide))
  intro l hl
  obtain ⟨p, _, rfl⟩ := List.mem_map.mp hl
  exact pair_clean hn p

theorem words_points (hn : Numbers fmt read) (ps : List Pt) : words commaWs (pointsStr fmt ps) = ps.flatMap (fun p => [fmt p.1, fmt p.2]) := by
  show words commaWs (joinWith [' '] _) = _
  rw [words_join _ (by decide)]
  induction ps with
  | nil => rfl
  | cons p ps ih => simp only [List.map_cons, List.flatMap_cons, words_pair hn, ih]

theorem readPoints_points (hn : Numbers fmt read) (ps : List Pt) : readPoints read (pointsStr fmt ps) = some ps := by
  have key : all? read (ps.flatMap (fun p => [fmt p.1, fmt p.2])) = some (ps.flatMap (fun p => [p.1, p.2])) := by
    induction ps with
    | nil => rfl
    | cons p ps ih => simp [all?, hn.back, ih]
  unfold readPoints readNumbers
  rw [words_points hn, key]
  clear key
  show pairUp _ = _
  induction ps with
  | nil => rfl
  | cons p ps ih => simp [pairUp, ih]

/-! ### paths -/

theorem split_noCommand : ∀ (a s : Str), (∀ c ∈ a, isCommand c = false) → splitCommands (a ++ s) = (a ++ (splitCommands s).1, (splitCommands s).2)
  | [], s, _ => rfl
  | x :: a, s, h => by
    simp only [List.cons_append, splitCommands, h x (by simp), Bool.false_eq_true, if_false]
    rw [split_noCommand a s (fun c hc => h c (by simp [hc]))]

theorem points_noCommand (hn : Numbers fmt read) (ps : List Pt) : ∀ c ∈ pointsStr fmt ps, isCommand c = false := by
  intro c hc
  rcases mem_join hc with hc | ⟨l, hl, hc⟩
  · have : c = ' ' := by simpa using hc
    subst this; decide
  · obtain ⟨p, _, rfl⟩ := List.mem_map.mp hl
    simp only [pairStr, List.mem_append] at hc
    rcases hc with (hc | hc) | hc
    · exact num_noCommand (hn.chars _ _ hc)
    · have : c = ',' := by simpa using hc
      subst this; decide
    · exact num_noCommand (hn.chars _ _ hc)

theorem readPoints_space (read : Str → Option Rat) (s : Str) : readPoints read (s ++ [' ']) = readPoints read s := by
  unfold readPoints readNumbers
  rw [words_split commaWs (by decide) s []]
  simp [words, wordsFrom, flush]

theorem readPath_cmds (hn : Numbers fmt read) : ∀ (cmds : List (Char × List Pt)), (∀ c ∈ cmds, isCommand c.1 = true) →
    (splitCommands (joinWith " ".toList (cmds.map (commandStr fmt)))).1 = [] ∧
      all? (readCommand read) (splitCommands (joinWith " ".toList (cmds.map (commandStr fmt)))).2 = some cmds
  | [], _ => ⟨rfl, rfl⟩
  | [c], h => by
    have hc := h c (by simp)
    simp only [List.map_cons, List.map_nil, joinWith, commandStr, splitCommands, hc, if_true]
    have := split_noCommand (pointsStr fmt c.2) [] (points_noCommand hn c.2)
    rw [List.append_nil] at this
    rw [this]
    simp [all?, splitCommands, readCommand, readPoints_points hn]
  | c :: d :: cmds, h => by
    have hc := h c (by simp)
    obtain ⟨h1, h2⟩ := readPath_cmds hn (d :: cmds) (fun x hx => h x (by simp [hx]))
    simp only [List.map_cons] at h1 h2
    simp only [List.map_cons, joinWith]
    generalize hS : joinWith " ".toList (commandStr fmt d :: cmds.map (commandStr fmt)) = S at h1 h2
    have hj : (commandStr fmt c ++ " ".toList) ++ S = c.1 :: ((pointsStr fmt c.2 ++ [' ']) ++ S) := rfl
    rw [hj]
    simp only [splitCommands, hc, if_true]
    rw [split_noCommand (pointsStr fmt c.2 ++ [' ']) S (by
      intro x hx
      rcases List.mem_append.mp hx with hx | hx
      · exact points_noCommand hn c.2 x hx
      · have : x = ' ' := by simpa using hx
        subst this; decide), h1, List.append_nil]
    refine ⟨by simp, ?_⟩
    simp only [all?, h2]
    simp [readCommand, readPoints_space, readPoints_points hn]

theorem command_clean (hn : Numbers fmt read) {c : Char × List Pt} (hc : isCommand c.1 = true) : Clean (commandStr fmt c) := by
  rw [clean_iff]
  intro x hx
  rcases List.mem_cons.mp hx with rfl | hx
  · have ha : c.1.isAlpha = true := by
      simp only [isCommand, Bool.and_eq_true] at hc
      exact hc.1.1
    have hr : 65 ≤ c.1.toNat ∧ c.1.toNat ≤ 122 := by
      simp only [Char.isAlpha, Char.isUpper, Char.isLower, Bool.or_eq_true, Bool.and_eq_true, decide_eq_true_eq] at ha
      have e1 : c.1.val.toNat = c.1.toNat := rfl
      rcases ha with ⟨h1, h2⟩ | ⟨h1, h2⟩
      · have h1 := UInt32.le_iff_toNat_le.mp h1
        have h2 := UInt32.le_iff_toNat_le.mp h2
        have e : 'A'.val.toNat = 65 := rfl
        have e' : 'Z'.val.toNat = 90 := rfl
        omega
      · have h1 := UInt32.le_iff_toNat_le.mp h1
        have h2 := UInt32.le_iff_toNat_le.mp h2
        have e : 'a'.val.toNat = 97 := rfl
        have e' : 'z'.val.toNat = 122 := rfl
        omega
    have ne : ∀ d : Char, d.toNat < 65 → c.1 ≠ d := by
      intro d hd he
      rw [← he] at hd
      omega
    refine ⟨?_, ne _ (by decide), ne _ (by decide), fun hw => ?_⟩
    · unfold Xml.Spec.xmlChar
      have : (0x20 ≤ c.1.toNat && c.1.toNat ≤ 0xD7FF) = true := by simp; omega
      rw [this]; simp
    · simp only [isWs, Bool.or_eq_true, decide_eq_true_eq] at hw
      rcases hw with ((hw | hw) | hw) | hw
      · exact hw
      · exact absurd hw (ne _ (by decide))
      · exact absurd hw (ne _ (by decide))
      · exact absurd hw (ne _ (by decide))
  · exact clean_iff.mp (points_clean hn c.2) x hx

/-! ### transformations -/

theorem cut_append {c : Char} {a : Str} (h : c ∉ a) (b : Str) : cut c (a ++ c :: b) = (a, b) := by
  unfold cut
  induction a with
  | nil => simp
  | cons x a ih =>
    have hx : x ≠ c := by rintro rfl; simp at h
    have := ih (fun hc => h (by simp [hc]))
    simp only [Prod.mk.injEq] at this
    simp [hx]
    simpa using this

/-- The string of a rotation. -/
def rotateStr (fmt : Rat → Str) (a : Rat) (center : Pt) : Str :=
  "rotate(".toList ++ fmt a ++ " ".toList ++ fmt center.1 ++ " ".toList ++ fmt center.2 ++ ")".toList

theorem rotateStr_clean (hn : Numbers fmt read) (a : Rat) (k : Pt) : Clean (rotateStr fmt a k) :=
  ((((((clean_dec (by decide)).append (fmt_clean hn _)).append (clean_dec (by decide))).append (fmt_clean hn _)).append (clean_dec (by decide))).append
    (fmt_clean hn _)).append (clean_dec (by decide))

theorem readNumbers_fmt (hn : Numbers fmt read) (qs : List Rat) : readNumbers read (joinWith [' '] (qs.map fmt)) = some qs := by
  unfold readNumbers
  rw [words_join _ (by decide)]
  induction qs with
  | nil => rfl
  | cons q qs ih => simp [words_fmt hn, all?, hn.back, ih]

/-- A function with numbers. -/
theorem readFunction_fmt (hn : Numbers fmt read) (name : Str) (qs : List Rat) (hp : '(' ∉ name) (ht : trim name = name) :
    readFunction read (name ++ '(' :: joinWith [' '] (qs.map fmt)) = some (name, qs) := by
  unfold readFunction
  rw [cut_append hp]
  simp [readNumbers_fmt hn, ht]

theorem num_noParen (hn : Numbers fmt read) (qs : List Rat) : ∀ c ∈ joinWith [' '] (qs.map fmt), (decide (c = ')')) = false := by
  intro c hc
  rcases mem_join hc with hc | ⟨l, hl, hc⟩
  · have : c = ' ' := by simpa using hc
    subst this; decide
  · obtain ⟨q, _, rfl⟩ := List.mem_map.mp hl
    exact decide_eq_false (num_ne (hn.chars _ _ hc) (by decide))

theorem words_close {a : Str} (h : ∀ c ∈ a, (decide (c = ')')) = false) (hne : a ≠ []) : words (fun c => decide (c = ')')) (a ++ [')']) = [a] := by
  rw [words_split (fun c => decide (c = ')')) (c := ')') (by decide) a [], words_one _ h hne]
  rfl

theorem readTransform_fun (hn : Numbers fmt read) (name : Str) (qs : List Rat) (hp : '(' ∉ name) (ht : trim name = name)
    (hc : ∀ c ∈ name, (decide (c = ')')) = false) :
    readTransform read (some ((name ++ '(' :: joinWith [' '] (qs.map fmt)) ++ [')'])) = some [(name, qs)] := by
  unfold readTransform
  dsimp only
  rw [words_close]
  · simp only [all?, readFunction_fmt hn name qs hp ht]
  · intro c h
    rcases List.mem_append.mp h with h | h
    · exact hc c h
    · rcases List.mem_cons.mp h with rfl | h
      · decide
      · exact num_noParen hn _ c h
  · simp

theorem rotateStr_eq (fmt : Rat → Str) (a : Rat) (k : Pt) :
    rotateStr fmt a k = ("rotate".toList ++ '(' :: joinWith [' '] ([a, k.1, k.2].map fmt)) ++ [')'] := by
  have h1 : "rotate(".toList = "rotate".toList ++ ['('] := by decide
  have h2 : " ".toList = [' '] := by decide
  have h3 : ")".toList = [')'] := by decide
  unfold rotateStr
  rw [h1, h2, h3]
  generalize "rotate".toList = r
  simp only [joinWith, List.map_cons, List.map_nil, List.append_assoc, List.cons_append, List.nil_append]

theorem readTransform_rotate (hn : Numbers fmt read) (a : Rat) (k : Pt) :
    readTransform read (some (rotateStr fmt a k)) = some [("rotate".toList, [a, k.1, k.2])] := by
  rw [rotateStr_eq]
  exact readTransform_fun hn _ _ (by decide) (by decide +kernel) (by decide)

/-! ### styles -/

theorem words_decl {d : Str} (h : ';' ∉ d) (hne : d ≠ []) : words (fun c => decide (c = ';')) d = [d] :=
  words_one _ (fun c hc => decide_eq_false (by rintro rfl; exact h hc)) hne

theorem readStyle_join {ds : List Str} (h : ∀ d ∈ ds, ';' ∉ d ∧ d ≠ []) :
    readStyle (some (joinWith ";".toList ds)) = ds.map (fun d => (trim (cut ':' d).1, trim (cut ':' d).2)) := by
  show (words _ (joinWith [';'] ds)).map _ = _
  rw [words_join _ (by decide)]
  congr 1
  induction ds with
  | nil => rfl
  | cons d ds ih =>
    rw [List.flatMap_cons, words_decl (h d (by simp)).1 (h d (by simp)).2, ih (fun x hx => h x (by simp [hx]))]
    rfl

theorem fmt_noSemi (hn : Numbers fmt read) (q : Rat) : ';' ∉ fmt q := fun h => by
  have := hn.chars q _ h
  revert this; decide

theorem trim_noWs {s : Str} (h : ∀ c ∈ s, isWs c = false) : trim s = s := by
  have key : ∀ l : Str, (∀ c ∈ l, isWs c = false) → l.dropWhile isWs = l := by
    intro l hl
    cases l with
    | nil => rfl
    | cons x l => simp [List.dropWhile, hl x (by simp)]
  unfold trim
  rw [key s h, key _ (fun c hc => h c (List.mem_reverse.mp hc)), List.reverse_reverse]

theorem Spec.CssOk.clean {s : Str} (h : CssOk s) : Clean s := clean_of h.ok h.ws

/-- The declaration of the dash pattern. -/
def dashDecl : Option Str → List Str
  | some (x :: d) => ["stroke-dasharray".toList ++ ':' :: (x :: d)]
  | _ => []

theorem paint_reads (hn : Numbers fmt read) {p : Paint} (hp : PaintOk p) (hw : p.strokeWidth ≠ some 0) :
    Clean (joinWith ";".toList (paintDecls fmt p)) ∧
    fillOf (readStyle (some (joinWith ";".toList (paintDecls fmt p)))) = wanted p.bgColor ∧
    strokeOf read (readStyle (some (joinWith ";".toList (paintDecls fmt p)))) = some (wantedStroke p) := by
  obtain ⟨color, bgColor, width, dash⟩ := p
  have horOne : orOne width = width.getD 1 := by
    cases width with
    | none => rfl
    | some w =>
      have : w ≠ 0 := fun h => hw (by rw [h])
      simp [orOne, this]
  have hfill : ∃ v, (if given bgColor then ["fill:".toList ++ bgColor.getD []] else ["fill:none".toList]) = ["fill".toList ++ ':' :: v] ∧
      CssOk v ∧ paintOf v = wanted bgColor := by
    have hnone : CssOk "none".toList := ⟨okStr_of_decide (by decide), by decide, by decide, by decide⟩
    cases bgColor with
    | none => exact ⟨"none".toList, rfl, hnone, rfl⟩
    | some c =>
      by_cases hc : c = []
      · subst hc
        exact ⟨"none".toList, rfl, hnone, rfl⟩
      · exact ⟨c, by simp [given, hc], hp.bgColor c rfl, by simp [wanted, hc]⟩
  have hstroke : ∃ v ds', (if given color then
        ["stroke:".toList ++ color.getD [], "stroke-width:".toList ++ fmt (orOne width)] ++
          (if given dash then ["stroke-dasharray:".toList ++ dash.getD []] else [])
      else ["stroke:none".toList]) = ("stroke".toList ++ ':' :: v) :: ds' ∧ CssOk v ∧ paintOf v = wanted color ∧
      ((wanted color = none ∧ ds' = []) ∨ (ds' = ("stroke-width".toList ++ ':' :: fmt (width.getD 1)) ::
        dashDecl dash)) := by
    have hnone : CssOk "none".toList := ⟨okStr_of_decide (by decide), by decide, by decide, by decide⟩
    cases color with
    | none => exact ⟨"none".toList, [], rfl, hnone, rfl, .inl ⟨rfl, rfl⟩⟩
    | some c =>
      by_cases hc : c = []
      · subst hc
        exact ⟨"none".toList, [], rfl, hnone, rfl, .inl ⟨rfl, rfl⟩⟩
      · refine ⟨c, _, ?_, hp.color c rfl, by simp [wanted, hc], .inr rfl⟩
        rw [if_pos (by simp [given, hc]), horOne]
        cases dash with
        | none => rfl
        | some d =>
          cases d with
          | nil => rfl
          | cons x d => rfl
  obtain ⟨v, hv, hvok, hvp⟩ := hfill
  obtain ⟨u, ds', hu, huok, hup, hds⟩ := hstroke
  have hdecls : paintDecls fmt ⟨color, bgColor, width, dash⟩ = ("fill".toList ++ ':' :: v) :: ("stroke".toList ++ ':' :: u) :: ds' := by
    unfold paintDecls
    dsimp only
    rw [hv, hu]
    rfl
  rw [hdecls]
  have hds' : ∀ d ∈ ds', ';' ∉ d ∧ d ≠ [] ∧ Clean d := by
    intro d hd
    rcases hds with ⟨_, rfl⟩ | rfl
    · simp at hd
    · rcases List.mem_cons.mp hd with rfl | hd
      · refine ⟨?_, by simp, ?_⟩
        · intro h
          rcases List.mem_append.mp h with h | h
          · revert h; decide
          · rcases List.mem_cons.mp h with h | h
            · revert h; decide
            · exact fmt_noSemi hn _ h
        · exact (clean_dec (by decide)).append ((clean_dec (s := [':']) (by decide)).append (fmt_clean hn _))
      · rcases dash with _ | _ | ⟨x, d'⟩
        · cases hd
        · cases hd
        · have hok := hp.dash (x :: d') rfl
          have : d = "stroke-dasharray".toList ++ ':' :: (x :: d') := List.mem_singleton.mp hd
          subst this
          refine ⟨?_, by simp, ?_⟩
          · intro h
            rcases List.mem_append.mp h with h | h
            · revert h; decide
            · rcases List.mem_cons.mp h with h | h
              · revert h; decide
              · exact hok.semi h
          · exact (clean_dec (by decide)).append ((clean_dec (s := [':']) (by decide)).append hok.clean)
  have hsemi : ∀ (n w : Str), ';' ∉ n → CssOk w → ';' ∉ n ++ ':' :: w := by
    intro n w h1 h2 h
    rcases List.mem_append.mp h with h | h
    · exact h1 h
    · rcases List.mem_cons.mp h with h | h
      · revert h; decide
      · exact h2.semi h
  refine ⟨?_, ?_⟩
  · apply clean_join (clean_dec (by decide))
    intro l hl
    rcases List.mem_cons.mp hl with rfl | hl
    · exact (clean_dec (by decide)).append ((clean_dec (s := [':']) (by decide)).append hvok.clean)
    · rcases List.mem_cons.mp hl with rfl | hl
      · exact (clean_dec (by decide)).append ((clean_dec (s := [':']) (by decide)).append huok.clean)
      · exact (hds' l hl).2.2
  · rw [readStyle_join (by
      intro d hd
      rcases List.mem_cons.mp hd with rfl | hd
      · exact ⟨hsemi _ _ (by decide) hvok, by simp⟩
      · rcases List.mem_cons.mp hd with rfl | hd
        · exact ⟨hsemi _ _ (by decide) huok, by simp⟩
        · exact ⟨(hds' d hd).1, (hds' d hd).2.1⟩)]
    simp only [List.map_cons]
    rw [cut_append (by decide), cut_append (by decide), show trim "fill".toList = "fill".toList by decide,
      show trim "stroke".toList = "stroke".toList by decide]
    dsimp only
    rw [hvok.trim, huok.trim]
    refine ⟨hvp, ?_⟩
    unfold strokeOf
    have hl : ∀ rest : List (Str × Str), (("fill".toList, v) :: ("stroke".toList, u) :: rest).lookup "stroke".toList = some u := fun _ => rfl
    rw [hl]
    dsimp only [Option.getD_some]
    rw [hup]
    unfold wantedStroke
    dsimp only
    cases hc : wanted color with
    | none => rfl
    | some c =>
      rcases hds with ⟨hno, _⟩ | rfl
      · rw [hc] at hno; cases hno
      · have htw : trim (fmt (width.getD 1)) = fmt (width.getD 1) := trim_noWs fun c hc => num_noWs (hn.chars _ _ hc)
        have k1 : ∀ t rest, (("fill".toList, v) :: ("stroke".toList, u) :: ("stroke-width".toList, t) :: rest : List (Str × Str)).lookup "stroke-width".toList = some t := fun _ _ => rfl
        have k2 : ∀ t rest, (("fill".toList, v) :: ("stroke".toList, u) :: ("stroke-width".toList, t) :: rest : List (Str × Str)).lookup "stroke-dasharray".toList = rest.lookup "stroke-dasharray".toList := fun _ _ => rfl
        simp only [List.map_cons]
        rw [cut_append (by decide), show trim "stroke-width".toList = "stroke-width".toList by decide]
        dsimp only
        rw [htw, k1, k2]
        dsimp only [widthOf]
        rw [hn.back]
        cases dash with
        | none => rfl
        | some d =>
          cases d with
          | nil => rfl
          | cons x d =>
            simp only [dashDecl, List.map_cons, List.map_nil]
            rw [cut_append (by decide), show trim "stroke-dasharray".toList = "stroke-dasharray".toList by decide, (hp.dash (x :: d) rfl).trim]
            have k3 : ∀ t : Str, ([("stroke-dasharray".toList, t)] : List (Str × Str)).lookup "stroke-dasharray".toList = some t := fun _ => rfl
            rw [k3]
            simp [wanted]

end

end Verif.SvgDraw
