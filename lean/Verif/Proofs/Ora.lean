import Verif.Spec.Ora
import Verif.Proofs.DrawText
import Verif.Proofs.XmlText

/-! # Lemmas about the conversion of ORA files -/

namespace Verif.Ora
open Spec Verif.Xml
open Verif.Xml.Spec (Attrs attrText OkStr Nested norm Valid ValidName SetsDistinct readXml textNode)

theorem natStr_noWs (n : Nat) : attrText (natStr n) = natStr n := by
  unfold attrText
  conv_rhs => rw [← List.map_id (natStr n)]
  apply List.map_congr_left
  intro c hc
  have := Nat.isDigit_of_mem_toDigits (b := 10) (by decide) (by decide) hc
  have hw : Xml.Spec.isWs c = false := by
    unfold Xml.Spec.isWs
    simp only [Bool.or_eq_false_iff, decide_eq_false_iff_not]
    refine ⟨⟨⟨?_, ?_⟩, ?_⟩, ?_⟩ <;> (rintro rfl; revert this; decide)
  simp [hw]

theorem natStr_ok (n : Nat) : OkStr (natStr n) := by
  have key : ∀ c ∈ natStr n, c.isDigit = true := fun c hc => Nat.isDigit_of_mem_toDigits (b := 10) (by decide) (by decide) hc
  constructor
  · intro c hc
    have hd := key c hc
    have h1 : 48 ≤ c.toNat ∧ c.toNat ≤ 57 := by
      simp only [Char.isDigit, Bool.and_eq_true, decide_eq_true_eq] at hd
      exact ⟨UInt32.le_iff_toNat_le.mp hd.1, UInt32.le_iff_toNat_le.mp hd.2⟩
    refine ⟨?_, by rintro rfl; revert hd; decide⟩
    unfold Xml.Spec.xmlChar
    have : (0x20 ≤ c.toNat && c.toNat ≤ 0xD7FF) = true := by simp; omega
    rw [this]; simp
  · intro hc
    have := key _ hc
    revert this; decide

theorem optStr_ok {a : Attr} (h : AttrOk a) : OkStr (optStr a.x) ∧ OkStr (optStr a.y) ∧ OkStr (optStr a.name) := by
  have key : ∀ o : Option Str, (∀ s, o = some s → OkStr s) → OkStr (optStr o) := by
    intro o ho
    cases o with
    | none => exact okStr_of_decide (by decide)
    | some s => exact ho s rfl
  exact ⟨key _ fun s hs => h s (.inl hs), key _ fun s hs => h s (.inr (.inl hs)), key _ fun s hs => h s (.inr (.inr hs))⟩

/-- A list of attributes that can be written and read back. -/
structure SetsOk (sets : List (Str × Str × Bool)) : Prop where
  nodup : (sets.map (·.1)).Nodup
  names : ∀ s ∈ sets, ValidName s.1
  values : ∀ s ∈ sets, OkStr s.2.1

theorem opacitySet_cases (env : Env) (o : Rat) : (o < 9999 / 10000 ∧ opacitySet env o = [("opacity".toList, env.fmt o, true)]) ∨
    (¬ o < 9999 / 10000 ∧ opacitySet env o = []) := by
  unfold opacitySet
  by_cases h : o < 9999 / 10000
  · exact .inl ⟨h, if_pos h⟩
  · exact .inr ⟨h, if_neg h⟩

theorem toFloat_ok {env : Env} {o : Option Str} {r : Rat} (h : toFloat env o = .ok r) : ∃ s, o = some s ∧ env.float s = some r := by
  cases o with
  | none => cases h
  | some s =>
    unfold toFloat at h
    dsimp only at h
    split at h
    · cases h
    · rename_i r' hr; cases h; exact ⟨s, rfl, hr⟩

theorem toFloat_iff {env : Env} {o : Option Str} : Numeric env o ↔ ∃ r, toFloat env o = .ok r := by
  constructor
  · rintro ⟨s, r, rfl, h⟩; exact ⟨r, by simp [toFloat, h]⟩
  · rintro ⟨r, h⟩
    obtain ⟨s, h1, h2⟩ := toFloat_ok h
    exact ⟨s, r, h1, h2⟩

/-- The attributes as read. -/
def readAttrs (sets : List (Str × Str × Bool)) : Attrs := (sets.map toAttr).map (fun x => (x.1, attrText x.2))

theorem stackSets_ok {env : Env} (he : EnvOk env) {a : Attr} (ha : AttrOk a) {sets} (h : stackSets env a = .ok sets) :
    SetsOk sets ∧ GroupOf env a (readAttrs sets) := by
  obtain ⟨hx, hy, hn⟩ := optStr_ok ha
  unfold stackSets at h
  split at h
  · cases h
  · rename_i o ho
    injection h with h
    obtain ⟨s, hs, hf⟩ := toFloat_ok ho
    have htr : OkStr ("translate(".toList ++ optStr a.x ++ ", ".toList ++ optStr a.y ++ ")".toList) :=
      (((((okStr_of_decide (by decide)).append hx).append (okStr_of_decide (by decide))).append hy).append (okStr_of_decide (by decide)))
    have v1 : ValidName "transform".toList := validName_of_decide (by decide)
    have v2 : ValidName "opacity".toList := validName_of_decide (by decide)
    have v3 : ValidName "inkscape:label".toList := validName_of_decide (by decide)
    generalize htv : "translate(".toList ++ optStr a.x ++ ", ".toList ++ optStr a.y ++ ")".toList = tv at h htr
    have hmove : ∀ as : Attrs, as.lookup "transform".toList = (if a.x ≠ some "0".toList ∨ a.y ≠ some "0".toList then some (attrText tv) else none) →
        as.lookup "transform".toList =
          if a.x = some "0".toList ∧ a.y = some "0".toList then none
          else some (attrText ("translate(".toList ++ a.x.getD "None".toList ++ ", ".toList ++ a.y.getD "None".toList ++ ")".toList)) := by
      intro as has
      rw [has]
      have : "translate(".toList ++ a.x.getD "None".toList ++ ", ".toList ++ a.y.getD "None".toList ++ ")".toList = tv := htv
      rw [this]
      by_cases h1 : a.x = some "0".toList <;> by_cases h2 : a.y = some "0".toList <;> simp only [h1, h2, ne_eq, not_true, not_false_iff, or_self, or_true, true_or, and_self, and_true, true_and, if_true, if_false]
    by_cases hmv : a.x ≠ some "0".toList ∨ a.y ≠ some "0".toList
    · rw [if_pos hmv] at h hmove
      rcases opacitySet_cases env o with ⟨hlt, hos⟩ | ⟨hlt, hos⟩
      · rw [hos] at h
        subst h
        refine ⟨⟨?_, ?_, ?_⟩, hmove _ rfl, ⟨s, o, hs, hf, ?_⟩, rfl⟩
        · simp only [List.map_cons, List.map_nil, List.cons_append, List.nil_append]; decide
        · simp only [List.cons_append, List.nil_append, List.mem_cons, List.not_mem_nil, or_false]
          rintro t (rfl | rfl | rfl) <;> assumption
        · simp only [List.cons_append, List.nil_append, List.mem_cons, List.not_mem_nil, or_false]
          rintro t (rfl | rfl | rfl)
          · exact htr
          · exact he.fmt o
          · exact hn
        · rw [if_pos hlt]; rfl
      · rw [hos] at h
        subst h
        refine ⟨⟨?_, ?_, ?_⟩, hmove _ rfl, ⟨s, o, hs, hf, ?_⟩, rfl⟩
        · simp only [List.map_cons, List.map_nil, List.cons_append, List.nil_append]; decide
        · simp only [List.cons_append, List.nil_append, List.mem_cons, List.not_mem_nil, or_false]
          rintro t (rfl | rfl) <;> assumption
        · simp only [List.cons_append, List.nil_append, List.mem_cons, List.not_mem_nil, or_false]
          rintro t (rfl | rfl)
          · exact htr
          · exact hn
        · rw [if_neg hlt]; rfl
    · rw [if_neg hmv] at h hmove
      rcases opacitySet_cases env o with ⟨hlt, hos⟩ | ⟨hlt, hos⟩
      · rw [hos] at h
        subst h
        refine ⟨⟨?_, ?_, ?_⟩, hmove _ rfl, ⟨s, o, hs, hf, ?_⟩, rfl⟩
        · simp only [List.map_cons, List.map_nil, List.cons_append, List.nil_append]; decide
        · simp only [List.cons_append, List.nil_append, List.mem_cons, List.not_mem_nil, or_false]
          rintro t (rfl | rfl) <;> assumption
        · simp only [List.cons_append, List.nil_append, List.mem_cons, List.not_mem_nil, or_false]
          rintro t (rfl | rfl)
          · exact he.fmt o
          · exact hn
        · rw [if_pos hlt]; rfl
      · rw [hos] at h
        subst h
        refine ⟨⟨?_, ?_, ?_⟩, hmove _ rfl, ⟨s, o, hs, hf, ?_⟩, rfl⟩
        · simp only [List.map_cons, List.map_nil, List.nil_append]; decide
        · simp only [List.nil_append, List.mem_cons, List.not_mem_nil, or_false]
          rintro t rfl; assumption
        · simp only [List.nil_append, List.mem_cons, List.not_mem_nil, or_false]
          rintro t rfl; exact hn
        · rw [if_neg hlt]; rfl

theorem layerSets_ok {env : Env} (he : EnvOk env) {a : Attr} (ha : AttrOk a) {sets} (h : layerSets env a = .ok (some sets)) :
    SetsOk sets ∧ ImageOf env a (readAttrs sets) := by
  obtain ⟨-, -, hn⟩ := optStr_ok ha
  unfold layerSets at h
  split at h
  · cases h
  · rename_i sn hsn
    split at h
    · cases h
    · cases h
    · rename_i src hsrc
      split at h
      · cases h
      · rename_i o ho
        split at h
        · cases h
        · rename_i x hx
          split at h
          · cases h
          · rename_i y hy
            injection h with h
            injection h with h
            obtain ⟨s, hs, hf⟩ := toFloat_ok ho
            obtain ⟨xs, hxs, hxf⟩ := toFloat_ok hx
            obtain ⟨ys, hys, hyf⟩ := toFloat_ok hy
            obtain ⟨hd, hm⟩ := he.source sn src hsrc
            have hhref : OkStr ("data:".toList ++ src.mime ++ ";base64,".toList ++ src.data) :=
              ((((okStr_of_decide (by decide)).append hm).append (okStr_of_decide (by decide))).append hd)
            generalize hhv : "data:".toList ++ src.mime ++ ";base64,".toList ++ src.data = hv at h hhref
            have v1 : ValidName "x".toList := validName_of_decide (by decide)
            have v2 : ValidName "y".toList := validName_of_decide (by decide)
            have v3 : ValidName "width".toList := validName_of_decide (by decide)
            have v4 : ValidName "height".toList := validName_of_decide (by decide)
            have v5 : ValidName "opacity".toList := validName_of_decide (by decide)
            have v6 : ValidName "inkscape:label".toList := validName_of_decide (by decide)
            have v7 : ValidName "xlink:href".toList := validName_of_decide (by decide)
            have w1 := natStr_ok src.w
            have w2 := natStr_ok src.h
            have w3 := he.fmt o
            have w4 := he.fmt (x + src.x)
            have w5 := he.fmt (y + src.y)
            rcases opacitySet_cases env o with ⟨hlt, hos⟩ | ⟨hlt, hos⟩
            · rw [hos] at h
              subst h
              refine ⟨⟨?_, ?_, ?_⟩, ⟨sn, src, xs, ys, x, y, hsn, hsrc, hxs, hys, hxf, hyf, rfl, rfl, ?_, ?_, by rw [hhv]; rfl⟩, ⟨s, o, hs, hf, ?_⟩, rfl⟩
              · simp only [List.map_cons, List.map_nil, List.cons_append, List.nil_append]; decide
              · simp only [List.cons_append, List.nil_append, List.mem_cons, List.not_mem_nil, or_false]
                rintro t (rfl | rfl | rfl | rfl | rfl | rfl | rfl) <;> assumption
              · simp only [List.cons_append, List.nil_append, List.mem_cons, List.not_mem_nil, or_false]
                rintro t (rfl | rfl | rfl | rfl | rfl | rfl | rfl) <;> assumption
              · conv_rhs => rw [show Nat.toDigits 10 src.w = natStr src.w from rfl, ← natStr_noWs src.w]
                rfl
              · conv_rhs => rw [show Nat.toDigits 10 src.h = natStr src.h from rfl, ← natStr_noWs src.h]
                rfl
              · rw [if_pos hlt]; rfl
            · rw [hos] at h
              subst h
              refine ⟨⟨?_, ?_, ?_⟩, ⟨sn, src, xs, ys, x, y, hsn, hsrc, hxs, hys, hxf, hyf, rfl, rfl, ?_, ?_, by rw [hhv]; rfl⟩, ⟨s, o, hs, hf, ?_⟩, rfl⟩
              · simp only [List.map_cons, List.map_nil, List.cons_append, List.append_nil, List.nil_append]; decide
              · simp only [List.cons_append, List.append_nil, List.nil_append, List.mem_cons, List.not_mem_nil, or_false]
                rintro t (rfl | rfl | rfl | rfl | rfl | rfl) <;> assumption
              · simp only [List.cons_append, List.append_nil, List.nil_append, List.mem_cons, List.not_mem_nil, or_false]
                rintro t (rfl | rfl | rfl | rfl | rfl | rfl) <;> assumption
              · conv_rhs => rw [show Nat.toDigits 10 src.w = natStr src.w from rfl, ← natStr_noWs src.w]
                rfl
              · conv_rhs => rw [show Nat.toDigits 10 src.h = natStr src.h from rfl, ← natStr_noWs src.h]
                rfl
              · rw [if_neg hlt]; rfl

theorem svgSets_ok {w h : Option Str} (hw : ∀ s, w = some s → OkStr s) (hh : ∀ s, h = some s → OkStr s) : SetsOk (svgSets w h) := by
  have v1 : ValidName "xmlns".toList := validName_of_decide (by decide)
  have v2 : ValidName "xmlns:xlink".toList := validName_of_decide (by decide)
  have v3 : ValidName "xmlns:inkscape".toList := validName_of_decide (by decide)
  have v4 : ValidName "width".toList := validName_of_decide (by decide)
  have v5 : ValidName "height".toList := validName_of_decide (by decide)
  have o1 : OkStr "http://www.w3.org/2000/svg".toList := okStr_of_decide (by decide)
  have o2 : OkStr "http://www.w3.org/1999/xlink".toList := okStr_of_decide (by decide)
  have o3 : OkStr "http://www.inkscape.org/namespaces/inkscape".toList := okStr_of_decide (by decide)
  have hw' := fun s hs => hw s hs
  cases w <;> cases h <;> refine ⟨?_, ?_, ?_⟩ <;>
    simp only [svgSets, List.map_cons, List.map_nil, List.cons_append, List.append_nil, List.nil_append, List.mem_cons, List.not_mem_nil, or_false]
  all_goals first
    | decide
    | (rintro t (rfl | rfl | rfl) <;> assumption)
    | (rintro t (rfl | rfl | rfl | rfl) <;> first | assumption | exact hw _ rfl | exact hh _ rfl)
    | (rintro t (rfl | rfl | rfl | rfl | rfl) <;> first | assumption | exact hw _ rfl | exact hh _ rfl)

/-! ### the calls -/

theorem images_append (up : List Attrs) (F G : Xml.Spec.Forest) : images up (F ++ G) = images up F ++ images up G := by
  induction F with
  | nil => rfl
  | text s r ih => exact ih
  | elem n as k r _ ih =>
    show images up (Xml.Spec.Forest.elem n as k (r ++ G)) = _
    simp only [images, ih, List.append_assoc]

/-- There is no text outside of the elements. -/
def Elems : Xml.Spec.Forest → Prop
  | .nil => True
  | .text _ _ => False
  | .elem _ _ _ r => Elems r

theorem norm_append {F : Xml.Spec.Forest} (hF : Elems F) (G : Xml.Spec.Forest) : norm [] (F ++ G) = norm [] F ++ norm [] G := by
  induction F with
  | nil => rfl
  | text s r ih => cases hF
  | elem n as k r _ ih =>
    show norm [] (Xml.Spec.Forest.elem n as k (r ++ G)) = _
    simp only [norm, ih hF]
    rfl

theorem elems_append {F G : Xml.Spec.Forest} (hF : Elems F) (hG : Elems G) : Elems (F ++ G) := by
  induction F with
  | nil => exact hG
  | text s r ih => cases hF
  | elem n as k r _ ih => exact ih hF

/-- What is known about a sequence of calls: it is nested like a forest of elements and can be written. -/
structure Writes (ops : List Op) (F : Xml.Spec.Forest) : Prop where
  nested : Nested ops F
  elems : Elems F
  valid : ∀ o ∈ ops, Valid o
  distinct : ∀ rest, SD rest → SD (ops ++ rest)

theorem writes_nil : Writes [] .nil := ⟨.nil, trivial, by simp, fun _ h => h⟩

theorem Writes.append {a b : List Op} {F G : Xml.Spec.Forest} (h1 : Writes a F) (h2 : Writes b G) : Writes (a ++ b) (F ++ G) :=
  ⟨h1.nested.append h2.nested, elems_append h1.elems h2.elems, by
    intro o ho
    rcases List.mem_append.mp ho with ho | ho
    · exact h1.valid o ho
    · exact h2.valid o ho, fun rest hr => by
      rw [List.append_assoc]
      exact h1.distinct _ (h2.distinct _ hr)⟩

theorem Writes.block {n : Str} {sets : List (Str × Str × Bool)} {body : List Op} {K : Xml.Spec.Forest} (hn : ValidName n)
    (hs : SetsOk sets) (h : Writes body K) : Writes (Ora.block n sets body) (.elem n (sets.map toAttr) K .nil) := by
  refine ⟨Nested.elem n sets (some n) body [] K .nil h.nested .nil (.inr rfl), trivial, ?_, ?_⟩
  · intro o ho
    simp only [Ora.block, List.mem_cons, List.mem_append, List.not_mem_nil, or_false] at ho
    rcases ho with rfl | ho | ho | rfl
    · exact hn
    · obtain ⟨s, hs', rfl⟩ := List.mem_map.mp ho
      exact ⟨hs.names s hs', (hs.values s hs').1, (hs.values s hs').2⟩
    · exact h.valid o ho
    · trivial
  · intro rest hr
    have := sd_block n hs.nodup (h.distinct (.close (some n) :: rest) (sd_close _ hr))
    simpa [Ora.block] using this

theorem images_block (up : List Attrs) (n : Str) (sets : List (Str × Str × Bool)) (K : Xml.Spec.Forest) :
    images up (norm [] (.elem n (sets.map toAttr) K .nil)) =
      if n = "image".toList then [(up, readAttrs sets)] else images (readAttrs sets :: up) (norm [] K) := by
  show images up (.elem n (readAttrs sets) (norm [] K) .nil) = _
  simp [images]

/-- An SVG picture stands for a layer. -/
def Stands (env : Env) (p : List Attr × Attr) (q : List Attrs × Attrs) : Prop :=
  List.Forall₂ (GroupOf env) p.1 q.1 ∧ ImageOf env p.2 q.2

theorem forall₂_append {α β : Type} {R : α → β → Prop} {a c : List α} {b d : List β} (h1 : List.Forall₂ R a b) (h2 : List.Forall₂ R c d) :
    List.Forall₂ R (a ++ c) (b ++ d) := by
  induction h1 with
  | nil => exact h2
  | cons h _ ih => exact .cons h ih

theorem layers_hidden (env : Env) {up : List Attr} (h : ¬ ∀ a ∈ up, visible a = true) (f : Forest) :
    (layers up f).filter (Seen env) = [] := by
  have key : ∀ a, Seen env (up, a) = false := by
    intro a
    unfold Seen
    have : up.all (fun a => decide (a.visibility = some "visible".toList)) = false := by
      rw [Bool.eq_false_iff]
      intro hc
      apply h
      intro a ha
      exact List.all_eq_true.mp hc a ha
    rw [this]; simp
  induction f generalizing up with
  | nil => rfl
  | other rest ih => exact ih h key
  | layer a rest ih => simp only [layers, List.filter_cons, key a, Bool.false_eq_true, if_false]; exact ih h key
  | stack a kids rest ihk ihr =>
    simp only [layers, List.filter_append]
    have h' : ¬ ∀ x ∈ a :: up, visible x = true := fun hc => h (fun x hx => hc x (List.mem_cons_of_mem _ hx))
    rw [ihr h key, List.append_nil]
    apply ihk h'
    intro b
    unfold Seen
    have : (a :: up).all (fun a => decide (a.visibility = some "visible".toList)) = false := by
      rw [Bool.eq_false_iff]
      intro hc
      exact h' (fun x hx => List.all_eq_true.mp hc x hx)
    rw [this]; simp

theorem children_ok {env : Env} (he : EnvOk env) (f : Forest) (hs : StringsOk f) {ops : List Op} (h : childrenOps env f = .ok ops) :
    ∃ F, Writes ops F ∧ ∀ (up : List Attr) (gs : List Attrs), (∀ a ∈ up, visible a = true) → List.Forall₂ (GroupOf env) up gs →
      List.Forall₂ (Stands env) ((layers up f).filter (Seen env)).reverse (images gs (norm [] F)) := by
  induction f generalizing ops with
  | nil =>
    cases h
    exact ⟨.nil, writes_nil, fun _ _ _ _ => .nil⟩
  | other rest ih =>
    rw [childrenOps] at h
    exact ih hs h
  | layer a rest ih =>
    rw [childrenOps] at h
    obtain ⟨ha, hrest⟩ := hs
    split at h
    · cases h
    · rename_i r hr
      obtain ⟨F, hF, hi⟩ := ih hrest hr
      split at h
      · rename_i hv
        split at h
        · cases h
        · rename_i hl
          cases h
          refine ⟨F, hF, fun up gs hup hg => ?_⟩
          have : Seen env (up, a) = false := by
            unfold layerSets at hl
            split at hl
            · cases hl
            · rename_i s hsrc
              split at hl
              · cases hl
              · rename_i hsn
                simp [Seen, hsrc, hsn]
              · split at hl
                · cases hl
                · split at hl
                  · cases hl
                  · split at hl <;> cases hl
          simp only [layers, List.filter_cons, this, Bool.false_eq_true, if_false]
          exact hi up gs hup hg
        · rename_i sets hl
          cases h
          obtain ⟨h1, h2⟩ := layerSets_ok he ha hl
          have hb := writes_nil.block (n := "image".toList) (validName_of_decide (by decide)) h1
          refine ⟨_, hF.append hb, fun up gs hup hg => ?_⟩
          have hseen : Seen env (up, a) = true := by
            obtain ⟨s, src, _, _, _, _, e1, e2, _⟩ := h2.place
            unfold Seen
            have h3 : up.all (fun a => decide (a.visibility = some "visible".toList)) = true :=
              List.all_eq_true.mpr fun x hx => hup x hx
            have h4 : (decide (a.visibility = some "visible".toList)) = true := hv
            rw [h3, h4, e1]
            dsimp only
            rw [e2]; rfl
          simp only [layers, List.filter_cons, hseen, if_true, List.reverse_cons]
          rw [norm_append hF.elems, images_append, images_block, if_pos rfl]
          exact forall₂_append (hi up gs hup hg) (.cons ⟨hg, h2⟩ .nil)
      · rename_i hv
        cases h
        refine ⟨F, hF, fun up gs hup hg => ?_⟩
        have : Seen env (up, a) = false := by
          unfold Seen
          have h4 : (decide (a.visibility = some "visible".toList)) = false := by
            simpa [visible] using hv
          rw [h4]; simp
        simp only [layers, List.filter_cons, this, Bool.false_eq_true, if_false]
        exact hi up gs hup hg
  | stack a kids rest ihk ihr =>
    rw [childrenOps] at h
    obtain ⟨ha, hkids, hrest⟩ := hs
    split at h
    · cases h
    · rename_i r hr
      obtain ⟨F, hF, hi⟩ := ihr hrest hr
      split at h
      · rename_i hv
        split at h
        · cases h
        · rename_i sets hl
          split at h
          · cases h
          · rename_i k hk
            cases h
            obtain ⟨h1, h2⟩ := stackSets_ok he ha hl
            obtain ⟨K, hK, hik⟩ := ihk hkids hk
            have hb := hK.block (n := "g".toList) (validName_of_decide (by decide)) h1
            refine ⟨_, hF.append hb, fun up gs hup hg => ?_⟩
            simp only [layers, List.filter_append, List.reverse_append]
            rw [norm_append hF.elems, images_append, images_block, if_neg (by decide)]
            refine forall₂_append (hi up gs hup hg) (hik (a :: up) (readAttrs sets :: gs) ?_ (.cons h2 hg))
            intro x hx
            rcases List.mem_cons.mp hx with rfl | hx
            · exact hv
            · exact hup x hx
      · rename_i hv
        cases h
        refine ⟨F, hF, fun up gs hup hg => ?_⟩
        simp only [layers, List.filter_append]
        rw [layers_hidden env (up := a :: up) (fun hc => hv (hc a (List.mem_cons_self ..)))]
        exact hi up gs hup hg

theorem childrenOps_iff (env : Env) (f : Forest) : (∃ ops, childrenOps env f = .ok ops) ↔ Readable env f := by
  induction f with
  | nil => simp [childrenOps, Readable]
  | other rest ih => simpa [childrenOps, Readable] using ih
  | layer a rest ih =>
    rw [childrenOps, Readable, ← ih]
    cases childrenOps env rest with
    | error e => simp
    | ok r =>
      dsimp only
      by_cases hv : visible a = true
      · rw [if_pos hv]
        have hv' : a.visibility = some "visible".toList := of_decide_eq_true hv
        simp only [hv', forall_const, Except.ok.injEq, exists_eq', and_true]
        unfold layerSets
        cases a.src with
        | none => simp
        | some s =>
          dsimp only
          cases hsrc : env.sources s with
          | none => simp [hsrc]
          | some o =>
            cases o with
            | none => simp [hsrc]
            | some src =>
              simp only [toFloat_iff]
              cases toFloat env a.opacity with
              | error e => simp [hsrc]
              | ok o =>
                dsimp only
                cases toFloat env a.x with
                | error e => simp [hsrc]
                | ok x =>
                  dsimp only
                  cases toFloat env a.y <;> simp [hsrc]
      · rw [if_neg hv]
        have hv' : ¬ a.visibility = some "visible".toList := fun h => hv (decide_eq_true h)
        simp only [hv', false_imp_iff, true_and, Except.ok.injEq, exists_eq']
  | stack a kids rest ihk ihr =>
    rw [childrenOps, Readable, ← ihk, ← ihr]
    cases childrenOps env rest with
    | error e => simp
    | ok r =>
      dsimp only
      by_cases hv : visible a = true
      · rw [if_pos hv]
        have hv' : a.visibility = some "visible".toList := of_decide_eq_true hv
        simp only [hv', forall_const, Except.ok.injEq, exists_eq', and_true, toFloat_iff]
        unfold stackSets
        cases toFloat env a.opacity with
        | error e => simp
        | ok o =>
          dsimp only
          cases childrenOps env kids <;> simp
      · rw [if_neg hv]
        have hv' : ¬ a.visibility = some "visible".toList := fun h => hv (decide_eq_true h)
        simp only [hv', false_imp_iff, true_and, Except.ok.injEq, exists_eq']

/-- A sequence of calls that `Writes` a forest is written and read back. -/
theorem Writes.read {ops : List Op} {F : Xml.Spec.Forest} (h : Writes ops F) :
    ∃ x s, run {} ops = .ok x ∧ x.toString = .ok s ∧ readXml s = some (norm [] F) := by
  obtain ⟨op, ha⟩ := h.nested.arun {}
  have hd : SetsDistinct (seen {}) ops := by
    have := h.distinct [] sd_nil []
    rw [List.append_nil] at this
    exact setsDistinct_mono (by simp [seen]) this
  obtain ⟨x, hx, hg⟩ := good_init.go h.valid hd ha
  have hst : x.stack = [] := by rw [hg.stack]; rfl
  refine ⟨x, _, hx, by unfold Xml.toString; rw [if_pos (by rw [hst]; rfl)], ?_⟩
  have := (hg.toString (by unfold Xml.toString; rw [if_pos (by rw [hst]; rfl)])).2
  exact this

end Verif.Ora
