import Verif.Model.Todo
import Verif.Props.TextCalls
import Verif.Props.Headers

/-! # Property C143: placeholders -/

namespace Verif.Todo
open Verif.Text (Tok)
open Verif.Text.Spec (shown chars)
open Verif.Layout (Env fboxArgs)
open Verif.Layout.Spec (start extent mostSpecific)
open Verif.Slide (Call State run newSlide)
open Verif.Slide.Spec
open Verif.Scene.Spec (padded)

/-- The full statement is false: the name is read as marked up text. A name may be shown without some of its characters, and for some names an exception is raised. -/
theorem C143_name_false : ¬ (∀ (n : Str) (p next : Nat) (tw th : List Tok → Rat), n ≠ [] → ∃ toks cs, todo (.box (some n)) p next none tw th = .ok (toks, cs) ∧ chars toks = "TODO\n".toList ++ n) ∧
    ∃ toks cs, todo (.box (some "~tt{x}".toList)) 0 1 none (fun _ => 0) (fun _ => 0) = .ok (toks, cs) ∧ chars toks = "TODO\nx".toList := by
  constructor
  · intro h
    obtain ⟨toks, cs, h1, -⟩ := h "~a{".toList 0 1 (fun _ => 0) (fun _ => 0) (by decide +kernel)
    have : (match todo (.box (some "~a{".toList)) 0 1 none (fun _ => 0) (fun _ => 0) with | .ok _ => true | .error _ => false) = false := by decide +kernel
    rw [h1] at this
    cases this
  · have : (match todo (.box (some "~tt{x}".toList)) 0 1 none (fun _ => 0) (fun _ => 0) with | .ok (toks, _) => some (chars toks) | .error _ => none) = some "TODO\nx".toList := by decide +kernel
    split at this
    · rename_i toks cs h
      injection this with this
      exact ⟨toks, cs, h, this⟩
    · cases this

/-- The text that is meant. -/
def meant : Option Str → Str
  | none => "TODO".toList
  | some n => if n = [] then "TODO".toList else "TODO\n".toList ++ n

theorem todoText_meant (n : Option Str) : todoText n = meant n := by
  cases n with
  | none => rfl
  | some n => cases n <;> rfl

/-- **C143, the text.** If the name has no `~`: the placeholder shows `TODO`, and below it the name that was given or otherwise the one of the box, character by character without the line breaks at the end. Missing: names with `~`. -/
theorem C143_name_partial (boxName name : Option Str) (p next : Nat) (tw th : List Tok → Rat) (h : ∀ n, name.or boxName = some n → '~' ∉ n) :
    ∃ toks cs, todo (.box boxName) p next name tw th = .ok (toks, cs) ∧ shown [] toks = ((meant (name.or boxName)).rdropWhile (· == '\n')).map (fun c => (c, [])) := by
  have hn : nameFor (.box boxName) name = .ok (name.or boxName) := by cases name <;> rfl
  have hx : '~' ∉ todoText (name.or boxName) := by
    cases hnb : name.or boxName with
    | none => decide +kernel
    | some n =>
      have := h n hnb
      cases n with
      | nil => decide +kernel
      | cons c s =>
        intro hm
        rcases List.mem_append.mp hm with hm | hm
        · revert hm; decide +kernel
        · exact this hm
  obtain ⟨toks, h1, h2⟩ := Verif.Text.C05_box_text ['~'] (todoText (name.or boxName)) '~' '{' '}' (.one '~') hx
  exact ⟨toks, todoCalls p next (tw toks) (th toks), by simp only [todo, hn, h1], by rw [h2, todoText_meant]⟩

/-- The function of the changelog on the box of a slide named `intro`. -/
example : (match todo (.box (some "intro".toList)) 0 1 none (fun _ => 100) (fun _ => 60) with | .ok (toks, _) => some (chars toks) | .error _ => none) = some "TODO\nintro".toList := by decide +kernel

theorem fill_padded (pad : Rat) (axis : Bool) : SizeSays (extentArg axis (fboxArgs { padding := some pad })) { fill := 1 } := by cases axis <;> exact .text .fill

/-- The only stacked box in `p`, if it fills. -/
theorem fill_alone (pw ph : Rat) (cs : List Call) (s : State) (hr : run (newSlide pw ph) cs = .ok s) (width height : Rat) (env : Env) (he : s.rects width height = .ok env)
    (k p : Nat) (c : Verif.Slide.BoxCall) (pad : Rat) (hk : cs[k]? = some (.box p c)) (hc : c.layout = fboxArgs { padding := some pad }) (P : Rect) (hP : env p = some P)
    (hp : p = 0 ∨ ∃ b, madeBy cs p = some b) (hs : stackOf cs p = [(k + 1, c.layout)]) :
    env (k + 1) = some ⟨P.x + pad, P.y + pad, P.width - 2 * pad, P.height - 2 * pad⟩ := by
  obtain ⟨P', Rs, hP', hRs, -, -, hfill⟩ := Verif.Slide.C124_stack pw ph cs s hr width height env he p hp
  rw [hP] at hP'; injection hP' with hP'; subst hP'
  rw [hs] at hRs hfill
  obtain ⟨R1, Rs', ⟨q, hq, rfl⟩, hRs', rfl⟩ := List.forall₂_cons_left_iff.mp hRs
  rw [List.forall₂_nil_left_iff] at hRs'
  subst hRs'
  obtain ⟨f1, f2, -⟩ := hfill (by
    intro x hx
    rw [List.mem_singleton] at hx; subst hx
    rw [hc]; exact ⟨_, fill_padded pad _, rfl⟩) ⟨_, .head _, _, by rw [hc]; exact fill_padded pad _, by decide⟩
  have hfirst := f2 _ rfl
  obtain ⟨Pb, Rb, hPb, ⟨qb, hqb, rfl⟩, hpl⟩ := Verif.Slide.C124_box pw ph cs s hr width height env he k p c hk
  rw [hP] at hPb; injection hPb with hPb; subst hPb
  dsimp only at hqb hq
  rw [hq] at hqb; injection hqb with hqb; subst hqb
  have hax : ∀ axis, start axis (padded c.layout q) = start axis P ∧ extent axis (padded c.layout q) = extent axis P := by
    intro axis
    by_cases ha : axis = row cs p
    · subst ha
      refine ⟨hfirst, ?_⟩
      simpa using f1
    · obtain ⟨-, g2, g3⟩ := hpl axis
      have e := (g3 _ (by rw [hc]; exact fill_padded pad axis)).2.1 rfl (by decide) ha
      have e' := g2 (by rw [hc]; cases axis <;> rfl) ha
      dsimp only at e e'
      refine ⟨?_, e⟩
      rw [e] at e'
      linarith
  obtain ⟨a1, a2⟩ := hax true
  obtain ⟨a3, a4⟩ := hax false
  rw [hc] at a1 a2 a3 a4
  simp only [start, extent, padded, fboxArgs, mostSpecific, if_true, Bool.false_eq_true, if_false] at a1 a2 a3 a4
  rw [hq]
  obtain ⟨x, y, w, h⟩ := q
  dsimp only at *
  have d1 : x = P.x + pad := by linarith
  have d2 : y = P.y + pad := by linarith
  have d3 : w = P.width - 2 * pad := by linarith
  have d4 : h = P.height - 2 * pad := by linarith
  rw [d1, d2, d3, d4]

/-- **C143, the place.** A placeholder put into a box in which no other box is stacked: its outer frame is 3 inside of the box, its inner frame 23, however long the name is; `before` and `after` are any other calls. -/
theorem C143_place (pw ph : Rat) (before after : List Call) (on : On) (p : Nat) (name : Option Str) (tw th : List Tok → Rat) (toks : List Tok) (cs : List Call)
    (ht : todo on p (before.length + 1) name tw th = .ok (toks, cs))
    (hother : ∀ d ∈ before ++ after, ∀ c, d ≠ .box p c ∧ d ≠ .box (before.length + 1) c)
    (s : State) (hr : run (newSlide pw ph) (before ++ cs ++ after) = .ok s) (width height : Rat) (env : Env) (he : s.rects width height = .ok env)
    (P : Rect) (hP : env p = some P) (hp : p = 0 ∨ ∃ b, madeBy before p = some b) :
    env (before.length + 1) = some ⟨P.x + 3, P.y + 3, P.width - 6, P.height - 6⟩ ∧ env (before.length + 3) = some ⟨P.x + 23, P.y + 23, P.width - 46, P.height - 46⟩ := by
  have hcs : cs = todoCalls p (before.length + 1) (tw toks) (th toks) := by
    unfold todo at ht
    split at ht
    · cases ht
    · split at ht
      · cases ht
      · injection ht with ht
        injection ht with h1 h2
        subst h1
        exact h2.symm
  subst hcs
  generalize hall : before ++ todoCalls p (before.length + 1) (tw toks) (th toks) ++ after = all at hr
  have hple : p ≤ before.length := by
    rcases hp with rfl | ⟨b, hb⟩
    · omega
    · cases p with
      | zero => omega
      | succ j =>
        simp only [madeBy] at hb
        split at hb
        · rename_i hj; have := (List.getElem?_eq_some_iff.mp hj).1; omega
        · cases hb
  have hat : ∀ (j : Nat) d, (todoCalls p (before.length + 1) (tw toks) (th toks))[j]? = some d → all[before.length + j]? = some d := by
    intro j d hj
    rw [← hall, List.append_assoc, List.getElem?_append_right (by omega), Nat.add_sub_cancel_left]
    rw [List.getElem?_append_left (List.getElem?_eq_some_iff.mp hj).1]
    exact hj
  have k0 := hat 0 _ rfl
  have k2 := hat 2 _ rfl
  rw [Nat.add_zero] at k0
  have hcr : ∀ u b, u = p ∨ u = before.length + 1 → createdIn u b 1 all = createdIn u b (1 + before.length) (todoCalls p (before.length + 1) (tw toks) (th toks)) := by
    intro u b hu
    have hno : ∀ d ∈ before ++ after, ∀ c, d ≠ .box u c := by
      intro d hd c
      rcases hu with rfl | rfl
      · exact (hother d hd c).1
      · exact (hother d hd c).2
    rw [← hall, List.append_assoc, Verif.Slide.createdIn_append, Verif.Slide.createdIn_append,
      Verif.Slide.createdIn_none (fun d hd => hno _ (List.mem_append_left _ hd) d rfl), Verif.Slide.createdIn_none (cs := after) (fun d hd => hno _ (List.mem_append_right _ hd) d rfl)]
    simp
  have m1 : madeBy all (before.length + 1) = some (fboxArgs { padding := some 3 }) := by simp [madeBy, k0]
  have m3 : madeBy all (before.length + 2 + 1) = some (fboxArgs { padding := some 20 }) := by simp [madeBy, k2]
  have hpn : ∀ axis pad, posArg axis (fboxArgs { padding := some pad }) = .none := by intro axis pad; cases axis <;> rfl
  have st1 : stackOf all p = [(before.length + 1, fboxArgs { padding := some 3 })] := by
    have e1 : createdIn p true 1 all = [] := by
      rw [hcr p true (.inl rfl)]
      simp [todoCalls, createdIn, fboxArgs]
    have e2 : createdIn p false 1 all = [before.length + 1] := by
      rw [hcr p false (.inl rfl)]
      have : ¬ before.length + 1 = p := by omega
      simp [todoCalls, createdIn, fboxArgs, this, Nat.add_comm]
    simp [stackOf, inOrder, e1, e2, unplaced, m1, hpn]
  have st2 : stackOf all (before.length + 1) = [(before.length + 2 + 1, fboxArgs { padding := some 20 })] := by
    have hne : ¬ p = before.length + 1 := by omega
    have e1 : createdIn (before.length + 1) true 1 all = [] := by
      rw [hcr _ true (.inr rfl)]
      simp [todoCalls, createdIn, fboxArgs]
    have e2 : createdIn (before.length + 1) false 1 all = [before.length + 2 + 1] := by
      rw [hcr _ false (.inr rfl)]
      simp [todoCalls, createdIn, fboxArgs, hne]
      omega
    simp [stackOf, inOrder, e1, e2, unplaced, m3, hpn]
  have hp' : p = 0 ∨ ∃ b, madeBy all p = some b := by
    rcases hp with h | ⟨b, hb⟩
    · exact .inl h
    · refine .inr ⟨b, ?_⟩
      cases p with
      | zero => cases hb
      | succ j =>
        simp only [madeBy] at hb ⊢
        rw [← hall, List.append_assoc, List.getElem?_append_left (by omega)]
        exact hb
  have h1 := fill_alone pw ph all s hr width height env he before.length p _ 3 k0 rfl P hP hp' st1
  have h2 := fill_alone pw ph all s hr width height env he (before.length + 2) (before.length + 1) _ 20 k2 rfl _ h1 (.inr ⟨_, m1⟩) st2
  refine ⟨by rw [h1]; norm_num, ?_⟩
  rw [show before.length + 3 = before.length + 2 + 1 from rfl, h2]
  congr 2 <;> ring

/-- In the box that `init_slide` of the documentation returns (C142). -/
example : (match todo (.box none) 5 6 (some "results".toList) (fun _ => 2000) (fun _ => 1000) with
    | .ok (_, cs) => (match run (newSlide 1024 768) (initSlide ['1', '0'] 10 10 130 34 ++ cs) with
      | .ok s => (match s.rects 1024 768 with | .ok env => [5, 6, 8].map env | .error _ => [])
      | .error _ => [])
    | .error _ => []) = [some ⟨0, 384 / 5, 1024, 3456 / 5⟩, some ⟨3, 399 / 5, 1018, 3426 / 5⟩, some ⟨23, 499 / 5, 978, 3226 / 5⟩] := by decide +kernel

end Verif.Todo
