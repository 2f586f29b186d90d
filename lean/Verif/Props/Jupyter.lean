import Verif.Model.Jupyter
import Verif.Proofs.Deck
import Mathlib.Data.List.Infix

/-! # Property C81: a slide in a notebook -/

namespace Verif.Jupyter

/-! ### Specification -/

/-- The step shown after a click, of `n` steps. -/
def walkStep (n : Nat) (k : Nat) (next : Bool) : Nat := if next then min (k + 1) n else max (k - 1) 1

/-- The step shown after some clicks. -/
def walk (n : Nat) (cs : List Bool) : Nat := cs.foldl (walkStep n) 1

/-- What the reader sees. -/
def visible (p : Page) : List Str := (p.fragments.filter (·.shown)).map (·.content)

/-! ### Proof -/

/-- The fragments of a page with those shown that are chosen by `f`, numbered from `m`. -/
def frags (f : Nat → Bool) (contents : List Str) (m : Nat) : List Fragment :=
  (contents.zipIdx m).map fun c => { classes := ["elsie-step".toList, "step-".toList ++ natStr (c.2 + 1)], content := c.1, shown := f (c.2 + 1) }

theorem frags_cons (f : Nat → Bool) (c : Str) (cs : List Str) (m : Nat) :
    frags f (c :: cs) m = { classes := ["elsie-step".toList, "step-".toList ++ natStr (m + 1)], content := c, shown := f (m + 1) } :: frags f cs (m + 1) := rfl

theorem hide_frags (f : Nat → Bool) : ∀ (cs : List Str) (m : Nat), (frags f cs m).map hide = frags (fun _ => false) cs m
  | [], _ => rfl
  | c :: cs, m => by
    rw [frags_cons, frags_cons, List.map_cons, hide_frags f cs (m + 1)]
    rfl

theorem frags_congr {f g : Nat → Bool} : ∀ (cs : List Str) (m : Nat), (∀ i, m < i → f i = g i) → frags f cs m = frags g cs m
  | [], _, _ => rfl
  | c :: cs, m, h => by
    rw [frags_cons, frags_cons, frags_congr cs (m + 1) fun i hi => h i (by omega), h (m + 1) (by omega)]

theorem step_class {i k : Nat} : "step-".toList ++ natStr k ∈ ["elsie-step".toList, "step-".toList ++ natStr i] ↔ k = i := by
  constructor
  · intro h
    rcases List.mem_cons.mp h with h | h
    · exact absurd h (by simp)
    · rw [List.mem_singleton] at h
      exact Deck.natStr_inj (List.append_cancel_left h)
  · rintro rfl
    simp

theorem showFirst_frags : ∀ (cs : List Str) (m k : Nat), m < k → k ≤ m + cs.length →
    showFirst "elsie-step".toList ("step-".toList ++ natStr k) (frags (fun _ => false) cs m) = some (frags (fun i => i == k) cs m)
  | [], m, k, h1, h2 => by simp at h2; omega
  | c :: cs, m, k, h1, h2 => by
    rw [frags_cons, frags_cons, showFirst]
    by_cases hk : k = m + 1
    · subst hk
      rw [if_pos ⟨by simp, step_class.mpr rfl⟩]
      rw [frags_congr (f := fun _ => false) (g := fun i => i == m + 1) cs (m + 1) fun i hi => by simp; omega]
      simp
    · rw [if_neg fun h => hk (step_class.mp h.2), showFirst_frags cs (m + 1) k (by omega) (by simp at h2; omega)]
      have : (m + 1 == k) = false := by simp; omega
      simp [this]

theorem visible_frags : ∀ (cs : List Str) (m k : Nat), m < k → ((frags (fun i => i == k) cs m).filter (·.shown)).map (·.content) = (cs[k - m - 1]?).toList
  | [], _, _, _ => rfl
  | c :: cs, m, k, h => by
    rw [frags_cons]
    by_cases hk : k = m + 1
    · subst hk
      rw [List.filter_cons_of_pos (by simp), frags_congr (f := fun i => i == m + 1) (g := fun i => i == m) cs (m + 1) fun i hi => by
        have h1 : (i == m + 1) = false := by simp; omega
        have h2 : (i == m) = false := by simp; omega
        rw [h1, h2]]
      have : (frags (fun i => i == m) cs (m + 1)).filter (·.shown) = [] := by
        rw [List.filter_eq_nil_iff]
        intro f hf
        obtain ⟨x, hx, rfl⟩ := List.mem_map.mp hf
        have := List.le_snd_of_mem_zipIdx hx
        simp
        omega
      rw [this]
      simp
    · rw [List.filter_cons_of_neg (by simp; omega), visible_frags cs (m + 1) k (by omega)]
      have : k - m - 1 = (k - (m + 1) - 1) + 1 := by omega
      rw [this, List.getElem?_cons_succ]

/-- The page at step `k`. -/
def pageAt (contents : List Str) (k : Nat) : Page :=
  { fragments := frags (fun i => i == k) contents 0
    controls := some { nextDisabled := k ≥ contents.length, previousDisabled := k ≤ 1, text := "Fragment: ".toList ++ natStr k }
    active := k }

theorem intStr_nat (k : Nat) : intStr (k : Int) = natStr k := by
  unfold intStr
  rw [if_neg (by omega)]
  rfl

theorem updateState_frags (contents : List Str) (f : Nat → Bool) (c : Controls) (k : Nat) (h1 : 1 ≤ k) (h2 : k ≤ contents.length) :
    updateState contents.length k { fragments := frags f contents 0, controls := some c, active := k } = some (pageAt contents k) := by
  unfold updateState
  simp only [hide_frags, intStr_nat]
  rw [showFirst_frags contents 0 k (by omega) (by omega)]
  unfold pageAt
  simp only [ge_iff_le, Nat.cast_le, Nat.cast_le_one]

theorem click_pageAt (contents : List Str) (next : Bool) (k : Nat) (h1 : 1 ≤ k) (h2 : k ≤ contents.length) :
    click contents next (pageAt contents k) = some (pageAt contents (walkStep contents.length k next)) ∧
    1 ≤ walkStep contents.length k next ∧ walkStep contents.length k next ≤ contents.length := by
  have hw : 1 ≤ walkStep contents.length k next ∧ walkStep contents.length k next ≤ contents.length := by
    unfold walkStep; split <;> omega
  refine ⟨?_, hw⟩
  have hactive : newActive contents.length (if next then 1 else -1) k = (walkStep contents.length k next : Nat) := by
    unfold walkStep newActive
    cases next
    · simp only [Bool.false_eq_true, if_false]
      split <;> omega
    · simp only [if_true]
      split <;> omega
  unfold click moveStep
  have hp : (pageAt contents k).active = k := rfl
  rw [hp, hactive]
  exact updateState_frags contents (fun i => i == k) { nextDisabled := k ≥ contents.length, previousDisabled := k ≤ 1, text := "Fragment: ".toList ++ natStr k } _ hw.1 hw.2

theorem clicks_pageAt (contents : List Str) : ∀ (cs : List Bool) (k : Nat), 1 ≤ k → k ≤ contents.length →
    clicks contents cs (pageAt contents k) = some (pageAt contents (cs.foldl (walkStep contents.length) k)) ∧
    1 ≤ cs.foldl (walkStep contents.length) k ∧ cs.foldl (walkStep contents.length) k ≤ contents.length
  | [], k, h1, h2 => ⟨rfl, h1, h2⟩
  | c :: cs, k, h1, h2 => by
    obtain ⟨h3, h4, h5⟩ := click_pageAt contents c k h1 h2
    rw [clicks, h3, List.foldl_cons]
    exact clicks_pageAt contents cs _ h4 h5

theorem openPage_many (contents : List Str) (h : 1 < contents.length) : openPage contents = some (pageAt contents 1) := by
  have hf : fragmentsOf contents = frags (fun _ => true) contents 0 := rfl
  have hlen : (frags (fun _ => true) contents 0).length = contents.length := by simp [frags]
  unfold openPage
  simp only [hf, hlen]
  rw [if_pos h]
  exact updateState_frags contents _ _ 1 (by omega) (by omega)

/-- **C81**: in a notebook, whatever buttons are clicked, the script does not fail and the reader sees exactly one step of the slide, the one reached by walking from step 1 and stopping at the first and the
last step. The number shown is the number of that step, and a button is disabled exactly if it leads nowhere. -/
theorem C81_notebook (contents : List Str) (h : 1 < contents.length) (cs : List Bool) :
    ∃ page c content, (openPage contents).bind (clicks contents cs) = some page ∧ page.controls = some c ∧
      contents[walk contents.length cs - 1]? = some content ∧ 1 ≤ walk contents.length cs ∧ walk contents.length cs ≤ contents.length ∧
      visible page = [content] ∧ c.text = "Fragment: ".toList ++ Nat.toDigits 10 (walk contents.length cs) ∧
      (c.nextDisabled = true ↔ walk contents.length cs = contents.length) ∧ (c.previousDisabled = true ↔ walk contents.length cs = 1) := by
  obtain ⟨h1, h2, h3⟩ := clicks_pageAt contents cs 1 (by omega) (by omega)
  have hlt : walk contents.length cs - 1 < contents.length := by unfold walk; omega
  refine ⟨_, _, contents[walk contents.length cs - 1], by rw [openPage_many contents h]; exact h1, rfl, List.getElem?_eq_getElem hlt, h2, h3, ?_, rfl, ?_, ?_⟩
  · unfold visible pageAt
    rw [visible_frags contents 0 _ (by omega)]
    change (contents[walk contents.length cs - 0 - 1]?).toList = _
    rw [Nat.sub_zero, List.getElem?_eq_getElem hlt]
    rfl
  · simp only [decide_eq_true_eq]
    unfold walk at *
    omega
  · simp only [decide_eq_true_eq]
    unfold walk at *
    omega

/-- Going forward shows the steps one after the other, up to the last. -/
theorem C81_forward (n k : Nat) (h : 1 ≤ n) : walk n (List.replicate k true) = min (k + 1) n := by
  induction k with
  | zero => simp [walk]; omega
  | succ k ih =>
    rw [List.replicate_succ', walk, List.foldl_append]
    change walkStep n (walk n (List.replicate k true)) true = _
    rw [ih]
    simp only [walkStep, if_true]
    omega

/-- And a click back undoes a click forward, except at the last step. -/
theorem C81_back (n : Nat) (cs : List Bool) (h : walk n cs < n) (h1 : 1 ≤ walk n cs) : walk n (cs ++ [true, false]) = walk n cs := by
  rw [walk, List.foldl_append]
  change walkStep n (walkStep n (walk n cs) true) false = _
  simp only [walkStep, if_true, Bool.false_eq_true, if_false]
  omega

/-- A slide with one step is shown as it is. -/
theorem C81_single (content : Str) : ∃ page, openPage [content] = some page ∧ page.controls = none ∧ visible page = [content] := ⟨_, rfl, rfl, rfl⟩

example : ((openPage ["a".toList, "b".toList, "c".toList]).bind (clicks ["a".toList, "b".toList, "c".toList] [true, true, true, false])).map visible = some ["b".toList] := by decide +kernel

end Verif.Jupyter
