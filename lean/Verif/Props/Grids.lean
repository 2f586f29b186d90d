import Verif.Props.Need
import Verif.Props.WholeSlide
import Verif.Props.History
import Verif.Spec.Grids
import Mathlib.Tactic.Linarith
import Mathlib.Tactic.Ring

/-! # Property C141: grids -/

namespace Verif.Slide
open Verif.Layout (Attrs Forest Env newAttrs Arg Pos Size BoxArgs)
open Verif.Layout.Spec Verif.Slide.Spec
open Verif.Scene.Spec (padded)

theorem chain_even {axis : Bool} {e : Rat} : ∀ {Rs : List Rect} {q : Rect}, (q :: Rs).IsChain (fun q r => start axis r = start axis q + extent axis q) → (∀ r ∈ q :: Rs, extent axis r = e) →
    ∀ (i : Nat) r, (q :: Rs)[i]? = some r → start axis r = start axis q + i * e := by
  intro Rs
  induction Rs with
  | nil =>
    intro q _ _ i r h
    cases i with
    | zero => injection h with h; subst h; simp
    | succ i => cases h
  | cons q' Rs ih =>
    intro q hc he i r h
    rw [List.isChain_cons_cons] at hc
    cases i with
    | zero => injection h with h; subst h; simp
    | succ i =>
      rw [ih hc.2 (fun r hr => he r (.tail _ hr)) i r h, hc.1, he q List.mem_cons_self]
      push_cast
      ring

/-- Boxes of equal size side by side in the middle. -/
theorem even_starts {axis : Bool} {e : Rat} {Rs : List Rect} {P : Rect} (hc : Rs.IsChain (fun q r => start axis r = start axis q + extent axis q)) (he : ∀ r ∈ Rs, extent axis r = e)
    (hm : ∀ first last, Rs.head? = some first → Rs.getLast? = some last → start axis first - start axis P = (start axis P + extent axis P) - (start axis last + extent axis last))
    (i : Nat) (r : Rect) (h : Rs[i]? = some r) : start axis r = start axis P + (extent axis P - Rs.length * e) / 2 + i * e := by
  cases Rs with
  | nil => cases h
  | cons q Rs =>
    have h1 := chain_even hc he i r h
    have hl : (q :: Rs)[Rs.length]? = some ((q :: Rs).getLast (List.cons_ne_nil _ _)) := by
      rw [List.getLast_eq_getElem]
      simp
    have h2 := chain_even hc he _ _ hl
    have h3 := hm q _ rfl (List.getLast?_eq_some_getLast (List.cons_ne_nil _ _))
    rw [he _ (List.getLast_mem _), h2] at h3
    rw [h1, List.length_cons]
    push_cast
    linarith

theorem stackOf_mem {cs : List Call} {p : Nat} {x : Nat × BoxArgs} (h : x ∈ stackOf cs p) : ∃ (k : Nat) (c : BoxCall), x = (k + 1, c.layout) ∧ cs[k]? = some (.box p c) ∧ madeBy cs x.1 = some x.2 ∧
    posArg (row cs p) x.2 = .none := by
  obtain ⟨v, hv, hvx⟩ := List.mem_filterMap.mp h
  have hc : ∃ k c, v = 1 + k ∧ cs[k]? = some (.box p c) := by
    rcases List.mem_append.mp hv with hv | hv
    · exact createdIn_call (List.mem_reverse.mp hv)
    · exact createdIn_call hv
  obtain ⟨k, c, rfl, hk⟩ := hc
  have hmb : madeBy cs (1 + k) = some c.layout := by rw [Nat.add_comm]; simp [madeBy, hk]
  unfold unplaced at hvx
  rw [hmb] at hvx
  dsimp only at hvx
  split at hvx
  · rename_i hpos
    injection hvx with hvx
    subst hvx
    exact ⟨k, c, by rw [Nat.add_comm], hk, hmb, hpos⟩
  · cases hvx

theorem largest_eq {q : Rat} {l : List Rat} (h : ∀ x ∈ l, x ≤ q) : largest (q :: l) = q := by
  simp only [largest]
  induction l with
  | nil => rfl
  | cons x l ih => rw [List.foldl_cons, max_eq_left (h x List.mem_cons_self)]; exact ih (fun y hy => h y (.tail _ hy))

theorem largest_same {q : Rat} {l : List Rat} (hne : l ≠ []) (h : ∀ x ∈ l, x = q) : largest l = q := by
  cases l with
  | nil => exact absurd rfl hne
  | cons x l =>
    have hx := h x List.mem_cons_self
    subst hx
    exact largest_eq (fun y hy => le_of_eq (h y (.tail _ hy)))

theorem sum_same {q : Rat} {l : List Rat} (h : ∀ x ∈ l, x = q) : l.sum = l.length * q := by
  induction l with
  | nil => simp
  | cons x l ih =>
    rw [List.sum_cons, ih (fun y hy => h y (.tail _ hy)), h x List.mem_cons_self, List.length_cons]
    push_cast
    ring

theorem map_fst {cs : List Call} {p : Nat} {ids : List Nat} (h : (stackOf cs p).map (·.1) = ids) (f : Nat → Rat) : (stackOf cs p).map (fun x => f x.1) = ids.map f := by
  rw [← h, List.map_map]; rfl

/-- **C141.** The recipe for grids: in a box whose stacked boxes are `R` rows, made with `horizontal=True, p_bottom=gy`, each of which holds `C` cells, made with `width=w, height=h, p_right=gx`,
all cells are of the same size `w - gx` × `h`, the cells of a row have the same `y` and are `gx` apart, the cells of a column have the same `x` and are `gy` apart, and the grid with the paddings
is in the middle of the box; provided the contents of the cells are not larger. -/
theorem C141_grid (pw ph : Rat) (cs : List Call) (s : State) (hr : run (newSlide pw ph) cs = .ok s) (width height : Rat) (env : Env) (he : s.rects width height = .ok env)
    (p : Nat) (hp : p = 0 ∨ ∃ b, madeBy cs p = some b) (P : Rect) (hP : env p = some P) (R C : Nat) (w h gx gy : Rat) (hw : 0 ≤ gx ∧ gx ≤ w) (hh : 0 ≤ h) (hg : 0 ≤ gy) (rowId : Nat → Nat) (cellId : Nat → Nat → Nat)
    (g : Grid cs p R C w h gx gy rowId cellId) (r c : Nat) (hrR : r < R) (hcC : c < C) :
    env (cellId r c) = some ⟨P.x + (P.width - C * w) / 2 + c * w, P.y + (P.height - R * (h + gy)) / 2 + r * (h + gy), w - gx, h⟩ := by
  obtain ⟨need, n1, n2⟩ := C139_sizes pw ph cs s hr width height env he
  have hpads : padsOf true (cellArgs w h gx) = gx ∧ padsOf false (cellArgs w h gx) = 0 ∧ padsOf true (rowArgs gy) = 0 ∧ padsOf false (rowArgs gy) = gy := by
    simp [padsOf, cellArgs, rowArgs, mostSpecific]
  -- what the cells need
  have ncell : ∀ r < R, ∀ c < C, ∀ axis, need axis (cellId r c) = if axis then w else h := by
    intro r hrR c hcC axis
    obtain ⟨f1, f2, f3⟩ := g.fits r hrR c hcC
    have hsz : SizeSays (extentArg axis (cellArgs w h gx)) { minSize := if axis then w else h } := by cases axis <;> exact .number
    rw [n1 axis _ _ _ (g.cellMade r hrR c hcC) hsz (fun p' iw ih st hm hp' => absurd hp' (f2 p' iw ih st hm))]
    have ht : together cs need axis (cellId r c) = 0 := by unfold together; rw [f1]; dsimp only; split <;> rfl
    rw [ht]
    apply largest_eq
    intro x hx
    rw [List.map_cons] at hx
    rcases List.mem_cons.mp hx with rfl | hx
    · cases axis
      · simpa [hpads.2.1] using hh
      · simpa [hpads.1] using hw.2
    · obtain ⟨q, hq, rfl⟩ := List.mem_map.mp hx
      exact f3 axis q hq
  -- what the rows need
  have nrow : ∀ r < R, ∀ axis, need axis (rowId r) = if axis then C * w else h + gy := by
    intro r hrR axis
    have hsz : SizeSays (extentArg axis (rowArgs gy)) {} := by cases axis <;> exact .nothing
    have hno : cs.filterMap (asks axis (rowId r) (rowArgs gy)) = [] := by
      rw [List.filterMap_eq_nil_iff]
      intro d hd
      have := g.bare r hrR d hd
      cases d with
      | text q _ _ _ => simp only [asks]; rw [if_neg (fun h => this h.1)]
      | image q _ _ _ => simp only [asks]; rw [if_neg this]
      | box => rfl
      | shape => rfl
    rw [n1 axis _ _ _ (g.made r hrR) hsz (fun p' iw ih st hm hp' => absurd hp' (g.bare r hrR _ hm)), hno]
    have hrow : row cs (rowId r) = true := by simp [row, g.made r hrR, rowArgs]
    have hns : ∀ axis, (stackOf cs (rowId r)).map (fun x => need axis x.1) = (List.range C).map (fun c => need axis (cellId r c)) := by
      intro axis
      rw [map_fst (g.cells r hrR), List.map_map]; rfl
    have hall : ∀ axis, ∀ x ∈ (List.range C).map (fun c => need axis (cellId r c)), x = if axis then w else h := by
      intro axis x hx
      obtain ⟨c', hc', rfl⟩ := List.mem_map.mp hx
      exact ncell r hrR c' (List.mem_range.mp hc') axis
    unfold together
    rw [hns, hrow]
    cases axis
    · have : largest ((List.range C).map (fun c => need false (cellId r c))) = h :=
        largest_same (by rw [Ne, List.map_eq_nil_iff, List.range_eq_nil]; omega) (hall false)
      dsimp only
      rw [if_neg (by decide), this, hpads.2.2.2]
      simp only [List.map_cons, List.map_nil, largest, List.foldl_cons, List.foldl_nil]
      exact max_eq_right (by linarith)
    · have : ((List.range C).map (fun c => need true (cellId r c))).sum = C * w := by
        rw [sum_same (hall true)]; simp
      simp only [if_true, this, List.map_cons, List.map_nil, hpads.2.2.1, largest, List.foldl_cons, List.foldl_nil, add_zero]
      exact max_eq_right (mul_nonneg (Nat.cast_nonneg C) (by linarith [hw.1, hw.2]))
  -- sizes
  have hext : ∀ u b axis m, madeBy cs u = some b → SizeSays (extentArg axis b) { minSize := m } → ∀ q, env u = some q → extent axis (padded b q) = need axis u := by
    intro u b axis m hb hsz q hq
    cases u with
    | zero => cases hb
    | succ k =>
      simp only [madeBy] at hb
      split at hb
      · rename_i p' c' hk
        injection hb with hb
        subst hb
        obtain ⟨P', R', -, ⟨q', hq', rfl⟩, h3, -⟩ := n2 k p' c' axis _ hk hsz rfl rfl
        rw [hq] at hq'; injection hq' with hq'; subst hq'
        exact h3 rfl
      · cases hb
  -- the rows
  have hrow : ∀ r < R, ∃ q, env (rowId r) = some q ∧ q.x = P.x + (P.width - C * w) / 2 ∧ q.y = P.y + (P.height - R * (h + gy)) / 2 + r * (h + gy) ∧ q.width = C * w ∧ q.height = h := by
    intro r hrR
    obtain ⟨P', Rs, hP', hRs, hch, hmid, -⟩ := C124_stack pw ph cs s hr width height env he p hp
    rw [hP] at hP'; injection hP' with hP'; subst hP'
    rw [g.column] at hch hmid
    have hlen : (stackOf cs p).length = R := by rw [← List.length_map (f := (·.1)), g.rows]; simp
    have hx : ∀ i < R, ∃ hi : i < (stackOf cs p).length, ((stackOf cs p)[i]).1 = rowId i := by
      intro i hi
      refine ⟨by rw [hlen]; exact hi, ?_⟩
      have : ((stackOf cs p).map (·.1))[i]? = some (rowId i) := by rw [g.rows]; simp [hi]
      rw [List.getElem?_map] at this
      obtain ⟨x, hx1, hx2⟩ := Option.map_eq_some_iff.mp this
      obtain ⟨_, hx3⟩ := List.getElem?_eq_some_iff.mp hx1
      rw [hx3, hx2]
    have hargs : ∀ x ∈ stackOf cs p, x.2 = rowArgs gy ∧ ∃ i < R, x.1 = rowId i := by
      intro x hm
      obtain ⟨i, hi, rfl⟩ := List.getElem_of_mem hm
      obtain ⟨_, hid⟩ := hx i (by rw [← hlen]; exact hi)
      obtain ⟨_, _, _, _, hmb, _⟩ := stackOf_mem hm
      rw [hid, g.made i (by rw [← hlen]; exact hi)] at hmb
      injection hmb with hmb
      exact ⟨hmb.symm, i, by rw [← hlen]; exact hi, hid⟩
    have hexts : ∀ axis, ∀ R' ∈ Rs, extent axis R' = if axis then C * w else h + gy := by
      intro axis R' hR'
      obtain ⟨i, hi, rfl⟩ := List.getElem_of_mem hR'
      have hi' : i < (stackOf cs p).length := by rw [hRs.length_eq]; exact hi
      obtain ⟨q, hq, hRq⟩ := List.Forall₂.get hRs hi' hi
      simp only [List.get_eq_getElem] at hq hRq
      obtain ⟨ha, j, hj, hid⟩ := hargs _ (List.getElem_mem hi')
      rw [hRq, ha, hext _ _ axis 0 (by rw [hid]; exact g.made j hj) (by cases axis <;> exact .nothing) q hq, hid, nrow j hj]
    obtain ⟨hi, hid⟩ := hx r hrR
    have hi2 : r < Rs.length := by rw [← hRs.length_eq]; exact hi
    obtain ⟨q, hq, hRq⟩ := List.Forall₂.get hRs hi hi2
    simp only [List.get_eq_getElem] at hq hRq
    obtain ⟨ha, -⟩ := hargs _ (List.getElem_mem hi)
    rw [ha] at hRq
    rw [hid] at hq
    have hstart := even_starts hch (hexts false) (hmid (by
      intro x hm
      rw [(hargs x hm).1]
      exact ⟨{}, .nothing, rfl, rfl⟩)) r _ (List.getElem?_eq_getElem hi2)
    have e1 := hexts true _ (List.getElem_mem hi2)
    have e2 := hexts false _ (List.getElem_mem hi2)
    obtain ⟨k, c', hxk, hk, hmb, -⟩ := stackOf_mem (List.getElem_mem hi)
    obtain ⟨P', R', hP', ⟨q', hq', hR'⟩, hpl⟩ := C124_box pw ph cs s hr width height env he k p c' hk
    rw [hP] at hP'; injection hP' with hP'; subst hP'
    have hk1 : k + 1 = rowId r := by rw [← hid, hxk]
    have hk2 : c'.layout = rowArgs gy := by rw [← ha, hxk]
    dsimp only at hq' hR'
    rw [hk1, hq] at hq'; injection hq' with hq'; subst hq'
    rw [hk2, ← hRq] at hR'
    subst hR'
    have hcross := (hpl true).2.1 (by rw [hk2]; rfl) (by rw [g.column]; decide)
    have hRlen : (Rs.length : Rat) = R := by rw [← hRs.length_eq, hlen]
    rw [hRlen] at hstart
    rw [hRq] at hstart e1 e2 hcross
    simp only [start, extent, padded, rowArgs, mostSpecific, if_true, Bool.false_eq_true, if_false, sub_zero, add_zero] at hstart e1 e2 hcross
    refine ⟨q, hq, ?_, ?_, ?_, ?_⟩ <;> linarith
  -- the cells
  obtain ⟨q0, hq0, x0, y0, w0, h0⟩ := hrow r hrR
  obtain ⟨P', Rs, hP', hRs, hch, hmid, -⟩ := C124_stack pw ph cs s hr width height env he (rowId r) (.inr ⟨_, g.made r hrR⟩)
  rw [hq0] at hP'; injection hP' with hP'; subst hP'
  have hrw : row cs (rowId r) = true := by simp [row, g.made r hrR, rowArgs]
  rw [hrw] at hch hmid
  have hlen : (stackOf cs (rowId r)).length = C := by rw [← List.length_map (f := (·.1)), g.cells r hrR]; simp
  have hx : ∀ i < C, ∃ hi : i < (stackOf cs (rowId r)).length, ((stackOf cs (rowId r))[i]).1 = cellId r i := by
    intro i hi
    refine ⟨by rw [hlen]; exact hi, ?_⟩
    have : ((stackOf cs (rowId r)).map (·.1))[i]? = some (cellId r i) := by rw [g.cells r hrR]; simp [hi]
    rw [List.getElem?_map] at this
    obtain ⟨x, hx1, hx2⟩ := Option.map_eq_some_iff.mp this
    obtain ⟨_, hx3⟩ := List.getElem?_eq_some_iff.mp hx1
    rw [hx3, hx2]
  have hargs : ∀ x ∈ stackOf cs (rowId r), x.2 = cellArgs w h gx ∧ ∃ i < C, x.1 = cellId r i := by
    intro x hm
    obtain ⟨i, hi, rfl⟩ := List.getElem_of_mem hm
    obtain ⟨_, hid⟩ := hx i (by rw [← hlen]; exact hi)
    obtain ⟨_, _, _, _, hmb, _⟩ := stackOf_mem hm
    rw [hid, g.cellMade r hrR i (by rw [← hlen]; exact hi)] at hmb
    injection hmb with hmb
    exact ⟨hmb.symm, i, by rw [← hlen]; exact hi, hid⟩
  have hexts : ∀ axis, ∀ R' ∈ Rs, extent axis R' = if axis then w else h := by
    intro axis R' hR'
    obtain ⟨i, hi, rfl⟩ := List.getElem_of_mem hR'
    have hi' : i < (stackOf cs (rowId r)).length := by rw [hRs.length_eq]; exact hi
    obtain ⟨q, hq, hRq⟩ := List.Forall₂.get hRs hi' hi
    simp only [List.get_eq_getElem] at hq hRq
    obtain ⟨ha, j, hj, hid⟩ := hargs _ (List.getElem_mem hi')
    rw [hRq, ha, hext _ _ axis (if axis then w else h) (by rw [hid]; exact g.cellMade r hrR j hj) (by cases axis <;> exact .number) q hq, hid, ncell r hrR j hj]
  obtain ⟨hi, hid⟩ := hx c hcC
  have hi2 : c < Rs.length := by rw [← hRs.length_eq]; exact hi
  obtain ⟨q, hq, hRq⟩ := List.Forall₂.get hRs hi hi2
  simp only [List.get_eq_getElem] at hq hRq
  obtain ⟨ha, -⟩ := hargs _ (List.getElem_mem hi)
  rw [ha] at hRq
  rw [hid] at hq
  have hstart := even_starts hch (hexts true) (hmid (by
    intro x hm
    rw [(hargs x hm).1]
    exact ⟨_, .number, rfl, rfl⟩)) c _ (List.getElem?_eq_getElem hi2)
  have e1 := hexts true _ (List.getElem_mem hi2)
  have e2 := hexts false _ (List.getElem_mem hi2)
  obtain ⟨k, c', hxk, hk, hmb, -⟩ := stackOf_mem (List.getElem_mem hi)
  obtain ⟨P', R', hP', ⟨q', hq', hR'⟩, hpl⟩ := C124_box pw ph cs s hr width height env he k (rowId r) c' hk
  rw [hq0] at hP'; injection hP' with hP'; subst hP'
  have hk1 : k + 1 = cellId r c := by rw [← hid, hxk]
  have hk2 : c'.layout = cellArgs w h gx := by rw [← ha, hxk]
  dsimp only at hq' hR'
  rw [hk1, hq] at hq'; injection hq' with hq'; subst hq'
  rw [hk2, ← hRq] at hR'
  subst hR'
  have hcross := (hpl false).2.1 (by rw [hk2]; rfl) (by rw [hrw]; decide)
  have hRlen : (Rs.length : Rat) = C := by rw [← hRs.length_eq, hlen]
  rw [hRlen] at hstart
  rw [hRq] at hstart e1 e2 hcross
  simp only [start, extent, padded, cellArgs, mostSpecific, if_true, Bool.false_eq_true, if_false, sub_zero, add_zero] at hstart e1 e2 hcross
  rw [hq]
  obtain ⟨qx, qy, qw, qh⟩ := q
  dsimp only at *
  have a1 : qx = P.x + (P.width - C * w) / 2 + c * w := by linarith
  have a2 : qy = P.y + (P.height - R * (h + gy)) / 2 + r * (h + gy) := by linarith
  have a3 : qw = w - gx := by linarith
  have a4 : qh = h := by linarith
  rw [a1, a2, a3, a4]

/-! ### the program of the documentation -/

theorem createdIn_append (p : Nat) (b : Bool) (l1 l2 : List Call) : ∀ n, createdIn p b n (l1 ++ l2) = createdIn p b n l1 ++ createdIn p b (n + l1.length) l2 := by
  induction l1 with
  | nil => intro n; rfl
  | cons d l1 ih =>
    intro n
    have e : n + (d :: l1).length = n + 1 + l1.length := by simp; omega
    rw [e]
    cases d with
    | box q d =>
      simp only [List.cons_append, createdIn, ih]
      split <;> rfl
    | _ => simp only [List.cons_append, createdIn, ih]

theorem length_blocks {f : Nat → List Call} {m : Nat} (hm : ∀ i, (f i).length = m) (k : Nat) : ((List.range k).flatMap f).length = k * m := by
  induction k with
  | zero => simp
  | succ k ih => rw [List.range_succ, List.flatMap_append, List.length_append, ih]; simp [hm, Nat.succ_mul]

theorem createdIn_blocks (p : Nat) (b : Bool) {f : Nat → List Call} {m : Nat} (hm : ∀ i, (f i).length = m) (n k : Nat) :
    createdIn p b n ((List.range k).flatMap f) = (List.range k).flatMap (fun i => createdIn p b (n + i * m) (f i)) := by
  induction k with
  | zero => rfl
  | succ k ih =>
    rw [List.range_succ, List.flatMap_append, List.flatMap_append, createdIn_append, ih, length_blocks hm]
    simp

theorem flatMap_one {α} {L : Nat → List α} (r0 : Nat) : ∀ R, (List.range R).flatMap (fun r => if r = r0 then L r else []) = if r0 < R then L r0 else [] := by
  intro R
  induction R with
  | zero => simp
  | succ R ih =>
    rw [List.range_succ, List.flatMap_append, ih]
    simp only [List.flatMap_cons, List.flatMap_nil, List.append_nil]
    by_cases h1 : R = r0
    · subst h1; simp
    · rw [if_neg h1, List.append_nil]
      by_cases h2 : r0 < R
      · rw [if_pos h2, if_pos (by omega)]
      · rw [if_neg h2, if_neg (by omega)]

theorem row_cell {m a b i j : Nat} (hi : i < m) (hj : j < m) (h : a * m + i = b * m + j) : a = b ∧ i = j := by
  have h1 : (a * m + i) / m = a := by rw [Nat.mul_comm, Nat.mul_add_div (by omega), Nat.div_eq_of_lt hi]; rfl
  have h2 : (b * m + j) / m = b := by rw [Nat.mul_comm, Nat.mul_add_div (by omega), Nat.div_eq_of_lt hj]; rfl
  have : a = b := by rw [← h1, ← h2, h]
  subst this
  exact ⟨rfl, by omega⟩

theorem gridRow_inj {C r r' : Nat} (h : gridRow C r = gridRow C r') : r = r' :=
  (row_cell (m := 1 + C * 3) (i := 0) (j := 0) (by omega) (by omega) (by unfold gridRow at h; omega)).1

theorem gridCell_ne_row {C r c r' : Nat} (hc : c < C) : gridCell C r c ≠ gridRow C r' := by
  intro h
  have := (row_cell (m := 1 + C * 3) (a := r) (b := r') (i := 1 + c * 3) (j := 0) (by omega) (by omega) (by unfold gridCell gridRow at h; omega)).2
  omega

theorem gridCell_inj {C r c r' c' : Nat} (hc : c < C) (hc' : c' < C) (h : gridCell C r c = gridCell C r' c') : r = r' ∧ c = c' := by
  have := row_cell (m := 1 + C * 3) (a := r) (b := r') (i := 1 + c * 3) (j := 1 + c' * 3) (by omega) (by omega) (by unfold gridCell gridRow at h; omega)
  omega

section recipe
variable (R C : Nat) (w h gx gy : Rat) (tw th : Nat → Nat → Rat) (sh : Nat → Nat → Verif.Show.ShowArg)

theorem mem_gridCalls {d : Call} (hd : d ∈ gridCalls R C w h gx gy tw th sh) :
    d = .box 0 { layout := rowArgs gy } ∨ ∃ r < R, ∃ c < C, d = .box (gridRow C r) { layout := cellArgs w h gx, show_ := sh r c } ∨ d = .shape (gridCell C r c) ∨
      d = .text (gridCell C r c) (tw r c) (th r c) false := by
  simp only [gridCalls, rowCalls, cellCalls, List.mem_flatMap, List.mem_range, List.mem_cons, List.not_mem_nil, or_false] at hd
  obtain ⟨r, hr, rfl | ⟨c, hc, hd⟩⟩ := hd
  · exact .inl rfl
  · exact .inr ⟨r, hr, c, hc, hd⟩

theorem createdIn_prepended {cs : List Call} (hp : ∀ q d, Call.box q d ∈ cs → d.layout.prepend = false) (p : Nat) : ∀ n, createdIn p true n cs = [] := by
  induction cs with
  | nil => intro n; rfl
  | cons d cs ih =>
    intro n
    have ih' := ih (fun q d hd => hp q d (.tail _ hd))
    cases d with
    | box q d =>
      simp only [createdIn]
      rw [if_neg (fun h => by rw [hp q d List.mem_cons_self] at h; cases h.2)]
      exact ih' _
    | _ => exact ih' _

theorem prepend_grid : ∀ q d, Call.box q d ∈ gridCalls R C w h gx gy tw th sh → d.layout.prepend = false := by
  intro q d hd
  rcases mem_gridCalls R C w h gx gy tw th sh hd with hd | ⟨r, -, c, -, hd | hd | hd⟩
  · injection hd with _ hd; subst hd; rfl
  · injection hd with _ hd; subst hd; rfl
  · cases hd
  · cases hd

theorem length_row (r : Nat) : (rowCalls C w h gx gy tw th sh r).length = 1 + C * 3 := by
  rw [rowCalls, List.length_cons, length_blocks (m := 3) (fun _ => rfl)]; omega

theorem created_rows : createdIn 0 false 1 (gridCalls R C w h gx gy tw th sh) = (List.range R).map (gridRow C) := by
  rw [gridCalls, createdIn_blocks 0 false (length_row C w h gx gy tw th sh)]
  have : ∀ r, createdIn 0 false (1 + r * (1 + C * 3)) (rowCalls C w h gx gy tw th sh r) = [gridRow C r] := by
    intro r
    rw [rowCalls, createdIn, if_pos ⟨rfl, rfl⟩, createdIn_blocks 0 false (m := 3) (fun _ => rfl)]
    have e : ∀ n c, createdIn 0 false n (cellCalls C w h gx tw th sh r c) = [] := by
      intro n c
      simp only [cellCalls, createdIn]
      rw [if_neg (fun h => by have := h.1; unfold gridRow at this; omega)]
    simp only [e, List.flatMap_eq_nil_iff.mpr (fun _ _ => rfl)]
    rfl
  simp only [this]
  rw [List.map_eq_flatMap]

theorem created_cells {r0 : Nat} (h0 : r0 < R) : createdIn (gridRow C r0) false 1 (gridCalls R C w h gx gy tw th sh) = (List.range C).map (gridCell C r0) := by
  rw [gridCalls, createdIn_blocks _ false (length_row C w h gx gy tw th sh)]
  have : ∀ r, createdIn (gridRow C r0) false (1 + r * (1 + C * 3)) (rowCalls C w h gx gy tw th sh r) = if r = r0 then (List.range C).map (gridCell C r) else [] := by
    intro r
    simp only [rowCalls, createdIn]
    rw [if_neg (fun h => by have := h.1; unfold gridRow at this; omega), createdIn_blocks _ false (m := 3) (fun _ => rfl)]
    have e : ∀ n c, createdIn (gridRow C r0) false n (cellCalls C w h gx tw th sh r c) = if r = r0 then [n] else [] := by
      intro n c
      simp only [cellCalls, createdIn]
      by_cases hr : r = r0
      · subst hr; rw [if_pos ⟨rfl, rfl⟩, if_pos rfl]
      · rw [if_neg (fun h => hr (gridRow_inj h.1)), if_neg hr]
    simp only [e]
    by_cases hr : r = r0
    · simp only [if_pos hr]
      rw [List.map_eq_flatMap]; rfl
    · simp only [if_neg hr]
      exact List.flatMap_eq_nil_iff.mpr (fun _ _ => rfl)
  simp only [this]
  rw [flatMap_one r0 R, if_pos h0]

/-- If all boxes in `p` are made with the same arguments, without a position and not prepended, they are stacked as they are made. -/
theorem stackOf_created {cs : List Call} {p : Nat} {b : BoxArgs} (hb : ∀ d, Call.box p d ∈ cs → d.layout = b) (hpos : posArg (row cs p) b = .none) (hpre : createdIn p true 1 cs = []) :
    (stackOf cs p).map (·.1) = createdIn p false 1 cs ∧ ∀ v ∈ createdIn p false 1 cs, madeBy cs v = some b := by
  have hm : ∀ v ∈ createdIn p false 1 cs, madeBy cs v = some b := by
    intro v hv
    obtain ⟨k, c, rfl, hk⟩ := createdIn_call hv
    rw [Nat.add_comm, ← hb c (List.mem_of_getElem? hk)]
    simp [madeBy, hk]
  refine ⟨?_, hm⟩
  simp only [stackOf, inOrder, hpre, List.reverse_nil, List.nil_append]
  generalize createdIn p false 1 cs = l at hm
  induction l with
  | nil => rfl
  | cons v l ih =>
    have hv : unplaced cs (row cs p) v = some (v, b) := by
      unfold unplaced
      rw [hm v List.mem_cons_self]
      dsimp only
      rw [hpos]
    rw [List.filterMap_cons_some hv, List.map_cons, ih (fun v hv => hm v (.tail _ hv))]

theorem grid_recipe (hfit : ∀ r < R, ∀ c < C, tw r c + gx ≤ w ∧ th r c ≤ h) :
    Grid (gridCalls R C w h gx gy tw th sh) 0 R C w h gx gy (gridRow C) (gridCell C) := by
  have hpre := createdIn_prepended (prepend_grid R C w h gx gy tw th sh)
  have hrows := stackOf_created (cs := gridCalls R C w h gx gy tw th sh) (p := 0) (b := rowArgs gy) (by
    intro d hd
    rcases mem_gridCalls R C w h gx gy tw th sh hd with hd | ⟨r, -, c, -, hd | hd | hd⟩
    · injection hd with _ hd; subst hd; rfl
    · injection hd with hd; unfold gridRow at hd; omega
    · cases hd
    · cases hd) rfl (hpre 0 1)
  rw [created_rows] at hrows
  have hmade : ∀ r < R, madeBy (gridCalls R C w h gx gy tw th sh) (gridRow C r) = some (rowArgs gy) :=
    fun r hr => hrows.2 _ (List.mem_map.mpr ⟨r, List.mem_range.mpr hr, rfl⟩)
  have hcells : ∀ r < R, _ := fun r (hr : r < R) => stackOf_created (cs := gridCalls R C w h gx gy tw th sh) (p := gridRow C r) (b := cellArgs w h gx) (by
    intro d hd
    rcases mem_gridCalls R C w h gx gy tw th sh hd with hd | ⟨r, -, c, -, hd | hd | hd⟩
    · injection hd with hd; unfold gridRow at hd; omega
    · injection hd with _ hd; subst hd; rfl
    · cases hd
    · cases hd) (by simp [row, hmade r hr, rowArgs, posArg, cellArgs]) (hpre _ 1)
  have hcell : ∀ r < R, ∀ c < C, madeBy (gridCalls R C w h gx gy tw th sh) (gridCell C r c) = some (cellArgs w h gx) := by
    intro r hr c hc
    refine (hcells r hr).2 _ ?_
    rw [created_cells R C w h gx gy tw th sh hr]
    exact List.mem_map.mpr ⟨c, List.mem_range.mpr hc, rfl⟩
  refine ⟨rfl, hrows.1, hmade, ?_, ?_, hcell, ?_⟩
  · intro r hr
    rw [(hcells r hr).1, created_cells R C w h gx gy tw th sh hr]
  · intro r hr d hd
    rcases mem_gridCalls R C w h gx gy tw th sh hd with rfl | ⟨r, -, c, hc, rfl | rfl | rfl⟩
    · trivial
    · trivial
    · trivial
    · exact gridCell_ne_row hc
  · intro r hr c hc
    refine ⟨?_, ?_, ?_⟩
    · rw [← List.map_eq_nil_iff (f := (·.1)), (stackOf_created (cs := gridCalls R C w h gx gy tw th sh) (p := gridCell C r c) (b := rowArgs gy) ?_ ?_ (hpre _ 1)).1]
      · rw [List.eq_nil_iff_forall_not_mem]
        intro v hv
        obtain ⟨k, d, -, hk⟩ := createdIn_call hv
        rcases mem_gridCalls R C w h gx gy tw th sh (List.mem_of_getElem? hk) with hd | ⟨r', -, c', -, hd | hd | hd⟩
        · injection hd with hd; unfold gridCell gridRow at hd; omega
        · injection hd with hd; exact gridCell_ne_row hc hd
        · cases hd
        · cases hd
      · intro d hd
        rcases mem_gridCalls R C w h gx gy tw th sh hd with hd | ⟨r', -, c', -, hd | hd | hd⟩
        · injection hd with hd; unfold gridCell gridRow at hd; omega
        · injection hd with hd; exact absurd hd (gridCell_ne_row hc)
        · cases hd
        · cases hd
      · simp [row, hcell r hr c hc, rowArgs, posArg, cellArgs]
    · intro p iw ih st hd
      rcases mem_gridCalls R C w h gx gy tw th sh hd with hd | ⟨r', -, c', -, hd | hd | hd⟩ <;> cases hd
    · intro axis q hq
      obtain ⟨d, hd, hdq⟩ := List.mem_filterMap.mp hq
      rcases mem_gridCalls R C w h gx gy tw th sh hd with rfl | ⟨r', hr', c', hc', rfl | rfl | rfl⟩
      · cases hdq
      · cases hdq
      · cases hdq
      · simp only [asks] at hdq
        split at hdq
        · rename_i hi
          obtain ⟨rfl, rfl⟩ := gridCell_inj hc' hc hi.1
          injection hdq with hdq
          subst hdq
          obtain ⟨f1, f2⟩ := hfit _ hr' _ hc'
          cases axis
          · simpa [padsOf, cellArgs, mostSpecific] using f2
          · simpa [padsOf, cellArgs, mostSpecific] using f1
        · cases hdq

/-- **C141, the program of the documentation.** For any numbers of rows and columns, any sizes and gaps and any selectors: if the program runs and the texts are not larger than the cells, the cell in the row `r` and the column `c`
is where it belongs, and the grid with the gaps is in the middle of the slide. -/
theorem C141_recipe (hw : 0 ≤ gx ∧ gx ≤ w) (hh : 0 ≤ h) (hg : 0 ≤ gy) (hfit : ∀ r < R, ∀ c < C, tw r c + gx ≤ w ∧ th r c ≤ h)
    (width height : Rat) (s : State) (hr : run (newSlide width height) (gridCalls R C w h gx gy tw th sh) = .ok s) (env : Env) (he : s.rects width height = .ok env) (r c : Nat) (hrR : r < R) (hcC : c < C) :
    env (gridCell C r c) = some ⟨(width - C * w) / 2 + c * w, (height - R * (h + gy)) / 2 + r * (h + gy), w - gx, h⟩ := by
  have := C141_grid width height _ s hr width height env he 0 (.inl rfl) _ (C113_page width height _ s hr env he).1 R C w h gx gy hw hh hg _ _ (grid_recipe R C w h gx gy tw th sh hfit) r c hrR hcC
  simpa using this

end recipe

/-- The first program of the documentation, with its 2 rows and 3 columns. -/
example : (match run (newSlide 1024 768) (gridCalls 2 3 100 100 10 10 (fun _ _ => 60) (fun _ _ => 30) (fun _ _ => .none)) with
    | .ok s => (match s.rects 1024 768 with | .ok env => [gridCell 3 0 0, gridCell 3 0 2, gridCell 3 1 0].map env | .error _ => [])
    | .error _ => []) = [some ⟨362, 274, 90, 100⟩, some ⟨562, 274, 90, 100⟩, some ⟨362, 384, 90, 100⟩] := by decide +kernel

/-! ### one cell after the other -/

open Verif.Show.Spec (numeralValue Numeral Writes Legal Item Bound)

theorem numeralValue_snoc (c : Char) : ∀ l : Str, numeralValue (l ++ [c]) = numeralValue l * 10 + (c.toNat - 48) := by
  intro l
  induction l with
  | nil => simp [numeralValue]
  | cons d l ih =>
    rw [List.cons_append]
    simp only [numeralValue, ih, List.length_append, List.length_singleton, Nat.pow_succ]
    ring

theorem numeralValue_toDigits (n : Nat) : numeralValue (Nat.toDigits 10 n) = n := by
  have hd : ∀ d < 10, (Nat.digitChar d).toNat - 48 = d := by decide
  induction n using Nat.strongRecOn with
  | ind n ih =>
    by_cases h : n < 10
    · rw [Nat.toDigits_of_lt_base h]
      simp [numeralValue, hd n h]
    · rw [Nat.toDigits_of_base_le (by omega) (by omega), numeralValue_snoc, ih (n / 10) (by omega), hd _ (Nat.mod_lt _ (by omega))]
      omega

theorem numeral_toDigits (n : Nat) : Numeral (Nat.toDigits 10 n) := by
  rw [Verif.Show.numeral_iff]
  refine ⟨by intro h; have := congrArg List.length h; rw [List.length_nil] at this; have := Nat.length_toDigits_pos (b := 10) (n := n); omega, ?_⟩
  rw [List.all_eq_true]
  intro c hc
  have := Nat.isDigit_of_mem_toDigits (b := 10) (by omega) (by omega) hc
  simpa [isDigit, Char.isDigit, UInt32.le_iff_toNat_le, Char.le_def] using this

theorem writes_from {k : Nat} {is : List Item} (hw : Writes isSpace (Nat.toDigits 10 k ++ ['+']) is) (hv : ∀ i ∈ is, i.Valid) : is = [.opn (.num (Nat.toDigits 10 k))] := by
  refine Verif.Show.C20_unambiguous _ _ _ hw ?_ hv ?_
  · have := Writes.one (sp := isSpace) [] [] (.opn (.num (Nat.toDigits 10 k))) (by simp)
    simpa [Item.source, Bound.source] using this
  · intro i hi
    rw [List.mem_singleton] at hi
    subst hi
    exact numeral_toDigits k

theorem writes_from' (k : Nat) : Writes isSpace (Nat.toDigits 10 k ++ ['+']) [.opn (.num (Nat.toDigits 10 k))] := by
  have := Writes.one (sp := isSpace) [] [] (.opn (.num (Nat.toDigits 10 k))) (by simp)
  simpa [Item.source, Bound.source] using this

theorem legal_from (cur : Option Int) (k : Nat) : Legal cur [.opn (.num (Nat.toDigits 10 k))] :=
  ⟨fun i hi => by rw [List.mem_singleton] at hi; subst hi; exact numeral_toDigits k, fun i hi => by rw [List.mem_singleton] at hi; subst hi; exact ⟨_, rfl⟩, le_refl 1⟩

theorem shownOn_from (cur n : Int) (k : Nat) : ShownOn cur (.str (Nat.toDigits 10 k ++ ['+'])) n ↔ (k : Int) ≤ n := by
  constructor
  · rintro ⟨is, hw, hl, i, hi, hs⟩
    rw [writes_from hw hl.valid, List.mem_singleton] at hi
    subst hi
    obtain ⟨v, hv, hle⟩ := hs
    injection hv with hv
    rw [numeralValue_toDigits] at hv
    omega
  · intro h
    exact ⟨_, writes_from' k, legal_from _ k, _, List.mem_singleton.mpr rfl, _, rfl, by rw [numeralValue_toDigits]; exact h⟩

theorem mentions_from (cur n : Int) (k : Nat) : Mentions cur (.str (Nat.toDigits 10 k ++ ['+'])) n ↔ n = k := by
  constructor
  · rintro ⟨is, hw, hl, i, hi, hs⟩
    rw [writes_from hw hl.valid, List.mem_singleton] at hi
    subst hi
    rcases hs with ⟨h, -⟩ | ⟨b, hb, hs⟩
    · cases h
    · injection hb with hb
      subst hb
      injection hs with hs
      rw [numeralValue_toDigits] at hs
      exact hs.symm
  · rintro rfl
    exact ⟨_, writes_from' k, legal_from _ k, _, List.mem_singleton.mpr rfl, .inr ⟨_, rfl, by simp [Bound.value, numeralValue_toDigits]⟩⟩

theorem getElem?_blocks {α} {f : Nat → List α} {m : Nat} (hm : ∀ i, (f i).length = m) : ∀ k i j, i < k → j < m → ((List.range k).flatMap f)[i * m + j]? = (f i)[j]? := by
  intro k
  have hlen : ∀ k, ((List.range k).flatMap f).length = k * m := by
    intro k
    induction k with
    | zero => simp
    | succ k ih => rw [List.range_succ, List.flatMap_append, List.length_append, ih]; simp [hm, Nat.succ_mul]
  induction k with
  | zero => intro i j hi; omega
  | succ k ih =>
    intro i j hi hj
    rw [List.range_succ, List.flatMap_append]
    by_cases hik : i < k
    · have : i * m + j < k * m := by
        have : (i + 1) * m ≤ k * m := Nat.mul_le_mul_right m hik
        rw [Nat.succ_mul] at this
        omega
      rw [List.getElem?_append_left (by rw [hlen]; exact this)]
      exact ih i j hik hj
    · have : i = k := by omega
      subst this
      rw [List.getElem?_append_right (by rw [hlen]; omega), hlen]
      simp

/-- If what the calls mention does not depend on the current fragment, the number of pages is the largest of it. -/
theorem pages_bound {M : Call → Int → Prop} {cs : List Call} {p : Int} (hp : Pages cs p) (hM : ∀ c ∈ cs, ∀ cur n, CallMentions cur c n ↔ M c n) :
    (p = 1 ∨ ∃ c ∈ cs, M c p) ∧ 1 ≤ p ∧ ∀ c ∈ cs, ∀ n, M c n → n ≤ p := by
  induction hp with
  | new => exact ⟨.inl rfl, le_refl _, fun c hc => by cases hc⟩
  | @call cs c p p' hp hg ih =>
    obtain ⟨i1, i2, i3⟩ := ih (fun c hc => hM c (List.mem_append_left _ hc))
    have hc := hM c (List.mem_append_right _ (List.mem_singleton.mpr rfl)) p
    have hle := hg.2 p (.inl rfl)
    refine ⟨?_, by omega, ?_⟩
    · rcases hg.1 with rfl | h
      · rcases i1 with h | ⟨d, hd, h⟩
        · exact .inl h
        · exact .inr ⟨d, List.mem_append_left _ hd, h⟩
      · exact .inr ⟨c, List.mem_append_right _ (List.mem_singleton.mpr rfl), (hc _).mp h⟩
    · intro d hd n hn
      rcases List.mem_append.mp hd with hd | hd
      · exact (i3 d hd n hn).trans hle
      · rw [List.mem_singleton] at hd
        subst hd
        exact hg.2 n (.inr ((hc n).mpr hn))

section recipe
variable (R C : Nat) (w h gx gy : Rat) (tw th : Nat → Nat → Rat) (sh : Nat → Nat → Verif.Show.ShowArg)

theorem row_at {r : Nat} (hr : r < R) : (gridCalls R C w h gx gy tw th sh)[r * (1 + C * 3)]? = some (.box 0 { layout := rowArgs gy }) := by
  have := getElem?_blocks (length_row C w h gx gy tw th sh) R r 0 hr (by omega)
  rw [Nat.add_zero] at this
  exact this

theorem cell_at {r c : Nat} (hr : r < R) (hc : c < C) (j : Nat) (hj : j < 3) :
    (gridCalls R C w h gx gy tw th sh)[r * (1 + C * 3) + (1 + c * 3 + j)]? = (cellCalls C w h gx tw th sh r c)[j]? := by
  rw [gridCalls, getElem?_blocks (length_row C w h gx gy tw th sh) R r _ hr (by omega), rowCalls]
  have e : 1 + c * 3 + j = (c * 3 + j) + 1 := by omega
  rw [e, List.getElem?_cons_succ]
  exact getElem?_blocks (m := 3) (fun _ => rfl) C c j hc hj

/-- **C141, one cell after the other.** The second program of the documentation makes as many pages as there are cells, and on the page `n` are the first `n` cells, counted row by row. -/
theorem C141_gradually (width height : Rat) (s : State) (hr : run (newSlide width height) (gridCalls R C w h gx gy tw th (gradually C)) = .ok s) :
    s.steps = max 1 ((R * C : Nat) : Int) ∧
    ∀ r < R, ∀ c < C, ∀ n, OnPage (gridCalls R C w h gx gy tw th (gradually C)) n (gridCell C r c) ↔ ((r * C + c + 1 : Nat) : Int) ≤ n := by
  have hp := (C21_page_count width height _ s hr).1
  constructor
  · have hpages := (hp s.steps).mpr rfl
    have hle : ∀ r < R, ∀ c < C, r * C + c + 1 ≤ R * C := by
      intro r hr c hc
      have : (r + 1) * C ≤ R * C := Nat.mul_le_mul_right C hr
      rw [Nat.succ_mul] at this
      omega
    obtain ⟨h1, h2, h3⟩ := pages_bound (M := fun d n => match d with
        | .box _ b => (match b.show_ with | .none => n = 1 | .str s => Mentions 1 (.str s) n | _ => False)
        | _ => False) hpages (by
      intro d hd cur n
      rcases mem_gridCalls R C w h gx gy tw th _ hd with rfl | ⟨r, hr, c, hc, rfl | rfl | rfl⟩
      · exact Iff.rfl
      · exact (mentions_from cur n _).trans (mentions_from 1 n _).symm
      · exact Iff.rfl
      · exact Iff.rfl)
    have hcases : s.steps = 1 ∨ ∃ r < R, ∃ c < C, s.steps = ((r * C + c + 1 : Nat) : Int) := by
      rcases h1 with h1 | ⟨d, hd, h1⟩
      · exact .inl h1
      · rcases mem_gridCalls R C w h gx gy tw th _ hd with rfl | ⟨r, hr, c, hc, rfl | rfl | rfl⟩
        · exact .inl h1
        · exact .inr ⟨r, hr, c, hc, (mentions_from 1 _ _).mp h1⟩
        · cases h1
        · cases h1
    by_cases hz : R = 0 ∨ C = 0
    · have : R * C = 0 := by rcases hz with rfl | rfl <;> simp
      rw [this]
      rcases hcases with h | ⟨r, hr, c, hc, -⟩
      · rw [h]; rfl
      · omega
    · have hl := h3 _ (List.mem_of_getElem? (cell_at R C w h gx gy tw th (gradually C) (r := R - 1) (c := C - 1) (by omega) (by omega) 0 (by omega))) _ ((mentions_from 1 _ _).mpr rfl)
      have e : (R - 1) * C + (C - 1) + 1 = R * C := by
        obtain ⟨R', rfl⟩ : ∃ R', R = R' + 1 := ⟨R - 1, by omega⟩
        rw [Nat.add_sub_cancel, Nat.succ_mul]
        omega
      rw [e] at hl
      rcases hcases with h | ⟨r, hr, c, hc, h⟩
      · rw [h] at hl ⊢
        rw [max_eq_left hl]
      · have := hle r hr c hc
        have h4 : s.steps ≤ ((R * C : Nat) : Int) := by rw [h]; exact_mod_cast this
        rw [max_eq_right (by omega)]
        omega
  · intro r hrR c hcC n
    have ecell : gridCell C r c = r * (1 + C * 3) + (1 + c * 3 + 0) + 1 := by unfold gridCell gridRow; omega
    have erow : gridRow C r = r * (1 + C * 3) + 1 := by unfold gridRow; omega
    have hc := cell_at R C w h gx gy tw th (gradually C) hrR hcC 0 (by omega)
    have hro := row_at R C w h gx gy tw th (gradually C) hrR
    have hex : ∀ k, ∃ cur, Pages ((gridCalls R C w h gx gy tw th (gradually C)).take k) cur := by
      intro k
      have := hr
      rw [← List.take_append_drop k (gridCalls R C w h gx gy tw th (gradually C))] at this
      obtain ⟨s1, h1, -⟩ := run_append this
      exact ⟨_, ((C21_page_count width height _ s1 h1).1 _).mpr rfl⟩
    rw [ecell]
    constructor
    · intro ho
      generalize hu : r * (1 + C * 3) + (1 + c * 3 + 0) + 1 = u at ho
      cases ho with
      | slide => omega
      | @box k p b cur hk _ hs _ =>
        have : k = r * (1 + C * 3) + (1 + c * 3 + 0) := by omega
        subst this
        rw [hc] at hk
        injection hk with hk
        injection hk with _ hk
        subst hk
        exact (shownOn_from cur n _).mp hs
    · intro hn
      obtain ⟨cur, h1⟩ := hex (r * (1 + C * 3) + (1 + c * 3 + 0))
      obtain ⟨cur', h2⟩ := hex (r * (1 + C * 3))
      refine .box hc h1 ((shownOn_from cur n _).mpr hn) ?_
      rw [erow]
      exact .box hro h2 (show (1 : Int) ≤ n by omega) (.slide (by omega))

theorem at_index {k : Nat} {d : Call} (hk : (gridCalls R C w h gx gy tw th sh)[k]? = some d) :
    (∃ r < R, k = r * (1 + C * 3)) ∨ ∃ r < R, ∃ c < C, ∃ j < 3, k = r * (1 + C * 3) + (1 + c * 3 + j) := by
  have hlt := (List.getElem?_eq_some_iff.mp hk).1
  rw [gridCalls, length_blocks (length_row C w h gx gy tw th sh)] at hlt
  have hr : k / (1 + C * 3) < R := by rw [Nat.div_lt_iff_lt_mul (by omega)]; exact hlt
  have hm : k % (1 + C * 3) < 1 + C * 3 := Nat.mod_lt _ (by omega)
  have hk : k = k / (1 + C * 3) * (1 + C * 3) + k % (1 + C * 3) := by rw [Nat.mul_comm]; exact (Nat.div_add_mod k _).symm
  by_cases h0 : k % (1 + C * 3) = 0
  · exact .inl ⟨_, hr, by omega⟩
  · exact .inr ⟨_, hr, (k % (1 + C * 3) - 1) / 3, by omega, (k % (1 + C * 3) - 1) % 3, by omega, by omega⟩

/-- **C141, what is drawn.** On page `n` of the second program are drawn exactly the rectangles and the texts of the first `n` cells, counted row by row. -/
theorem C141_drawn (width height : Rat) (s : State) (hr : run (newSlide width height) (gridCalls R C w h gx gy tw th (gradually C)) = .ok s) (n : Int) (u : Nat) (z : Int) :
    Painter.item u z ∈ page s n false ↔ z = 0 ∧ ∃ r < R, ∃ c < C, (u = gridCell C r c + 1 ∨ u = gridCell C r c + 2) ∧ ((r * C + c + 1 : Nat) : Int) ≤ n := by
  obtain ⟨l, order, hl, -, hmem, -⟩ := C106_page width height _ s hr n
  have hin : Painter.item u z ∈ page s n false ↔ (u, z) ∈ l := by
    rw [hl, List.mem_map]
    constructor
    · rintro ⟨x, hx, he⟩
      injection he with h1 h2
      subst h1 h2
      exact hx
    · exact fun h => ⟨_, h, rfl⟩
  have hon := (C141_gradually R C w h gx gy tw th width height s hr).2
  have erow : ∀ r, gridRow C r = r * (1 + C * 3) + 1 := fun r => by unfold gridRow; omega
  have ecell : ∀ r c, gridCell C r c = r * (1 + C * 3) + (1 + c * 3 + 0) + 1 := fun r c => by unfold gridCell gridRow; omega
  have hlrow : ∀ r < R, ∀ z, Level (gridCalls R C w h gx gy tw th (gradually C)) (gridRow C r) z ↔ z = 0 := by
    intro r hrR z
    have hro := row_at R C w h gx gy tw th (gradually C) hrR
    rw [erow]
    constructor
    · intro hz
      cases hz with
      | given h1 h2 => rw [hro] at h1; injection h1 with h1; injection h1 with _ h1; subst h1; cases h2
      | inherited h1 h2 h3 =>
        rw [hro] at h1; injection h1 with h1; injection h1 with h0 h1; subst h0
        cases h3; rfl
    · rintro rfl
      exact .inherited hro rfl .slide
  have hlcell : ∀ r < R, ∀ c < C, ∀ z, Level (gridCalls R C w h gx gy tw th (gradually C)) (gridCell C r c) z ↔ z = 0 := by
    intro r hrR c hcC z
    have hc := cell_at R C w h gx gy tw th (gradually C) hrR hcC 0 (by omega)
    rw [ecell]
    constructor
    · intro hz
      cases hz with
      | given h1 h2 => rw [hc] at h1; injection h1 with h1; injection h1 with _ h1; subst h1; cases h2
      | inherited h1 h2 h3 =>
        rw [hc] at h1; injection h1 with h1; injection h1 with h0 h1; subst h0
        exact (hlrow r hrR z).mp h3
    · rintro rfl
      exact .inherited hc rfl ((hlrow r hrR 0).mpr rfl)
  rw [hin, hmem]
  constructor
  · rintro ⟨p, hi, hz, ho⟩
    obtain ⟨hk, hb, ht⟩ := hi
    rename_i k d
    rcases at_index R C w h gx gy tw th _ hk with ⟨r, hrR, rfl⟩ | ⟨r, hrR, c, hcC, j, hj, rfl⟩
    · rw [row_at R C w h gx gy tw th _ hrR] at hk
      injection hk with hk
      subst hk
      cases hb
    · rw [cell_at R C w h gx gy tw th _ hrR hcC j hj] at hk
      have hp : (j = 1 ∨ j = 2) ∧ p = gridCell C r c := by
        rcases j with _ | _ | _ | j
        · injection hk with hk; subst hk; cases hb
        · injection hk with hk; subst hk; exact ⟨.inl rfl, ht.symm⟩
        · injection hk with hk; subst hk; exact ⟨.inr rfl, ht.symm⟩
        · omega
      obtain ⟨hj, rfl⟩ := hp
      refine ⟨(hlcell r hrR c hcC z).mp hz, r, hrR, c, hcC, ?_, (hon r hrR c hcC n).mp ho⟩
      rw [ecell]
      omega
  · rintro ⟨rfl, r, hrR, c, hcC, hu, hn⟩
    refine ⟨gridCell C r c, ?_, (hlcell r hrR c hcC 0).mpr rfl, (hon r hrR c hcC n).mpr hn⟩
    rcases hu with rfl | rfl
    · rw [ecell, show r * (1 + C * 3) + (1 + c * 3 + 0) + 1 + 1 = r * (1 + C * 3) + (1 + c * 3 + 1) + 1 by omega, ← ecell]
      exact .mk (cell_at R C w h gx gy tw th _ hrR hcC 1 (by omega)) rfl rfl
    · rw [ecell, show r * (1 + C * 3) + (1 + c * 3 + 0) + 1 + 2 = r * (1 + C * 3) + (1 + c * 3 + 2) + 1 by omega, ← ecell]
      exact .mk (cell_at R C w h gx gy tw th _ hrR hcC 2 (by omega)) rfl rfl

end recipe

/-- The second program of the documentation makes six pages. -/
example : (match run (newSlide 1024 768) (gridCalls 2 3 100 100 10 10 (fun _ _ => 60) (fun _ _ => 30) (gradually 3)) with
    | .ok s => some s.steps | .error _ => none) = some 6 := by decide +kernel

end Verif.Slide
