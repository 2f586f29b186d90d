import Verif.Props.Grids
import Verif.Spec.Headers

/-! # Property C142: headers -/

namespace Verif.Slide
open Verif.Layout (Attrs Forest Env newAttrs Arg Pos Size BoxArgs fboxArgs)
open Verif.Layout.Spec Verif.Slide.Spec
open Verif.Scene.Spec (padded)
open Verif.Show.Spec (numeralValue Numeral)

theorem createdIn_none {cs : List Call} {p : Nat} (hp : ∀ d, Call.box p d ∉ cs) (b : Bool) : ∀ n, createdIn p b n cs = [] := by
  induction cs with
  | nil => intro n; rfl
  | cons d cs ih =>
    intro n
    have ih' := ih (fun d hd => hp d (.tail _ hd))
    cases d with
    | box q d =>
      simp only [createdIn]
      rw [if_neg (fun h => hp d (by rw [← h.1]; exact List.mem_cons_self))]
      exact ih' _
    | _ => exact ih' _

theorem fix_start {env : Env} {q o full self v : Rat} (h : Denotes env (.fix q) o full self v) : v = o + q := by cases h; rfl

/-- **C142.** On a slide made with `init_slide`, whatever is put into the box that it returns: the header is at the top of the page, as wide as the page, and takes the given part of the height, or as much as its text
needs; its text is at the given distance from the left, in the middle of the height; the box that is returned is the rest of the page. -/
theorem C142_header (width height : Rat) (ds : Str) (hds : Numeral ds) (h0 : numeralValue ds ≠ 0) (x0 pad tw th : Rat) (hpad : 0 ≤ pad) (htw : 0 ≤ tw) (hth : 0 ≤ th) (rest : List Call)
    (hrest : ∀ d ∈ rest, target d ≠ 1 ∧ target d ≠ 3 ∧ ∀ c, d ≠ .box 0 c)
    (s : State) (hr : run (newSlide width height) (initSlide ds x0 pad tw th ++ rest) = .ok s) (env : Env) (he : s.rects width height = .ok env) :
    let head := max (height * (numeralValue ds / 100)) (th + 2 * pad)
    env 1 = some ⟨0, 0, width, head⟩ ∧ env 3 = some ⟨x0 + pad, (head - th) / 2, tw, th⟩ ∧ env 5 = some ⟨0, head, width, height - head⟩ := by
  intro head
  generalize hcs : initSlide ds x0 pad tw th ++ rest = cs at hr
  have k0 : cs[0]? = some (.box 0 { layout := headerArgs ds }) := by rw [← hcs]; rfl
  have k2 : cs[2]? = some (.box 1 { layout := titleArgs x0 pad }) := by rw [← hcs]; rfl
  have k4 : cs[4]? = some (.box 0 { layout := fboxArgs {} }) := by rw [← hcs]; rfl
  have m1 : madeBy cs 1 = some (headerArgs ds) := by simp [madeBy, k0]
  have m3 : madeBy cs 3 = some (titleArgs x0 pad) := by simp [madeBy, k2]
  have m5 : madeBy cs 5 = some (fboxArgs {}) := by simp [madeBy, k4]
  have r0 : row cs 0 = false := rfl
  have r1 : row cs 1 = false := by simp [row, m1, headerArgs]
  have r3 : row cs 3 = false := by simp [row, m3, titleArgs]
  have hcr : ∀ p b, (∀ d ∈ rest, ∀ c, d ≠ .box p c) → createdIn p b 1 cs = createdIn p b 1 (initSlide ds x0 pad tw th) := by
    intro p b hp
    rw [← hcs, createdIn_append, createdIn_none (fun d hd => hp _ hd d rfl), List.append_nil]
  have st0 : stackOf cs 0 = [(1, headerArgs ds), (5, fboxArgs {})] := by
    have e1 : createdIn 0 true 1 cs = [] := by rw [hcr 0 true (fun d hd c => (hrest d hd).2.2 c)]; rfl
    have e2 : createdIn 0 false 1 cs = [1, 5] := by rw [hcr 0 false (fun d hd c => (hrest d hd).2.2 c)]; rfl
    simp [stackOf, inOrder, e1, e2, unplaced, m1, m5, r0, posArg, headerArgs, fboxArgs]
  have hn1 : ∀ d ∈ rest, ∀ c, d ≠ .box 1 c := by rintro d hd c rfl; exact (hrest _ hd).1 rfl
  have hn3 : ∀ d ∈ rest, ∀ c, d ≠ .box 3 c := by rintro d hd c rfl; exact (hrest _ hd).2.1 rfl
  have st1 : stackOf cs 1 = [(3, titleArgs x0 pad)] := by
    have e1 : createdIn 1 true 1 cs = [] := by rw [hcr 1 true hn1]; rfl
    have e2 : createdIn 1 false 1 cs = [3] := by rw [hcr 1 false hn1]; rfl
    simp [stackOf, inOrder, e1, e2, unplaced, m3, r1, posArg, titleArgs]
  have st3 : stackOf cs 3 = [] := by
    have e1 : createdIn 3 true 1 cs = [] := by rw [hcr 3 true hn3]; rfl
    have e2 : createdIn 3 false 1 cs = [] := by rw [hcr 3 false hn3]; rfl
    simp [stackOf, inOrder, e1, e2]
  have himg : ∀ u, u = 1 ∨ u = 3 → ∀ p w h stp, Call.image p w h stp ∈ cs → p ≠ u := by
    intro u hu p w h stp hm hp
    rw [← hcs] at hm
    rcases List.mem_append.mp hm with hm | hm
    · simp [initSlide] at hm
    · rcases hu with rfl | rfl
      · exact (hrest _ hm).1 hp
      · exact (hrest _ hm).2.1 hp
  have hask : ∀ axis u b, u = 1 ∨ u = 3 → cs.filterMap (asks axis u b) = (initSlide ds x0 pad tw th).filterMap (asks axis u b) := by
    intro axis u b hu
    rw [← hcs, List.filterMap_append]
    have : rest.filterMap (asks axis u b) = [] := by
      rw [List.filterMap_eq_nil_iff]
      intro d hd
      have hd' : target d ≠ u := by
        rcases hu with rfl | rfl
        · exact (hrest d hd).1
        · exact (hrest d hd).2.1
      cases d with
      | text q _ _ _ => simp only [asks]; rw [if_neg (fun h => hd' h.1)]
      | image q _ _ _ => simp only [asks]; rw [if_neg (show ¬ q = u from hd')]
      | box => rfl
      | shape => rfl
    rw [this, List.append_nil]
  obtain ⟨need, n1, n2⟩ := C139_sizes width height cs s hr width height env he
  have hsz1 : SizeSays (extentArg false (headerArgs ds)) { ratio := some ((numeralValue ds : Rat) / 100) } := .text (.percent hds)
  have hf1 : SizeSays (extentArg true (headerArgs ds)) { fill := 1 } := .text .fill
  have hf5 : ∀ axis, SizeSays (extentArg axis (fboxArgs {})) { fill := 1 } := by
    intro axis
    cases axis <;> exact .text .fill
  have hs3 : ∀ axis, SizeSays (extentArg axis (titleArgs x0 pad)) {} := by intro axis; cases axis <;> exact .nothing
  have hp3 : ∀ axis, padsOf axis (titleArgs x0 pad) = pad + pad := by intro axis; cases axis <;> simp [padsOf, titleArgs, mostSpecific]
  have hp1 : padsOf false (headerArgs ds) = 0 := by simp [padsOf, headerArgs, mostSpecific]
  have need3 : ∀ axis, need axis 3 = (if axis then tw else th) + 2 * pad := by
    intro axis
    rw [n1 axis 3 _ _ m3 (hs3 axis) (fun p w h stp hm hp => absurd hp (himg 3 (.inr rfl) p w h stp hm)), hask axis 3 _ (.inr rfl), hp3]
    have ht : together cs need axis 3 = 0 := by unfold together; rw [st3]; dsimp only; split <;> rfl
    have ha : (initSlide ds x0 pad tw th).filterMap (asks axis 3 (titleArgs x0 pad)) = [if axis then tw else th] := by cases axis <;> rfl
    rw [ht, ha]
    simp only [List.map_cons, List.map_nil, largest, List.foldl_cons, List.foldl_nil]
    have : 0 ≤ if axis then tw else th := by split <;> assumption
    rw [max_eq_right (by linarith : (0 : Rat) ≤ 0 + (pad + pad)), max_eq_right (by linarith)]
    ring
  have need1 : need false 1 = th + 2 * pad := by
    rw [n1 false 1 _ _ m1 hsz1 (fun p w h stp hm hp => absurd hp (himg 1 (.inl rfl) p w h stp hm)), hask false 1 _ (.inl rfl), hp1]
    have ht : together cs need false 1 = th + 2 * pad := by
      unfold together; rw [st1, r1]
      simp [need3]
    have ha : (initSlide ds x0 pad tw th).filterMap (asks false 1 (headerArgs ds)) = [] := by simp [initSlide, asks]
    rw [ht, ha]
    simp only [List.map_cons, List.map_nil, largest, List.foldl_cons, List.foldl_nil]
    rw [max_eq_right (by linarith : (0 : Rat) ≤ th + 2 * pad + 0), add_zero]
  have hP0 := (C113_page width height cs s hr env he).1
  -- the slide
  obtain ⟨P, Rs, hP, hRs, hch, -, hfill⟩ := C124_stack width height cs s hr width height env he 0 (.inl rfl)
  rw [hP0] at hP; injection hP with hP; subst hP
  rw [st0] at hRs hfill
  rw [r0] at hch hfill
  obtain ⟨R1, Rs', o1, hRs', rfl⟩ := List.forall₂_cons_left_iff.mp hRs
  obtain ⟨R5, Rs'', o5, hRs'', rfl⟩ := List.forall₂_cons_left_iff.mp hRs'
  rw [List.forall₂_nil_left_iff] at hRs''
  subst hRs''
  obtain ⟨f1, f2, -⟩ := hfill (by
    intro x hx
    rcases List.mem_cons.mp hx with rfl | hx
    · exact ⟨_, hsz1, rfl⟩
    · rw [List.mem_singleton] at hx; subst hx; exact ⟨_, hf5 false, rfl⟩) ⟨_, .tail _ (.head _), _, hf5 false, by decide⟩
  have hchain := (List.isChain_cons_cons.mp hch).1
  have hfirst := f2 _ rfl
  obtain ⟨q1, hq1, rfl⟩ := o1
  obtain ⟨q5, hq5, rfl⟩ := o5
  -- the header
  obtain ⟨Pa, Ra, hPa, ⟨qa, hqa, hRa⟩, -, hsize⟩ := n2 0 0 _ false _ k0 hsz1 rfl rfl
  rw [hP0] at hPa; injection hPa with hPa; subst hPa
  dsimp only at hq1 hq5 hqa hRa
  rw [hq1] at hqa; injection hqa with hqa; subst hqa
  have hhead := hsize _ rfl (by simp [h0])
  rw [need1, hRa] at hhead
  have hacross : ∀ k c q, cs[k]? = some (.box 0 c) → env (k + 1) = some q → SizeSays (extentArg true c.layout) { fill := 1 } → posArg true c.layout = .none →
      start true (padded c.layout q) = 0 ∧ extent true (padded c.layout q) = width := by
    intro k c q hk hq hf hpo
    obtain ⟨Pb, Rb, hPb, ⟨qb, hqb, rfl⟩, hpl⟩ := C124_box width height cs s hr width height env he k 0 c hk
    rw [hP0] at hPb; injection hPb with hPb; subst hPb
    dsimp only at hqb
    rw [hq] at hqb; injection hqb with hqb; subst hqb
    obtain ⟨-, g2, g3⟩ := hpl true
    have e := (g3 _ hf).2.1 rfl (by decide) (by rw [r0]; decide)
    have e' := g2 hpo (by rw [r0]; decide)
    rw [e] at e'
    refine ⟨?_, by rw [e]; rfl⟩
    simp only [start, extent, if_true] at e' ⊢
    linarith
  obtain ⟨a1, a2⟩ := hacross 0 _ q1 k0 hq1 hf1 rfl
  obtain ⟨a3, a4⟩ := hacross 4 _ q5 k4 hq5 (hf5 true) rfl
  -- the title
  obtain ⟨P1, Rt, hP1, hRt, -, hmid, -⟩ := C124_stack width height cs s hr width height env he 1 (.inr ⟨_, m1⟩)
  rw [hq1] at hP1; injection hP1 with hP1; subst hP1
  rw [st1] at hRt hmid
  rw [r1] at hmid
  obtain ⟨R3, Rt', ⟨q3, hq3, rfl⟩, hRt', rfl⟩ := List.forall₂_cons_left_iff.mp hRt
  rw [List.forall₂_nil_left_iff] at hRt'
  subst hRt'
  have hm := hmid (by intro x hx; rw [List.mem_singleton] at hx; subst hx; exact ⟨_, hs3 false, rfl, rfl⟩) (padded (titleArgs x0 pad) q3) (padded (titleArgs x0 pad) q3) rfl rfl
  dsimp only at hq3
  have h3 : ∀ axis, extent axis (padded (titleArgs x0 pad) q3) = need axis 3 := by
    intro axis
    obtain ⟨_, _, _, ⟨q, hq, rfl⟩, e, -⟩ := n2 2 1 _ axis _ k2 (hs3 axis) rfl rfl
    dsimp only at hq
    rw [hq3] at hq; injection hq with hq; subst hq
    exact e rfl
  obtain ⟨Pb, Rb, hPb, ⟨qb, hqb, rfl⟩, hpl⟩ := C124_box width height cs s hr width height env he 2 1 _ k2
  rw [hq1] at hPb; injection hPb with hPb; subst hPb
  dsimp only at hqb
  rw [hq3] at hqb; injection hqb with hqb; subst hqb
  have hx3 : start true (padded (titleArgs x0 pad) q3) = start true q1 + x0 := by
    exact fix_start ((hpl true).1 (.fix x0) .number (fun h => by cases h))
  have hw3 := h3 true
  have hh3 := h3 false
  rw [need3] at hw3 hh3
  obtain ⟨x1, y1, w1, ht1⟩ := q1
  obtain ⟨x3, y3, w3, ht3⟩ := q3
  obtain ⟨x5, y5, w5, ht5⟩ := q5
  have hhead' : head = max (height * (numeralValue ds / 100)) (th + 2 * pad) := rfl
  clear_value head
  simp only [start, extent, padded, headerArgs, titleArgs, fboxArgs, mostSpecific, if_true, Bool.false_eq_true, if_false, sub_zero, add_zero, List.map_cons, List.map_nil, List.sum_cons, List.sum_nil] at a1 a2 a3 a4 hhead hfirst hchain f1 hm hx3 hw3 hh3
  rw [hq1, hq3, hq5]
  have b1 : ht1 = head := by rw [hhead]; exact hhead'.symm
  have c1 : x1 = 0 := a1
  have c2 : y1 = 0 := hfirst
  subst c1 c2 b1
  refine ⟨?_, ?_, ?_⟩
  · rw [a2]
  · have d1 : x3 = x0 + pad := by linarith
    have d2 : w3 = tw := by linarith
    have d3 : ht3 = th := by linarith
    have d4 : y3 = (ht1 - th) / 2 := by linarith
    rw [d1, d2, d3, d4]
  · have d1 : y5 = ht1 := by linarith
    have d2 : ht5 = height - ht1 := by linarith
    rw [a3, a4, d1, d2]

/-- `init_slide` of the documentation with a text in the box that it returns, and with a text that is higher than the page. -/
example : ∀ th2 ∈ [40, 1000], (match run (newSlide 1024 768) (initSlide ['1', '0'] 10 10 130 34 ++ [.text 5 500 th2 false]) with
    | .ok s => (match s.rects 1024 768 with | .ok env => [1, 3, 5].map env | .error _ => [])
    | .error _ => []) = [some ⟨0, 0, 1024, 384 / 5⟩, some ⟨20, 107 / 5, 130, 34⟩, some ⟨0, 384 / 5, 1024, 3456 / 5⟩] := by decide +kernel

end Verif.Slide
