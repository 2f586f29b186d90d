import Verif.Proofs.Grid
import Verif.Props.Book

/-! # C116: the documents of `slides_per_page` -/

namespace Verif.Book
open Spec
open Verif.Scene.Spec
open Verif.Deck (Entry Policy)
open Verif.Slide.Spec (OnPage)
open Verif.SvgDraw.Spec (Numbers)

/-- **C116 (pages).** Pages in grids of `rows` × `cols` (with more than one cell), whatever is on them: every document is well-formed XML as large as the grid and has
exactly the next `rows * cols` pages (the last one: what remains), complete and each at its place; there are as few documents as possible. Embedded PDFs are left as they are. -/
theorem C116_grid {fmt : Rat → Str} {read : Str → Option Rat} (hn : Numbers fmt read) (w h : Rat) (rows cols : Nat) (hr : 0 < rows) (hc : 0 < cols) (h1 : cols * rows ≠ 1)
    (sheets : List (Sheet Str)) (hd : ∀ u i s d, Sheet.page u i s d ∈ sheets → DocOk d) :
    ∃ outs, gridSheets fmt cols rows w h sheets = .ok outs ∧ Gridded read rows cols w h sheets outs := by
  obtain ⟨x0, hx0, hf0⟩ := gridNew_ok hn rows cols w h
  obtain ⟨rest, h2, h3, h4, h5⟩ := gridLoop_ok hn (Nat.mul_pos hc hr) hd (new := []) (cur := []) (Nat.zero_le _) hf0
  rw [List.nil_append] at h4 h5
  refine ⟨rest, ?_, h4, h5, h3⟩
  unfold gridSheets
  rw [if_neg (by omega), if_neg (by omega), if_neg h1, hx0]
  exact h2

/-- **C116 (decks).** After any successful calls of the API, `slides_per_page` with Inkscape gives the pages that there are without it (C115), in such grids;
a grid of one cell changes nothing. -/
theorem C116_deck {fmt : Rat → Str} {read : Str → Option Rat} (hn : Numbers fmt read) (ang : Rat → Rat × Rat) (h0 : ang 0 = (1, 0))
    (w h : Rat) (bg : Option Str) (policy : Policy) (cs : List Call) (b : Book) (hr : run (newBook w h bg policy) cs = .ok b) (pdf : Bool)
    (hne : b.deck.slides ≠ []) (hp : ∀ u f, Entry.pdf u f ∈ b.deck.slides → pdf = true)
    (hd : ∀ u i n, Entry.slide u i n ∈ b.deck.slides → ∀ s, Verif.Scene.run (Verif.Scene.newScene w h) (historyOf bg cs u) = .ok s →
      ∃ env, s.slide.rects w h = .ok env ∧ ∀ (k step p : Nat) d, 1 ≤ step → (things (historyOf bg cs u))[k]? = some (.draw p d) →
        OnPage ((things (historyOf bg cs u)).map outline) step p → Drawable env step p d)
    (rows cols : Nat) (hrows : 0 < rows) (hcols : 0 < cols) :
    ∃ sheets outs, renderSvg fmt b pdf = .ok sheets ∧ renderUnits fmt b pdf (some (cols, rows)) = .ok outs ∧ Complete bg cs b.deck.slides sheets ∧
      (∀ u i step doc, Sheet.page u i step doc ∈ sheets → ∃ s env l, Verif.Scene.run (Verif.Scene.newScene w h) (historyOf bg cs u) = .ok s ∧
        s.slide.rects w h = .ok env ∧ InOrder (things (historyOf bg cs u)) step l ∧
        SvgPage read ang env step (things (historyOf bg cs u)) w h (viewBoxOf cs u) l doc) ∧
      (cols * rows ≠ 1 → Gridded read rows cols w h sheets outs) ∧ (cols * rows = 1 → outs = sheets.map .sheet) := by
  obtain ⟨-, sheets, h1, h2, h3⟩ := C115_svg hn ang h0 w h bg policy cs b hr pdf hne hp hd
  obtain ⟨hw, hh⟩ := run_size hr
  by_cases ho : cols * rows = 1
  · refine ⟨sheets, sheets.map .sheet, h1, ?_, h2, h3, fun h => absurd ho h, fun _ => rfl⟩
    unfold renderUnits gridSheets
    rw [h1]
    dsimp only
    rw [if_neg (by omega), if_neg (by omega), if_pos ho]
  · obtain ⟨outs, h4, h5⟩ := C116_grid hn w h rows cols hrows hcols ho sheets (by
      intro u i s d hm
      obtain ⟨_, _, _, -, -, -, as, parts, hcr, hread, -⟩ := h3 u i s d hm
      exact ⟨hcr, _, _, _, hread⟩)
    refine ⟨sheets, outs, h1, ?_, h2, h3, fun _ => h5, fun h => absurd h ho⟩
    unfold renderUnits
    rw [h1, hw, hh]
    exact h4

/-- The deck of C115 with two columns. -/
example : ∃ sheets outs, renderSvg Verif.SvgDraw.sampleFmt exBook true = .ok sheets ∧ renderUnits Verif.SvgDraw.sampleFmt exBook true (some (2, 1)) = .ok outs ∧
    Gridded Verif.SvgDraw.sampleRead 1 2 100 80 sheets outs := by
  obtain ⟨sheets, outs, h1, h2, -, -, h3, -⟩ := C116_deck Verif.SvgDraw.sampleNumbers (fun _ => (1, 0)) rfl 100 80 (some "red".toList) .unique exCalls exBook ex_run true
    (by rw [ex_slides]; simp) (fun _ _ _ => rfl) ex_drawn 1 2 (by decide) (by decide)
  exact ⟨sheets, outs, h1, h2, h3 (by decide)⟩

end Verif.Book
