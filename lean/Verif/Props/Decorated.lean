import Verif.Proofs.Decorated
import Verif.Props.Isolated
import Verif.Props.Painted
/-
C95: drawings do not change how text flows.
-/

namespace Pdfje
open PdfSpec

/-- C95. Without the drawings on its pages and in its templates a document (that is written without an error) has as many pages, of the same sizes, and each shows the same but for the drawings. With
them, each page shows its drawings first, and then the same text and rules: glyphs at the same places, of the same sizes and colours, in the same fonts, and shapes. -/
theorem C95_drawings (w : World) (s : StyleFull) (hs : s.Known) (items : List DocItem) (hk : ∀ it ∈ items, it.Known) (hc : ∀ it ∈ items, it.HasColumns) (done : Nat)
    (h : (docRun w s items done Res.empty).err = none) :
    ∃ N, SameFonts N (docRun w s (items.map DocItem.bare) done Res.empty).res (docRun w s items done Res.empty).res ∧
      (docRun w s (items.map DocItem.bare) done Res.empty).err = none ∧
      List.Forall₂ (Written.Decorates N (w.env (docRun w s (items.map DocItem.bare) done Res.empty).res).widths (w.env (docRun w s items done Res.empty).res).widths w s)
        (docRun w s (items.map DocItem.bare) done Res.empty).pages (docRun w s items done Res.empty).pages := by
  have hp : Res.empty.Pair Res.empty := ⟨Res.wf_empty, Res.wf_empty, fun _ h => h⟩
  have h := docRun_dec w hs (done := done) hp hk hc h
  obtain ⟨ν, hν, henv⟩ := exists_good w h.pair
  refine ⟨ν.font, good_same h.pair hν, h.err, (h.pages ν hν).imp fun p q hpq => ?_⟩
  have hv := view_iso ν (p := p) (q := ⟨⟨p.page.base, q.page.cols⟩, q.page.cols.flatMap ColumnFill.ops, []⟩) ⟨rfl, hpq.same⟩ (w.env (docRun w s items done Res.empty).res).widths
  have hW : (fun f => (w.env (docRun w s items done Res.empty).res).widths (ν.font f)) = (w.env (docRun w s (items.map DocItem.bare) done Res.empty).res).widths := by
    funext f c
    rw [← henv]
    exact congrArg (fun m : Metrics => m.charwidth c) (metrics_via ν.change _ f)
  rw [hW] at hv
  obtain ⟨own, how, hops⟩ := hpq.ops
  obtain ⟨shapes, g, hg, hpath⟩ : ∃ shapes g, Gfx.run own .initial = some (shapes, g) ∧ g.path = [] := by
    obtain ⟨r, b, r', hr⟩ := how
    obtain ⟨parts, rfl, hparts⟩ := drawingsRun_ops w s _ _ _ _ _ hr
    obtain ⟨s1, g1, h1, h2, -⟩ := drawings_paint hparts (g := .initial) rfl
    exact ⟨_, g1, h1, h2⟩
  refine ⟨hpq.base, own, how, ?_, shapes, by unfold pageShapes; rw [hg]; rfl, ?_⟩
  · rw [← hv.glyphs, hops]
    unfold pageGlyphs
    rw [viewPage_append]
    simp only
    rw [page_sure _ _ (cols_sure _ q.page.cols) _ Viewer.initial]
  · rw [← hv.shapes, hops]
    unfold pageShapes
    rw [gfxRun_append, hg]
    have := cols_paint q.page.cols g .initial hpath rfl
    simp only [Option.bind_some, Option.map_map]
    have h2 := congrArg (Option.map (shapes ++ ·)) this
    simpa [Option.map_map, Function.comp_def] using h2

/-! ### A concrete document: the paragraph "a b" on pages with a rectangle, one letter on each -/

/-- A page with a rectangle and a column. -/
def ruledPage : Page := ⟨[.rect (0, 0) 5 5 none (some ⟨1, 0, 0⟩)], (100, 100), 0, [tightColumn]⟩

/-- Pages with this template. -/
def ruledPages : AutoPage := ⟨[.paragraph shortLeft], fun _ => ruledPage⟩

theorem ruled_columnsLeft : columnsLeft (fun _ => PageFill.new ruledPage) = fun _ => .new tightColumn := flow_columnsLeft

/-- The two pages. -/
def ruledRun : PagesRun := writePages demoWorld faceStyle (flowChunks.map fun c => ⟨ruledPage, [(ColumnFill.new tightColumn).add (.text c)]⟩) shortRes

theorem ruled_run : docRun demoWorld faceStyle [.auto ruledPages] 0 Res.empty = ruledRun := by
  have hlen : flowChunks.length = 2 := by decide +kernel
  obtain ⟨c1, c2, h2⟩ := List.length_eq_two.1 hlen
  have hf := flow_columns
  rw [docRun]
  have hrun : DocItem.run demoWorld faceStyle (.auto ruledPages) (0 + 1) Res.empty = ruledRun := by
    show autoLoop demoWorld faceStyle [.paragraph shortLeft] (fun _ => PageFill.new ruledPage) Res.empty = _
    rw [autoLoop, ruled_columnsLeft, hf]
    unfold ruledRun
    rw [h2]
    generalize shortRes = r
    have hfill : fillInto ([c1, c2].map fun c => (ColumnFill.new tightColumn).add (.text c)) (fun _ => PageFill.new ruledPage) =
        some (consStream ⟨ruledPage, [(ColumnFill.new tightColumn).add (.text c2)], []⟩ (fun _ => PageFill.new ruledPage),
          [⟨ruledPage, [], [(ColumnFill.new tightColumn).add (.text c1)]⟩]) := rfl
    simp only [hfill]
    simp only [autoLoop, consStream, List.map_cons, List.map_nil, List.nil_append, writePages, PagesRun.andThen]
    rcases (Filled.run demoWorld faceStyle ⟨ruledPage, [(ColumnFill.new tightColumn).add (.text c1)]⟩ r) with ⟨_ | ⟨ops, b⟩, r1⟩
    · rfl
    · rfl
  rw [hrun]
  have herr : ruledRun.err = none := by decide +kernel
  simp only [PagesRun.andThen, herr, docRun, List.append_nil]
  rw [← herr]

/-- The second page shows the letter of the page without a rectangle, and the rectangle. -/
example : ∃ N q1 q2, (docRun demoWorld faceStyle [.auto ruledPages] 0 Res.empty).pages = [q1, q2] ∧
    SameFonts N flowRun.res (docRun demoWorld faceStyle [.auto ruledPages] 0 Res.empty).res ∧
    List.Forall₂ (Written.Decorates N (demoWorld.env flowRun.res).widths (demoWorld.env (docRun demoWorld faceStyle [.auto ruledPages] 0 Res.empty).res).widths demoWorld faceStyle)
      flowRun.pages [q1, q2] ∧
    (pageShapes q2.ops).map List.length = some 1 := by
  have hk : ∀ it ∈ [DocItem.auto ruledPages], it.Known := by
    intro it hit
    rw [List.mem_singleton] at hit
    subst hit
    have h := flow_known (.auto flowPages) (by simp)
    refine ⟨h.1, fun n d hd => ?_⟩
    simp only [ruledPages, ruledPage, List.mem_singleton] at hd
    subst hd
    trivial
  have hc : ∀ it ∈ [DocItem.auto ruledPages], it.HasColumns := by
    intro it hit
    rw [List.mem_singleton] at hit
    subst hit
    intro n
    simp [ruledPages, ruledPage]
  have hbare : [DocItem.auto ruledPages].map DocItem.bare = [.auto flowPages] := rfl
  obtain ⟨N, hN, -, h⟩ := C95_drawings demoWorld faceStyle trivial [.auto ruledPages] hk hc 0 (by rw [ruled_run]; decide +kernel)
  rw [hbare, flow_run] at hN h
  have hlen : ruledRun.pages.length = 2 := by decide +kernel
  obtain ⟨q1, q2, hp⟩ := List.length_eq_two.1 hlen
  have hs : (ruledRun.pages.map fun p => (pageShapes p.ops).map List.length)[1]? = some (some 1) := by decide +kernel
  refine ⟨N, q1, q2, by rw [ruled_run, hp], hN, ?_, ?_⟩
  · have e : (docRun demoWorld faceStyle [.auto ruledPages] 0 Res.empty).pages = [q1, q2] := by rw [ruled_run, hp]
    rwa [e] at h
  · rw [hp] at hs
    simpa using hs

end Pdfje
