import Verif.Spec.Isolated
/-
SPECIFICATION: documents with and without the drawings on their pages.
-/

namespace Pdfje
open PdfSpec

/-- The page without its drawings. -/
def Page.bare (p : Page) : Page := { p with content := [] }

/-- The item without drawings: neither on pages nor in templates. -/
def DocItem.bare : DocItem → DocItem
  | .page p => .page p.bare
  | .auto a => .auto ⟨a.content, fun n => (a.template n).bare⟩

/-- `q` shows its own drawings, and then all that `p` shows: glyphs at the same places, of the same sizes and colours, in the same fonts (but for their numbers), and shapes. `own` are the operators
of the drawings of `q`. -/
structure Written.Decorates (N : FontRef → FontRef) (W W' : FontRef → Char → ℚ) (w : World) (s : StyleFull) (p q : Written) : Prop where
  base : p.page.base = q.page.base.bare
  shown : ∃ own, (∃ r bytes r', drawingsRun w s q.page.base.content r = (some (own, bytes), r')) ∧
    pageGlyphs W' q.ops = pageGlyphs W' own ++ (pageGlyphs W p.ops).map (Glyph.renamed N) ∧
    ∃ shapes, pageShapes own = some shapes ∧ pageShapes q.ops = (pageShapes p.ops).map (shapes ++ ·)

end Pdfje
