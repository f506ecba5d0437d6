import Verif.Spec.Rescaled
/-
SPECIFICATION: two pages of different documents show the same. Fonts are numbered in each document, in the order of their first use; so a font may have another number in
another document.
-/

namespace Pdfje

/-- The glyph, if fonts have the numbers of another document. -/
def Glyph.renamed (N : FontRef → FontRef) (g : Glyph) : Glyph := { g with enc := N g.enc, font := g.font.map fun e => (N e.1, e.2) }

/-- `N` gives the numbers, in a document with the registry `r'`, of the fonts of a document with the registry `r`: standard fonts have no numbers, and the fonts that are embedded are
made of the same variant of the same typeface, from the same file. Different fonts have different numbers. -/
structure SameFonts (N : FontRef → FontRef) (r r' : Res) : Prop where
  inj : Function.Injective N
  standard : ∀ b, N (.builtin b) = .builtin b
  embedded : ∀ i e, r.subsets[i]? = some e → ∃ j e', N (.subset i) = .subset j ∧ r'.subsets[j]? = some e' ∧ e'.1 = e.1 ∧ e'.2.path = e.2.path

/-- The pages show the same: their size and rotation, their glyphs (each at the same place, of the same size and colour, in the same font), and their shapes. `W` and `W'` are the widths
of the characters of the fonts of the two documents. -/
structure Written.SameView (N : FontRef → FontRef) (W W' : FontRef → Char → ℚ) (p q : Written) : Prop where
  size : q.page.base.size = p.page.base.size
  rotate : q.page.base.rotate = p.page.base.rotate
  glyphs : pageGlyphs W' q.ops = (pageGlyphs W p.ops).map (Glyph.renamed N)
  shapes : pageShapes q.ops = pageShapes p.ops

end Pdfje
