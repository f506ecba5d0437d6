import Verif.Spec.Text
import Verif.Spec.Stands
/-
SPECIFICATION: the glyphs that a viewer shows for the operators of a page.
-/

namespace Pdfje
open PdfSpec

/-- The glyphs of a page, in the order in which they are drawn. Font and colour last until they are changed, also after the end of a text object. -/
def Viewer.page (W : FontRef → Char → ℚ) : List PageOp → Viewer → List Glyph × Viewer
  | [], v => ([], v)
  | .text ops :: ps, v =>
    let (g1, v1) := Viewer.run W ops v.beginText
    let (g2, v2) := Viewer.page W ps v1
    (g1 ++ g2, v2)
  | .fillColor c :: ps, v => Viewer.page W ps { v with color := c }
  | _ :: ps, v => Viewer.page W ps v

/-- The viewer at the beginning of a page (8.4.1): no font, black, at the origin. -/
def Viewer.initial : Viewer := ⟨none, ⟨0, 0, 0⟩, 0, 0, 0, 0⟩

/-- The glyphs of a page. -/
def pageGlyphs (W : FontRef → Char → ℚ) (ops : List PageOp) : List Glyph := (Viewer.page W ops .initial).1

/-- The glyph is drawn in the font for which it was encoded. -/
def Glyph.InFont (g : Glyph) : Prop := g.font.map (·.1) = some g.enc

/-- The code point that a character of a font is read as: standard fonts have only the characters of WinAnsi, others are question marks. -/
def readAs : FontRef → Char → Nat
  | .builtin _, c => winAnsiChar c
  | .subset _, c => c.toNat

/-- How the characters of a typeface are read: standard fonts have only the characters of WinAnsi, others are question marks. -/
def Typeface.readAs : Typeface → Char → Nat
  | .builtin _, c => winAnsiChar c
  | .trueType _, c => c.toNat

end Pdfje
