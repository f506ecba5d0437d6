import Verif.Model.Style
/-
Specification: what a PDF viewer does with text operators (ISO 32000-1, 9.3, 9.4). The text matrix only ever has
a translation part here, because pdfje writes no operator that scales or rotates it; there is no character or word
spacing, horizontal scaling or rise.
-/

namespace Pdfje

/-- A glyph on the page: the character it stands for, the font its code was made for, the font, size and colour
the viewer uses, and its origin. -/
structure Glyph where
  char : Char
  enc : FontRef
  font : Option (FontRef × ℚ)
  color : RGB
  x : ℚ
  y : ℚ
  deriving DecidableEq

/-- The state of the viewer: font and size (none at the beginning of a page), colour, start of the current line,
current position, leading. -/
structure Viewer where
  font : Option (FontRef × ℚ)
  color : RGB
  lineX : ℚ
  lineY : ℚ
  x : ℚ
  leading : ℚ
  deriving DecidableEq

/-- The horizontal advance of a distance given in thousandths of text space. -/
def Viewer.dist (v : Viewer) (d : ℚ) : ℚ := match v.font with | some (_, z) => d / 1000 * z | none => 0

/-- The width of a character in the font in use, in thousandths. -/
def Viewer.charWidth (W : FontRef → Char → ℚ) (v : Viewer) (c : Char) : ℚ :=
  match v.font with | some (f, _) => W f c | none => 0

/-- Showing one character. -/
def Viewer.glyph (v : Viewer) (f : FontRef) (c : Char) : Glyph := ⟨c, f, v.font, v.color, v.x, v.lineY⟩

/-- Showing a string. -/
def Viewer.showText (W : FontRef → Char → ℚ) (f : FontRef) : List Char → Viewer → List Glyph × Viewer
  | [], v => ([], v)
  | c :: cs, v =>
    let (gs, v') := Viewer.showText W f cs { v with x := v.x + v.dist (v.charWidth W c) }
    (v.glyph f c :: gs, v')

/-- The elements of a `TJ` array: a number moves left by that many thousandths. -/
def Viewer.show (W : FontRef → Char → ℚ) : List ShowItem → Viewer → List Glyph × Viewer
  | [], v => ([], v)
  | .adj a :: is, v => Viewer.show W is { v with x := v.x - v.dist a }
  | .txt f s :: is, v =>
    let (g1, v1) := Viewer.showText W f s v
    let (g2, v2) := Viewer.show W is v1
    (g1 ++ g2, v2)

/-- Going to a new line. -/
def Viewer.newLine (v : Viewer) (dx dy : ℚ) : Viewer :=
  { v with lineX := v.lineX + dx, lineY := v.lineY + dy, x := v.lineX + dx }

/-- One operator. -/
def Viewer.step (W : FontRef → Char → ℚ) (v : Viewer) : TextOp → List Glyph × Viewer
  | .tf f z => ([], { v with font := some (f, z) })
  | .rg c => ([], { v with color := c })
  | .tj is => Viewer.show W is v
  | .td x y => ([], v.newLine x y)
  | .tdl x y => ([], { v.newLine x y with leading := -y })
  | .tl l => ([], { v with leading := l })
  | .tstar => ([], v.newLine 0 (-v.leading))

/-- A sequence of operators. -/
def Viewer.run (W : FontRef → Char → ℚ) : List TextOp → Viewer → List Glyph × Viewer
  | [], v => ([], v)
  | op :: ops, v =>
    let (g1, v1) := v.step W op
    let (g2, v2) := Viewer.run W ops v1
    (g1 ++ g2, v2)

end Pdfje
