import Verif.Model.Fonts
import Verif.Spec.FontSpec
/-
SPECIFICATION: which glyph a viewer shows for a character in a standard font with WinAnsiEncoding (PDF 32000-1:2008, Annex D.2).
-/

namespace Pdfje
open PdfSpec

/-- A character of WinAnsiEncoding. -/
def InWinAnsi (n : Nat) : Prop := ∃ b, winAnsi b = some n

instance (n : Nat) : Decidable (InWinAnsi n) := decidable_of_iff (∃ b : Fin 256, winAnsi (UInt8.ofNat b) = some n)
  ⟨fun ⟨b, h⟩ => ⟨_, h⟩, fun ⟨b, h⟩ => ⟨⟨b.toNat, b.toNat_lt⟩, by simpa using h⟩⟩

/-- The character whose glyph is shown for the character with this code point. A character that is not in WinAnsiEncoding is written as a question mark. By the notes of D.2, the
no-break space is shown with the glyph of the space, and the soft hyphen with that of the hyphen. The glyphs `dieresis`, `macron`, `acute`, `mu`, `cedilla` and `tilde` are also those of the
combining accents (and the Greek mu) next to them here. -/
def shownFor (n : Nat) : Nat :=
  if n = 0xA0 then 0x20 else if n = 0xAD then 0x2D else
  if n = 0xA8 then 0x308 else if n = 0xAF then 0x304 else if n = 0xB4 then 0x301 else if n = 0xB5 then 0x3BC else if n = 0xB8 then 0x327 else if n = 0x2DC then 0x303 else
  if InWinAnsi n then n else 0x3F

/-! The widths that Adobe publishes for the printable ASCII characters (32–126, in order), in thousandths of the size (Adobe Core14 AFM files). -/

/-- Helvetica and Helvetica-Oblique. -/
def helveticaAscii : List Nat :=
  [278, 278, 355, 556, 556, 889, 667, 191, 333, 333, 389, 584, 278, 333, 278, 278, 556, 556, 556, 556, 556, 556, 556, 556, 556, 556, 278, 278, 584, 584, 584, 556, 1015, 667, 667, 722, 722, 667, 611, 778, 722, 278, 500, 667, 556, 833, 722, 778, 667, 778, 722, 667, 611, 722, 667, 944, 667, 667, 611, 278, 278, 278, 469, 556, 333, 556, 556, 500, 556, 556, 278, 556, 556, 222, 222, 500, 222, 833, 556, 556, 556, 556, 333, 500, 278, 556, 500, 722, 500, 500, 500, 334, 260, 334, 584]

/-- Helvetica-Bold and Helvetica-BoldOblique. -/
def helveticaBoldAscii : List Nat :=
  [278, 333, 474, 556, 556, 889, 722, 238, 333, 333, 389, 584, 278, 333, 278, 278, 556, 556, 556, 556, 556, 556, 556, 556, 556, 556, 333, 333, 584, 584, 584, 611, 975, 722, 722, 722, 722, 667, 611, 778, 722, 278, 556, 722, 611, 833, 722, 778, 667, 778, 722, 667, 611, 722, 667, 944, 667, 667, 611, 333, 278, 333, 584, 556, 333, 556, 611, 556, 611, 556, 333, 611, 611, 278, 278, 556, 278, 889, 611, 611, 611, 611, 389, 556, 333, 611, 556, 778, 556, 556, 500, 389, 280, 389, 584]

/-- Times-Roman. -/
def timesAscii : List Nat :=
  [250, 333, 408, 500, 500, 833, 778, 180, 333, 333, 500, 564, 250, 333, 250, 278, 500, 500, 500, 500, 500, 500, 500, 500, 500, 500, 278, 278, 564, 564, 564, 444, 921, 722, 667, 667, 722, 611, 556, 722, 722, 333, 389, 722, 611, 889, 722, 722, 556, 722, 667, 556, 611, 722, 722, 944, 722, 722, 611, 333, 278, 333, 469, 500, 333, 444, 500, 444, 500, 444, 333, 500, 500, 278, 278, 500, 278, 778, 500, 500, 500, 500, 333, 389, 278, 500, 500, 722, 500, 500, 444, 480, 200, 480, 541]

/-- Times-Bold. -/
def timesBoldAscii : List Nat :=
  [250, 333, 555, 500, 500, 1000, 833, 278, 333, 333, 500, 570, 250, 333, 250, 278, 500, 500, 500, 500, 500, 500, 500, 500, 500, 500, 333, 333, 570, 570, 570, 500, 930, 722, 667, 722, 722, 667, 611, 778, 778, 389, 500, 778, 667, 944, 722, 778, 611, 778, 722, 556, 667, 722, 722, 1000, 722, 722, 667, 333, 278, 333, 581, 500, 333, 500, 556, 444, 556, 444, 333, 500, 556, 278, 333, 556, 278, 833, 556, 500, 556, 556, 444, 389, 333, 556, 500, 722, 500, 500, 444, 394, 220, 394, 520]

/-- Times-Italic. -/
def timesItalicAscii : List Nat :=
  [250, 333, 420, 500, 500, 833, 778, 214, 333, 333, 500, 675, 250, 333, 250, 278, 500, 500, 500, 500, 500, 500, 500, 500, 500, 500, 333, 333, 675, 675, 675, 500, 920, 611, 611, 667, 722, 611, 611, 722, 722, 333, 444, 667, 556, 833, 667, 722, 611, 722, 611, 500, 556, 722, 611, 833, 611, 556, 556, 389, 278, 389, 422, 500, 333, 500, 500, 444, 500, 444, 278, 500, 500, 278, 278, 444, 278, 722, 500, 500, 500, 500, 389, 389, 278, 500, 444, 667, 444, 444, 389, 400, 275, 400, 541]

/-- Times-BoldItalic. -/
def timesBoldItalicAscii : List Nat :=
  [250, 389, 555, 500, 500, 833, 778, 278, 333, 333, 500, 570, 250, 333, 250, 278, 500, 500, 500, 500, 500, 500, 500, 500, 500, 500, 333, 333, 570, 570, 570, 500, 832, 667, 667, 667, 722, 667, 667, 722, 778, 389, 500, 667, 611, 889, 722, 722, 611, 722, 667, 556, 611, 722, 667, 889, 667, 611, 611, 333, 278, 333, 570, 500, 333, 500, 500, 444, 500, 444, 333, 500, 556, 278, 278, 500, 278, 778, 556, 500, 500, 500, 389, 389, 278, 556, 444, 667, 500, 444, 389, 348, 220, 348, 570]

/-- The published widths of the text fonts, by name; the characters of Courier are all 600 wide. -/
def publishedAscii : List (Bytes × List Nat) :=
  [(b!"Helvetica", helveticaAscii), (b!"Helvetica-Oblique", helveticaAscii), (b!"Helvetica-Bold", helveticaBoldAscii), (b!"Helvetica-BoldOblique", helveticaBoldAscii),
   (b!"Times-Roman", timesAscii), (b!"Times-Bold", timesBoldAscii), (b!"Times-Italic", timesItalicAscii), (b!"Times-BoldItalic", timesBoldItalicAscii),
   (b!"Courier", List.replicate 95 600), (b!"Courier-Oblique", List.replicate 95 600), (b!"Courier-Bold", List.replicate 95 600), (b!"Courier-BoldOblique", List.replicate 95 600)]

end Pdfje
