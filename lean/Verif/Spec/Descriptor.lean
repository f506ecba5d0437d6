import Verif.Model.Descriptor
import Verif.Spec.Extract
/-
SPECIFICATION: what a font descriptor says (PDF 32000-1, 9.8.1 and 9.8.2), compared with the tables of a font. Lengths in a font file are in units of the font, of which `em` are the font size; in a
descriptor they are in thousandths of the font size.
-/

namespace PdfSpec

/-- The descriptor of a composite font: /DescendantFonts, /FontDescriptor. -/
def fontDescriptor (file : Bytes) (font : PObj) : Option PObj := (descendant file font).bind (PObj.find file b!"FontDescriptor")

/-- An entry that is an integer. -/
def PObj.int (key : Bytes) (p : PObj) : Option ℤ :=
  match p.get key with
  | some (.num q) => if q.den = 1 then some q.num else none
  | _ => none

/-- Table 123: the bits of /Flags, numbered from 1. -/
def flagOf (n : ℤ) (bit : Nat) : Bool := n.toNat.testBit (bit - 1)

/-- Rounded to the nearest integer. -/
def Nearest (z : ℤ) (q : ℚ) : Prop := |(z : ℚ) - q| ≤ 1 / 2

/-- 9.6.4: the name of a subset: six upper-case letters, a plus sign, and the name of the font. -/
def SubsetName (u : Bytes) : Prop := ∃ tag rest, u = tag ++ 0x2B :: rest ∧ tag.length = 6 ∧ ∀ c ∈ tag, 0x41 ≤ c ∧ c ≤ 0x5A

end PdfSpec

namespace Pdfje
open PdfSpec

/-- The descriptor has the numbers of the font, in thousandths of the font size. -/
structure Describes (d : PObj) (em : Nat) (t : FontTables) : Prop where
  type : d.get b!"Type" = some (.name b!"FontDescriptor")
  bbox : ∃ a b c e : ℤ, d.get b!"FontBBox" = some (.arr [.num a, .num b, .num c, .num e]) ∧
    Nearest a (t.xMin * 1000 / em) ∧ Nearest b (t.yMin * 1000 / em) ∧ Nearest c (t.xMax * 1000 / em) ∧ Nearest e (t.yMax * 1000 / em)
  ascent : ∃ z, d.int b!"Ascent" = some z ∧ Nearest z (t.ascent * 1000 / em)
  descent : ∃ z, d.int b!"Descent" = some z ∧ Nearest z (t.descent * 1000 / em)
  /-- the height of capitals; that of the ascenders, if the font does not say -/
  capHeight : ∃ z, d.int b!"CapHeight" = some z ∧ (∀ h, t.capHeight = some h → Nearest z (h * 1000 / em)) ∧
    (t.capHeight = none → Nearest z (t.ascent * 1000 / em))
  italicAngle : ∃ z, d.int b!"ItalicAngle" = some z ∧ Nearest z t.italicAngle
  /-- fixed pitch (1), symbolic (3), italic (7), force bold (19), as the font is; no other, so never nonsymbolic (6) with symbolic -/
  flags : ∃ n, d.int b!"Flags" = some n ∧ 0 ≤ n ∧ ∀ bit, 1 ≤ bit → (flagOf n bit = true ↔
    bit = 3 ∨ (bit = 1 ∧ t.isFixedPitch ≠ 0) ∨ (bit = 7 ∧ t.italicAngle ≠ 0) ∨ (bit = 19 ∧ 600 ≤ t.weightClass))

end Pdfje
