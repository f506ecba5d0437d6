import Verif.Model.TrueType
/-
What the OpenType specification says about pair positioning (GPOS lookup type 2, feature `kern`), for text written from left to right:
the lookups of the feature are applied one after the other in the order of the lookup list, and the advance adjustments of the first glyph add up; within a lookup
the first subtable that applies is the only one. A format 1 subtable applies if it covers the first glyph and the pair set of
that glyph has the second. A format 2 subtable applies if it covers the first glyph; the classes of the two glyphs (0
if they are in no class) select the value.
-/

namespace Pdfje

/-- The advance adjustment of a value record, if the value format says there is one (bit 2). -/
def advanceOf (valueFormat : Nat) (v : GposValue) : ℤ := if valueFormat / 4 % 2 = 1 then v.xAdvance else 0

/-- What a subtable does for a pair of glyphs; `none`: it does not apply. -/
def PairPos.applied (p : PairPos) (l r : GlyphName) : Option ℤ :=
  match p with
  | .format1 coverage vf sets =>
    match (coverage.zip sets).lookup l with
    | none => none
    | some set => (set.lookup r).map (advanceOf vf)
  | .format2 coverage vf class1 class2 records =>
    if l ∈ coverage then
      ((records[(class1.lookup l).getD 0]?).bind fun row => row[(class2.lookup r).getD 0]?).map (advanceOf vf)
    else none

/-- The pair positioning subtables of a lookup. -/
def GposLookup.pairPos (l : GposLookup) : List PairPos :=
  l.subs.filterMap fun s => match s with | .pairPos p => some p | .extension p => some p | .extensionOther _ => none

/-- What a lookup does: its first subtable that applies. -/
def GposLookup.applied (lk : GposLookup) (l r : GlyphName) : ℤ :=
  (lk.pairPos.findSome? fun p => p.applied l r).getD 0

/-- The lookups of the feature `kern`, each once, in the order of the lookup list. -/
def Gpos.kernFeature (g : Gpos) : List GposLookup :=
  ((List.range g.lookups.length).filter fun i => g.features.any fun f => f.1 = "kern".toList ∧ i ∈ f.2).filterMap
    fun i => g.lookups[i]?

/-- The kerning of a pair of glyphs, in units of the font. -/
def Ttf.glyphKern (t : Ttf) (l r : GlyphName) : ℤ :=
  match t.gpos with
  | none => 0
  | some g => (g.kernFeature.map fun lk => lk.applied l r).sum

/-- The kerning of a pair of characters that the font has, in thousandths. -/
def Ttf.charKern (t : Ttf) (a b : Char) : ℚ :=
  match t.cmap.lookup a, t.cmap.lookup b with
  | some l, some r => t.glyphKern l r * 1000 / t.unitsPerEm
  | _, _ => 0

/-- The width of a character, in thousandths of the font size: the advance width of its glyph (or of `.notdef`, if the font has none), of which
`unitsPerEm` are the font size. -/
def Ttf.charAdvance (t : Ttf) (c : Char) : ℚ :=
  match t.cmap.lookup c with
  | some g => t.advance g * 1000 / t.unitsPerEm
  | none => t.advance ".notdef".toList * 1000 / t.unitsPerEm

end Pdfje
