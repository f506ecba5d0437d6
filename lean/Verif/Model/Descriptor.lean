import Verif.Model.TrueType
/-
Model of how /repo/src/pdfje/fonts/embed.py:154-340 reads the numbers of a font descriptor, and the glyphs, from a font file after subsetting.
-/

namespace Pdfje

/-- What is read of the tables of a font, after subsetting: `post.italicAngle`, `post.isFixedPitch`, `OS/2.usWeightClass`, `OS/2.sCapHeight` (old versions of the table
have none), `hhea.ascent` and `.descent`, the box in `head`, the advance of `.notdef` in `hmtx`, the character map, and the glyphs in their order. -/
structure FontTables where
  italicAngle : ℚ
  isFixedPitch : Nat
  weightClass : Nat
  capHeight : Option ℤ
  ascent : ℤ
  descent : ℤ
  xMin : ℤ
  yMin : ℤ
  xMax : ℤ
  yMax : ℤ
  notdefAdvance : Nat
  cmap : List (Char × GlyphName)
  glyphOrder : List GlyphName

/-- Python's `round(x)`: to the nearest integer, ties to even. -/
def pyRound (q : ℚ) : ℤ := if 0 ≤ q then roundHalfEven q else -(roundHalfEven (-q) : ℤ)

/-- fonts/embed.py:255-260 `_encode_bbox`. -/
def FontTables.bbox (t : FontTables) (scale : ℚ) : ℤ × ℤ × ℤ × ℤ :=
  (pyRound (t.xMin * scale), pyRound (t.yMin * scale), pyRound (t.xMax * scale), pyRound (t.yMax * scale))

/-- fonts/embed.py:262-283 `_FontDescriptorFlag` and `_encode_flags`. -/
def FontTables.flags (t : FontTables) : Nat :=
  1 <<< 2 ||| (if t.isFixedPitch ≠ 0 then 1 <<< 0 else 0) ||| (if t.italicAngle ≠ 0 then 1 <<< 6 else 0) ||| (if 600 ≤ t.weightClass then 1 <<< 18 else 0)

/-- fonts/embed.py:320-329 `_encode_cap_height`. -/
def FontTables.capHeightInt (t : FontTables) (scale : ℚ) : ℤ :=
  pyRound ((match t.capHeight with | some v => v | none => t.ascent : ℤ) * scale)

/-- fonts/embed.py:331-340 `_encode_stem_v`. -/
def FontTables.stemV (t : FontTables) : ℤ := pyRound (50 + (241 - 50) / (900 - 100) * t.weightClass)

/-- fonts/embed.py:293-308 `_encode_cid_gid_map`: the glyph of a character, by its place in the order of glyphs (`getReverseGlyphMap`). Simplification: a glyph name that the font does
not have (a KeyError) has number 0 here. -/
def FontTables.glyphId (t : FontTables) (c : Char) : Nat :=
  (t.glyphOrder.findIdx? (· == (t.cmap.lookup c).getD notdef)).getD 0

/-- A font file as the rest of the model sees it: what is read before subsetting (embed.py:110-132), its name, and what is read after subsetting for given characters
(embed.py:171-253). `none`: an error. -/
def Ttf.embedded (t : Ttf) (name : Bytes) (sub : List Char → FontTables) (saved : List Char → Bytes) : Option FontFile :=
  if t.unitsPerEm = 0 then none
  else t.kerning.map fun k =>
    { fullName := name
      charwidth := t.charwidth
      kerning := k
      notdefWidth := fun cs => (sub cs).notdefAdvance * t.scale
      glyphId := fun cs => (sub cs).glyphId
      flags := fun cs => (sub cs).flags
      bbox := fun cs => (sub cs).bbox t.scale
      italicAngle := fun cs => pyRound (sub cs).italicAngle
      ascent := fun cs => pyRound ((sub cs).ascent * t.scale)
      descent := fun cs => pyRound ((sub cs).descent * t.scale)
      capHeight := fun cs => (sub cs).capHeightInt t.scale
      stemV := fun cs => (sub cs).stemV
      saved := saved }

end Pdfje
