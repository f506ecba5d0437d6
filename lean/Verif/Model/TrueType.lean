import Verif.Model.Render
/-
Model of how /repo/src/pdfje/fonts/embed.py:110-132 `Subset.new` reads widths and kerning from a font file, and of
/repo/src/pdfje/vendor/get_kerning_pairs.py, which turns the pair positioning tables of the font into a dictionary.
A font is what the package fontTools gives: tables that were parsed and are well-formed (a pair set for every covered glyph,
an advance width for every glyph; characters that are Unicode scalar values).
-/

namespace Pdfje

/-- Name of a glyph. -/
abbrev GlyphName := List Char

/-- The fields of a value record that the code looks at. -/
structure GposValue where
  xPlacement : ℤ
  xAdvance : ℤ
  deriving DecidableEq

/-- A pair positioning subtable. Format 1: coverage, `ValueFormat1`, and for each covered glyph its pair set. Format 2: coverage,
`ValueFormat1`, the two class definitions (glyphs that are not listed have class 0), and the records by classes. -/
inductive PairPos where
  | format1 (coverage : List GlyphName) (valueFormat : Nat) (sets : List (List (GlyphName × GposValue)))
  | format2 (coverage : List GlyphName) (valueFormat : Nat) (class1 class2 : List (GlyphName × Nat))
      (records : List (List GposValue))

/-- A subtable of a lookup: plain, or inside an extension subtable (lookup type 9), or an extension subtable with something else in it, of
the lookup type given. -/
inductive GposSub where
  | pairPos (p : PairPos)
  | extension (p : PairPos)
  | extensionOther (type : Nat)

/-- A lookup with its `LookupType`. A lookup of type 2 or 9 that has other subtables is not well-formed. -/
structure GposLookup where
  type : Nat
  subs : List GposSub

/-- What is used of the table `GPOS`: features with their tags and lookup indices, and lookups. -/
structure Gpos where
  features : List (List Char × List Nat)
  lookups : List GposLookup

/-- A font. `cmap` is `getBestCmap()`: a dictionary from characters to glyphs. -/
structure Ttf where
  unitsPerEm : Nat
  cmap : List (Char × GlyphName)
  advance : GlyphName → Nat
  gpos : Option Gpos

/-- A value of the dictionary of kerning pairs: a number, or a string for kerning from right to left. -/
inductive KernValue where
  | num (v : ℤ)
  | text
  deriving DecidableEq

/-- The dictionary `kerningPairs`. -/
abbrev KernPairs := List ((GlyphName × GlyphName) × KernValue)

/-- get_kerning_pairs.py:51-62 `collect_unique_kern_lookup_indexes`. -/
def kernLookupIndexes (features : List (List Char × List Nat)) : List Nat :=
  (features.flatMap fun f => if f.1 = "kern".toList then f.2 else []).foldl (fun l i => if i ∈ l then l else l ++ [i]) []

/-- get_kerning_pairs.py:99-127 `findKerningLookups`; `none` is an IndexError. -/
def kernLookups (g : Gpos) : Option (List GposLookup) :=
  ((((kernLookupIndexes g.features).mergeSort (· ≤ ·)).mapM fun i => g.lookups[i]?).map
    fun ls => ls.filter fun l => l.type = 2 ∨ l.type = 9)

/-- get_kerning_pairs.py:131-138, one subtable. `none`: an extension of another type, which is kept as it is, and of which the
attribute `Coverage` is then missing (an AttributeError, get_kerning_pairs.py:150). -/
def GposSub.pairPosList : GposSub → Option (List PairPos)
  | .pairPos p => some [p]
  | .extension p => some [p]
  | .extensionOther t => if t = 8 then some [] else none

/-- get_kerning_pairs.py:129-138 `getPairPos`. -/
def pairPosList (ls : List GposLookup) : Option (List PairPos) :=
  ((ls.flatMap GposLookup.subs).mapM GposSub.pairPosList).map List.flatten

/-- get_kerning_pairs.py:161-171: the value of a single pair; `none`: it is skipped. -/
def singleValue (valueFormat : Nat) (v : GposValue) : Option KernValue :=
  if valueFormat = 5 then some .text
  else if valueFormat = 0 then some .text
  else if valueFormat = 4 then some (.num v.xAdvance)
  else none

/-- get_kerning_pairs.py:154-178, the pairs with one first glyph. -/
def addPairSet (valueFormat : Nat) (left : GlyphName) (set : List (GlyphName × GposValue)) (d : KernPairs) : KernPairs :=
  set.foldl (fun d e => match singleValue valueFormat e.2 with | some k => dictSet d (left, e.1) k | none => d) d

/-- get_kerning_pairs.py:145-178 `getSinglePairs`, one subtable. -/
def addSingles (d : KernPairs) : PairPos → KernPairs
  | .format1 coverage vf sets => (coverage.zip sets).foldl (fun d e => addPairSet vf e.1 e.2 d) d
  | .format2 .. => d

/-- `classes.setdefault(c, …).glyphs.append(g)`. -/
def addToClass : List (Nat × List GlyphName) → Nat → GlyphName → List (Nat × List GlyphName)
  | [], c, g => [(c, [g])]
  | (c', gs) :: d, c, g => if c' = c then (c', gs ++ [g]) :: d else (c', gs) :: addToClass d c g

/-- get_kerning_pairs.py:191-226: the classes of left glyphs. Simplification: class 0 is in the order of the coverage
table and not sorted; the result does not depend on this order. -/
def leftClasses (coverage : List GlyphName) (class1 : List (GlyphName × Nat)) : List (Nat × List GlyphName) :=
  (class1.filter fun e => e.2 ≠ 0).foldl (fun d e => addToClass d e.2 e.1)
    [(0, coverage.filter fun g => g ∉ (class1.filter fun e => e.2 ≠ 0).map (·.1))]

/-- get_kerning_pairs.py:228-238: the classes of right glyphs. -/
def rightClasses (class2 : List (GlyphName × Nat)) : List (Nat × List GlyphName) :=
  class2.foldl (fun d e => addToClass d e.2 e.1) []

/-- get_kerning_pairs.py:245-259, 279-291: the value for a pair of classes; `none`: skipped. -/
def classValue (valueFormat : Nat) (v : GposValue) : Option KernValue :=
  if v.xAdvance = 0 then none
  else if valueFormat = 4 then some (.num v.xAdvance)
  else if valueFormat = 5 then some .text
  else none

/-- get_kerning_pairs.py:273-295: all pairs of two classes, unless they are there already. -/
def addClassPair (k : KernValue) (left right : List GlyphName) (d : KernPairs) : KernPairs :=
  (left.flatMap fun l => right.map fun r => (l, r)).foldl
    (fun d p => if (d.lookup p).isSome then d else dictSet d p k) d

/-- get_kerning_pairs.py:180-295 `getClassPairs`, one subtable. `none` is an IndexError. -/
def addClasses (d : KernPairs) : PairPos → Option KernPairs
  | .format1 .. => some d
  | .format2 coverage vf class1 class2 records =>
    ((leftClasses coverage class1).flatMap fun l => (rightClasses class2).map fun r => (l, r)).foldlM
      (fun d (p : (Nat × List GlyphName) × (Nat × List GlyphName)) =>
        match (records[p.1.1]?).bind fun row => row[p.2.1]? with
        | none => none
        | some v =>
          match classValue vf v with
          | none => some d
          | some k => some (addClassPair k p.1.2 p.2.2 d)) d

/-- get_kerning_pairs.py:65-83 `OTFKernReader.__init__`: the dictionary `kerningPairs`. `none`: an error. -/
def readKerning (g : Option Gpos) : Option KernPairs :=
  match g with
  | none => some []
  | some g =>
    match (kernLookups g).bind pairPosList with
    | none => none
    | some ps => ps.foldlM addClasses (ps.foldl addSingles [])

/-- get_kerning_pairs.py:300-302: the character of a glyph name. -/
def glyphChars (cmap : List (Char × GlyphName)) : List (GlyphName × Char) := cmap.foldl (fun d e => dictSet d e.2 e.1) []

/-- get_kerning_pairs.py:298-307 `for_font`. -/
def kernPairs (t : Ttf) : Option (List ((Char × Char) × KernValue)) :=
  (readKerning t.gpos).map fun ps =>
    (ps.filterMap fun e =>
      match (glyphChars t.cmap).lookup e.1.1, (glyphChars t.cmap).lookup e.1.2 with
      | some a, some b => some ((a, b), e.2)
      | _, _ => none).foldl (fun d e => dictSet d e.1 e.2) []

/-- fonts/embed.py:113: from glyph units to thousandths. -/
def Ttf.scale (t : Ttf) : ℚ := 1000 / t.unitsPerEm

/-- fonts/embed.py:45 `_REPLACEMENT_GLYPH`. -/
def notdef : GlyphName := ".notdef".toList

/-- fonts/embed.py:118-124: `charwidth`. -/
def Ttf.charwidth (t : Ttf) (c : Char) : ℚ := t.advance ((t.cmap.lookup c).getD notdef) * t.scale

/-- `scale.__mul__`: for a string it returns `NotImplemented`, which is of no use as a number. -/
def KernValue.scaled (s : ℚ) : KernValue → Option ℚ
  | .num v => some (v * s)
  | .text => none

/-- fonts/embed.py:127-131: `kerning`, `none` for a font without pairs. Outer `none`: an error is raised. Simplification: for a font
with a string as a value the error is raised here, in the code only when that pair of characters is typeset. -/
def Ttf.kerning (t : Ttf) : Option (Option (Char × Char → ℚ)) :=
  match kernPairs t with
  | none => none
  | some [] => some none
  | some ps =>
    (ps.mapM fun (e : (Char × Char) × KernValue) => (e.2.scaled t.scale).map fun v => (e.1, v)).map fun vs =>
      some fun p => (vs.lookup p).getD 0

/-- fonts/embed.py:110-132 `Subset.new`: the font file as the rest of the model sees it. `rest` has what is read after subsetting, and the name. -/
def Ttf.fontFile (t : Ttf) (rest : FontFile) : Option FontFile :=
  if t.unitsPerEm = 0 then none
  else t.kerning.map fun k => { rest with charwidth := t.charwidth, kerning := k }

end Pdfje
