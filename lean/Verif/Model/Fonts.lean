import Verif.Model.Atoms
/-
Model of /repo/src/pdfje/fonts/common.py: builtin fonts, cp1252 encoding, kerning lookup.
Simplification used in the whole model: a Python `str` is a `List Char` (unicode scalar values; lone
surrogates are not modelled).
-/

namespace Pdfje

/-- The half of Python's `cp1252` codec that is not the identity: characters of the bytes 0x80..0x9F, 0 where
the codec has no character (used by fonts/common.py:170). -/
def cp1252High : List Nat :=
  [0x20AC, 0, 0x201A, 0x0192, 0x201E, 0x2026, 0x2020, 0x2021, 0x02C6, 0x2030, 0x0160, 0x2039, 0x0152, 0, 0x017D, 0,
   0, 0x2018, 0x2019, 0x201C, 0x201D, 0x2022, 0x2013, 0x2014, 0x02DC, 0x2122, 0x0161, 0x203A, 0x0153, 0, 0x017E, 0x0178]

/-- One character of `s.encode("cp1252", errors="replace")`. -/
def cp1252Char (c : Char) : UInt8 :=
  let n := c.toNat
  if n < 0x80 ∨ (0xA0 ≤ n ∧ n ≤ 0xFF) then UInt8.ofNat n
  else match cp1252High.findIdx? (fun x => x == n) with
    | some i => UInt8.ofNat (0x80 + i)
    | none => 0x3F

/-- fonts/common.py:167-170 `BuiltinFont.encode`. -/
def cp1252 (s : List Char) : Bytes := s.map cp1252Char

/-- A builtin font, by name and id (fonts/common.py:149-158). Its metrics are looked up by `Metrics` elsewhere;
in fonts/builtins.py fonts with the same name and id have the same metrics. -/
structure BuiltinFont where
  name : Bytes
  fid : Bytes
  deriving DecidableEq

/-- fonts/common.py:178-184 `BuiltinFont.to_resource`. -/
def BuiltinFont.toResource (f : BuiltinFont) : Atom :=
  .dict [(b!"Type", .name b!"Font"), (b!"Subtype", .name b!"Type1"), (b!"BaseFont", .name f.name),
    (b!"Encoding", .name b!"WinAnsiEncoding")]

/-- `pathlib.Path` of a font file. -/
abbrev Path := List Char

/-- fonts/common.py:63-107 `TrueType`. -/
structure TrueType where
  regular : Path
  bold : Path
  italic : Path
  boldItalic : Path
  deriving DecidableEq

/-- fonts/common.py:109-113 `TrueType.font`. -/
def TrueType.font (f : TrueType) (bold italic : Bool) : Path :=
  if bold then (if italic then f.boldItalic else f.bold) else (if italic then f.italic else f.regular)

/-- fonts/common.py:116-124 `BuiltinTypeface`. -/
structure BuiltinTypeface where
  regular : BuiltinFont
  bold : BuiltinFont
  italic : BuiltinFont
  boldItalic : BuiltinFont
  deriving DecidableEq

/-- fonts/common.py:140-144 `BuiltinTypeface.font`. -/
def BuiltinTypeface.font (f : BuiltinTypeface) (bold italic : Bool) : BuiltinFont :=
  if bold then (if italic then f.boldItalic else f.bold) else (if italic then f.italic else f.regular)

/-- fonts/common.py:147. -/
inductive Typeface where
  | builtin (f : BuiltinTypeface)
  | trueType (f : TrueType)
  deriving DecidableEq

/-- fonts/builtins.py:18-11067: the five builtin typefaces with their names and ids. -/
def helvetica : BuiltinTypeface :=
  ⟨⟨b!"Helvetica", b!"f0"⟩, ⟨b!"Helvetica-Bold", b!"f1"⟩, ⟨b!"Helvetica-Oblique", b!"f2"⟩,
   ⟨b!"Helvetica-BoldOblique", b!"f3"⟩⟩
@[inherit_doc helvetica] def timesRoman : BuiltinTypeface :=
  ⟨⟨b!"Times-Roman", b!"f4"⟩, ⟨b!"Times-Bold", b!"f5"⟩, ⟨b!"Times-Italic", b!"f6"⟩, ⟨b!"Times-BoldItalic", b!"f7"⟩⟩
@[inherit_doc helvetica] def courier : BuiltinTypeface :=
  ⟨⟨b!"Courier", b!"f8"⟩, ⟨b!"Courier-Bold", b!"f9"⟩, ⟨b!"Courier-Oblique", b!"f10"⟩, ⟨b!"Courier-BoldOblique", b!"f11"⟩⟩
@[inherit_doc helvetica] def symbol : BuiltinTypeface :=
  ⟨⟨b!"Symbol", b!"f12"⟩, ⟨b!"Symbol", b!"f12"⟩, ⟨b!"Symbol", b!"f12"⟩, ⟨b!"Symbol", b!"f12"⟩⟩
@[inherit_doc helvetica] def zapfDingbats : BuiltinTypeface :=
  ⟨⟨b!"ZapfDingbats", b!"f13"⟩, ⟨b!"ZapfDingbats", b!"f13"⟩, ⟨b!"ZapfDingbats", b!"f13"⟩, ⟨b!"ZapfDingbats", b!"f13"⟩⟩

/-- The builtin typefaces a user can name (fonts/builtins.py). -/
def builtinTypefaces : List BuiltinTypeface := [helvetica, timesRoman, courier, symbol, zapfDingbats]

/-- `itertools.pairwise`. -/
def pairwise {α} (l : List α) : List (α × α) := l.zip l.tail

/-- `zip(count(n), l)`. -/
def enumerateFrom {α} : Nat → List α → List (Nat × α)
  | _, [] => []
  | n, a :: as => (n, a) :: enumerateFrom (n + 1) as

/-- fonts/common.py:191-201 `kern`. -/
def kern (table : Char × Char → ℚ) (s : List Char) (prev : Option Char) : List (Nat × ℚ) :=
  (enumerateFrom (if prev.isSome then 0 else 1) (pairwise (prev.toList ++ s))).filterMap
    fun (i, pair) => if table pair = 0 then none else some (i, table pair)

end Pdfje
