import Verif.Model.Fonts
/-
Model of /repo/src/pdfje/fonts/embed.py: embedded font subsets. fontTools is a parameter (`FontFile`).
-/

namespace Pdfje

/-- What pdfje asks fontTools about a font file. The values read after subsetting may depend on the
characters the subset was made for (embed.py:171-173), so these are functions of that character list. -/
structure FontFile where
  /-- `ttf["name"].getBestFullName().encode()` (embed.py:169) -/
  fullName : Bytes
  /-- `charwidth` (embed.py:118-124) -/
  charwidth : Char → ℚ
  /-- `kerning` (embed.py:127-131) -/
  kerning : Option (Char × Char → ℚ)
  /-- width of `.notdef`, scaled (embed.py:205-211) -/
  notdefWidth : List Char → ℚ
  /-- cmap and reverse glyph map composed: the glyph id of a character (embed.py:293-308) -/
  glyphId : List Char → Char → Nat
  /-- flags (embed.py:274-283), bbox (embed.py:255-260), italic angle, ascent, descent (embed.py:233-246),
  cap height (embed.py:320-329), stem v (embed.py:333-340): integers -/
  flags : List Char → Int
  bbox : List Char → Int × Int × Int × Int
  italicAngle : List Char → Int
  ascent : List Char → Int
  descent : List Char → Int
  capHeight : List Char → Int
  stemV : List Char → Int
  /-- the saved font file (embed.py:287-291) -/
  saved : List Char → Bytes

/-- Mutable state of a `Subset` (embed.py:90-100): its resource id, where it came from, and the keys of
`cids` in insertion order. `cids` is a `defaultdict(count().__next__)` (embed.py:125), so the value of
the k-th inserted key is `k`. -/
structure Subset where
  id : Bytes
  path : Path
  cids : List Char
  deriving DecidableEq

/-- `self.cids[ord(c)]` on the defaultdict (embed.py:125): the code of `c`, adding it if it is new. -/
def cidOf (cids : List Char) (c : Char) : Nat × List Char :=
  match cids.findIdx? (· == c) with
  | some i => (i, cids)
  | none => (cids.length, cids ++ [c])

/-- `chr(cid).encode("utf-16be", errors="surrogatepass")` (embed.py:143): two bytes below 0x10000, else a
surrogate pair. -/
def utf16Cid (n : Nat) : Bytes :=
  if n < 0x10000 then [UInt8.ofNat (n / 256), UInt8.ofNat (n % 256)]
  else
    let hi := 0xD800 + (n - 0x10000) / 0x400
    let lo := 0xDC00 + (n - 0x10000) % 0x400
    [UInt8.ofNat (hi / 256), UInt8.ofNat (hi % 256), UInt8.ofNat (lo / 256), UInt8.ofNat (lo % 256)]

/-- embed.py:137-144 `Subset.encode`: the bytes, and the new `cids`. -/
def encodeCids (cids : List Char) : List Char → Bytes × List Char
  | [] => ([], cids)
  | c :: s =>
    let (i, cids1) := cidOf cids c
    let (bs, cids2) := encodeCids cids1 s
    (utf16Cid i ++ bs, cids2)

/-- embed.py:54-61 `_utf16be_hex`. (`x >> 10` is `x / 1024`; `y | 0xD800` is `y + 0xD800` for `y < 0x400`; `c & 0x3FF` is `c % 1024`.) -/
def utf16beHex (c : Nat) : Bytes :=
  if c ≤ 0xFFFF then hex4 c
  else hex4 (((c - 0x10000) >>> 10) ||| 0xD800) ++ hex4 ((c &&& 0x3FF) ||| 0xDC00)

/-- embed.py:47-51 `_CIDSYS_INFO`. -/
def cidsysInfo : Atom :=
  .dict [(b!"Registry", .lit b!"Adobe"), (b!"Ordering", .lit b!"UCS"), (b!"Supplement", .int 0)]

/-- embed.py:354-365 `_TO_UNICODE_CMAP_PRE` (with the indentation of the source). -/
def toUnicodePre (compress : Bytes → Bytes) : Bytes :=
  b!"    /CIDInit /ProcSet findresource begin\n    12 dict begin\n    begincmap\n    /CIDSystemInfo\n    " ++
  cidsysInfo.write compress ++
  b!" def\n    /CMapName /Adobe-Identity-UCS def\n    /CMapType 2 def\n    1 begincodespacerange\n    <0000> <FFFF>\n    endcodespacerange\n    "

/-- embed.py:366-371 `_TO_UNICODE_CMAP_POST`. -/
def toUnicodePost : Bytes :=
  b!"    endbfchar\n    endcmap\n    CMapName currentdict /CMap defineresource pop\n    end\n    end"

/-- One line of the map, embed.py:348. -/
def bfcharLine (cid : Nat) (c : Char) : Bytes := b!"<" ++ hex4 cid ++ b!"> <" ++ utf16beHex c.toNat ++ b!">\n"

/-- The loop embed.py:347-348 over `self.cids.items()` from code `n` on. -/
def bfcharLines : Nat → List Char → Bytes
  | _, [] => []
  | n, c :: cs => bfcharLine n c ++ bfcharLines (n + 1) cs

/-- embed.py:342-349 `_unicode_map`, joined. -/
def unicodeMap (compress : Bytes → Bytes) (cids : List Char) : Bytes :=
  toUnicodePre compress ++ (decNat cids.length ++ b!" beginbfchar\n") ++ bfcharLines 0 cids ++ toUnicodePost

/-- `int(x)` on a rational: truncation towards zero. -/
def truncQ (q : ℚ) : Int := if 0 ≤ q then ⌊q⌋ else -⌊-q⌋

/-- embed.py:312-318 `_encode_widths`. -/
def encodeWidths (ws : List ℚ) : Atom := .array [.int 0, .array (ws.map fun w => .int (truncQ w))]

/-- embed.py:293-308 `_encode_cid_gid_map`: two bytes big-endian per code (glyph ids are below 0x10000). -/
def cidGidMap (gid : Char → Nat) (cids : List Char) : Bytes :=
  cids.flatMap fun c => [UInt8.ofNat (gid c / 256), UInt8.ofNat (gid c % 256)]

/-- embed.py:42 `OBJS_PER_EMBEDDED_FONT`. -/
def objsPerFont : Nat := 7

/-- embed.py:162-170 the tagged name. -/
def taggedName (f : FontFile) : Bytes := b!"APDFJE+" ++ sanitizeName f.fullName

/-- embed.py:154-253 `Subset.to_objects` for the subset with the given `cids`, from object id `i`; `none` when the assertion
`len(self.cids) < _CID_MAX` (embed.py:161) fails. -/
def Subset.toObjects (compress : Bytes → Bytes) (f : FontFile) (s : Subset) (i : Nat) : Option (List Obj) :=
  if s.cids.length < 0xFFFF then
    let (x0, y0, x1, y1) := f.bbox s.cids
    let file := f.saved s.cids
    some
    [ (i, .dict [(b!"Type", .name b!"Font"), (b!"Subtype", .name b!"Type0"), (b!"BaseFont", .name (taggedName f)),
        (b!"Encoding", .name b!"Identity-H"), (b!"DescendantFonts", .array [.ref (i + 1)]),
        (b!"ToUnicode", .ref (i + 2))]),
      (i + 1, .dict [(b!"Type", .name b!"Font"), (b!"Subtype", .name b!"CIDFontType2"),
        (b!"BaseFont", .name (taggedName f)), (b!"CIDSystemInfo", .ref (i + 3)), (b!"FontDescriptor", .ref (i + 4)),
        (b!"DW", .real (f.notdefWidth s.cids)), (b!"W", encodeWidths (s.cids.map f.charwidth)),
        (b!"CIDToGIDMap", .ref (i + 5))]),
      (i + 2, .stream (unicodeMap compress s.cids) []),
      (i + 3, cidsysInfo),
      (i + 4, .dict [(b!"Type", .name b!"FontDescriptor"), (b!"FontName", .name (taggedName f)),
        (b!"Flags", .int (f.flags s.cids)), (b!"FontBBox", .array [.int x0, .int y0, .int x1, .int y1]),
        (b!"ItalicAngle", .int (f.italicAngle s.cids)), (b!"Ascent", .int (f.ascent s.cids)),
        (b!"Descent", .int (f.descent s.cids)), (b!"CapHeight", .int (f.capHeight s.cids)),
        (b!"StemV", .int (f.stemV s.cids)), (b!"FontFile2", .ref (i + 6))]),
      (i + 5, .stream (cidGidMap (f.glyphId s.cids) s.cids) []),
      (i + 6, .stream file [(b!"Length1", .int file.length)]) ]
  else none

end Pdfje
