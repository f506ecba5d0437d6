import Verif.Spec.Content
import Verif.Spec.FontSpec
/-
SPECIFICATION (independent of the model): how a reader that only has the bytes of a file gets at the content, the fonts and the text of its
k-th page (PDF 32000-1:2008, 7.7.2, 7.7.3, 7.8.2, 7.8.3, 9.10.2). Only what pdfje uses is covered: reading fails for nested page trees, inherited
attributes, several content streams, other kinds of fonts.
-/

namespace PdfSpec

/-- The object itself, or the direct object that it refers to. -/
def resolve (file : Bytes) : PObj → Option PObj
  | .ref n _ =>
    match lookup file n with
    | some (.direct p) => some p
    | _ => none
  | p => some p

/-- The entry of a dictionary, resolved. -/
def PObj.find (file : Bytes) (k : Bytes) (p : PObj) : Option PObj := (p.get k).bind (resolve file)

/-- An element of an array. -/
def PObj.nth (k : Nat) : PObj → Option PObj
  | .arr ps => ps[k]?
  | _ => none

/-- The page object of the `k`-th page: trailer, /Root, /Pages, /Kids. -/
def pageObject (file : Bytes) (k : Nat) : Option PObj :=
  ((((trailer file).bind (PObj.find file b!"Root")).bind (PObj.find file b!"Pages")).bind fun t => (t.find file b!"Kids").bind (PObj.nth k)).bind (resolve file)

/-- The data of the stream that an object refers to. -/
def streamData (decompress : Bytes → Option Bytes) (file : Bytes) : PObj → Option Bytes
  | .ref n _ =>
    match lookup file n with
    | some (.stream _ raw) => decompress raw
    | _ => none
  | _ => none

/-- The content of a page. -/
def pageContent (decompress : Bytes → Option Bytes) (file : Bytes) (page : PObj) : Option Bytes :=
  (page.get b!"Contents").bind (streamData decompress file)

/-- The font that a page calls by this name: /Resources, /Font. -/
def pageFont (file : Bytes) (page : PObj) (name : Bytes) : Option PObj :=
  ((page.find file b!"Resources").bind (PObj.find file b!"Font")).bind (PObj.find file name)

/-- The characters that a string stands for in a font: a simple font with WinAnsiEncoding, or a composite font with two-byte codes and a ToUnicode map. -/
def fontText (decompress : Bytes → Option Bytes) (file : Bytes) (font : PObj) (s : Bytes) : Option (List Nat) :=
  match font.get b!"Subtype", font.get b!"Encoding" with
  | some (.name sub), some (.name enc) =>
    if sub = b!"Type1" ∧ enc = b!"WinAnsiEncoding" then s.mapM winAnsi
    else if sub = b!"Type0" ∧ enc = b!"Identity-H" then
      ((font.get b!"ToUnicode").bind (streamData decompress file)).bind fun cmap => extract cmap s
    else none
  | _, _ => none

/-- The font program embedded for a composite font: /DescendantFonts, /FontDescriptor, /FontFile2. -/
def fontProgram (decompress : Bytes → Option Bytes) (file : Bytes) (font : PObj) : Option Bytes :=
  ((((font.find file b!"DescendantFonts").bind (PObj.nth 0)).bind (resolve file)).bind (PObj.find file b!"FontDescriptor")).bind fun d =>
    (d.get b!"FontFile2").bind (streamData decompress file)

/-- The font that a composite font is made of. -/
def descendant (file : Bytes) (font : PObj) : Option PObj := ((font.find file b!"DescendantFonts").bind (PObj.nth 0)).bind (resolve file)

/-- The widths, in thousandths of the font size, of the codes of a string in a composite font: /DescendantFonts, /W. -/
def fontWidths (file : Bytes) (font : PObj) (s : Bytes) : Option (List ℚ) :=
  (units16 s).bind fun codes => ((descendant file font).bind (PObj.get b!"W")).bind fun w => codes.mapM (cidWidth w)

/-- The glyphs, in the embedded font program, of the codes of a string in a composite font: /DescendantFonts, /CIDToGIDMap. -/
def fontGlyphs (decompress : Bytes → Option Bytes) (file : Bytes) (font : PObj) (s : Bytes) : Option (List Nat) :=
  (units16 s).bind fun codes => (((descendant file font).bind (PObj.get b!"CIDToGIDMap")).bind (streamData decompress file)).bind fun m =>
    codes.mapM (cidToGid m)

/-- The strings of a `TJ` array, in a font. -/
def elemsText (text : Bytes → Option (List Nat)) : List Elem → Option (List Nat)
  | [] => some []
  | .num _ :: es => elemsText text es
  | .str [] :: es => elemsText text es
  | .str s :: es => (text s).bind fun a => (elemsText text es).map (a ++ ·)

/-- The text shown by operators, from the font in use on. (The font stays the same when a text object ends.) -/
def opsText (fonts : Bytes → Option PObj) (text : PObj → Bytes → Option (List Nat)) : List COp → Option PObj → Option (List Nat)
  | [], _ => some []
  | .font n _ :: cs, _ =>
    match fonts n with
    | some f => opsText fonts text cs (some f)
    | none => none
  | .showText es :: cs, cur =>
    (elemsText (fun s => cur.bind fun f => text f s) es).bind fun a => (opsText fonts text cs cur).map (a ++ ·)
  | _ :: cs, cur => opsText fonts text cs cur

/-- Text extraction: the characters of the `k`-th page, in the order in which they are drawn. -/
def pageText (decompress : Bytes → Option Bytes) (file : Bytes) (k : Nat) : Option (List Nat) :=
  (pageObject file k).bind fun page => (pageContent decompress file page).bind fun content => (readContent content).bind fun cs =>
    opsText (pageFont file page) (fontText decompress file) cs none

end PdfSpec
