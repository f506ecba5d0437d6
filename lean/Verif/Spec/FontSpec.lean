import Verif.Spec.PdfReader
/-
SPECIFICATION: how a PDF viewer turns string bytes into characters, widths and glyphs.
Independent of the model.
-/

namespace PdfSpec

/-- WinAnsiEncoding (PDF 32000-1 annex D, as the Windows code page 1252): byte to character. -/
def winAnsi (b : UInt8) : Option Nat :=
  if b < 0x80 then some b.toNat
  else if 0xA0 ≤ b then some b.toNat
  else match b.toNat with
    | 0x80 => some 0x20AC -- euro sign
    | 0x82 => some 0x201A -- single low quotation mark
    | 0x83 => some 0x0192 -- f with hook
    | 0x84 => some 0x201E -- double low quotation mark
    | 0x85 => some 0x2026 -- ellipsis
    | 0x86 => some 0x2020 -- dagger
    | 0x87 => some 0x2021 -- double dagger
    | 0x88 => some 0x02C6 -- circumflex
    | 0x89 => some 0x2030 -- per mille
    | 0x8A => some 0x0160 -- S caron
    | 0x8B => some 0x2039 -- single left angle quotation mark
    | 0x8C => some 0x0152 -- OE
    | 0x8E => some 0x017D -- Z caron
    | 0x91 => some 0x2018 -- left single quotation mark
    | 0x92 => some 0x2019 -- right single quotation mark
    | 0x93 => some 0x201C -- left double quotation mark
    | 0x94 => some 0x201D -- right double quotation mark
    | 0x95 => some 0x2022 -- bullet
    | 0x96 => some 0x2013 -- en dash
    | 0x97 => some 0x2014 -- em dash
    | 0x98 => some 0x02DC -- small tilde
    | 0x99 => some 0x2122 -- trade mark
    | 0x9A => some 0x0161 -- s caron
    | 0x9B => some 0x203A -- single right angle quotation mark
    | 0x9C => some 0x0153 -- oe
    | 0x9E => some 0x017E -- z caron
    | 0x9F => some 0x0178 -- Y diaeresis
    | _ => none

/-- Big-endian 16-bit units of a byte string; `none` if the length is odd. -/
def units16 : Bytes → Option (List Nat)
  | [] => some []
  | [_] => none
  | a :: b :: s => (units16 s).map ((a.toNat * 256 + b.toNat) :: ·)

/-- UTF-16 decoding of a list of units (RFC 2781): surrogate pairs combine, lone surrogates are errors. -/
def utf16 : List Nat → Option (List Nat)
  | [] => some []
  | u :: us =>
    if u < 0xD800 ∨ 0xDFFF < u then (utf16 us).map (u :: ·)
    else if u < 0xDC00 then
      match us with
      | [] => none
      | v :: vs =>
        if 0xDC00 ≤ v ∧ v ≤ 0xDFFF then
          (utf16 vs).map ((0x10000 + (u - 0xD800) * 0x400 + (v - 0xDC00)) :: ·)
        else none
    else none

/-- UTF-16BE bytes to code points. -/
def utf16be (s : Bytes) : Option (List Nat) := (units16 s).bind utf16

/-- What follows the first occurrence of `pat`. -/
def afterFirst (pat : Bytes) : Bytes → Option Bytes
  | [] => none
  | c :: s => if startsWith pat (c :: s) then some ((c :: s).drop pat.length) else afterFirst pat s

/-- What follows `pat` at the start. -/
def afterStart (pat s : Bytes) : Option Bytes := if startsWith pat s then some (s.drop pat.length) else none

/-- Entries of a `bfchar` section (Adobe technote 5411): pairs of hexadecimal strings up to `endbfchar`. -/
def readBfchar (fuel : Nat) (s : Bytes) : Option (List (Bytes × Bytes)) :=
  match fuel with
  | 0 => none
  | fuel + 1 =>
    match skipWs s with
    | 0x3C :: s1 =>
      match readHex none s1 with
      | none => none
      | some (code, s2) =>
        match skipWs s2 with
        | 0x3C :: s3 =>
          match readHex none s3 with
          | none => none
          | some (dst, s4) => (readBfchar fuel s4).map ((code, dst) :: ·)
        | _ => none
    | s' => if startsWith b!"endbfchar" s' then some [] else none

/-- The `bfchar` section of a ToUnicode CMap that follows the codespace range: it begins with the number of its entries. -/
def bfchars (cmap : Bytes) : Option (List (Bytes × Bytes)) := do
  let s ← afterFirst b!"endcodespacerange" cmap
  let (n, s) ← readNat (skipWs s)
  let s ← afterStart b!"beginbfchar" (skipWs s)
  let es ← readBfchar (s.length + 1) s
  if es.length = n then some es else none

/-- 9.10.2: the characters a ToUnicode CMap gives for a two-byte code. -/
def toUnicode (cmap : Bytes) (code : Nat) : Option (List Nat) :=
  (bfchars cmap).bind fun es =>
    (es.find? fun e => units16 e.1 == some [code]).bind fun e => utf16be e.2

/-- Text extraction of a string shown in a font with two-byte codes. -/
def extract (cmap : Bytes) (s : Bytes) : Option (List Nat) :=
  (units16 s).bind fun codes => (codes.mapM (toUnicode cmap)).map List.flatten

/-- 9.7.4.3: the width of a CID given by a `/W` array with a single run `[first [w w ...]]`. -/
def cidWidth : PObj → Nat → Option ℚ
  | .arr [.num first, .arr ws], k =>
    if first.num.toNat ≤ k then
      match ws[k - first.num.toNat]? with
      | some (.num w) => some w
      | _ => none
    else none
  | _, _ => none

/-- 9.7.4.2: glyph index of a CID in a CIDToGIDMap stream: bytes 2k and 2k+1. -/
def cidToGid (map : Bytes) (k : Nat) : Option Nat :=
  match map[2 * k]?, map[2 * k + 1]? with
  | some a, some b => some (a.toNat * 256 + b.toNat)
  | _, _ => none

end PdfSpec
