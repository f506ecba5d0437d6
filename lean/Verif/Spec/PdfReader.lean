import Verif.Basic
import Mathlib.Data.Rat.Defs
/-
SPECIFICATION (independent of the model): a reader for PDF objects and files, following
PDF 32000-1:2008 sections 7.2 (lexical conventions), 7.3 (objects) and 7.5 (file structure).
Nothing in this file refers to pdfje's writers.
-/

namespace PdfSpec

/-- White-space characters, table 1. -/
def isWs (c : UInt8) : Bool := c == 0 || c == 9 || c == 10 || c == 12 || c == 13 || c == 32

/-- Delimiter characters, table 2: `( ) < > [ ] { } / %`. -/
def isDelim (c : UInt8) : Bool :=
  c == 0x28 || c == 0x29 || c == 0x3C || c == 0x3E || c == 0x5B || c == 0x5D ||
  c == 0x7B || c == 0x7D || c == 0x2F || c == 0x25

/-- Regular characters: everything else (7.2.2). -/
def isRegular (c : UInt8) : Bool := !isWs c && !isDelim c

def isDigit (c : UInt8) : Bool := 48 ≤ c && c ≤ 57

def digitVal (c : UInt8) : Nat := c.toNat - 48

/-- Value of a hexadecimal digit. -/
def hexVal (c : UInt8) : Option Nat :=
  if 48 ≤ c && c ≤ 57 then some (c.toNat - 48)
  else if 65 ≤ c && c ≤ 70 then some (c.toNat - 55)
  else if 97 ≤ c && c ≤ 102 then some (c.toNat - 87)
  else none

def skipWs (s : Bytes) : Bytes := s.dropWhile isWs

/-- Decimal value of a list of digit characters. -/
def digitsVal (s : Bytes) : Nat := s.foldl (fun n c => n * 10 + digitVal c) 0

/-- 7.3.3: an unsigned run of digits at the start. -/
def readNat (s : Bytes) : Option (Nat × Bytes) :=
  let ds := s.takeWhile isDigit
  if ds.isEmpty then none else some (digitsVal ds, s.dropWhile isDigit)

/-- 7.3.3: a whole string that is a PDF number: optional sign, digits, optionally a point and more
digits, at least one digit, and *no exponent*. -/
def parseUnsigned (s : Bytes) : Option ℚ :=
  let ip := s.takeWhile isDigit
  match s.dropWhile isDigit with
  | [] => if ip.isEmpty then none else some (digitsVal ip : ℚ)
  | 0x2E :: fp =>
    if fp.all isDigit && !(ip.isEmpty && fp.isEmpty) then
      some ((digitsVal ip : ℚ) + (digitsVal fp : ℚ) / (10 : ℚ) ^ fp.length)
    else none
  | _ => none

/-- 7.3.3: see `parseUnsigned`. -/
def parseNumber : Bytes → Option ℚ
  | 0x2B :: s => parseUnsigned s
  | 0x2D :: s => (parseUnsigned s).map (-·)
  | s => parseUnsigned s

/-- 7.3.5: decode the `#xx` codes of a name; `none` if a `#` is not followed by two hex digits. -/
def decodeName : Bytes → Option Bytes
  | [] => some []
  | 0x23 :: a :: b :: rest => do
    let x ← hexVal a
    let y ← hexVal b
    let r ← decodeName rest
    some (UInt8.ofNat (16 * x + y) :: r)
  | c :: rest => if c = 0x23 then none else (decodeName rest).map (c :: ·)

/-- 7.3.4.2 literal strings, after the opening parenthesis: `depth` is the number of open nested
parentheses. Returns the string and what follows the closing parenthesis.
Handles `\n \r \t \b \f \( \) \\`, octal codes of 1-3 digits, line continuations, unknown
escapes (backslash ignored) and end-of-line normalisation to LF. -/
def readLit (fuel : Nat) (depth : Nat) : Bytes → Option (Bytes × Bytes)
  | [] => none
  | c :: s =>
    match fuel with
    | 0 => none
    | fuel + 1 =>
      let emit (b : UInt8) (d : Nat) (rest : Bytes) : Option (Bytes × Bytes) :=
        (readLit fuel d rest).map fun (str, r) => (b :: str, r)
      if c = 0x29 then          -- )
        match depth with
        | 0 => some ([], s)
        | d + 1 => emit 0x29 d s
      else if c = 0x28 then emit 0x28 (depth + 1) s
      else if c = 0x0D then     -- CR or CRLF read as LF
        match s with
        | 0x0A :: s' => emit 0x0A depth s'
        | _ => emit 0x0A depth s
      else if c = 0x5C then     -- backslash
        match s with
        | [] => none
        | e :: s' =>
          if e = 0x6E then emit 0x0A depth s'
          else if e = 0x72 then emit 0x0D depth s'
          else if e = 0x74 then emit 0x09 depth s'
          else if e = 0x62 then emit 0x08 depth s'
          else if e = 0x66 then emit 0x0C depth s'
          else if e = 0x0A then readLit fuel depth s'
          else if e = 0x0D then
            match s' with
            | 0x0A :: s'' => readLit fuel depth s''
            | _ => readLit fuel depth s'
          else if 48 ≤ e && e ≤ 55 then
            let oct := (s.take 3).takeWhile fun x => 48 ≤ x && x ≤ 55
            emit (UInt8.ofNat (oct.foldl (fun n x => n * 8 + digitVal x) 0)) depth (s.drop oct.length)
          else emit e depth s'
      else emit c depth s

/-- 7.3.4.3 hexadecimal strings, after `<`: pairs of digits, white space ignored, a missing last
digit is 0. `hi` is the pending first digit. -/
def readHex (hi : Option Nat) : Bytes → Option (Bytes × Bytes)
  | [] => none
  | c :: s =>
    if c = 0x3E then
      match hi with
      | none => some ([], s)
      | some h => some ([UInt8.ofNat (16 * h)], s)
    else if isWs c then readHex hi s
    else match hexVal c with
      | none => none
      | some v =>
        match hi with
        | none => readHex (some v) s
        | some h => (readHex none s).map fun (str, r) => (UInt8.ofNat (16 * h + v) :: str, r)

/-- What a reader sees: PDF objects (7.3). Integers and reals are both numbers. -/
inductive PObj where
  | name (v : Bytes)
  | num (v : ℚ)
  | str (v : Bytes)
  | arr (items : List PObj)
  | dict (entries : List (Bytes × PObj))
  | ref (num gen : Nat)

/-- If what follows an integer is `ws* generation ws+ R`, the generation and the rest (7.3.10). -/
def readRefTail (s : Bytes) : Option (Nat × Bytes) :=
  match s with
  | [] => none
  | c :: _ =>
    if isWs c then
      match readNat (skipWs s) with
      | none => none
      | some (g, s2) =>
        match s2 with
        | [] => none
        | c2 :: _ =>
          if isWs c2 then
            match skipWs s2 with
            | 0x52 :: r => some (g, r)
            | _ => none
          else none
    else none

mutual
/-- Read one direct object; returns it and the rest of the input. -/
def readObj (fuel : Nat) (s0 : Bytes) : Option (PObj × Bytes) :=
  match fuel with
  | 0 => none
  | fuel + 1 =>
    match skipWs s0 with
    | [] => none
    | c :: s =>
      if c = 0x2F then
        (decodeName (s.takeWhile isRegular)).map fun n => (.name n, s.dropWhile isRegular)
      else if c = 0x28 then (readLit (s.length + 1) 0 s).map fun (v, r) => (.str v, r)
      else if c = 0x5B then (readItems fuel s).map fun (v, r) => (.arr v, r)
      else if c = 0x3C then
        match s with
        | 0x3C :: s' => (readEntries fuel s').map fun (v, r) => (.dict v, r)
        | _ => (readHex none s).map fun (v, r) => (.str v, r)
      else
        let tok := (c :: s).takeWhile isRegular
        let rest := (c :: s).dropWhile isRegular
        match parseNumber tok with
        | none => none
        | some q =>
          if tok.all isDigit then
            match readRefTail rest with
            | some (g, r) => some (.ref (digitsVal tok) g, r)
            | none => some (.num q, rest)
          else some (.num q, rest)
/-- Array items up to and including `]`. -/
def readItems (fuel : Nat) (s : Bytes) : Option (List PObj × Bytes) :=
  match fuel with
  | 0 => none
  | fuel + 1 =>
    match skipWs s with
    | 0x5D :: r => some ([], r)
    | _ =>
      match readObj fuel s with
      | none => none
      | some (o, r) => (readItems fuel r).map fun (os, r') => (o :: os, r')
/-- Dictionary entries up to and including `>>`. -/
def readEntries (fuel : Nat) (s : Bytes) : Option (List (Bytes × PObj) × Bytes) :=
  match fuel with
  | 0 => none
  | fuel + 1 =>
    match skipWs s with
    | 0x3E :: 0x3E :: r => some ([], r)
    | 0x2F :: s1 =>
      match decodeName (s1.takeWhile isRegular) with
      | none => none
      | some k =>
        match readObj fuel (s1.dropWhile isRegular) with
        | none => none
        | some (v, r) => (readEntries fuel r).map fun (es, r') => ((k, v) :: es, r')
    | _ => none
end

/-- Look a key up in a dictionary. -/
def PObj.get (k : Bytes) : PObj → Option PObj
  | .dict es => (es.find? fun e => e.1 == k).map (·.2)
  | _ => none

/-- Contents of an indirect object: a direct object, or a stream (dictionary and raw bytes). -/
inductive PIndirect where
  | direct (o : PObj)
  | stream (d : PObj) (raw : Bytes)

/-- The value of `/Length` when it is a direct non-negative integer. -/
def lengthOf (d : PObj) : Option Nat :=
  match d.get b!"Length" with
  | some (.num q) => if 0 ≤ q ∧ q.den = 1 then some q.num.toNat else none
  | _ => none

/-- 7.3.10 / 7.3.8: `n g obj ... endobj`, with `stream` handled through `/Length`. Returns the object
number, the contents, and what follows `endobj`. -/
def readIndirect (s : Bytes) : Option (Nat × PIndirect × Bytes) := do
  let (n, s1) ← readNat s
  let (_, s2) ← readNat (skipWs s1)
  let s3 := skipWs s2
  if !startsWith b!"obj" s3 then none
  else
    let (o, s4) ← readObj (s.length + 1) (s3.drop 3)
    let s5 := skipWs s4
    if startsWith b!"stream\n" s5 then do
      let len ← lengthOf o
      let raw := (s5.drop 7).take len
      let s6 := skipWs ((s5.drop 7).drop len)
      if raw.length == len && startsWith b!"endstream" s6 then
        let s7 := skipWs (s6.drop 9)
        if startsWith b!"endobj" s7 then some (n, .stream o raw, s7.drop 6) else none
      else none
    else if startsWith b!"endobj" s5 then some (n, .direct o, s5.drop 6)
    else none

/-- What follows the *last* occurrence of `startxref` (7.5.5). -/
def afterLastStartxref : Bytes → Option Bytes
  | [] => none
  | c :: s =>
    match afterLastStartxref s with
    | some r => some r
    | none => if startsWith b!"startxref" (c :: s) then some ((c :: s).drop 9) else none

/-- 7.5.5: the byte offset of the cross-reference section. -/
def xrefPos (file : Bytes) : Option Nat := do
  let r ← afterLastStartxref file
  let (n, r2) ← readNat (skipWs r)
  if startsWith b!"\n%%EOF" r2 then some n else none

/-- 7.5.4: first object number, number of entries and entries of a single-section xref table. -/
def xrefTable (file : Bytes) : Option (Nat × Nat × Bytes) := do
  let p ← xrefPos file
  let s := file.drop p
  if !startsWith b!"xref\n" s then none
  else
    let (first, s1) ← readNat (s.drop 5)
    let (cnt, s2) ← readNat (skipWs s1)
    match s2 with
    | 0x0A :: s3 => some (first, cnt, s3)
    | _ => none

/-- 7.5.4: the in-use entry for object `n`: each entry is exactly 20 bytes,
`nnnnnnnnnn ggggg n ` followed by an end-of-line. Returns the offset. -/
def xrefOffset (file : Bytes) (n : Nat) : Option Nat := do
  let (first, cnt, s) ← xrefTable file
  if first ≤ n ∧ n < first + cnt then
    let e := (s.drop (20 * (n - first))).take 20
    if e.length == 20 && (e.take 10).all isDigit && e.drop 10 == b!" 00000 n \n" then
      some (digitsVal (e.take 10))
    else none
  else none

/-- Find and read object `n` of a file through the cross-reference table. -/
def lookup (file : Bytes) (n : Nat) : Option PIndirect := do
  let off ← xrefOffset file n
  let (m, o, _) ← readIndirect (file.drop off)
  if m = n then some o else none

/-- 7.5.5: the trailer dictionary, which follows the cross-reference table. -/
def trailer (file : Bytes) : Option PObj := do
  let (_, cnt, s) ← xrefTable file
  let s1 := skipWs (s.drop (20 * cnt))
  if startsWith b!"trailer" s1 then
    let (d, _) ← readObj (s1.length + 1) (s1.drop 7)
    some d
  else none

end PdfSpec
