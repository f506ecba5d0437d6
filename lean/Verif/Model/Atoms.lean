import Verif.Model.Num
/-
Model of /repo/src/pdfje/atoms.py: the PDF object writers and the file writer.
-/

namespace Pdfje

/-- The `Atom` classes of atoms.py:30-174. `Bool` (atoms.py:41-46) is left out: its `write` always
raises `NotImplementedError` and it is never instantiated. `Stream.content` is the joined content
(the writer joins it, atoms.py:154). Object ids are natural numbers (atoms.py:26). -/
inductive Atom where
  | name (value : Bytes)
  | int (value : Int)
  | real (value : ℚ)
  | lit (value : Bytes)
  | hex (value : Bytes)
  | array (items : List Atom)
  | dict (content : List (Bytes × Atom))
  | stream (content : Bytes) (extra : List (Bytes × Atom))
  | ref (target : Nat)

/-- atoms.py:57-68 `_sanitize_name_char`. -/
def sanitizeNameChar (c : UInt8) : Bytes :=
  if c = 0x23 then b!"#23"
  else if 33 ≤ c ∧ c ≤ 126 then [c]
  else if c = 0x20 then b!"#20"
  else []

/-- atoms.py:71-72 `sanitize_name`. -/
def sanitizeName (s : Bytes) : Bytes := s.flatMap sanitizeNameChar

/-- atoms.py:236-249 `_STRING_ESCAPES` and `_replace_with_escape`: the escape of one byte. -/
def escapeByte (c : UInt8) : Bytes :=
  if c = 0x5C then b!"\\\\"
  else if c = 0x0A then b!"\\n"
  else if c = 0x0D then b!"\\r"
  else if c = 0x09 then b!"\\t"
  else if c = 0x08 then b!"\\b"
  else if c = 0x0C then b!"\\f"
  else if c = 0x28 then b!"\\("
  else if c = 0x29 then b!"\\)"
  else [c]

/-- atoms.py:252-255 `_escape`: `re.sub` with an alternation of single bytes replaces byte by byte. -/
def escape (s : Bytes) : Bytes := s.flatMap escapeByte

/-- `binascii.hexlify` (atoms.py:111). -/
def hexlify (s : Bytes) : Bytes :=
  s.flatMap fun b => [hexDigitL (b.toNat / 16), hexDigitL (b.toNat % 16)]

section
variable (compress : Bytes → Bytes)

mutual
/-- The `write` methods, joined: `Name` atoms.py:53, `Int` :79, `Real` :87, `LiteralStr` :102,
`HexString` :110, `Array` :118, `Dictionary` :133, `Stream` :153, `Ref` :173.
(`Real.write`'s `isfinite` assertion cannot fail on a rational.) -/
def Atom.write : Atom → Bytes
  | .name v => b!"/" ++ v
  | .int v => decInt v
  | .real v => fmtG v
  | .lit v => b!"(" ++ escape v ++ b!")"
  | .hex v => b!"<" ++ hexlify v ++ b!">"
  | .array items => b!"[" ++ writeItems items ++ b!"]"
  | .dict content => b!"<<\n" ++ writeEntries content ++ b!">>"
  | .stream content extra =>
      let c := compress content
      b!"<<\n" ++ (writeEntries extra ++
        (b!"/Length " ++ decInt c.length ++ b!"\n" ++ (b!"/Filter /FlateDecode\n"))) ++ b!">>" ++
      b!"\nstream\n" ++ c ++ b!"\nendstream"
  | .ref n => decNat n ++ b!" 0 R"
/-- Loop of atoms.py:120-122. -/
def writeItems : List Atom → Bytes
  | [] => []
  | a :: as => a.write ++ b!" " ++ writeItems as
/-- Loop of atoms.py:139-144 (`_write_dict`). -/
def writeEntries : List (Bytes × Atom) → Bytes
  | [] => []
  | (k, v) :: es => b!"/" ++ k ++ b!" " ++ v.write ++ b!"\n" ++ writeEntries es
end

/-- atoms.py:137-145 `_write_dict`. -/
def writeDict (d : List (Bytes × Atom)) : Bytes := b!"<<\n" ++ writeEntries compress d ++ b!">>"

mutual
/-- The `write` methods as the list of chunks they yield, in order (same lines as `Atom.write`, which is
the concatenation: `chunks_flatten` in `Proofs/File`). -/
def Atom.chunks : Atom → List Bytes
  | .name v => [b!"/", v]
  | .int v => [decInt v]
  | .real v => [fmtG v]
  | .lit v => [b!"(", escape v, b!")"]
  | .hex v => [b!"<", hexlify v, b!">"]
  | .array items => [b!"["] ++ itemChunks items ++ [b!"]"]
  | .dict content => [b!"<<\n"] ++ entryChunks content ++ [b!">>"]
  | .stream content extra =>
      let c := compress content
      [b!"<<\n"] ++ (entryChunks extra ++
        [b!"/", b!"Length", b!" ", decInt c.length, b!"\n", b!"/", b!"Filter", b!" ", b!"/", b!"FlateDecode", b!"\n"]) ++
      [b!">>", b!"\nstream\n", c, b!"\nendstream"]
  | .ref n => [decNat n ++ b!" 0 R"]
/-- Loop of atoms.py:120-122. -/
def itemChunks : List Atom → List Bytes
  | [] => []
  | a :: as => a.chunks ++ [b!" "] ++ itemChunks as
/-- Loop of atoms.py:139-144. -/
def entryChunks : List (Bytes × Atom) → List Bytes
  | [] => []
  | (k, v) :: es => [b!"/", k, b!" "] ++ v.chunks ++ [b!"\n"] ++ entryChunks es
end

/-- atoms.py:38 `Object`. -/
abbrev Obj := Nat × Atom

/-- atoms.py:177-180 `_write_obj`, joined (as done at atoms.py:220). -/
def writeObj (o : Obj) : Bytes :=
  decNat o.1 ++ b!" 0 obj\n" ++ o.2.write compress ++ b!"\nendobj\n"

/-- atoms.py:21 `_HEADER`. -/
def header : Bytes := b!"%PDF-1.7\n%" ++ [0x80, 0x80, 0x80, 0x80] ++ b!" generated by pdfje\n"

/-- One line of the xref table, atoms.py:200. -/
def xrefLine (off : Nat) : Bytes := decPad 10 off ++ b!" 00000 n \n"

/-- atoms.py:191-209 `_write_trailer` as its list of chunks; `id` is the result of
`_generate_file_id()` (atoms.py:188). -/
def writeTrailer (id : Bytes) (offsets : List Nat) (xrefOffset : Nat) : List Bytes :=
  [b!"xref\n" ++ decNat 0 ++ b!" " ++ decNat (offsets.length + 1) ++ b!"\n0000000000 65535 f \n"] ++
  offsets.map xrefLine ++
  [b!"trailer\n"] ++
  Atom.chunks compress (.dict
     [(b!"Root", .ref 1), (b!"Size", .int ((offsets.length : Int) + 1)),
      (b!"ID", .array [.hex id, .hex id])]) ++
  [b!"\nstartxref\n" ++ decNat xrefOffset ++ b!"\n%%EOF\n"]

/-- `itertools.accumulate` (atoms.py:229). -/
def accumulate : Nat → List Nat → List Nat
  | _, [] => []
  | acc, x :: xs => (acc + x) :: accumulate (acc + x) xs

/-- Offsets of all chunks, atoms.py:219-229: `accumulate([_FIRST_OFFSET, len(chunk1), ...])`. -/
def chunkOffsets (chunks : List Bytes) : List Nat :=
  accumulate 0 (header.length :: chunks.map List.length)

/-- atoms.py:212-233 `write`: the chunks of the file in the order they are yielded.
The `(*offsets, a, b, c, d) = ...` unpacking raises `ValueError` when there are fewer than three objects:
that is the `none` case. -/
def write (id : Bytes) (objs : List Obj) : Option (List Bytes) :=
  let chunks := objs.map (writeObj compress)
  match (chunkOffsets chunks).reverse with
  | xref :: resources :: pagetree :: catalog :: rest =>
    some (header :: chunks ++
      writeTrailer compress id ([catalog, pagetree, resources] ++ rest.reverse) xref)
  | _ => none

/-- The complete file contents. -/
def writeBytes (id : Bytes) (objs : List Obj) : Option Bytes :=
  (write compress id objs).map List.flatten

end
end Pdfje
