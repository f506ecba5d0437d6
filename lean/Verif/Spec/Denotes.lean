import Verif.Model.Atoms
import Verif.Spec.PdfReader
import Mathlib.Algebra.Order.Field.Rat
/-
SPECIFICATION: which PDF object (as seen by a reader) an `Atom` stands for, and which atoms are
well-formed (what pdfje's callers must respect).
-/

namespace Pdfje
open PdfSpec

mutual
/-- `a.Denotes p`: the object `p` is what atom `a` stands for. Numbers: an integer stands for itself, a
real for a number that differs by at most 5 parts in a million. -/
inductive Atom.Denotes : Atom → PObj → Prop where
  | name {v d} : decodeName v = some d → Atom.Denotes (.name v) (.name d)
  | int (z : Int) : Atom.Denotes (.int z) (.num z)
  | real {q v : ℚ} : |v - q| ≤ |q| * (5 / 1000000) → Atom.Denotes (.real q) (.num v)
  | lit (v) : Atom.Denotes (.lit v) (.str v)
  | hex (v) : Atom.Denotes (.hex v) (.str v)
  | array {as ps} : ItemsDenote as ps → Atom.Denotes (.array as) (.arr ps)
  | dict {as ps} : EntriesDenote as ps → Atom.Denotes (.dict as) (.dict ps)
  | ref (n) : Atom.Denotes (.ref n) (.ref n 0)
/-- Item by item. -/
inductive ItemsDenote : List Atom → List PObj → Prop where
  | nil : ItemsDenote [] []
  | cons {a as p ps} : Atom.Denotes a p → ItemsDenote as ps → ItemsDenote (a :: as) (p :: ps)
/-- Entry by entry: same key, value denoted. -/
inductive EntriesDenote : List (Bytes × Atom) → List (Bytes × PObj) → Prop where
  | nil : EntriesDenote [] []
  | cons {k d a as p ps} : decodeName k = some d → Atom.Denotes a p → EntriesDenote as ps →
      EntriesDenote ((k, a) :: as) ((d, p) :: ps)
end

/-- A name that is one token: regular characters only, with well-formed `#xx` codes. -/
def GoodName (v : Bytes) : Prop := (∀ c ∈ v, isRegular c = true) ∧ ∃ d, decodeName v = some d

/-- Reals for which `%g` does not use exponent notation. -/
def GoodReal (q : ℚ) : Prop := q = 0 ∨ (9999995 / 100000000000 ≤ |q| ∧ |q| < 999999 + 1 / 2)

mutual
/-- Direct objects that can be written: good names, printable reals, no stream (streams are only
allowed as top-level objects, 7.3.8). -/
def Atom.Ok : Atom → Prop
  | .name v => GoodName v
  | .real q => GoodReal q
  | .array as => itemsOk as
  | .dict es => entriesOk es
  | .stream _ _ => False
  | _ => True
def itemsOk : List Atom → Prop
  | [] => True
  | a :: as => a.Ok ∧ itemsOk as
def entriesOk : List (Bytes × Atom) → Prop
  | [] => True
  | (k, a) :: es => GoodName k ∧ a.Ok ∧ entriesOk es
end

end Pdfje

namespace Pdfje
open PdfSpec

/-- Which indirect object an atom stands for: a direct object, or a stream whose dictionary has the given
entries plus `/Length` (the number of raw bytes) and `/Filter /FlateDecode`, and whose raw bytes
decompress to the content. -/
inductive ObjDenotes (decompress : Bytes → Option Bytes) : Atom → PIndirect → Prop where
  | direct {a p} : a.Denotes p → ObjDenotes decompress a (.direct p)
  | stream {content extra ps raw} : EntriesDenote extra ps → decompress raw = some content →
      ObjDenotes decompress (.stream content extra)
        (.stream (.dict (ps ++ [(b!"Length", .num (raw.length : ℚ)), (b!"Filter", .name b!"FlateDecode")])) raw)

/-- Top-level objects that can be written: a direct object, or a stream whose own entries are fine and do
not include `/Length` (which the writer adds). -/
def ObjOk : Atom → Prop
  | .stream _ extra => entriesOk extra ∧ ∀ e ∈ extra, decodeName e.1 ≠ some b!"Length"
  | a => a.Ok

end Pdfje
