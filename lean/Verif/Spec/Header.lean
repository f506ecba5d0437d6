import Verif.Spec.PdfReader
/-
Specification: the first two lines of a PDF file (ISO 32000-1, 7.5.2).
-/

namespace PdfSpec

/-- The file begins with the line `%PDF-` and this version, with no byte before it; the next line is a comment with at least four bytes of 128 or more,
by which programs see that the file is not text. -/
def FileHeader (version file : Bytes) : Prop :=
  ∃ comment rest, file = b!"%PDF-" ++ version ++ [10] ++ [37] ++ comment ++ [10] ++ rest ∧ (∀ c ∈ comment, c ≠ 10 ∧ c ≠ 13) ∧ 4 ≤ (comment.filter fun c => 128 ≤ c).length

end PdfSpec
