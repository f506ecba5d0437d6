import Verif.Model.Units
/-
Specification: lengths, and the sizes of sheets of paper (ISO 216 in millimetres; ANSI/ASME Y14.1 and the North American office sizes in inches).
Of the model it uses only the names of the sizes.
-/

namespace Pdfje.Units

/-- Lengths in points: an inch is 72 points, and 25.4 millimetres. -/
inductive Length where
  | inches (x : ℚ)
  | millimetres (x : ℚ)

def Length.points : Length → ℚ
  | .inches x => x * 72
  | .millimetres x => x / 25.4 * 72

/-- Width and height of a sheet held upright (for `ledger`: lying). -/
def Paper.sheet : Paper → Length × Length
  | .a0 => (.millimetres 841, .millimetres 1189)
  | .a1 => (.millimetres 594, .millimetres 841)
  | .a2 => (.millimetres 420, .millimetres 594)
  | .a3 => (.millimetres 297, .millimetres 420)
  | .a4 => (.millimetres 210, .millimetres 297)
  | .a5 => (.millimetres 148, .millimetres 210)
  | .a6 => (.millimetres 105, .millimetres 148)
  | .letter => (.inches 8.5, .inches 11)
  | .legal => (.inches 8.5, .inches 14)
  | .tabloid => (.inches 11, .inches 17)
  | .ledger => (.inches 17, .inches 11)

/-- The two differ by less than one point. -/
def Near (a b : ℚ) : Prop := |a - b| < 1

end Pdfje.Units
