import Verif.Model.FirstFit
/-
Columns with less room, for what is said about avoiding orphaned lines.
-/

namespace Pdfje

/-- The columns with whole lines of room taken away from some of them; these still have room for two lines. -/
def LessRoom (lead : ℚ) (cols cols' : Cols) : Prop :=
  ∀ i, cols' i = cols i ∨ ∃ n : Nat, cols' i = ((cols i).1, (cols i).2 - n * lead) ∧ 2 * lead ≤ (cols' i).2

/-- The columns with one line of room less in column `i`. -/
def lineLess (lead : ℚ) (cols : Cols) (i : Nat) : Cols := fun j => if j = i then ((cols j).1, (cols j).2 - lead) else cols j

end Pdfje
