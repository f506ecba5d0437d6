import Verif.Model.Words
/-
Specification: what the array of a `TJ` operator shows.
-/

namespace Pdfje

/-- The text an array shows. -/
def shownText {α} : List (Piece α) → List α
  | [] => []
  | .adj _ :: r => shownText r
  | .str s :: r => s ++ shownText r

/-- The adjustments in an array, each with the amount of text shown before it (starting from `n`). -/
def adjustments {α} : Nat → List (Piece α) → List (Nat × ℚ)
  | _, [] => []
  | n, .adj x :: r => (n, x) :: adjustments n r
  | n, .str s :: r => adjustments (n + s.length) r

/-- Whether an array has two strings in a row somewhere. -/
def hasSplit {α} : List (Piece α) → Bool
  | .str _ :: .str _ :: _ => true
  | _ :: r => hasSplit r
  | [] => false

end Pdfje
