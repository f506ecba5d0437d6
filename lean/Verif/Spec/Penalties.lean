import Verif.Spec.Breaks
/-
What the three penalties of optimal line breaks penalise, counted on the positions where lines end.
-/

namespace Pdfje

/-- The number of lines that end in a hyphen; the last line does not count. -/
def hyphenCount (bs : List KBox) (ps : List Nat) : Nat := ps.dropLast.countP (endsHyphen bs)

/-- The number of lines that end in a hyphen and come after a line that does, too; the last line does not count. -/
def hyphensInARow (bs : List KBox) (ps : List Nat) : Nat :=
  (ps.dropLast.zip ps.dropLast.tail).countP fun x => endsHyphen bs x.1 && endsHyphen bs x.2

/-- The classes of the lines from number `j` on that start at position `a` and end at these positions. The last line
is not stretched. -/
def lineClasses (ragged : Bool) (bs : List KBox) (width : Nat → ℚ) : Nat → Nat → List Nat → List Nat
  | _, _, [] => []
  | j, a, [b] => [fitClass (min (lineRatio ragged bs width j a b) 0)]
  | j, a, b :: c :: rest => fitClass (lineRatio ragged bs width j a b) :: lineClasses ragged bs width (j + 1) b (c :: rest)

/-- The number of neighbours that differ by more than 1. -/
def jumps (fs : List Nat) : Nat := (fs.zip fs.tail).countP fun x => decide (1 < ((x.1 : ℤ) - x.2).natAbs)

/-- The number of lines of a class that differs by more than 1 from that of the line before. The first line is compared
with a normal line (class 1). -/
def classJumps (ragged : Bool) (bs : List KBox) (width : Nat → ℚ) (ps : List Nat) : Nat :=
  jumps (1 :: lineClasses ragged bs width 0 0 ps)

/-- The sum of this over all lines but the last that end in a hyphen. -/
def hyphenSum (ragged : Bool) (bs : List KBox) (width : Nat → ℚ) (weight : ℚ → ℚ) : Nat → Nat → List Nat → ℚ
  | _, _, [] => 0
  | _, _, [_] => 0
  | j, a, b :: c :: rest => (if endsHyphen bs b then weight (1 + 100 * |lineRatio ragged bs width j a b| ^ 3) else 0) +
      hyphenSum ragged bs width weight (j + 1) b (c :: rest)

end Pdfje
