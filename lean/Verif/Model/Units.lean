import Mathlib.Data.Rat.Defs
import Mathlib.Algebra.Order.Ring.Rat
/-
Model of /repo/src/pdfje/units.py, and of the arithmetic of points (/repo/src/pdfje/common.py:81-180).
Simplified: floats are rationals, without rounding. The constants are the decimals written in the source.
-/

namespace Pdfje.Units

/-- units.py:18 `inch`. -/
def inch (x : ℚ) : ℚ := 72 * x

/-- units.py:20 `cm`. -/
def cm (x : ℚ) : ℚ := 28.346456692913385 * x

/-- units.py:22 `mm`. -/
def mm (x : ℚ) : ℚ := 2.8346456692913385 * x

/-- units.py:24 `pc`. -/
def pc (x : ℚ) : ℚ := 12 * x

/-- units.py:28-30 `pt`. -/
def pt (x : ℚ) : ℚ := x

/-- common.py:81-115 `XY`. -/
structure XY where
  x : ℚ
  y : ℚ
  deriving DecidableEq

/-- What the operators of `XY` take: an `XY` or a tuple of two (common.py:156-170). -/
inductive PointArg where
  | xy (p : XY)
  | tuple (x y : ℚ)

/-- common.py:123-125 `XY.parse`. -/
def XY.parse : PointArg → XY
  | .tuple x y => ⟨x, y⟩
  | .xy p => p

/-- common.py:120-121 `XY.astuple`. -/
def XY.astuple (p : XY) : ℚ × ℚ := (p.x, p.y)

/-- common.py:127-129 `XY.__iter__`. -/
def XY.iter (p : XY) : List ℚ := [p.x, p.y]

/-- common.py:131-139 `XY.__getitem__`; `none` is an IndexError. -/
def XY.getitem (p : XY) (i : ℤ) : Option ℚ := if i = 0 then some p.x else if i = 1 then some p.y else none

/-- common.py:141-142 `XY.__len__`. -/
def XY.len (_ : XY) : Nat := 2

/-- common.py:144-148 `XY.__truediv__`; `none` is a ZeroDivisionError. -/
def XY.truediv (p : XY) (k : ℚ) : Option XY := if k = 0 then none else some ⟨p.x / k, p.y / k⟩

/-- common.py:150-154 `XY.__mul__`. -/
def XY.mul (p : XY) (k : ℚ) : XY := ⟨p.x * k, p.y * k⟩

/-- common.py:156-162 `XY.__sub__`. -/
def XY.sub (p : XY) : PointArg → XY
  | .tuple x y => ⟨p.x - x, p.y - y⟩
  | .xy q => ⟨p.x - q.x, p.y - q.y⟩

/-- common.py:164-170 `XY.__add__`. -/
def XY.add (p : XY) : PointArg → XY
  | .tuple x y => ⟨p.x + x, p.y + y⟩
  | .xy q => ⟨p.x + q.x, p.y + q.y⟩

/-- common.py:172-173 `XY.add_x`. -/
def XY.addX (p : XY) (x : ℚ) : XY := ⟨p.x + x, p.y⟩

/-- common.py:175-176 `XY.add_y`. -/
def XY.addY (p : XY) (y : ℚ) : XY := ⟨p.x, p.y + y⟩

/-- common.py:178-180 `XY.flip`. -/
def XY.flip (p : XY) : XY := ⟨p.y, p.x⟩

/-- units.py:33-54: the paper sizes, by name. -/
inductive Paper where
  | a0 | a1 | a2 | a3 | a4 | a5 | a6 | letter | legal | tabloid | ledger
  deriving DecidableEq

/-- units.py:33-54: the paper sizes. -/
def Paper.size : Paper → XY
  | .a0 => ⟨2380, 3368⟩
  | .a1 => ⟨1684, 2380⟩
  | .a2 => ⟨1190, 1684⟩
  | .a3 => ⟨842, 1190⟩
  | .a4 => ⟨595, 842⟩
  | .a5 => ⟨420, 595⟩
  | .a6 => ⟨297, 420⟩
  | .letter => ⟨612, 792⟩
  | .legal => ⟨612, 1008⟩
  | .tabloid => ⟨792, 1224⟩
  | .ledger => XY.flip ⟨792, 1224⟩

end Pdfje.Units
