import Verif.Spec.Paper
import Verif.Model.Pages
import Mathlib.Tactic.NormNum
import Mathlib.Tactic.Ring
import Mathlib.Tactic.Linarith
import Mathlib.Algebra.Order.AbsoluteValue.Basic
import Mathlib.Tactic.FieldSimp
/-
C81: units and paper sizes. C82: arithmetic of points.
-/

namespace Pdfje

open Units

/-! ### C81 -/

/-- The units are what they are called: inches and picas (six of which are an inch) exactly, points of course, and centimetres and millimetres but for less than
10⁻¹⁴ of the length. -/
def UnitsRight : Prop := ∀ x : ℚ, inch x = (Length.inches x).points ∧ pc (6 * x) = (Length.inches x).points ∧ pt (72 * x) = (Length.inches x).points ∧
  |mm x - (Length.millimetres x).points| ≤ |x| / 10 ^ 14 ∧ |cm x - (Length.millimetres (10 * x)).points| ≤ |x| / 10 ^ 14

/-- C81 as stated: the units are right, and each size of paper is that of the sheet to less than one point. -/
def C81_Statement : Prop := UnitsRight ∧ ∀ s : Paper, Near s.size.x s.sheet.1.points ∧ Near s.size.y s.sheet.2.points

/-- C81 is false: A0 and A1 are four points too small, one in both directions. -/
theorem C81_counterexample : ¬ C81_Statement := by
  intro h
  have := (h.2 .a0).1
  revert this
  simp only [Near, Paper.size, Paper.sheet, Length.points]
  rw [abs_of_neg (by norm_num)]
  norm_num

/-- C81 for all sizes but these two, which are off by less than four points. -/
theorem C81_units_partial : UnitsRight ∧ (∀ s : Paper, s ≠ .a0 → s ≠ .a1 → Near s.size.x s.sheet.1.points ∧ Near s.size.y s.sheet.2.points) ∧
    ∀ s : Paper, |s.size.x - s.sheet.1.points| < 4 ∧ |s.size.y - s.sheet.2.points| < 4 := by
  refine ⟨fun x => ⟨?_, ?_, ?_, ?_, ?_⟩, fun s h1 h2 => ?_, fun s => ?_⟩
  · simp only [inch, Length.points]; ring
  · simp only [pc, Length.points]; ring
  · simp only [pt, Length.points]; ring
  · have : mm x - (Length.millimetres x).points = x * (2.8346456692913385 - 72 / 25.4) := by simp only [mm, Length.points]; ring
    rw [this, abs_mul, show |x| / 10 ^ 14 = |x| * (1 / 10 ^ 14) by ring]
    refine mul_le_mul_of_nonneg_left ?_ (abs_nonneg x)
    rw [abs_le]; norm_num
  · have : cm x - (Length.millimetres (10 * x)).points = x * (28.346456692913385 - 10 * 72 / 25.4) := by simp only [cm, Length.points]; ring
    rw [this, abs_mul, show |x| / 10 ^ 14 = |x| * (1 / 10 ^ 14) by ring]
    refine mul_le_mul_of_nonneg_left ?_ (abs_nonneg x)
    rw [abs_le]; norm_num
  · cases s <;> simp only [ne_eq, not_true_eq_false, reduceCtorEq, not_false_eq_true] at h1 h2 <;>
      simp only [Near, Paper.size, Paper.sheet, Length.points, XY.flip, abs_lt] <;> norm_num
  · cases s <;> simp only [Paper.size, Paper.sheet, Length.points, XY.flip, abs_lt] <;> norm_num

/-- The default page is A4, with margins of an inch on all sides. -/
theorem C81_default : Page.new [] a4 0 defaultMargin [] = some Page.default ∧ Page.default.size = Paper.a4.size.astuple ∧
    ∃ c, Page.default.columns = [c] ∧ c.origin = (inch 1, inch 1) ∧ c.origin.1 + c.width = Paper.a4.size.x - inch 1 ∧
      c.origin.2 + c.height = Paper.a4.size.y - inch 1 := by
  refine ⟨by norm_num [Page.new, defaultColumn, Sides.parse, defaultMargin, Page.default, a4, Column.new], rfl, _, rfl, ?_, ?_, ?_⟩ <;> norm_num [inch, Page.default, a4, Paper.size]

example : inch (3 / 2) = 108 ∧ |cm 21 - (595 + 14 / 50)| < 1 / 100 := by
  refine ⟨by norm_num [inch], ?_⟩
  rw [abs_lt]; norm_num [cm]

/-! ### C82 -/

/-- C82: points, vectors and sizes are added, subtracted and scaled component by component, so they obey the laws of vectors; an argument may be given as a tuple with the same
effect as the point with these components; and a point is the sequence of its two components, in this order. -/
theorem C82_points (p q r : XY) (k l : ℚ) (a : PointArg) :
    (p.add (.xy (q.add (.xy r))) = (p.add (.xy q)).add (.xy r) ∧ p.add (.xy q) = q.add (.xy p) ∧ p.add (.tuple 0 0) = p) ∧
    ((p.sub a).add a = p ∧ (p.add a).sub a = p) ∧
    ((p.add (.xy q)).mul k = (p.mul k).add (.xy (q.mul k)) ∧ p.mul (k + l) = (p.mul k).add (.xy (p.mul l)) ∧ (p.mul k).mul l = p.mul (k * l) ∧ p.mul 1 = p) ∧
    (k ≠ 0 → p.truediv k = some (p.mul k⁻¹) ∧ (p.mul k).truediv k = some p) ∧
    (p.add a = p.add (.xy (XY.parse a)) ∧ p.sub a = p.sub (.xy (XY.parse a)) ∧ XY.parse (.tuple p.astuple.1 p.astuple.2) = p) ∧
    (p.addX k = p.add (.tuple k 0) ∧ p.addY k = p.add (.tuple 0 k)) ∧
    (p.flip.flip = p ∧ p.flip.iter = p.iter.reverse ∧ (p.add (.xy q)).flip = p.flip.add (.xy q.flip)) ∧
    (p.iter.length = p.len ∧ (∀ i : Nat, p.getitem i = p.iter[i]?) ∧ (∀ i : ℤ, i < 0 → p.getitem i = none) ∧ (p.iter = q.iter → p = q)) := by
  obtain ⟨px, py⟩ := p
  obtain ⟨qx, qy⟩ := q
  obtain ⟨rx, ry⟩ := r
  refine ⟨⟨?_, ?_, ?_⟩, ?_, ⟨?_, ?_, ?_, ?_⟩, ?_, ⟨?_, ?_, rfl⟩, ⟨?_, ?_⟩, ⟨rfl, rfl, rfl⟩, rfl, ?_, ?_, ?_⟩
  · simp [XY.add, add_assoc]
  · simp [XY.add, add_comm]
  · simp [XY.add]
  · cases a <;> simp [XY.add, XY.sub]
  · simp [XY.add, XY.mul, add_mul]
  · simp [XY.add, XY.mul, mul_add]
  · simp [XY.mul, mul_assoc]
  · simp [XY.mul]
  · intro hk; simp [XY.truediv, XY.mul, hk, div_eq_mul_inv]
  · cases a <;> rfl
  · cases a <;> rfl
  · simp [XY.addX, XY.add]
  · simp [XY.addY, XY.add]
  · intro i
    match i with
    | 0 => rfl
    | 1 => rfl
    | i + 2 =>
      have h1 : ((i + 2 : Nat) : ℤ) ≠ 0 := by omega
      have h2 : ((i + 2 : Nat) : ℤ) ≠ 1 := by omega
      simp only [XY.getitem, XY.iter, if_neg h1, if_neg h2]
      simp
  · intro i hi
    simp only [XY.getitem, if_neg (by omega : ¬ i = 0), if_neg (by omega : ¬ i = 1)]
  · simp [XY.iter]

/-- The examples of the documentation. -/
example : XY.add ⟨1, 2⟩ (.xy ⟨3, 4⟩) = ⟨4, 6⟩ ∧ XY.sub ⟨1, 2⟩ (.tuple 3 4) = ⟨-2, -2⟩ ∧ XY.truediv ⟨1, 2⟩ 2 = some ⟨1 / 2, 1⟩ ∧ XY.mul ⟨1, 2⟩ 2 = ⟨2, 4⟩ := by
  decide +kernel

end Pdfje
