import Verif.Model.KnuthPlass
/-
Specification of optimal line breaks, independent of the algorithm: what a sequence of breaks is, when it is feasible,
and its demerits. Of the model it uses only the records of boxes and parameters, and the type of tolerances.
-/

namespace Pdfje

/-- The width of the text (with its last space) before position `a`: a line that starts at `a` is measured from it. -/
def startWidth (bs : List KBox) : Nat → ℚ
  | 0 => 0
  | a + 1 => match bs[a]? with | some b => b.inclSpace | none => 0

/-- The stretch that lies before the line that starts at `a`. -/
def startStretch (bs : List KBox) : Nat → ℚ
  | 0 => 0
  | a + 1 => match bs[a + 1]? with | some b => b.stretch | none => 0

/-- The shrink that lies before the line that starts at `a`. -/
def startShrink (bs : List KBox) : Nat → ℚ
  | 0 => 0
  | a + 1 => match bs[a + 1]? with | some b => b.shrink | none => 0

/-- Is there a hyphen (or dash) before position `b`? -/
def endsHyphen (bs : List KBox) : Nat → Bool
  | 0 => false
  | b + 1 => match bs[b]? with | some x => x.hyphenated | none => false

/-- May a line end at position `b`, which is not the end of the paragraph? -/
def Legal (bs : List KBox) (b : Nat) : Prop := 0 < b ∧ b < bs.length ∧ ∀ x, bs[b - 1]? = some x → x.noBreak = false

/-- The adjustment ratio of a ragged line: the white space left, relative to `fill`; -2 if the line is too long. -/
def raggedRatio (length fill space : ℚ) : ℚ := if length ≤ space then (space - length) / fill else -2

/-- The adjustment ratio of a justified line: how much of the stretch (or shrink) of its spaces is used to fill the
space; more than 100 if there is nothing to stretch or shrink. -/
def justifiedRatio (length stretch shrink space : ℚ) : ℚ :=
  if length = space then 0
  else if length < space then (if stretch = 0 then 100 + length / space else (space - length) / stretch)
  else (if shrink = 0 then 100 + length / space else (space - length) / shrink)

/-- The adjustment ratio of line number `j` (from 0) with the boxes from position `a` to position `b`. -/
def lineRatio (ragged : Bool) (bs : List KBox) (width : Nat → ℚ) (j a b : Nat) : ℚ :=
  match bs[b - 1]? with
  | none => 0
  | some x =>
    if ragged then raggedRatio (x.inclHyphen - startWidth bs a) x.stretch (width j)
    else justifiedRatio (x.inclHyphen - startWidth bs a) (x.stretch - startStretch bs a) (x.shrink - startShrink bs a) (width j)

/-- The fitness class of a line: tight, normal, loose, very loose. -/
def fitClass (r : ℚ) : Nat := if r < -(1/2) then 0 else if r ≤ 1/2 then 1 else if r ≤ 1 then 2 else 3

/-- The penalty for lines of classes that differ by more than 1. -/
def classPenalty (p : FitParams) (f g : Nat) : ℚ := if ((f : ℤ) - g).natAbs ≤ 1 then 0 else p.fitDiffPenalty

/-- The demerits of line `j` from `a` to `b` with ratio `r` after a line of class `f`. -/
def lineDemerits (p : FitParams) (bs : List KBox) (a b f : Nat) (r : ℚ) : ℚ :=
  (1 + 100 * |r| ^ 3 + if endsHyphen bs b then p.hyphenPenalty else 0) ^ 2
    + (if endsHyphen bs a ∧ endsHyphen bs b then p.consecutiveHyphenPenalty else 0) + classPenalty p f (fitClass r)

/-- The demerits of the last line: it need not be stretched, and a hyphen at its end costs nothing. -/
def lastDemerits (p : FitParams) (f : Nat) (r : ℚ) : ℚ := (1 + 100 * |r| ^ 3) ^ 2 + classPenalty p f (fitClass r)

/-- The ratio is at most the tolerance; without bound if that is infinite, and never if it is not a number or minus infinity. -/
def Tol.Within : Tol → ℚ → Prop
  | .fin t, r => r ≤ t
  | .inf, _ => True
  | .never, _ => False

/-- Breaks at these positions, for lines from number `j` on that start at position `a`, are feasible: they go up to the
end of the paragraph, each line but the last has a ratio from -1 to the tolerance, and the last need not shrink by 1. -/
def Feasible (p : FitParams) (bs : List KBox) (width : Nat → ℚ) (tol : Tol) : Nat → Nat → List Nat → Prop
  | _, _, [] => False
  | j, a, [b] => b = bs.length ∧ a < b ∧ -1 < lineRatio p.ragged bs width j a b
  | j, a, b :: c :: rest => a < b ∧ Legal bs b ∧ -1 ≤ lineRatio p.ragged bs width j a b ∧
      tol.Within (lineRatio p.ragged bs width j a b) ∧ Feasible p bs width tol (j + 1) b (c :: rest)

/-- The total demerits of such breaks, after a line of class `f`. -/
def totalDemerits (p : FitParams) (bs : List KBox) (width : Nat → ℚ) : Nat → Nat → Nat → List Nat → ℚ
  | _, _, _, [] => 0
  | j, a, f, [b] => lastDemerits p f (min (lineRatio p.ragged bs width j a b) 0)
  | j, a, f, b :: c :: rest => lineDemerits p bs a b f (lineRatio p.ragged bs width j a b) +
      totalDemerits p bs width (j + 1) b (fitClass (lineRatio p.ragged bs width j a b)) (c :: rest)

/-- Too long lines stay too long: if a line cannot be shrunk to end at `c` then it cannot be shrunk to end later. -/
def Monotone' (p : FitParams) (bs : List KBox) (width : Nat → ℚ) : Prop :=
  ∀ j a c b, a < c → c < b → b ≤ bs.length → Legal bs c → lineRatio p.ragged bs width j a c < -1 →
    lineRatio p.ragged bs width j a b < -1

/-- No line of these breaks runs over a position at which it is too long already. -/
def Unbroken (p : FitParams) (bs : List KBox) (width : Nat → ℚ) : Nat → Nat → List Nat → Prop
  | _, _, [] => True
  | j, a, b :: rest => (∀ c, a < c → c < b → Legal bs c → -1 ≤ lineRatio p.ragged bs width j a c) ∧
      Unbroken p bs width (j + 1) b rest

/-- The tolerances that are tried in turn: the given one, 2, 3, 5 and 8 times that, and at last any (but none if the given one is not positive). -/
def tolSteps (t : ℚ) : List Tol := ([1, 2, 3, 5, 8].map fun k : ℚ => Tol.fin (t * k)) ++ [if 0 < t then .inf else .never]

/-- `tol` is one of these, and all before it fail. -/
def FirstTol (t : ℚ) (fails : Tol → Prop) (tol : Tol) : Prop := ∃ pre post, tolSteps t = pre ++ tol :: post ∧ ∀ x ∈ pre, fails x

/-- The line widths and the fill of ragged lines are not zero. -/
structure NoZero (p : FitParams) (bs : List KBox) (width : Nat → ℚ) : Prop where
  width : ∀ j, width j ≠ 0
  fill : p.ragged = true → ∀ b ∈ bs, b.stretch ≠ 0

end Pdfje
