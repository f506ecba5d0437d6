import Mathlib.Data.Rat.Floor
import Verif.Basic
/-
Model of /repo/src/pdfje/typeset/knuth_plass.py. Floats are rational numbers, except the tolerance, which may be
infinite.
-/

namespace Pdfje

/-- knuth_plass.py:32-41 `Box`. -/
structure KBox where
  measure : ℚ
  stretch : ℚ
  shrink : ℚ
  inclSpace : ℚ
  inclHyphen : ℚ
  hyphenated : Bool
  noBreak : Bool
  deriving DecidableEq

/-- A tolerance: a finite float, infinity, or NaN or minus infinity (to which no number is less or equal). -/
inductive Tol where
  | fin (t : ℚ)
  | inf
  | never
  deriving DecidableEq

/-- `r <= tol`. -/
def Tol.allows : Tol → ℚ → Bool
  | .fin t, r => decide (r ≤ t)
  | .inf, _ => true
  | .never, _ => false

/-- The exceptions that `optimum_fit` can raise. -/
inductive FitError where
  | noFeasibleBreaks
  | zeroDivision
  deriving DecidableEq

/-- The parameters of knuth_plass.py:48-51. -/
structure FitParams where
  hyphenPenalty : ℚ
  consecutiveHyphenPenalty : ℚ
  fitDiffPenalty : ℚ
  ragged : Bool

/-- knuth_plass.py:212-225 `ratio_justified` (BIG is 100, line 27). -/
def ratioJustified (measure stretch shrink : ℚ) (b : KBox) (space : ℚ) : Except FitError ℚ :=
  let length := b.inclHyphen - measure
  let d := if length < space then b.stretch - stretch else b.shrink - shrink
  if d ≠ 0 then .ok ((space - length) / d)
  else if length ≠ space then (if space = 0 then .error .zeroDivision else .ok (100 + length / space))
  else .ok 0

/-- knuth_plass.py:228-241 `ratio_ragged`. -/
def ratioRagged (measure : ℚ) (b : KBox) (space : ℚ) : Except FitError ℚ :=
  let leftover := space - b.inclHyphen + measure
  if 0 ≤ leftover then (if b.stretch = 0 then .error .zeroDivision else .ok (leftover / b.stretch)) else .ok (-2)

/-- knuth_plass.py:99: the choice between these. -/
def fitRatio (ragged : Bool) (measure stretch shrink : ℚ) (b : KBox) (space : ℚ) : Except FitError ℚ :=
  if ragged then ratioRagged measure b space else ratioJustified measure stretch shrink b space

/-- knuth_plass.py:205-206 `_fitness`. -/
def fitness (r : ℚ) : Nat := if r < -(1/2) then 0 else if r ≤ 1/2 then 1 else if r ≤ 1 then 2 else 3

/-- knuth_plass.py:244-245 `_main_demerit`. -/
def mainDemerit (penalty r : ℚ) : ℚ := (1 + 100 * |r| ^ 3 + penalty) ^ 2

/-- knuth_plass.py:273-287 `_BreakNode`; 290 `_ROOT`. -/
inductive BreakNode where
  | root
  | node (pos line : Nat) (ratio : ℚ) (fit : Nat) (demerits measure stretch shrink : ℚ) (hyphenated : Bool) (prev : BreakNode)
  deriving DecidableEq

namespace BreakNode

/-- Attributes of a node; `_ROOT = _BreakNode(0, 0, 0, 1, 0, 0, 0, 0, False, NotImplemented)`, knuth_plass.py:290. -/
def pos : BreakNode → Nat | root => 0 | node p .. => p
@[inherit_doc pos] def line : BreakNode → Nat | root => 0 | node _ l .. => l
@[inherit_doc pos] def ratio : BreakNode → ℚ | root => 0 | node _ _ r .. => r
@[inherit_doc pos] def fit : BreakNode → Nat | root => 1 | node _ _ _ f .. => f
@[inherit_doc pos] def demerits : BreakNode → ℚ | root => 0 | node _ _ _ _ d .. => d
@[inherit_doc pos] def measure : BreakNode → ℚ | root => 0 | node _ _ _ _ _ m .. => m
@[inherit_doc pos] def stretch : BreakNode → ℚ | root => 0 | node _ _ _ _ _ _ s .. => s
@[inherit_doc pos] def shrink : BreakNode → ℚ | root => 0 | node _ _ _ _ _ _ _ s .. => s
@[inherit_doc pos] def hyphenated : BreakNode → Bool | root => false | node _ _ _ _ _ _ _ _ h _ => h

/-- The key under which a node is kept, knuth_plass.py:299-301, 308. -/
def key (n : BreakNode) : Nat × Nat × Nat := (n.line, n.pos, n.fit)

end BreakNode

/-- knuth_plass.py:293-321 `_BreakNetwork`: the nodes of the dict in their order. Keys are those of the nodes. -/
abbrev Network := List BreakNode

/-- knuth_plass.py:307-315 `_BreakNetwork.add`: a dict keeps the place of a key that is set again. -/
def Network.add (g : Network) (n : BreakNode) : Network :=
  match g with
  | [] => [n]
  | m :: g => if m.key = n.key then (if n.demerits < m.demerits then n :: g else m :: g) else m :: Network.add g n

/-- knuth_plass.py:320-321 `_BreakNetwork.remove`. -/
def Network.remove (g : Network) (n : BreakNode) : Network := g.filter fun m => m.key ≠ n.key

/-- knuth_plass.py:135-139: the penalty for two hyphenated lines in a row. -/
def consecutive (p : FitParams) (box : KBox) (n : BreakNode) : ℚ :=
  if box.hyphenated ∧ n.hyphenated then p.consecutiveHyphenPenalty else 0

/-- knuth_plass.py:140, 183: the penalty for lines of different fitness. -/
def fitDiff (p : FitParams) (f g : Nat) : ℚ := if f ≤ g + 1 ∧ g ≤ f + 1 then 0 else p.fitDiffPenalty

/-- knuth_plass.py:126-148: the new node for a break after `box`, in a line that starts at `node`. -/
def breakNode (p : FitParams) (pos : Nat) (box next : KBox) (node : BreakNode) (r : ℚ) : BreakNode :=
  .node pos (node.line + 1) r (fitness r)
    (mainDemerit (if box.hyphenated then p.hyphenPenalty else 0) r + consecutive p box node
      + fitDiff p (fitness r) node.fit + node.demerits)
    box.inclSpace next.stretch next.shrink box.hyphenated node

/-- knuth_plass.py:117-149: one iteration of the inner loop. -/
def tryNode (p : FitParams) (width : Nat → ℚ) (tol : Tol) (pos : Nat) (box next : KBox) (g : Network) (node : BreakNode) :
    Except FitError Network := do
  let r ← fitRatio p.ragged node.measure node.stretch node.shrink box (width node.line)
  return if r < -1 then g.remove node
    else if tol.allows r then g.add (breakNode p pos box next node r)
    else g

/-- knuth_plass.py:109-149: one iteration of the outer loop. -/
def tryBox (p : FitParams) (width : Nat → ℚ) (tol : Tol) (pos : Nat) (box next : KBox) (g : Network) : Except FitError Network :=
  if box.noBreak then .ok g
  else if g.isEmpty then .error .noFeasibleBreaks
  else g.foldlM (tryNode p width tol pos box next) g

/-- knuth_plass.py:107-149: the outer loop over the pairs of boxes from `pos` on. -/
def tryBoxes (p : FitParams) (width : Nat → ℚ) (tol : Tol) : Nat → List KBox → Network → Except FitError Network
  | pos, box :: next :: rest, g => do
    let g ← tryBox p width tol pos box next g
    tryBoxes p width tol (pos + 1) (next :: rest) g
  | _, _, g => .ok g

/-- knuth_plass.py:248-254 `_EndNode`. -/
structure EndNode where
  pos : Nat
  ratio : ℚ
  demerits : ℚ
  measure : ℚ
  prev : BreakNode

/-- knuth_plass.py:178-197: the end node for `n`, if it is an option. -/
def endOption (p : FitParams) (width : Nat → ℚ) (box : KBox) (pos : Nat) (n : BreakNode) : Except FitError (Option EndNode) := do
  let r ← fitRatio p.ragged n.measure n.stretch n.shrink box (width n.line)
  let r := min r 0
  return if -1 < r then some ⟨pos, r, mainDemerit 0 r + fitDiff p (fitness r) n.fit + n.demerits, box.inclSpace, n⟩ else none

/-- `min(options, key=_demerits)`: the first of the smallest; knuth_plass.py:199-202. -/
def minEnd : List EndNode → Option EndNode
  | [] => none
  | e :: es => match minEnd es with
    | none => some e
    | some f => if f.demerits < e.demerits then some f else some e

/-- knuth_plass.py:168-202 `_optimal_end`. -/
def optimalEnd (p : FitParams) (width : Nat → ℚ) (g : Network) (box : KBox) (pos : Nat) : Except FitError EndNode := do
  let options ← g.mapM (endOption p width box pos)
  match minEnd (options.filterMap id) with
  | some e => .ok e
  | none => .error .noFeasibleBreaks

/-- knuth_plass.py:156-161 `Break`. -/
structure KBreak where
  pos : Nat
  adjust : ℚ
  demerits : ℚ
  width : ℚ
  deriving DecidableEq

/-- The loop of knuth_plass.py:257-269 for the nodes before the end, in reverse. -/
def BreakNode.unroll : BreakNode → List KBreak
  | .root => []
  | .node pos _ r _ d m _ _ _ prev => prev.unroll ++ [⟨pos, r, d - prev.demerits, m - prev.measure⟩]

/-- knuth_plass.py:256-270 `_EndNode.unroll`. -/
def EndNode.unroll (e : EndNode) : List KBreak :=
  e.prev.unroll ++ [⟨e.pos, e.ratio, e.demerits - e.prev.demerits, e.measure - e.prev.measure⟩]

/-- knuth_plass.py:44-153 `optimum_fit`. -/
def optimumFit (p : FitParams) (bs : List KBox) (width : Nat → ℚ) (tol : Tol) : Except FitError (List KBreak) :=
  match bs.getLast? with
  | none => .ok []
  | some last => do
    let g ← tryBoxes p width tol 1 bs [.root]
    let e ← optimalEnd p width g last bs.length
    return e.unroll

end Pdfje
