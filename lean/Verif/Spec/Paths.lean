import Verif.Model.Render
/-
Specification: what a PDF viewer does with path operators (ISO 32000-1, 8.5).
-/

namespace Pdfje

/-- A segment of a path: a straight line to a point, or a Bezier curve with two control points and an end. -/
inductive Seg where
  | line (p : ℚ × ℚ)
  | curve (c1 c2 p : ℚ × ℚ)
  deriving DecidableEq

/-- Where a segment ends. -/
def Seg.stop : Seg → ℚ × ℚ
  | .line p => p
  | .curve _ _ p => p

/-- A connected part of a path. -/
structure Subpath where
  start : ℚ × ℚ
  segs : List Seg
  closed : Bool
  deriving DecidableEq

/-- A painted path: which colour its inside and its outline have, if they are painted. -/
structure Shape where
  path : List Subpath
  fill : Option RGB
  stroke : Option RGB
  deriving DecidableEq

/-- The graphics state: colours, and the path under construction. -/
structure Gfx where
  fill : RGB
  stroke : RGB
  path : List Subpath
  deriving DecidableEq

/-- Put a segment at the end of the path. Not allowed without a current point. -/
def Gfx.segment (g : Gfx) (s : Seg) : Option Gfx :=
  match g.path.getLast? with
  | none => none
  | some sp => some { g with path := g.path.dropLast ++ [{ sp with segs := sp.segs ++ [s] }] }

/-- Close the last part of the path. -/
def closeLast (path : List Subpath) : List Subpath :=
  match path.getLast? with
  | none => []
  | some sp => path.dropLast ++ [{ sp with closed := true }]

/-- The text operator `rg` sets the colour for filling. -/
def lastFill (c : RGB) : List TextOp → RGB
  | [] => c
  | .rg c' :: ops => lastFill c' ops
  | _ :: ops => lastFill c ops

/-- One operator: what is painted and the new state; `none` if the operator is not allowed here. -/
def Gfx.step (g : Gfx) : PageOp → Option (List Shape × Gfx)
  | .moveTo x y => some ([], { g with path := g.path ++ [⟨(x, y), [], false⟩] })
  | .lineTo x y => (g.segment (.line (x, y))).map fun g => ([], g)
  | .curveTo x1 y1 x2 y2 x3 y3 => (g.segment (.curve (x1, y1) (x2, y2) (x3, y3))).map fun g => ([], g)
  | .rect x y w h =>
    some ([], { g with path := g.path ++ [⟨(x, y), [.line (x + w, y), .line (x + w, y + h), .line (x, y + h)], true⟩] })
  | .fillColor c => some ([], { g with fill := c })
  | .strokeColor c => some ([], { g with stroke := c })
  | .paint p =>
    if g.path = [] then none
    else
      let done := { g with path := [] }
      some (match p with
        | .none => ([], done)
        | .stroke => ([⟨g.path, none, some g.stroke⟩], done)
        | .closeStroke => ([⟨closeLast g.path, none, some g.stroke⟩], done)
        | .fill => ([⟨g.path, some g.fill, none⟩], done)
        | .fillStroke => ([⟨g.path, some g.fill, some g.stroke⟩], done)
        | .closeFillStroke => ([⟨closeLast g.path, some g.fill, some g.stroke⟩], done))
  | .text ops => if g.path = [] then some ([], { g with fill := lastFill g.fill ops }) else none

/-- A sequence of operators: everything that is painted, in order. -/
def Gfx.run : List PageOp → Gfx → Option (List Shape × Gfx)
  | [], g => some ([], g)
  | op :: ops, g =>
    match g.step op with
    | none => none
    | some (s1, g1) =>
      match Gfx.run ops g1 with
      | none => none
      | some (s2, g2) => some (s1 ++ s2, g2)

/-- A point of a Bezier curve. -/
def bezier (p0 p1 p2 p3 : ℚ × ℚ) (t : ℚ) : ℚ × ℚ :=
  ((1 - t) ^ 3 * p0.1 + 3 * (1 - t) ^ 2 * t * p1.1 + 3 * (1 - t) * t ^ 2 * p2.1 + t ^ 3 * p3.1,
   (1 - t) ^ 3 * p0.2 + 3 * (1 - t) ^ 2 * t * p1.2 + 3 * (1 - t) * t ^ 2 * p2.2 + t ^ 3 * p3.2)

/-- A point of a segment that starts at `p`. -/
def Seg.point (p : ℚ × ℚ) (s : Seg) (t : ℚ) : ℚ × ℚ :=
  match s with
  | .line q => (p.1 + t * (q.1 - p.1), p.2 + t * (q.2 - p.2))
  | .curve c1 c2 q => bezier p c1 c2 q t

/-- Where the `i`-th segment of a subpath starts. -/
def Subpath.corner (sp : Subpath) (i : Nat) : ℚ × ℚ :=
  match i with
  | 0 => sp.start
  | i + 1 => match sp.segs[i]? with | some s => s.stop | none => sp.start

/-- The points of the `i`-th segment, for `t` from 0 to 1. -/
def Subpath.point (sp : Subpath) (i : Nat) (t : ℚ) : Option (ℚ × ℚ) := (sp.segs[i]?).map fun s => s.point (sp.corner i) t

end Pdfje
