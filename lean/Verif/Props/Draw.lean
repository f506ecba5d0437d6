import Verif.Spec.Paths
import Mathlib.Tactic.Linarith
import Mathlib.Tactic.Ring
import Mathlib.Tactic.LinearCombination
import Mathlib.Tactic.GCongr
import Mathlib.Tactic.FieldSimp
import Mathlib.Tactic.NormNum
import Mathlib.Tactic.Positivity
/-
Properties of drawings: C55, C56.
-/

namespace Pdfje

/-! ### C55 -/

/-- What should be painted of a path with these colours. -/
def paintedAs (path : List Subpath) (fill stroke : Option RGB) : List Shape :=
  if fill = none ∧ stroke = none then [] else [⟨path, fill, stroke⟩]

/-- What should be painted for a polyline. -/
def polylineShapes (close : Bool) (fill stroke : Option RGB) : List (ℚ × ℚ) → List Shape
  | [] => []
  | p :: ps => paintedAs [⟨p, ps.map Seg.line, close && stroke.isSome⟩] fill stroke

/-- C55 as stated: whatever the points are, the path through them in order is painted (closed, if there is an outline to close),
nothing else is painted, and no path is left over; without points nothing is painted. -/
def C55_Statement : Prop := ∀ (w : World) (s : StyleFull) (r : Res) (points : List PointLike) (close : Bool) (fill stroke : Option RGB)
    (g : Gfx), g.path = [] → ∃ ops g', (Drawing.polyline points close fill stroke).render w s r = (some ops, r) ∧ g'.path = [] ∧
      g.run ops = some (polylineShapes close fill stroke (points.map PointLike.val), g')

/-- C55 is false of the code: if the first point is an `XY`, a TypeError is raised (draw.py:302). -/
theorem C55_counterexample (w : World) (s : StyleFull) (r : Res) (p : ℚ × ℚ) (ps : List PointLike) (close : Bool) (fill stroke : Option RGB) :
    ((Drawing.polyline (.xy p :: ps) close fill stroke).render w s r).1 = none := rfl

@[inherit_doc C55_counterexample] theorem C55_counterexample_statement : ¬ C55_Statement := by
  intro h
  obtain ⟨ops, g', h, -⟩ := h ⟨fun _ => ⟨fun _ => 0, fun _ => 0⟩, fun _ => ⟨[], fun _ => 0, none, fun _ => 0, fun _ _ => 0, fun _ => 0,
    fun _ => (0, 0, 0, 0), fun _ => 0, fun _ => 0, fun _ => 0, fun _ => 0, fun _ => 0, fun _ => []⟩, fun _ s => [s], ⟨fun _ => none, fun _ => false, fun _ => false⟩⟩
    StyleFull.default Res.empty [.xy (0, 0)] false none none ⟨⟨0, 0, 0⟩, ⟨0, 0, 0⟩, []⟩ rfl
  simp [Drawing.render, polylineOps] at h

theorem run_append (a b : List PageOp) : ∀ g : Gfx, Gfx.run (a ++ b) g =
    (Gfx.run a g).bind fun x => (Gfx.run b x.2).map fun y => (x.1 ++ y.1, y.2) := by
  induction a with
  | nil => intro g; cases h : Gfx.run b g <;> simp [Gfx.run, h]
  | cons op ops ih =>
    intro g
    simp only [List.cons_append, Gfx.run]
    cases h : g.step op with
    | none => rfl
    | some x =>
      obtain ⟨s1, g1⟩ := x
      simp only [ih]
      cases h2 : Gfx.run ops g1 with
      | none => rfl
      | some y =>
        obtain ⟨s2, g2⟩ := y
        simp only [Option.bind_some]
        cases h3 : Gfx.run b g2 <;> simp

/-- Lines are added one by one. -/
theorem run_lines (ps : List (ℚ × ℚ)) : ∀ (g : Gfx) (pre : List Subpath) (sp : Subpath), g.path = pre ++ [sp] →
    Gfx.run (ps.map fun q => .lineTo q.1 q.2) g =
      some ([], { g with path := pre ++ [{ sp with segs := sp.segs ++ ps.map Seg.line }] }) := by
  induction ps with
  | nil => intro g pre sp h; cases g; simp_all [Gfx.run]
  | cons p ps ih =>
    intro g pre sp h
    simp only [List.map_cons, Gfx.run, Gfx.step, Gfx.segment, h, List.getLast?_append, List.getLast?_singleton, Option.some_or,
      List.dropLast_concat, Option.map_some]
    rw [ih _ pre { sp with segs := sp.segs ++ [.line (p.1, p.2)] } rfl]
    simp

/-- The painting operators of `finish`. -/
theorem run_finish (fill stroke : Option RGB) (close : Bool) (g : Gfx) (sp : Subpath) (hg : g.path = [sp]) (hsp : sp.closed = false) :
    ∃ g', g'.path = [] ∧ Gfx.run (finish fill stroke close) g =
      some (paintedAs [{ sp with closed := close && stroke.isSome }] fill stroke, g') := by
  obtain ⟨start, segs, closed⟩ := sp
  simp only at hsp
  subst hsp
  cases fill <;> cases stroke <;> cases close <;>
    simp [finish, Gfx.run, Gfx.step, hg, paintedAs, closeLast]

/-- C55, except for polylines whose first point is given as an `XY`. -/
theorem C55_polyline_partial (w : World) (s : StyleFull) (r : Res) (points : List PointLike) (close : Bool) (fill stroke : Option RGB)
    (g : Gfx) (hg : g.path = []) (hp : ∀ p, points.head? ≠ some (.xy p)) :
    ∃ ops g', (Drawing.polyline points close fill stroke).render w s r = (some ops, r) ∧ g'.path = [] ∧
      g.run ops = some (polylineShapes close fill stroke (points.map PointLike.val), g') := by
  match points with
  | [] => exact ⟨[], g, rfl, hg, rfl⟩
  | .xy p :: ps => exact absurd rfl (hp p)
  | .tuple p :: ps =>
    simp only [Drawing.render, polylineOps, List.map_cons, polylineShapes]
    have e : ps.map (fun q => PageOp.lineTo q.val.1 q.val.2) = (ps.map PointLike.val).map fun q => .lineTo q.1 q.2 := by simp
    obtain ⟨g', h1, h2⟩ := run_finish fill stroke close
      { g with path := [⟨p, (ps.map PointLike.val).map Seg.line, false⟩] } ⟨p, (ps.map PointLike.val).map Seg.line, false⟩ rfl rfl
    refine ⟨_, g', rfl, h1, ?_⟩
    rw [List.cons_append, e, Gfx.run, Gfx.step]
    simp only [hg, List.nil_append]
    rw [run_append, run_lines _ _ [] ⟨p, [], false⟩ rfl]
    simp only [Option.bind_some, List.nil_append, h2, Option.map_some]
    rfl

/-- A polyline of three points, closed, outlined and filled: `C55_polyline_partial` applies. -/
example : ∀ p, [PointLike.tuple (0, 0), .xy (1, 0), .tuple (1, 1)].head? ≠ some (.xy p) := by simp

/-- The other drawings with straight lines: a `Line` is the path of one segment, a `Rect` the closed path through its corners. -/
theorem C55_line (w : World) (s : StyleFull) (r : Res) (a b : ℚ × ℚ) (stroke : Option RGB) (g : Gfx) (hg : g.path = []) :
    ∃ ops g', (Drawing.line a b stroke).render w s r = (some ops, r) ∧ g'.path = [] ∧
      g.run ops = some (paintedAs [⟨a, [.line b], false⟩] none stroke, g') := by
  obtain ⟨g', h1, h2⟩ := run_finish none stroke false { g with path := [⟨a, [.line b], false⟩] } ⟨a, [.line b], false⟩ rfl rfl
  refine ⟨_, g', rfl, h1, ?_⟩
  rw [List.cons_append, List.cons_append, List.nil_append]
  simp only [Gfx.run, Gfx.step, hg, List.nil_append, Gfx.segment, List.getLast?_singleton, Option.map_some, List.dropLast_singleton]
  simp only [Bool.false_and] at h2
  rw [h2]

@[inherit_doc C55_line] theorem C55_rect (w : World) (s : StyleFull) (r : Res) (o : ℚ × ℚ) (width height : ℚ) (fill stroke : Option RGB)
    (g : Gfx) (hg : g.path = []) :
    ∃ ops g', (Drawing.rect o width height fill stroke).render w s r = (some ops, r) ∧ g'.path = [] ∧
      g.run ops = some (paintedAs [⟨o, [.line (o.1 + width, o.2), .line (o.1 + width, o.2 + height), .line (o.1, o.2 + height)], true⟩]
        fill stroke, g') := by
  simp only [Drawing.render]
  cases fill <;> cases stroke <;>
    refine ⟨_, _, rfl, ?_, by simp only [Gfx.run, Gfx.step, hg, finish]; simp [paintedAs]; rfl⟩ <;> rfl

/-! ### C56 -/

/-- What C56 says of a path: it is one closed chain of four curves through the middles of the sides of the box around
`center` with this width and height, it is symmetric about the centre, and it stays inside the box. -/
structure EllipsePath (center : ℚ × ℚ) (width height : ℚ) (sp : Subpath) : Prop where
  curves : sp.segs.length = 4 ∧ ∀ s ∈ sp.segs, ∃ c1 c2 p, s = .curve c1 c2 p
  closed : sp.corner 4 = sp.start
  left : sp.corner 0 = (center.1 - width / 2, center.2)
  bottom : sp.corner 1 = (center.1, center.2 - height / 2)
  right : sp.corner 2 = (center.1 + width / 2, center.2)
  top : sp.corner 3 = (center.1, center.2 + height / 2)
  symmetric : ∀ i < 2, ∀ t, ∀ p ∈ sp.point i t, sp.point (i + 2) t = some (2 * center.1 - p.1, 2 * center.2 - p.2)
  inside : ∀ i t, 0 ≤ t → t ≤ 1 → ∀ p ∈ sp.point i t, |p.1 - center.1| ≤ width / 2 ∧ |p.2 - center.2| ≤ height / 2

/-- The path of an ellipse. -/
def ellipseSubpath (center : ℚ × ℚ) (w h : ℚ) : Subpath :=
  let x := center.1 - w / 2
  let y := center.2 - h / 2
  let ox := w / 2 * kappa
  let oy := h / 2 * kappa
  let xe := x + w
  let ye := y + h
  let xm := x + w / 2
  let ym := y + h / 2
  ⟨(x, ym), [.curve (x, ym - oy) (xm - ox, y) (xm, y), .curve (xm + ox, y) (xe, ym - oy) (xe, ym),
    .curve (xe, ym + oy) (xm + ox, ye) (xm, ye), .curve (xm - ox, ye) (x, ym + oy) (x, ym)], false⟩

theorem ellipse_run (center : ℚ × ℚ) (w h : ℚ) (fill stroke : Option RGB) (g : Gfx) (hg : g.path = []) :
    ∃ g', g'.path = [] ∧ g.run (ellipseOps center w h fill stroke) = some (paintedAs [ellipseSubpath center w h] fill stroke, g') := by
  obtain ⟨g', h1, h2⟩ := run_finish fill stroke false { g with path := [ellipseSubpath center w h] } _ rfl rfl
  refine ⟨g', h1, ?_⟩
  simp only [Bool.false_and] at h2
  simp only [ellipseOps, List.cons_append, List.nil_append]
  simp only [Gfx.run, Gfx.step, hg, List.nil_append, Gfx.segment, List.getLast?_singleton, Option.map_some, List.dropLast_singleton,
    List.cons_append]
  simp only [ellipseSubpath] at h2 ⊢
  rw [h2]

/-- A weighted mean of four numbers between `-a` and `a` is between them. -/
theorem mean_abs {a b0 b1 b2 b3 t : ℚ} (h0 : |b0| ≤ a) (h1 : |b1| ≤ a) (h2 : |b2| ≤ a) (h3 : |b3| ≤ a) (t0 : 0 ≤ t) (t1 : t ≤ 1) :
    |(1 - t) ^ 3 * b0 + 3 * (1 - t) ^ 2 * t * b1 + 3 * (1 - t) * t ^ 2 * b2 + t ^ 3 * b3| ≤ a := by
  have u0 : 0 ≤ 1 - t := by linarith
  have w0 : 0 ≤ (1 - t) ^ 3 := by positivity
  have w1 : 0 ≤ 3 * (1 - t) ^ 2 * t := by positivity
  have w2 : 0 ≤ 3 * (1 - t) * t ^ 2 := by positivity
  have w3 : 0 ≤ t ^ 3 := by positivity
  have hs : (1 - t) ^ 3 + 3 * (1 - t) ^ 2 * t + 3 * (1 - t) * t ^ 2 + t ^ 3 = 1 := by ring
  rw [abs_le] at *
  constructor
  · have : -a = (1 - t) ^ 3 * -a + 3 * (1 - t) ^ 2 * t * -a + 3 * (1 - t) * t ^ 2 * -a + t ^ 3 * -a := by
      linear_combination (a) * hs
    rw [this]
    gcongr <;> tauto
  · have : a = (1 - t) ^ 3 * a + 3 * (1 - t) ^ 2 * t * a + 3 * (1 - t) * t ^ 2 * a + t ^ 3 * a := by linear_combination (-a) * hs
    conv_rhs => rw [this]
    gcongr <;> tauto

/-- A point of a curve is as near to a line as the points that define the curve. -/
theorem mean_near {a c b0 b1 b2 b3 t : ℚ} (h0 : |b0 - c| ≤ a) (h1 : |b1 - c| ≤ a) (h2 : |b2 - c| ≤ a) (h3 : |b3 - c| ≤ a)
    (t0 : 0 ≤ t) (t1 : t ≤ 1) :
    |(1 - t) ^ 3 * b0 + 3 * (1 - t) ^ 2 * t * b1 + 3 * (1 - t) * t ^ 2 * b2 + t ^ 3 * b3 - c| ≤ a := by
  have := mean_abs h0 h1 h2 h3 t0 t1
  refine le_of_eq_of_le (congrArg _ ?_) this
  ring

/-- The path of an ellipse is one. -/
theorem ellipse_path (center : ℚ × ℚ) (w h : ℚ) (hw : 0 ≤ w) (hh : 0 ≤ h) : EllipsePath center w h (ellipseSubpath center w h) := by
  have k0 : 0 ≤ kappa := by norm_num [kappa]
  have k1 : kappa ≤ 1 := by norm_num [kappa]
  have kb : ∀ {a : ℚ}, 0 ≤ a → |a / 2 * kappa| ≤ a / 2 := by
    intro a ha
    rw [abs_of_nonneg (by positivity)]
    have : a / 2 * kappa ≤ a / 2 * 1 := by gcongr
    linarith
  have hb : ∀ {a : ℚ}, 0 ≤ a → |a / 2| ≤ a / 2 := by
    intro a ha
    rw [abs_of_nonneg (by positivity)]
  have zb : ∀ {a : ℚ}, 0 ≤ a → |(0 : ℚ)| ≤ a / 2 := by
    intro a ha
    rw [abs_zero]
    positivity
  refine ⟨⟨rfl, by simp [ellipseSubpath]⟩, rfl, ?_, ?_, ?_, ?_, ?_, ?_⟩
  · simp [ellipseSubpath, Subpath.corner]
  · simp [ellipseSubpath, Subpath.corner, Seg.stop]
  · simp [ellipseSubpath, Subpath.corner, Seg.stop]; ring
  · simp [ellipseSubpath, Subpath.corner, Seg.stop]; ring
  · intro i hi t p hp
    have : i = 0 ∨ i = 1 := by omega
    rcases this with rfl | rfl <;>
    · simp only [ellipseSubpath, Subpath.point, Subpath.corner, List.getElem?_cons_zero, List.getElem?_cons_succ, Option.map_some, Option.mem_def,
        Option.some.injEq, Seg.point, Seg.stop, bezier, Nat.reduceAdd, Nat.zero_add] at hp ⊢
      rw [← hp]
      simp only [Prod.mk.injEq]
      constructor <;> ring
  · intro i t t0 t1 p hp
    match i with
    | 0 | 1 | 2 | 3 =>
      simp only [ellipseSubpath, Subpath.point, Subpath.corner, List.getElem?_cons_zero, List.getElem?_cons_succ, Option.map_some, Option.mem_def,
        Option.some.injEq, Seg.point, Seg.stop, bezier] at hp
      rw [← hp]
      dsimp only
      constructor <;> apply mean_near <;> first
        | exact t0
        | exact t1
        | (ring_nf; simp only [abs_zero]; linarith)
        | (refine le_of_eq_of_le ?_ (kb hw); rw [← abs_neg]; congr 1; ring1)
        | (refine le_of_eq_of_le ?_ (kb hw); congr 1; ring1)
        | (refine le_of_eq_of_le ?_ (kb hh); rw [← abs_neg]; congr 1; ring1)
        | (refine le_of_eq_of_le ?_ (kb hh); congr 1; ring1)
        | (refine le_of_eq_of_le ?_ (hb hw); rw [← abs_neg]; congr 1; ring1)
        | (refine le_of_eq_of_le ?_ (hb hw); congr 1; ring1)
        | (refine le_of_eq_of_le ?_ (hb hh); rw [← abs_neg]; congr 1; ring1)
        | (refine le_of_eq_of_le ?_ (hb hh); congr 1; ring1)
    | i + 4 => simp [ellipseSubpath, Subpath.point] at hp

/-- C56. An ellipse with a width and height that are not negative is painted as one closed chain of four curves inside its box. -/
theorem C56_ellipse (w : World) (s : StyleFull) (r : Res) (center : ℚ × ℚ) (width height : ℚ) (hw : 0 ≤ width) (hh : 0 ≤ height)
    (fill stroke : Option RGB) (g : Gfx) (hg : g.path = []) :
    ∃ ops g' sp, (Drawing.ellipse center width height fill stroke).render w s r = (some ops, r) ∧ g'.path = [] ∧
      g.run ops = some (paintedAs [sp] fill stroke, g') ∧ EllipsePath center width height sp := by
  obtain ⟨g', h1, h2⟩ := ellipse_run center width height fill stroke g hg
  exact ⟨_, g', _, rfl, h1, h2, ellipse_path center width height hw hh⟩

/-- C56 for circles. -/
theorem C56_circle (w : World) (s : StyleFull) (r : Res) (center : ℚ × ℚ) (radius : ℚ) (hr : 0 ≤ radius)
    (fill stroke : Option RGB) (g : Gfx) (hg : g.path = []) :
    ∃ ops g' sp, (Drawing.circle center radius fill stroke).render w s r = (some ops, r) ∧ g'.path = [] ∧
      g.run ops = some (paintedAs [sp] fill stroke, g') ∧ EllipsePath center (2 * radius) (2 * radius) sp := by
  obtain ⟨g', h1, h2⟩ := ellipse_run center (radius * 2) (radius * 2) fill stroke g hg
  refine ⟨_, g', _, rfl, h1, h2, ?_⟩
  rw [mul_comm 2 radius]
  exact ellipse_path center _ _ (by positivity) (by positivity)

/-- The distance of the points of the curve from the centre, for radius 1. -/
theorem round_arc {t : ℚ} (t0 : 0 ≤ t) (t1 : t ≤ 1) (A B : ℚ)
    (hA : A = (1 - t) ^ 3 + 3 * (1 - t) ^ 2 * t + 3 * (1 - t) * t ^ 2 * kappa)
    (hB : B = 3 * (1 - t) ^ 2 * t * kappa + 3 * (1 - t) * t ^ 2 + t ^ 3) :
    1 ≤ A ^ 2 + B ^ 2 ∧ A ^ 2 + B ^ 2 ≤ 1 + 55 / 100000 := by
  have key : A ^ 2 + B ^ 2 = 1 + (t * (1 - t)) ^ 2 *
      ((9 * kappa ^ 2 + 6 * kappa - 6) + t * (1 - t) * (24 * kappa - 8 - 18 * kappa ^ 2)) := by
    rw [hA, hB]; ring
  have s0 : 0 ≤ t * (1 - t) := mul_nonneg t0 (by linarith)
  have s1 : t * (1 - t) ≤ 1 / 4 := by nlinarith [sq_nonneg (t - 1 / 2)]
  generalize t * (1 - t) = u at key s0 s1
  rw [key]
  norm_num [kappa]
  constructor
  · apply mul_nonneg (sq_nonneg _)
    linarith
  · nlinarith [mul_nonneg (sq_nonneg (u - 1 / 6)) (show (0 : ℚ) ≤ u + 1 / 12 by linarith), mul_nonneg s0 s0,
      mul_nonneg s0 (show (0 : ℚ) ≤ 1 / 4 - u by linarith)]

/-- C56 for circles, more precisely: no point of the outline is nearer to the centre than the radius, or farther
than 1.000275 times the radius. -/
theorem C56_round (w : World) (s : StyleFull) (r : Res) (center : ℚ × ℚ) (radius : ℚ)
    (fill stroke : Option RGB) (g : Gfx) (hg : g.path = []) :
    ∃ ops g' sp, (Drawing.circle center radius fill stroke).render w s r = (some ops, r) ∧
      g.run ops = some (paintedAs [sp] fill stroke, g') ∧ ∀ i t, 0 ≤ t → t ≤ 1 → ∀ p ∈ sp.point i t,
        radius ^ 2 ≤ (p.1 - center.1) ^ 2 + (p.2 - center.2) ^ 2 ∧
        (p.1 - center.1) ^ 2 + (p.2 - center.2) ^ 2 ≤ (1 + 55 / 100000) * radius ^ 2 := by
  obtain ⟨g', h1, h2⟩ := ellipse_run center (radius * 2) (radius * 2) fill stroke g hg
  refine ⟨_, g', _, rfl, h2, ?_⟩
  intro i t t0 t1 p hp
  have h := round_arc t0 t1 _ _ rfl rfl
  generalize hF : ((1 - t) ^ 3 + 3 * (1 - t) ^ 2 * t + 3 * (1 - t) * t ^ 2 * kappa) ^ 2 +
    (3 * (1 - t) ^ 2 * t * kappa + 3 * (1 - t) * t ^ 2 + t ^ 3) ^ 2 = F at h
  have : (p.1 - center.1) ^ 2 + (p.2 - center.2) ^ 2 = radius ^ 2 * F := by
    rw [← hF]
    match i with
    | 0 | 1 | 2 | 3 =>
      simp only [ellipseSubpath, Subpath.point, Subpath.corner, List.getElem?_cons_zero, List.getElem?_cons_succ, Option.map_some, Option.mem_def,
        Option.some.injEq, Seg.point, Seg.stop, bezier] at hp
      rw [← hp]
      dsimp only
      ring
    | i + 4 => simp [ellipseSubpath, Subpath.point] at hp
  rw [this]
  have r0 : 0 ≤ radius ^ 2 := by positivity
  constructor <;> nlinarith

/-- A circle of radius 10: the hypotheses hold for the initial graphics state. -/
example : (0 : ℚ) ≤ 10 ∧ (⟨⟨0, 0, 0⟩, ⟨0, 0, 0⟩, []⟩ : Gfx).path = [] := by simp

end Pdfje
