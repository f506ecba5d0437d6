import Verif.Spec.Grammar
import Verif.Props.Content
import Verif.Props.Flow
import Verif.Props.Draw
/-
C74, C75: what the pages of a document paint, and where their operators are.
-/

namespace Pdfje
open PdfSpec

/-! ### C74 -/

/-- The shapes that a drawing should paint; text paints none. -/
def Drawing.Paints : Drawing → List Shape → Prop
  | .line a b stroke, shapes => shapes = paintedAs [⟨a, [.line b], false⟩] none stroke
  | .rect o w h fill stroke, shapes =>
    shapes = paintedAs [⟨o, [.line (o.1 + w, o.2), .line (o.1 + w, o.2 + h), .line (o.1, o.2 + h)], true⟩] fill stroke
  | .ellipse c w h fill stroke, shapes => ∃ sp, shapes = paintedAs [sp] fill stroke ∧ (0 ≤ w → 0 ≤ h → EllipsePath c w h sp)
  | .circle c radius fill stroke, shapes => ∃ sp, shapes = paintedAs [sp] fill stroke ∧ (0 ≤ radius → EllipsePath c (2 * radius) (2 * radius) sp)
  | .polyline points close fill stroke, shapes => shapes = polylineShapes close fill stroke (points.map PointLike.val)
  | .text .., shapes => shapes = []

/-- The shapes of the blocks in a column: a line for each rule. -/
def Shaped.shapes : Shaped → List Shape
  | .text _ => []
  | .rule a b c _ => [⟨[⟨a, [.line b], false⟩], none, some c⟩]

/-- A drawing that is rendered paints its shapes, in its own colours, whatever was painted before it, and leaves no path behind. -/
theorem drawing_paints {w : World} {s : StyleFull} {d : Drawing} {r r' : Res} {ops : List PageOp} (h : d.render w s r = (some ops, r')) {g : Gfx} (hg : g.path = []) :
    ∃ shapes g', g.run ops = some (shapes, g') ∧ g'.path = [] ∧ d.Paints shapes := by
  cases d with
  | line a b stroke =>
    obtain ⟨ops', g', h1, h2, h3⟩ := C55_line w s r a b stroke g hg
    rw [h] at h1
    simp only [Prod.mk.injEq, Option.some.injEq] at h1
    rw [h1.1]
    exact ⟨_, g', h3, h2, rfl⟩
  | rect o width height fill stroke =>
    obtain ⟨ops', g', h1, h2, h3⟩ := C55_rect w s r o width height fill stroke g hg
    rw [h] at h1
    simp only [Prod.mk.injEq, Option.some.injEq] at h1
    rw [h1.1]
    exact ⟨_, g', h3, h2, rfl⟩
  | ellipse c width height fill stroke =>
    simp only [Drawing.render, Prod.mk.injEq, Option.some.injEq] at h
    obtain ⟨g', h1, h2⟩ := ellipse_run c width height fill stroke g hg
    rw [← h.1]
    exact ⟨_, g', h2, h1, _, rfl, ellipse_path c width height⟩
  | circle c radius fill stroke =>
    simp only [Drawing.render, Prod.mk.injEq, Option.some.injEq] at h
    obtain ⟨g', h1, h2⟩ := ellipse_run c (radius * 2) (radius * 2) fill stroke g hg
    rw [← h.1]
    refine ⟨_, g', h2, h1, _, rfl, fun hr => ?_⟩
    rw [mul_comm 2 radius]
    exact ellipse_path c _ _ (by positivity) (by positivity)
  | polyline points close fill stroke =>
    obtain ⟨ops', g', h1, h2, h3⟩ := C55_polyline_partial w s r points close fill stroke g hg (by
      intro p hp
      cases points with
      | nil => cases hp
      | cons q qs =>
        simp only [List.head?_cons, Option.some.injEq] at hp
        subst hp
        cases h)
    rw [h] at h1
    simp only [Prod.mk.injEq, Option.some.injEq] at h1
    rw [h1.1]
    exact ⟨_, g', h3, h2, rfl⟩
  | text loc content style align =>
    simp only [Drawing.render, textOps, Prod.mk.injEq, Option.map_eq_some_iff] at h
    obtain ⟨⟨ls, -, rfl⟩, -⟩ := h
    exact ⟨[], _, by simp only [Gfx.run, renderText, Gfx.step, hg, if_true]; rfl, rfl, rfl⟩

/-- The blocks of a column paint their shapes. -/
theorem blocks_paint : ∀ (blocks : List ((ℚ × ℚ) × Shaped)) (width : ℚ) {g : Gfx}, g.path = [] →
    ∃ g', g.run (blocks.flatMap fun e => e.2.render e.1 width) = some (blocks.flatMap fun e => e.2.shapes, g') ∧ g'.path = []
  | [], _, g, hg => ⟨g, rfl, hg⟩
  | (pos, b) :: bs, width, g, hg => by
    have hb : ∃ g1, g.run (b.render pos width) = some (b.shapes, g1) ∧ g1.path = [] := by
      cases b with
      | text t => exact ⟨⟨_, g.stroke, []⟩, by simp only [Shaped.render, ShapedText.render, renderText, Gfx.run, Gfx.step, hg, if_true]; rfl, rfl⟩
      | rule a b c h =>
        refine ⟨{ g with stroke := c, path := [] }, ?_, rfl⟩
        simp [Shaped.render, Gfx.run, Gfx.step, hg, Gfx.segment, Shaped.shapes]
    obtain ⟨g1, h1, h2⟩ := hb
    obtain ⟨g2, h3, h4⟩ := blocks_paint bs width h2
    refine ⟨g2, ?_, h4⟩
    rw [List.flatMap_cons, run_append]
    simp [h1, h3]

theorem columns_paint : ∀ (cols : List ColumnFill) {g : Gfx}, g.path = [] →
    ∃ g', g.run (cols.flatMap ColumnFill.ops) = some (cols.flatMap fun c => c.blocks.flatMap fun e => e.2.shapes, g') ∧ g'.path = []
  | [], g, hg => ⟨g, rfl, hg⟩
  | c :: cs, g, hg => by
    obtain ⟨g1, h1, h2⟩ := blocks_paint c.blocks c.box.width hg
    obtain ⟨g2, h3, h4⟩ := columns_paint cs h2
    refine ⟨g2, ?_, h4⟩
    rw [List.flatMap_cons, run_append, ColumnFill.ops]
    simp [h1, h3]

theorem drawings_paint {w : World} {s : StyleFull} : ∀ {ds : List Drawing} {parts : List (List PageOp)},
    List.Forall₂ (fun d ops => ∃ r r', d.render w s r = (some ops, r')) ds parts → ∀ {g : Gfx}, g.path = [] →
    ∃ shapes g', g.run parts.flatten = some (shapes.flatten, g') ∧ g'.path = [] ∧ List.Forall₂ Drawing.Paints ds shapes
  | _, _, .nil, g, hg => ⟨[], g, rfl, hg, .nil⟩
  | _, _, .cons ⟨r, r', h⟩ hs, g, hg => by
    obtain ⟨s1, g1, h1, h2, h3⟩ := drawing_paints h hg
    obtain ⟨s2, g2, h4, h5, h6⟩ := drawings_paint hs h2
    refine ⟨s1 :: s2, g2, ?_, h5, .cons h3 h6⟩
    rw [List.flatten_cons, run_append]
    simp [h1, h4]

/-- What the page should paint: the shapes of its drawings, in order, and then those of its columns. -/
def Written.Paints (x : Written) (shapes : List Shape) : Prop :=
  ∃ drawn : List (List Shape), List.Forall₂ Drawing.Paints x.page.base.content drawn ∧
    shapes = drawn.flatten ++ x.page.cols.flatMap fun c => c.blocks.flatMap fun e => e.2.shapes

/-- C74. On every page that is written (even if an error follows on a later one), a viewer paints the shapes of the drawings, each complete and in its own colours, in order, then the rules in the
columns, and nothing else; whatever colours were set before. -/
theorem C74_painted (w : World) (s : StyleFull) (items : List DocItem) : ∀ x ∈ docWritten w s items, ∀ g : Gfx, g.path = [] →
    ∃ shapes g', g.run x.ops = some (shapes, g') ∧ g'.path = [] ∧ x.Paints shapes := by
  intro x hx g hg
  obtain ⟨parts, e, h⟩ := (docRun_ordered w s items 0 Res.empty x hx).content
  obtain ⟨s1, g1, h1, h2, h3⟩ := drawings_paint h hg
  obtain ⟨g2, h4, h5⟩ := columns_paint x.page.cols h2
  refine ⟨_, g2, ?_, h5, s1, h3, rfl⟩
  rw [e, run_append]
  simp [h1, h4]

/-- The page of the other examples is one of these, with text and the outline of a square. -/
example : ∃ x ∈ docWritten demoWorld faceStyle [.page demoPage], x.Paints [⟨[⟨(0, 0), [.line (5, 0), .line (5, 5), .line (0, 5)], true⟩], none, some ⟨1, 0, 0⟩⟩] := by
  refine ⟨⟨⟨demoPage, []⟩, demoOps ++ rectOps, demoOut.1 ++ rectOut.1⟩, ?_, [[], [⟨[⟨(0, 0), [.line (5, 0), .line (5, 5), .line (0, 5)], true⟩], none, some ⟨1, 0, 0⟩⟩]], ?_, rfl⟩
  · rw [docWritten, demo_run]
    simp
  · refine .cons rfl (.cons ?_ .nil)
    simp [Drawing.Paints, paintedAs]

/-! ### C75 -/

/-- Where we are when there is a path under construction, or none. -/
def Gfx.mode (g : Gfx) : Mode := if g.path = [] then .page else .path

/-- Does an operator set a colour (outside of text)? -/
def PageOp.Colours : PageOp → Prop
  | .fillColor _ | .strokeColor _ => True
  | _ => False

theorem mode_run_append (l : Bool) (a b : List COp) : ∀ m : Mode, m.run l (a ++ b) = (m.run l a).bind fun m' => m'.run l b := by
  induction a with
  | nil => intro m; rfl
  | cons op a ih =>
    intro m
    simp only [List.cons_append, Mode.run]
    cases m.step l op with
    | none => rfl
    | some m' => exact ih m'

theorem text_mode (l : Bool) {r : Res} : ∀ {ops : List TextOp} {cs : List COp}, List.Forall₂ (TextStands r) ops cs → Mode.run l .text cs = some .text
  | _, _, .nil => rfl
  | _, _, .cons h hs => by
    have ih := text_mode l hs
    cases h <;> simpa [Mode.run, Mode.step, COp.places, COp.colours, COp.textState] using ih

/-- An operator that a viewer accepts is well placed, if it sets no colour, or if this is allowed in paths. -/
theorem step_mode {l : Bool} {r : Res} {op : PageOp} {cs : List COp} (hs : PageStands r op cs) {g g' : Gfx} {shapes : List Shape} (h : g.step op = some (shapes, g'))
    (hl : l = true ∨ ¬ op.Colours) : g.mode.run l cs = some g'.mode := by
  have seg : ∀ {s : Seg} {g1 : Gfx}, g.segment s = some g1 → g.mode = .path ∧ g1.mode = .path := by
    intro s g1 h
    unfold Gfx.segment at h
    split at h
    · cases h
    · rename_i sp hsp
      simp only [Option.some.injEq] at h
      subst h
      constructor
      · unfold Gfx.mode
        rw [if_neg (by rintro h; rw [h] at hsp; cases hsp)]
      · simp [Gfx.mode]
  cases hs with
  | moveTo h1 h2 =>
    simp only [Gfx.step, Option.some.injEq, Prod.mk.injEq] at h
    obtain ⟨-, rfl⟩ := h
    by_cases hp : g.path = [] <;> simp [Gfx.mode, hp, Mode.run, Mode.step, COp.beginsPath, COp.constructs]
  | rect h1 h2 =>
    simp only [Gfx.step, Option.some.injEq, Prod.mk.injEq] at h
    obtain ⟨-, rfl⟩ := h
    by_cases hp : g.path = [] <;> simp [Gfx.mode, hp, Mode.run, Mode.step, COp.beginsPath, COp.constructs]
  | lineTo h1 h2 =>
    simp only [Gfx.step, Option.map_eq_some_iff, Prod.mk.injEq] at h
    obtain ⟨g1, hg, -, rfl⟩ := h
    rw [(seg hg).1, (seg hg).2]
    simp [Mode.run, Mode.step, COp.constructs]
  | curveTo h1 h2 =>
    simp only [Gfx.step, Option.map_eq_some_iff, Prod.mk.injEq] at h
    obtain ⟨g1, hg, -, rfl⟩ := h
    rw [(seg hg).1, (seg hg).2]
    simp [Mode.run, Mode.step, COp.constructs]
  | fillColor h1 h2 h3 =>
    obtain rfl : l = true := hl.resolve_right (fun h => h trivial)
    simp only [Gfx.step, Option.some.injEq, Prod.mk.injEq] at h
    obtain ⟨-, rfl⟩ := h
    by_cases hp : g.path = [] <;> simp [Gfx.mode, hp, Mode.run, Mode.step, COp.beginsPath, COp.constructs, COp.colours, COp.paints]
  | strokeColor h1 h2 h3 =>
    obtain rfl : l = true := hl.resolve_right (fun h => h trivial)
    simp only [Gfx.step, Option.some.injEq, Prod.mk.injEq] at h
    obtain ⟨-, rfl⟩ := h
    by_cases hp : g.path = [] <;> simp [Gfx.mode, hp, Mode.run, Mode.step, COp.beginsPath, COp.constructs, COp.colours, COp.paints]
  | paint p =>
    simp only [Gfx.step] at h
    split at h
    · cases h
    · rename_i hp
      have e : g'.path = [] := by
        simp only [Option.some.injEq] at h
        have := congrArg Prod.snd h
        cases p <;> simp only at this <;> rw [← this]
      cases p <;> simp [Gfx.mode, hp, e, Mode.run, Mode.step, Paint.cop, COp.constructs, COp.paints]
  | text hf =>
    simp only [Gfx.step] at h
    split at h
    · rename_i hp
      simp only [Option.some.injEq, Prod.mk.injEq] at h
      obtain ⟨-, rfl⟩ := h
      have e : g.mode = .page := by simp [Gfx.mode, hp]
      rw [e, List.cons_append, Mode.run]
      simp only [Mode.step, Option.bind_some]
      rw [mode_run_append, text_mode l hf]
      simp [Mode.run, Mode.step, Gfx.mode, hp]
    · cases h

theorem run_mode {l : Bool} {r : Res} : ∀ {ops : List PageOp} {css : List (List COp)}, List.Forall₂ (PageStands r) ops css → (∀ op ∈ ops, l = true ∨ ¬ op.Colours) → ∀ {g g' : Gfx} {shapes : List Shape},
    g.run ops = some (shapes, g') → g.mode.run l css.flatten = some g'.mode
  | _, _, .nil, _, g, g', shapes, h => by
    simp only [Gfx.run, Option.some.injEq, Prod.mk.injEq] at h
    rw [h.2]; rfl
  | _, _, .cons h1 hs, hl, g, g', shapes, h => by
    rename_i op cs ops css
    rw [Gfx.run] at h
    split at h
    · cases h
    · rename_i s1 g1 hstep
      split at h
      · cases h
      · rename_i s2 g2 hrun
        simp only [Option.some.injEq, Prod.mk.injEq] at h
        obtain ⟨-, rfl⟩ := h
        rw [List.flatten_cons, mode_run_append, step_mode h1 hstep (hl op (by simp))]
        exact run_mode hs (fun o ho => hl o (by simp [ho])) hrun

section
variable {compress : Bytes → Bytes} {decompress : Bytes → Option Bytes}

/-- The operators of the `k`-th page of the file (each of which stands for an operator that pdfje made). -/
theorem page_mode (hz : ∀ x, decompress (compress x) = some x) (w : World) (s : StyleFull) (items : List DocItem) (file : Bytes)
    (h : WrittenDoc compress w s items file) (k : Nat) (x : Written) (hk : (docWritten w s items)[k]? = some x) (hp : ∀ op ∈ x.ops, op.Printable) (l : Bool)
    (hl : ∀ op ∈ x.ops, l = true ∨ ¬ op.Colours) :
    ∃ page content cs, pageObject file k = some page ∧ pageContent decompress file page = some content ∧ readContent content = some cs ∧ Mode.run l .page cs = some .page := by
  obtain ⟨page, content, cs, h1, h2, h3, css, h4, rfl⟩ := C61_operators hz w s items file h k x hk hp
  obtain ⟨shapes, g', h5, h6, -⟩ := C74_painted w s items x (List.mem_of_getElem? hk) ⟨⟨0, 0, 0⟩, ⟨0, 0, 0⟩, []⟩ rfl
  refine ⟨page, content, _, h1, h2, h3, ?_⟩
  have := run_mode (l := l) h4 hl h5
  simpa [Gfx.mode, h6] using this

/-- C75, as stated: in every file, all operators of the pages are where they are allowed. -/
def C75_Statement : Prop :=
  ∀ (compress : Bytes → Bytes) (decompress : Bytes → Option Bytes), (∀ x, decompress (compress x) = some x) → ∀ (w : World) (s : StyleFull) (items : List DocItem) (file : Bytes),
    WrittenDoc compress w s items file → ∀ (k : Nat) (x : Written), (docWritten w s items)[k]? = some x → (∀ op ∈ x.ops, op.Printable) →
    ∃ page content cs, pageObject file k = some page ∧ pageContent decompress file page = some content ∧ readContent content = some cs ∧ WellPlaced cs

/-- C75, apart from colours: all operators are where they are allowed, except that colours are set in path objects. -/
theorem C75_lenient_partial (hz : ∀ x, decompress (compress x) = some x) (w : World) (s : StyleFull) (items : List DocItem) (file : Bytes)
    (h : WrittenDoc compress w s items file) (k : Nat) (x : Written) (hk : (docWritten w s items)[k]? = some x) (hp : ∀ op ∈ x.ops, op.Printable) :
    ∃ page content cs, pageObject file k = some page ∧ pageContent decompress file page = some content ∧ readContent content = some cs ∧ WellPlacedLenient cs :=
  page_mode hz w s items file h k x hk hp true fun _ _ => .inl rfl

/-- Text, or a shape that is not painted. -/
def Drawing.Colourless : Drawing → Prop
  | .line _ _ stroke => stroke = none
  | .rect _ _ _ fill stroke | .ellipse _ _ _ fill stroke | .circle _ _ fill stroke | .polyline _ _ fill stroke => fill = none ∧ stroke = none
  | .text .. => True

theorem colourless_ops {w : World} {s : StyleFull} {d : Drawing} (hd : d.Colourless) {r r' : Res} {ops : List PageOp} (h : d.render w s r = (some ops, r')) : ∀ op ∈ ops, ¬ op.Colours := by
  cases d with
  | line a b stroke =>
    obtain rfl : stroke = none := hd
    simp only [Drawing.render, finish, Prod.mk.injEq, Option.some.injEq] at h
    rw [← h.1]
    simp [PageOp.Colours]
  | rect o width height fill stroke =>
    obtain ⟨rfl, rfl⟩ := hd
    simp only [Drawing.render, finish, Prod.mk.injEq, Option.some.injEq] at h
    rw [← h.1]
    simp [PageOp.Colours]
  | ellipse c width height fill stroke =>
    obtain ⟨rfl, rfl⟩ := hd
    simp only [Drawing.render, ellipseOps, finish, Prod.mk.injEq, Option.some.injEq] at h
    rw [← h.1]
    simp [PageOp.Colours]
  | circle c radius fill stroke =>
    obtain ⟨rfl, rfl⟩ := hd
    simp only [Drawing.render, ellipseOps, finish, Prod.mk.injEq, Option.some.injEq] at h
    rw [← h.1]
    simp [PageOp.Colours]
  | polyline points close fill stroke =>
    obtain ⟨rfl, rfl⟩ := hd
    simp only [Drawing.render, Prod.mk.injEq] at h
    cases points with
    | nil =>
      simp only [polylineOps, Option.some.injEq] at h
      rw [← h.1]; simp
    | cons p ps =>
      cases p with
      | xy q => simp [polylineOps] at h
      | tuple q =>
        simp only [polylineOps, finish, Option.some.injEq] at h
        rw [← h.1]
        intro op hop
        simp only [List.mem_cons, List.mem_append, List.mem_map, List.not_mem_nil, or_false] at hop
        rcases hop with (rfl | ⟨_, _, rfl⟩) | rfl <;> simp [PageOp.Colours]
  | text loc content style align =>
    simp only [Drawing.render, textOps, Prod.mk.injEq, Option.map_eq_some_iff] at h
    obtain ⟨⟨ls, -, rfl⟩, -⟩ := h
    simp [PageOp.Colours, renderText]

theorem forall₂_find {α β} {R : α → β → Prop} : ∀ {l : List α} {l' : List β}, List.Forall₂ R l l' → ∀ {b}, b ∈ l' → ∃ a ∈ l, R a b
  | _, _, .nil, _, h => by cases h
  | _, _, .cons h1 hs, b, h => by
    rcases List.mem_cons.1 h with rfl | h
    · exact ⟨_, by simp, h1⟩
    · obtain ⟨a, h2, h3⟩ := forall₂_find hs h
      exact ⟨a, by simp [h2], h3⟩

/-- C75 for pages on which nothing is painted but text. -/
theorem C75_text_partial (hz : ∀ x, decompress (compress x) = some x) (w : World) (s : StyleFull) (items : List DocItem) (file : Bytes)
    (h : WrittenDoc compress w s items file) (k : Nat) (x : Written) (hk : (docWritten w s items)[k]? = some x) (hp : ∀ op ∈ x.ops, op.Printable)
    (hd : ∀ d ∈ x.page.base.content, d.Colourless) (hc : ∀ c ∈ x.page.cols, ∀ e ∈ c.blocks, ∃ t, e.2 = .text t) :
    ∃ page content cs, pageObject file k = some page ∧ pageContent decompress file page = some content ∧ readContent content = some cs ∧ WellPlaced cs := by
  refine page_mode hz w s items file h k x hk hp false fun op hop => .inr ?_
  obtain ⟨parts, e, hf⟩ := (docRun_ordered w s items 0 Res.empty x (List.mem_of_getElem? hk)).content
  rw [e] at hop
  rcases List.mem_append.1 hop with hop | hop
  · obtain ⟨part, hpart, hop⟩ := List.mem_flatten.1 hop
    obtain ⟨d, hdm, r, r', hr⟩ := forall₂_find hf hpart
    exact colourless_ops (hd d hdm) hr op hop
  · obtain ⟨c, hcm, hop⟩ := List.mem_flatMap.1 hop
    obtain ⟨b, hbm, hop⟩ := List.mem_flatMap.1 hop
    obtain ⟨t, ht⟩ := hc c hcm b hbm
    rw [ht] at hop
    simp only [Shaped.render, List.mem_singleton] at hop
    subst hop
    simp [PageOp.Colours, ShapedText.render, renderText]

end

/-- C75 is false: the page of the other examples has a square, whose colour is set after its path has been begun. -/
theorem C75_counterexample : ¬ C75_Statement := by
  intro hall
  have hk : (docWritten demoWorld faceStyle [.page demoPage])[0]? = some ⟨⟨demoPage, []⟩, demoOps ++ rectOps, demoOut.1 ++ rectOut.1⟩ := by
    rw [docWritten, demo_run]; rfl
  obtain ⟨page, content, cs, h1, h2, h3, h4⟩ := hall id some (fun _ => rfl) demoWorld faceStyle [.page demoPage] demoFile demo_written 0 _ hk (demo_printable)
  obtain ⟨objs, g1, g2⟩ := demo_written.read (decompress := some) (fun _ => rfl)
  obtain ⟨page', g3, g4⟩ := g1.page g2 (k := 0) (p := (⟨⟨demoPage, []⟩, demoOps ++ rectOps, demoOut.1 ++ rectOut.1⟩ : Written).rendered) (by rw [List.getElem?_map, hk]; rfl)
  have e := g4.content
  rw [h1] at g3
  simp only [Option.some.injEq] at g3
  subst g3
  rw [h2] at e
  simp only [Option.some.injEq] at e
  subst e
  have key : ∀ cs ∈ readContent (demoOut.1 ++ rectOut.1), ¬ WellPlaced cs := by decide +kernel
  exact key cs h3 h4

/-- But its operators are well placed otherwise. -/
example : ∃ page content cs, pageObject demoFile 0 = some page ∧ pageContent some demoFile page = some content ∧ readContent content = some cs ∧ WellPlacedLenient cs :=
  C75_lenient_partial (compress := id) (fun _ => rfl) demoWorld faceStyle [.page demoPage] demoFile demo_written 0 _ (by rw [docWritten, demo_run]; rfl) demo_printable

instance (s : Shaped) : Decidable (∃ t, s = .text t) := match s with
  | .text t => .isTrue ⟨t, rfl⟩
  | .rule .. => .isFalse (by rintro ⟨t, h⟩; cases h)

/-- On the pages of a paragraph, all operators are where they are allowed. -/
example : ∃ page content cs, pageObject flowFile 1 = some page ∧ pageContent some flowFile page = some content ∧ readContent content = some cs ∧ WellPlaced cs := by
  have h2 : flowRun.pages.length = 2 := by decide +kernel
  obtain ⟨a, b, hab⟩ := List.length_eq_two.1 h2
  have hk : (docWritten demoWorld faceStyle ([] ++ [.auto flowPages]))[1]? = some b := by
    rw [List.nil_append, docWritten, flow_run, hab]; rfl
  have hb : ∀ x ∈ flowRun.pages, (∀ op ∈ x.ops, op.Printable) ∧ x.page.base.content = [] ∧ ∀ c ∈ x.page.cols, ∀ e ∈ c.blocks, ∃ t, e.2 = .text t := by
    have h1 : ∀ x ∈ flowRun.pages, ∀ op ∈ x.ops, op.Printable := by decide +kernel
    have h3 : ∀ x ∈ flowRun.pages, x.page.base.content.isEmpty = true := by decide +kernel
    have h4 : ∀ x ∈ flowRun.pages, ∀ c ∈ x.page.cols, ∀ e ∈ c.blocks, ∃ t, e.2 = .text t := by decide +kernel
    exact fun x hx => ⟨h1 x hx, List.isEmpty_iff.1 (h3 x hx), h4 x hx⟩
  obtain ⟨p1, p2, p3⟩ := hb b (by rw [hab]; simp)
  exact C75_text_partial (compress := id) (fun _ => rfl) demoWorld faceStyle _ flowFile flow_written 1 b hk p1 (by rw [p2]; simp) p3

end Pdfje
