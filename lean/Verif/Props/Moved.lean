import Verif.Spec.Moved
import Verif.Props.Append
import Verif.Props.Flow
/-
C86: moving drawings and columns moves what is displayed, and changes nothing else.
-/

namespace Pdfje

/-- An operator that does the same at another place. -/
inductive OpMoved (v : ℚ × ℚ) : PageOp → PageOp → Prop
  | moveTo (x y) : OpMoved v (.moveTo x y) (.moveTo (x + v.1) (y + v.2))
  | lineTo (x y) : OpMoved v (.lineTo x y) (.lineTo (x + v.1) (y + v.2))
  | curveTo (x1 y1 x2 y2 x3 y3) : OpMoved v (.curveTo x1 y1 x2 y2 x3 y3) (.curveTo (x1 + v.1) (y1 + v.2) (x2 + v.1) (y2 + v.2) (x3 + v.1) (y3 + v.2))
  | rect (x y w h) : OpMoved v (.rect x y w h) (.rect (x + v.1) (y + v.2) w h)
  | fillColor (c) : OpMoved v (.fillColor c) (.fillColor c)
  | strokeColor (c) : OpMoved v (.strokeColor c) (.strokeColor c)
  | paint (p) : OpMoved v (.paint p) (.paint p)
  | text (x y rest) : OpMoved v (.text (.td x y :: rest)) (.text (.td (x + v.1) (y + v.2) :: rest))

/-! ### Glyphs -/

/-- The viewer at another place. -/
def Viewer.moved (d : ℚ × ℚ) (v : Viewer) : Viewer := { v with lineX := v.lineX + d.1, lineY := v.lineY + d.2, x := v.x + d.1 }

theorem showText_moved (W : FontRef → Char → ℚ) (d : ℚ × ℚ) (f : FontRef) : ∀ (s : List Char) (v : Viewer),
    Viewer.showText W f s (v.moved d) = ((Viewer.showText W f s v).1.map (Glyph.moved d), (Viewer.showText W f s v).2.moved d) := by
  intro s
  induction s with
  | nil => intro v; rfl
  | cons c s ih =>
    intro v
    simp only [Viewer.showText, List.map_cons]
    have : ({ v.moved d with x := (v.moved d).x + (v.moved d).dist ((v.moved d).charWidth W c) } : Viewer) =
        ({ v with x := v.x + v.dist (v.charWidth W c) } : Viewer).moved d := by
      simp only [Viewer.moved, Viewer.dist, Viewer.charWidth, Viewer.mk.injEq, true_and, and_true]
      ring
    rw [this, ih]
    rfl

theorem show_moved (W : FontRef → Char → ℚ) (d : ℚ × ℚ) : ∀ (is : List ShowItem) (v : Viewer),
    Viewer.show W is (v.moved d) = ((Viewer.show W is v).1.map (Glyph.moved d), (Viewer.show W is v).2.moved d) := by
  intro is
  induction is with
  | nil => intro v; rfl
  | cons i is ih =>
    intro v
    cases i with
    | adj a =>
      simp only [Viewer.show]
      have : ({ v.moved d with x := (v.moved d).x - (v.moved d).dist a } : Viewer) = ({ v with x := v.x - v.dist a } : Viewer).moved d := by
        simp only [Viewer.moved, Viewer.dist, Viewer.mk.injEq, true_and, and_true]
        ring
      rw [this, ih]
    | txt f s =>
      simp only [Viewer.show, showText_moved, ih, List.map_append]

theorem step_moved (W : FontRef → Char → ℚ) (d : ℚ × ℚ) (op : TextOp) (v : Viewer) :
    (v.moved d).step W op = ((v.step W op).1.map (Glyph.moved d), (v.step W op).2.moved d) := by
  cases op with
  | tj is => exact show_moved W d is v
  | td x y =>
    simp only [Viewer.step, Viewer.newLine, Viewer.moved, List.map_nil, Prod.mk.injEq, true_and, Viewer.mk.injEq, and_true]
    exact ⟨by ring, by ring, by ring⟩
  | tdl x y =>
    simp only [Viewer.step, Viewer.newLine, Viewer.moved, List.map_nil, Prod.mk.injEq, true_and, Viewer.mk.injEq, and_true]
    exact ⟨by ring, by ring, by ring⟩
  | tstar =>
    simp only [Viewer.step, Viewer.newLine, Viewer.moved, List.map_nil, Prod.mk.injEq, true_and, Viewer.mk.injEq, and_true]
    exact ⟨by ring, by ring, by ring⟩
  | tf f z => rfl
  | rg c => rfl
  | tl l => rfl

theorem run_moved (W : FontRef → Char → ℚ) (d : ℚ × ℚ) : ∀ (ops : List TextOp) (v : Viewer),
    Viewer.run W ops (v.moved d) = ((Viewer.run W ops v).1.map (Glyph.moved d), (Viewer.run W ops v).2.moved d) := by
  intro ops
  induction ops with
  | nil => intro v; rfl
  | cons op ops ih =>
    intro v
    simp only [Viewer.run, step_moved, ih, List.map_append]

theorem beginText_moved (d : ℚ × ℚ) (v v' : Viewer) (h : v'.beginText = v.beginText) (W : FontRef → Char → ℚ) (x y : ℚ) (rest : List TextOp) :
    (Viewer.run W (.td (x + d.1) (y + d.2) :: rest) v'.beginText).1 = (Viewer.run W (.td x y :: rest) v.beginText).1.map (Glyph.moved d) ∧
    (Viewer.run W (.td (x + d.1) (y + d.2) :: rest) v'.beginText).2.beginText = (Viewer.run W (.td x y :: rest) v.beginText).2.beginText := by
  rw [h]
  have h1 : (v.beginText.step W (.td (x + d.1) (y + d.2))) = ([], (v.beginText.step W (.td x y)).2.moved d) := by
    simp only [Viewer.step, Viewer.newLine, Viewer.moved, Viewer.beginText, zero_add]
  simp only [Viewer.run, h1, run_moved, List.nil_append]
  exact ⟨rfl, rfl⟩

theorem page_moved (W : FontRef → Char → ℚ) (d : ℚ × ℚ) {ops ops' : List PageOp} (h : List.Forall₂ (OpMoved d) ops ops') : ∀ (v v' : Viewer), v'.beginText = v.beginText →
    (Viewer.page W ops' v').1 = (Viewer.page W ops v).1.map (Glyph.moved d) := by
  induction h with
  | nil => intro v v' _; rfl
  | @cons op op' ops ops' ho _ ih =>
    intro v v' hv
    cases ho with
    | text x y rest =>
      obtain ⟨g1, g2⟩ := beginText_moved d v v' hv W x y rest
      simp only [Viewer.page, List.map_append]
      rw [g1, ih _ _ g2]
    | fillColor c =>
      simp only [Viewer.page]
      refine ih _ _ ?_
      simp only [Viewer.beginText, Viewer.mk.injEq, and_true, true_and] at hv ⊢
      exact ⟨hv.1, hv.2.2⟩
    | _ => simp only [Viewer.page]; exact ih _ _ hv

/-! ### Shapes -/

/-- The graphics state with its path at another place. -/
def Gfx.moved (d : ℚ × ℚ) (g : Gfx) : Gfx := { g with path := g.path.map (Subpath.moved d) }

theorem segment_moved (d : ℚ × ℚ) (g : Gfx) (s : Seg) : (g.moved d).segment (s.moved d) = (g.segment s).map (Gfx.moved d) := by
  unfold Gfx.segment Gfx.moved
  simp only [List.getLast?_map]
  cases g.path.getLast? with
  | none => rfl
  | some sp => simp [Subpath.moved]

theorem closeLast_moved (d : ℚ × ℚ) (path : List Subpath) : closeLast (path.map (Subpath.moved d)) = (closeLast path).map (Subpath.moved d) := by
  unfold closeLast
  rw [List.getLast?_map]
  cases path.getLast? with
  | none => rfl
  | some sp => simp [Subpath.moved]

theorem gstep_moved (d : ℚ × ℚ) {op op' : PageOp} (h : OpMoved d op op') (g : Gfx) :
    (g.moved d).step op' = (g.step op).map fun x => (x.1.map (Shape.moved d), x.2.moved d) := by
  cases h with
  | moveTo x y => simp [Gfx.step, Gfx.moved, Subpath.moved, movedBy]
  | lineTo x y =>
    have := segment_moved d g (.line (x, y))
    simp only [Seg.moved, movedBy] at this
    simp only [Gfx.step, this, Option.map_map]
    rfl
  | curveTo x1 y1 x2 y2 x3 y3 =>
    have := segment_moved d g (.curve (x1, y1) (x2, y2) (x3, y3))
    simp only [Seg.moved, movedBy] at this
    simp only [Gfx.step, this, Option.map_map]
    rfl
  | rect x y w h =>
    simp only [Gfx.step, Gfx.moved, Subpath.moved, Seg.moved, movedBy, List.map_append, List.map_cons, List.map_nil, Option.map_some, Option.some.injEq, Prod.mk.injEq, true_and,
      Gfx.mk.injEq, List.append_cancel_left_eq, List.cons.injEq, Subpath.mk.injEq, and_true, Seg.line.injEq]
    exact ⟨by ring, ⟨by ring, by ring⟩, by ring⟩
  | fillColor c => rfl
  | strokeColor c => rfl
  | paint p =>
    simp only [Gfx.step, Gfx.moved, List.map_eq_nil_iff]
    split
    · rfl
    · cases p <;> simp [Shape.moved, closeLast_moved]
  | text x y rest =>
    simp only [Gfx.step, Gfx.moved, List.map_eq_nil_iff]
    split
    · simp [lastFill]
    · rfl

theorem grun_moved (d : ℚ × ℚ) {ops ops' : List PageOp} (h : List.Forall₂ (OpMoved d) ops ops') : ∀ g : Gfx,
    Gfx.run ops' (g.moved d) = (Gfx.run ops g).map fun x => (x.1.map (Shape.moved d), x.2.moved d) := by
  induction h with
  | nil => intro g; rfl
  | @cons op op' ops ops' ho _ ih =>
    intro g
    simp only [Gfx.run, gstep_moved d ho g]
    cases g.step op with
    | none => rfl
    | some x =>
      simp only [Option.map_some, ih]
      cases Gfx.run ops x.2 with
      | none => rfl
      | some y => simp

/-! ### Bytes -/

theorem opBytes_moved (d : ℚ × ℚ) {op op' : PageOp} (h : OpMoved d op op') (r : Res) : (op'.bytes r).map (·.2) = (op.bytes r).map (·.2) := by
  cases h with
  | text x y rest =>
    simp only [PageOp.bytes, textOpsBytes, TextOp.bytes]
    cases textOpsBytes rest r <;> rfl
  | _ => rfl

theorem opsBytes_moved (d : ℚ × ℚ) {ops ops' : List PageOp} (h : List.Forall₂ (OpMoved d) ops ops') : ∀ r : Res,
    (opsBytes ops' r).map (·.2) = (opsBytes ops r).map (·.2) := by
  induction h with
  | nil => intro r; rfl
  | @cons op op' ops ops' ho _ ih =>
    intro r
    have h1 := opBytes_moved d ho r
    simp only [opsBytes]
    cases hb : op.bytes r with
    | none => rw [hb] at h1; rw [Option.map_eq_none_iff.1 h1]
    | some x =>
      rw [hb] at h1
      obtain ⟨y, hy, hxy⟩ := Option.map_eq_some_iff.1 h1
      rw [hy]
      simp only [hxy]
      have h2 := ih x.2
      cases hc : opsBytes ops x.2 with
      | none => rw [hc] at h2; rw [Option.map_eq_none_iff.1 h2]
      | some z =>
        rw [hc] at h2
        obtain ⟨u, hu, hzu⟩ := Option.map_eq_some_iff.1 h2
        rw [hu]
        simp only [Option.map_some, hzu]

/-! ### Drawings -/

theorem finish_moved (d : ℚ × ℚ) (fill stroke : Option RGB) (close : Bool) : List.Forall₂ (OpMoved d) (finish fill stroke close) (finish fill stroke close) := by
  unfold finish
  split <;> repeat' constructor

theorem renderText_moved (d pos : ℚ × ℚ) (st : Option State) (prev : ℚ) (lines : List RLine) (lead : ℚ) (align : Align) :
    OpMoved d (renderText pos st prev lines lead align) (renderText (movedBy d pos) st prev lines lead align) := by
  unfold renderText movedBy
  exact .text _ _ _

theorem ellipseOps_moved (d c : ℚ × ℚ) (w h : ℚ) (fill stroke : Option RGB) : List.Forall₂ (OpMoved d) (ellipseOps c w h fill stroke) (ellipseOps (movedBy d c) w h fill stroke) := by
  have mt : ∀ x y x' y', x' = x + d.1 → y' = y + d.2 → OpMoved d (.moveTo x y) (.moveTo x' y') := by rintro x y _ _ rfl rfl; exact .moveTo _ _
  have ct : ∀ a b c e f g a' b' c' e' f' g', a' = a + d.1 → b' = b + d.2 → c' = c + d.1 → e' = e + d.2 → f' = f + d.1 → g' = g + d.2 →
      OpMoved d (.curveTo a b c e f g) (.curveTo a' b' c' e' f' g') := by
    rintro a b c e f g _ _ _ _ _ _ rfl rfl rfl rfl rfl rfl; exact .curveTo _ _ _ _ _ _
  simp only [ellipseOps, movedBy, List.cons_append, List.nil_append]
  refine .cons (mt _ _ _ _ (by ring) (by ring)) (.cons (ct _ _ _ _ _ _ _ _ _ _ _ _ (by ring) (by ring) (by ring) (by ring) (by ring) (by ring))
    (.cons (ct _ _ _ _ _ _ _ _ _ _ _ _ (by ring) (by ring) (by ring) (by ring) (by ring) (by ring))
    (.cons (ct _ _ _ _ _ _ _ _ _ _ _ _ (by ring) (by ring) (by ring) (by ring) (by ring) (by ring))
    (.cons (ct _ _ _ _ _ _ _ _ _ _ _ _ (by ring) (by ring) (by ring) (by ring) (by ring) (by ring)) (finish_moved d _ _ _)))))

/-- What relates the outcomes of two renderings. -/
def OutMoved (d : ℚ × ℚ) (a b : Option (List PageOp) × Res) : Prop :=
  b.2 = a.2 ∧ (b.1 = none ↔ a.1 = none) ∧ ∀ ops ops', a.1 = some ops → b.1 = some ops' → List.Forall₂ (OpMoved d) ops ops'

theorem OutMoved.some {d : ℚ × ℚ} {ops ops' : List PageOp} {r : Res} (h : List.Forall₂ (OpMoved d) ops ops') : OutMoved d (some ops, r) (some ops', r) :=
  ⟨rfl, by simp, by rintro _ _ ⟨⟩ ⟨⟩; exact h⟩

theorem render_moved (d : ℚ × ℚ) (w : World) (s : StyleFull) (r : Res) (x : Drawing) : OutMoved d (x.render w s r) ((x.moved d).render w s r) := by
  cases x with
  | line a b stroke => exact .some (.cons (.moveTo _ _) (.cons (.lineTo _ _) (finish_moved d _ _ _)))
  | rect o w h fill stroke => exact .some (.cons (.rect _ _ _ _) (finish_moved d _ _ _))
  | ellipse c w h fill stroke => exact .some (ellipseOps_moved d _ _ _ _ _)
  | circle c r fill stroke => exact .some (ellipseOps_moved d _ _ _ _ _)
  | polyline ps close fill stroke =>
    cases ps with
    | nil => exact .some .nil
    | cons p ps =>
      cases p with
      | xy p => exact ⟨rfl, by simp [Drawing.moved, Drawing.render, polylineOps, PointLike.moved], by simp [Drawing.render, polylineOps]⟩
      | tuple p =>
        refine .some (.cons (.moveTo _ _) (List.rel_append ?_ (finish_moved d _ _ _)))
        rw [List.map_map, List.forall₂_map_left_iff, List.forall₂_map_right_iff]
        exact List.forall₂_same.2 fun q _ => by cases q <;> exact .lineTo _ _
  | text loc content style align =>
    simp only [Drawing.moved, Drawing.render, textOps]
    cases intoTextLines (w.env (flattenSpan style s [] content (s.asState r).2).2.2) (splitlines (flattenSpan style s [] content (s.asState r).2).1) (s.asState r).1 with
    | none => exact ⟨rfl, by simp, by simp⟩
    | some ls => exact .some (.cons (renderText_moved d _ _ _ _ _ _) .nil)

/-- C86, drawings: a drawing at another place shows the same, at that place: the shapes and glyphs are moved by the same distance, and are the same otherwise. It raises an error when the
other does, and uses the same fonts. -/
theorem C86_drawing (d : ℚ × ℚ) (w : World) (s : StyleFull) (r : Res) (x : Drawing) :
    ((x.moved d).render w s r).2 = (x.render w s r).2 ∧ (((x.moved d).render w s r).1 = none ↔ (x.render w s r).1 = none) ∧
    ∀ ops ops', (x.render w s r).1 = some ops → ((x.moved d).render w s r).1 = some ops' →
      pageShapes ops' = (pageShapes ops).map (fun l => l.map (Shape.moved d)) ∧ ∀ W, pageGlyphs W ops' = (pageGlyphs W ops).map (Glyph.moved d) := by
  obtain ⟨h1, h2, h3⟩ := render_moved d w s r x
  refine ⟨h1, h2, fun ops ops' ho ho' => ⟨?_, fun W => page_moved W d (h3 ops ops' ho ho') _ _ rfl⟩⟩
  have := grun_moved d (h3 ops ops' ho ho') Gfx.initial
  unfold pageShapes
  rw [show Gfx.initial = Gfx.initial.moved d from rfl, this, Option.map_map, Option.map_map]
  rfl

/-! ### Columns -/

theorem cursor_moved (d : ℚ × ℚ) (c : ColumnFill) : (c.moved d).cursor = movedBy d c.cursor := by
  simp only [ColumnFill.cursor, ColumnFill.moved, Column.moved, movedBy, Prod.mk.injEq, true_and]
  ring

theorem height_moved (d : ℚ × ℚ) (s : Shaped) : (s.moved d).height = s.height := by cases s <;> rfl

theorem add_moved (d : ℚ × ℚ) (c : ColumnFill) (s : Shaped) : (c.moved d).add (s.moved d) = (c.add s).moved d := by
  rw [ColumnFill.add, cursor_moved, height_moved]
  simp [ColumnFill.add, ColumnFill.moved]

theorem addChunks_moved : ∀ (ts : List ShapedText) (cs : Nat → ColumnFill) (v : Nat → ℚ × ℚ),
    addChunks ts (fun i => (cs i).moved (v i)) = (addChunks ts cs).mapIdx fun i c => c.moved (v i) := by
  intro ts
  induction ts with
  | nil => intro cs v; rfl
  | cons t ts ih =>
    intro cs v
    rw [addChunks, addChunks, List.mapIdx_cons, ih (fun n => cs (n + 1)) fun n => v (n + 1)]
    congr 1
    exact add_moved (v 0) (cs 0) (.text t)

theorem fillParagraph_moved (p : Paragraph) (env : Env) (txt : List Passage) (cs : Nat → ColumnFill) (v : Nat → ℚ × ℚ) (st : State) (lead : ℚ) :
    fillParagraph p env txt (fun i => (cs i).moved (v i)) st lead =
      (fillParagraph p env txt cs st lead).map fun x => (x.1.mapIdx fun i c => c.moved (v i), x.2) := by
  unfold fillParagraph
  have he : ((cs 0).moved (v 0)).blocks.isEmpty = (cs 0).blocks.isEmpty := by simp [ColumnFill.moved]
  have hc : (fun i => (((cs i).moved (v i)).box.width, ((cs i).moved (v i)).heightFree)) = fun i => ((cs i).box.width, (cs i).heightFree) := rfl
  rw [he, hc]
  cases intoWords env txt st with
  | none => rfl
  | some x =>
    obtain ⟨cmd, words⟩ := x
    simp only
    rw [Option.map_map]
    congr 1
    funext ch
    simp only [Function.comp_apply, addChunks_moved]

theorem dropLast_mapIdx {α β} (f : Nat → α → β) (l : List α) : (l.mapIdx f).dropLast = l.dropLast.mapIdx f := by
  apply List.ext_getElem?
  intro i
  simp only [List.dropLast_eq_take, List.length_mapIdx, List.getElem?_take, List.getElem?_mapIdx]
  split <;> rfl

theorem paragraphLoop_moved (p : Paragraph) (env : Env) (lead : ℚ) : ∀ (txts : List (List Passage)) (cs : Nat → ColumnFill) (v : Nat → ℚ × ℚ) (st : State),
    paragraphLoop p env lead txts (fun i => (cs i).moved (v i)) st = (paragraphLoop p env lead txts cs st).map fun x => x.mapIdx fun i c => c.moved (v i) := by
  intro txts
  induction txts with
  | nil => intro cs v st; rfl
  | cons txt txts ih =>
    intro cs v st
    rw [paragraphLoop, paragraphLoop, fillParagraph_moved]
    cases fillParagraph p env txt cs st lead with
    | none => rfl
    | some x =>
      obtain ⟨done, st'⟩ := x
      simp only [Option.map_some]
      rw [List.getLast?_mapIdx]
      cases hl : done.getLast? with
      | none => rfl
      | some col =>
        have hne : done ≠ [] := by rintro rfl; simp at hl
        have hlen : 0 < done.length := List.length_pos_iff.2 hne
        simp only [Option.map_some]
        have := ih (consStream col fun n => cs (n + done.length)) (fun n => v (done.length - 1 + n)) st'
        have hs : (fun i => (consStream col (fun n => cs (n + done.length)) i).moved (v (done.length - 1 + i))) =
            consStream (col.moved (v (done.length - 1))) fun n => (cs (n + (done.mapIdx fun i c => c.moved (v i)).length)).moved (v (n + (done.mapIdx fun i c => c.moved (v i)).length)) := by
          funext i
          cases i with
          | zero => rfl
          | succ n =>
            simp only [consStream, List.length_mapIdx]
            congr 2
            omega
        rw [← hs, this, Option.map_map, Option.map_map]
        congr 1
        funext l
        simp only [Function.comp_apply, List.mapIdx_append, List.length_dropLast]
        rw [dropLast_mapIdx]
        congr 2
        funext i c
        congr 2
        omega

theorem ops_moved (d : ℚ × ℚ) (c : ColumnFill) : List.Forall₂ (OpMoved d) c.ops (c.moved d).ops := by
  have : ∀ bs : List ((ℚ × ℚ) × Shaped), List.Forall₂ (OpMoved d) (bs.flatMap fun e => e.2.render e.1 c.box.width)
      ((bs.map fun e => (movedBy d e.1, e.2.moved d)).flatMap fun e => e.2.render e.1 c.box.width) := by
    intro bs
    induction bs with
    | nil => exact .nil
    | cons e bs ih =>
      rw [List.map_cons, List.flatMap_cons, List.flatMap_cons]
      refine List.rel_append ?_ ih
      cases e.2 with
      | text t => exact .cons (renderText_moved d _ _ _ _ _ _) .nil
      | rule a b c h => exact .cons (.moveTo _ _) (.cons (.lineTo _ _) (.cons (.strokeColor _) (.cons (.paint _) .nil)))
  exact this c.blocks

/-- C86, paragraphs: if the columns are at other places (each at its own), a paragraph is laid out in the same way: each column gets the same lines, in the same place in the column.
It raises an error when the other does, and uses the same fonts. -/
theorem C86_paragraph (p : Paragraph) (w : World) (r : Res) (style : StyleFull) (cs : Nat → ColumnFill) (v : Nat → ℚ × ℚ) :
    (Block.paragraph p).intoColumns w r style (fun i => (cs i).moved (v i)) =
      (((Block.paragraph p).intoColumns w r style cs).1.map fun x => x.mapIdx fun i c => c.moved (v i), ((Block.paragraph p).intoColumns w r style cs).2) := by
  simp only [Block.intoColumns, Paragraph.intoColumns, paragraphLoop_moved]

/-- C86, columns: a column at another place shows the same, at that place. -/
theorem C86_column (d : ℚ × ℚ) (c : ColumnFill) :
    pageShapes (c.moved d).ops = (pageShapes c.ops).map (fun l => l.map (Shape.moved d)) ∧ ∀ W, pageGlyphs W (c.moved d).ops = (pageGlyphs W c.ops).map (Glyph.moved d) := by
  refine ⟨?_, fun W => page_moved W d (ops_moved d c) _ _ rfl⟩
  have := grun_moved d (ops_moved d c) Gfx.initial
  unfold pageShapes
  rw [show Gfx.initial = Gfx.initial.moved d from rfl, this, Option.map_map, Option.map_map]
  rfl

/-! ### Pages -/

/-- A page that is being filled, at another place. -/
def PageFill.moved (d : ℚ × ℚ) (p : PageFill) : PageFill := ⟨p.base.moved d, p.todo.map (ColumnFill.moved d), p.done.map (ColumnFill.moved d)⟩

theorem new_moved (d : ℚ × ℚ) (p : Page) : PageFill.new (p.moved d) = (PageFill.new p).moved d := by
  simp [PageFill.new, PageFill.moved, Page.moved, ColumnFill.new, ColumnFill.moved, Column.moved]

theorem flatNth_some {α} : ∀ (fuel i : Nat) (f : Nat → List α), i < fuel → (∀ n, f n ≠ []) → ∃ a, flatNth f fuel i = some a := by
  intro fuel
  induction fuel with
  | zero => intro i f h; omega
  | succ fuel ih =>
    intro i f h hf
    rw [flatNth]
    split
    · rename_i hi; exact ⟨_, List.getElem?_eq_getElem hi⟩
    · have := List.length_pos_iff.2 (hf 0)
      exact ih _ _ (by omega) fun n => hf (n + 1)

theorem flatNth_map {α β} (g : α → β) : ∀ (fuel i : Nat) (f : Nat → List α), flatNth (fun n => (f n).map g) fuel i = (flatNth f fuel i).map g := by
  intro fuel
  induction fuel with
  | zero => intro i f; rfl
  | succ fuel ih =>
    intro i f
    rw [flatNth, flatNth]
    simp only [List.length_map]
    split
    · exact List.getElem?_map ..
    · exact ih _ _

theorem columnsLeft_moved (d : ℚ × ℚ) (doc : Nat → PageFill) (h : ∀ n, (doc n).todo ≠ []) (i : Nat) :
    columnsLeft (fun n => (doc n).moved d) i = (columnsLeft doc i).moved d := by
  obtain ⟨a, ha⟩ := flatNth_some (i + 1) i (fun n => (doc n).todo) (by omega) h
  unfold columnsLeft
  simp only [PageFill.moved]
  rw [flatNth_map, ha]
  rfl

theorem fillLoop_moved (d : ℚ × ℚ) : ∀ (fuel : Nat) (filled : List ColumnFill) (doc : Nat → PageFill),
    fillLoop fuel (filled.map (ColumnFill.moved d)) (fun n => (doc n).moved d) =
      ((fillLoop fuel filled doc).1.map (PageFill.moved d), fun n => ((fillLoop fuel filled doc).2 n).moved d) := by
  intro fuel
  induction fuel with
  | zero => intro filled doc; rfl
  | succ fuel ih =>
    intro filled doc
    rw [fillLoop, fillLoop]
    simp only [PageFill.moved, List.length_map, ← List.map_drop, ← List.map_take]
    cases hd : List.drop (doc 0).todo.length filled with
    | nil => simp [PageFill.moved]
    | cons c cs =>
      simp only [List.map_cons]
      have := ih (c :: cs) fun n => doc (n + 1)
      rw [List.map_cons] at this
      simp only [PageFill.moved] at this
      rw [this]
      simp [PageFill.moved]

theorem fillLoop_todo : ∀ (fuel : Nat) (filled : List ColumnFill) (doc : Nat → PageFill), (∀ n, (doc n).todo ≠ []) → ∀ n, ((fillLoop fuel filled doc).2 n).todo ≠ [] := by
  intro fuel
  induction fuel with
  | zero => intro filled doc h; exact h
  | succ fuel ih =>
    intro filled doc h n
    rw [fillLoop]
    simp only
    split
    · exact h (n + 1)
    · exact ih _ (fun n => doc (n + 1)) (fun n => h (n + 1)) n

theorem reopen_moved (d : ℚ × ℚ) (p : PageFill) : (p.moved d).reopen = p.reopen.map (PageFill.moved d) := by
  unfold PageFill.reopen PageFill.moved
  simp only [List.getLast?_map]
  cases p.done.getLast? with
  | none => rfl
  | some c => simp

theorem fillInto_moved (d : ℚ × ℚ) (filled : List ColumnFill) (doc : Nat → PageFill) :
    fillInto (filled.map (ColumnFill.moved d)) (fun n => (doc n).moved d) =
      (fillInto filled doc).map fun x => (fun n => (x.1 n).moved d, x.2.map (PageFill.moved d)) := by
  unfold fillInto
  simp only [List.map_eq_nil_iff, List.length_map, fillLoop_moved, List.getLast?_map]
  split
  · rfl
  · cases (fillLoop filled.length filled doc).1.getLast? with
    | none => rfl
    | some p =>
      simp only [Option.map_some, reopen_moved, Option.map_map]
      congr 1
      funext q
      simp only [Function.comp_apply, List.map_dropLast, Prod.mk.injEq, and_true]
      funext n
      cases n <;> rfl

theorem fillInto_todo {filled : List ColumnFill} {doc doc' : Nat → PageFill} {completed : List PageFill} (h : ∀ n, (doc n).todo ≠ [])
    (hf : fillInto filled doc = some (doc', completed)) : ∀ n, (doc' n).todo ≠ [] := by
  unfold fillInto at hf
  split at hf
  · cases hf; exact h
  · simp only at hf
    cases hl : (fillLoop filled.length filled doc).1.getLast? with
    | none => rw [hl] at hf; cases hf
    | some p =>
      rw [hl] at hf
      simp only [Option.map_eq_some_iff, Prod.mk.injEq] at hf
      obtain ⟨q, hq, rfl, -⟩ := hf
      intro n
      cases n with
      | zero =>
        unfold PageFill.reopen at hq
        split at hq
        · cases hq
        · cases hq; simp [consStream]
      | succ n => exact fillLoop_todo _ _ _ h n

theorem shaped_moved (d : ℚ × ℚ) (x : Rule) (c : ColumnFill) : x.shaped (c.moved d) = (x.shaped c).moved d := by
  simp only [Rule.shaped, Shaped.moved, ColumnFill.moved, Column.moved, movedBy, Shaped.rule.injEq, Prod.mk.injEq, and_true]
  exact ⟨⟨by ring, by ring⟩, by ring, by ring⟩

theorem block_moved (d : ℚ × ℚ) (b : Block) (w : World) (r : Res) (style : StyleFull) (cs : Nat → ColumnFill) :
    b.intoColumns w r style (fun i => (cs i).moved d) = ((b.intoColumns w r style cs).1.map fun x => x.map (ColumnFill.moved d), (b.intoColumns w r style cs).2) := by
  cases b with
  | paragraph p =>
    rw [C86_paragraph p w r style cs fun _ => d]
    have : ∀ x : List ColumnFill, (x.mapIdx fun _ c => c.moved d) = x.map (ColumnFill.moved d) := by
      intro x
      apply List.ext_getElem?
      intro i
      simp
    simp only [this]
  | rule x =>
    simp only [Block.intoColumns, Rule.intoColumns, shaped_moved, add_moved, Option.map_some]
    rw [show ((cs 0).moved d).heightFree = (cs 0).heightFree from rfl]
    split <;> rfl

/-- The second run makes the pages of the first, at another place. -/
structure RunMoved (d : ℚ × ℚ) (a b : PagesRun) : Prop where
  res : b.res = a.res
  err : b.err = a.err
  pages : List.Forall₂ (Written.Moved d) a.pages b.pages

theorem drawingsRun_moved (d : ℚ × ℚ) (w : World) (s : StyleFull) : ∀ (ds : List Drawing) (r : Res),
    (drawingsRun w s (ds.map (Drawing.moved d)) r).2 = (drawingsRun w s ds r).2 ∧
    ((drawingsRun w s (ds.map (Drawing.moved d)) r).1 = none ↔ (drawingsRun w s ds r).1 = none) ∧
    ∀ x x', (drawingsRun w s ds r).1 = some x → (drawingsRun w s (ds.map (Drawing.moved d)) r).1 = some x' → List.Forall₂ (OpMoved d) x.1 x'.1 := by
  intro ds
  induction ds with
  | nil => intro r; exact ⟨rfl, Iff.rfl, by rintro _ _ ⟨⟩ ⟨⟩; exact .nil⟩
  | cons x ds ih =>
    intro r
    obtain ⟨h1, h2, h3⟩ := render_moved d w s r x
    rw [List.map_cons, drawingsRun, drawingsRun]
    obtain ⟨o, ho⟩ : ∃ o, x.render w s r = o := ⟨_, rfl⟩
    obtain ⟨o', ho'⟩ : ∃ o, (x.moved d).render w s r = o := ⟨_, rfl⟩
    rw [ho, ho'] at h1 h2 h3
    rw [ho, ho']
    obtain ⟨a, r1⟩ := o
    obtain ⟨a', r1'⟩ := o'
    simp only at h1 h2 h3
    subst h1
    cases a with
    | none => rw [h2.2 rfl]; exact ⟨rfl, Iff.rfl, by rintro _ _ ⟨⟩⟩
    | some ops =>
      cases a' with
      | none => exact absurd (h2.1 rfl) (by simp)
      | some ops' =>
        have hm := h3 ops ops' rfl rfl
        have hb := opsBytes_moved d hm r1'
        simp only
        cases hc : opsBytes ops r1' with
        | none => rw [hc] at hb; rw [Option.map_eq_none_iff.1 hb]; exact ⟨rfl, Iff.rfl, by rintro _ _ ⟨⟩⟩
        | some y =>
          rw [hc] at hb
          obtain ⟨y', hy', hyy⟩ := Option.map_eq_some_iff.1 hb
          rw [hy']
          obtain ⟨b, r2⟩ := y
          obtain ⟨b', r2'⟩ := y'
          simp only at hyy
          subst hyy
          obtain ⟨i1, i2, i3⟩ := ih r2'
          simp only
          obtain ⟨q, hq⟩ : ∃ o, drawingsRun w s ds r2' = o := ⟨_, rfl⟩
          obtain ⟨q', hq'⟩ : ∃ o, drawingsRun w s (ds.map (Drawing.moved d)) r2' = o := ⟨_, rfl⟩
          rw [hq, hq'] at i1 i2 i3
          rw [hq, hq']
          obtain ⟨z, r3⟩ := q
          obtain ⟨z', r3'⟩ := q'
          simp only at i1 i2 i3
          subst i1
          cases z with
          | none => rw [i2.2 rfl]; exact ⟨rfl, Iff.rfl, by rintro _ _ ⟨⟩⟩
          | some z =>
            cases z' with
            | none => exact absurd (i2.1 rfl) (by simp)
            | some z' =>
              refine ⟨rfl, by simp, ?_⟩
              rintro _ _ ⟨⟩ ⟨⟩
              exact List.rel_append hm (i3 z z' rfl rfl)

/-- A page with its columns, at another place. -/
def Filled.moved (d : ℚ × ℚ) (p : Filled) : Filled := ⟨p.base.moved d, p.cols.map (ColumnFill.moved d)⟩

theorem filledRun_moved (d : ℚ × ℚ) (w : World) (s : StyleFull) (p : Filled) (r : Res) :
    ((p.moved d).run w s r).2 = (p.run w s r).2 ∧ (((p.moved d).run w s r).1 = none ↔ (p.run w s r).1 = none) ∧
    ∀ x x', (p.run w s r).1 = some x → ((p.moved d).run w s r).1 = some x' → List.Forall₂ (OpMoved d) x.1 x'.1 := by
  obtain ⟨h1, h2, h3⟩ := drawingsRun_moved d w s p.base.content r
  have hcols : List.Forall₂ (OpMoved d) (p.cols.flatMap ColumnFill.ops) ((p.cols.map (ColumnFill.moved d)).flatMap ColumnFill.ops) := by
    generalize p.cols = cols
    induction cols with
    | nil => exact .nil
    | cons c cols ih => rw [List.map_cons, List.flatMap_cons, List.flatMap_cons]; exact List.rel_append (ops_moved d c) ih
  rw [Filled.run, Filled.run]
  rw [show (p.moved d).base.content = p.base.content.map (Drawing.moved d) from rfl, show (p.moved d).cols = p.cols.map (ColumnFill.moved d) from rfl]
  obtain ⟨o, ho⟩ : ∃ o, drawingsRun w s p.base.content r = o := ⟨_, rfl⟩
  obtain ⟨o', ho'⟩ : ∃ o, drawingsRun w s (p.base.content.map (Drawing.moved d)) r = o := ⟨_, rfl⟩
  rw [ho, ho'] at h1 h2 h3
  rw [ho, ho']
  obtain ⟨a, r1⟩ := o
  obtain ⟨a', r1'⟩ := o'
  simp only at h1 h2 h3
  subst h1
  cases a with
  | none => rw [h2.2 rfl]; exact ⟨rfl, Iff.rfl, by rintro _ _ ⟨⟩⟩
  | some z =>
    cases a' with
    | none => exact absurd (h2.1 rfl) (by simp)
    | some z' =>
      have hm := h3 z z' rfl rfl
      have hb := opsBytes_moved d hcols r1'
      obtain ⟨ops, b⟩ := z
      obtain ⟨ops', b'⟩ := z'
      simp only
      cases hc : opsBytes (p.cols.flatMap ColumnFill.ops) r1' with
      | none => rw [hc] at hb; rw [Option.map_eq_none_iff.1 hb]; exact ⟨rfl, Iff.rfl, by rintro _ _ ⟨⟩⟩
      | some y =>
        rw [hc] at hb
        obtain ⟨y', hy', hyy⟩ := Option.map_eq_some_iff.1 hb
        rw [hy']
        obtain ⟨b, r2⟩ := y
        obtain ⟨b', r2'⟩ := y'
        simp only at hyy
        subst hyy
        refine ⟨rfl, by simp, ?_⟩
        rintro _ _ ⟨⟩ ⟨⟩
        exact List.rel_append hm hcols

theorem writtenMoved (d : ℚ × ℚ) (p : Filled) {ops ops' : List PageOp} (b b' : Bytes) (h : List.Forall₂ (OpMoved d) ops ops') : Written.Moved d ⟨p, ops, b⟩ ⟨p.moved d, ops', b'⟩ := by
  refine ⟨rfl, rfl, fun W => page_moved W d h _ _ rfl, ?_⟩
  have := grun_moved d h Gfx.initial
  unfold pageShapes
  simp only
  rw [show Gfx.initial = Gfx.initial.moved d from rfl, this, Option.map_map, Option.map_map]
  rfl

theorem writePages_moved (d : ℚ × ℚ) (w : World) (s : StyleFull) : ∀ (ps : List Filled) (r : Res), RunMoved d (writePages w s ps r) (writePages w s (ps.map (Filled.moved d)) r) := by
  intro ps
  induction ps with
  | nil => intro r; exact ⟨rfl, rfl, .nil⟩
  | cons p ps ih =>
    intro r
    obtain ⟨h1, h2, h3⟩ := filledRun_moved d w s p r
    rw [List.map_cons, writePages, writePages]
    obtain ⟨o, ho⟩ : ∃ o, p.run w s r = o := ⟨_, rfl⟩
    obtain ⟨o', ho'⟩ : ∃ o, (p.moved d).run w s r = o := ⟨_, rfl⟩
    rw [ho, ho'] at h1 h2 h3
    rw [ho, ho']
    obtain ⟨a, r1⟩ := o
    obtain ⟨a', r1'⟩ := o'
    simp only at h1 h2 h3
    subst h1
    cases a with
    | none => rw [h2.2 rfl]; exact ⟨rfl, rfl, .nil⟩
    | some z =>
      cases a' with
      | none => exact absurd (h2.1 rfl) (by simp)
      | some z' =>
        obtain ⟨i1, i2, i3⟩ := ih r1'
        exact ⟨i1, i2, .cons (writtenMoved d p _ _ (h3 z z' rfl rfl)) i3⟩

theorem RunMoved.andThen {d : ℚ × ℚ} {a b : PagesRun} {f g : Res → PagesRun} (h : RunMoved d a b) (hf : ∀ r, RunMoved d (f r) (g r)) : RunMoved d (a.andThen f) (b.andThen g) := by
  unfold PagesRun.andThen
  rw [h.err]
  cases a.err with
  | some e => exact ⟨h.res, rfl, h.pages⟩
  | none =>
    simp only
    rw [h.res]
    exact ⟨(hf _).res, (hf _).err, List.rel_append h.pages (hf _).pages⟩

theorem autoLoop_moved (d : ℚ × ℚ) (w : World) (s : StyleFull) : ∀ (bs : List Block) (doc : Nat → PageFill) (r : Res), (∀ n, (doc n).todo ≠ []) →
    RunMoved d (autoLoop w s bs doc r) (autoLoop w s bs (fun n => (doc n).moved d) r) := by
  intro bs
  induction bs with
  | nil =>
    intro doc r h
    rw [autoLoop, autoLoop]
    have := writePages_moved d w s [⟨(doc 0).base, (doc 0).done ++ (doc 0).todo⟩] r
    simpa [Filled.moved, PageFill.moved] using this
  | cons b bs ih =>
    intro doc r h
    rw [autoLoop, autoLoop]
    have hc : columnsLeft (fun n => (doc n).moved d) = fun i => (columnsLeft doc i).moved d := by
      funext i; exact columnsLeft_moved d doc h i
    rw [hc, block_moved]
    obtain ⟨o, ho⟩ : ∃ o, b.intoColumns w r s (columnsLeft doc) = o := ⟨_, rfl⟩
    rw [ho]
    obtain ⟨a, r1⟩ := o
    cases a with
    | none => exact ⟨rfl, rfl, .nil⟩
    | some filled =>
      simp only [Option.map_some, fillInto_moved]
      cases hf : fillInto filled doc with
      | none => exact ⟨rfl, rfl, .nil⟩
      | some x =>
        obtain ⟨doc', completed⟩ := x
        simp only [Option.map_some]
        refine RunMoved.andThen ?_ fun r' => ih doc' r' (fillInto_todo h hf)
        have := writePages_moved d w s (completed.map fun p => ⟨p.base, p.done⟩) r1
        rw [List.map_map] at this ⊢
        exact this

/-- The templates of the item have columns. -/
def DocItem.HasColumns : DocItem → Prop
  | .page _ => True
  | .auto a => ∀ n, (a.template n).columns ≠ []

theorem RunMoved.length {d : ℚ × ℚ} {a b : PagesRun} (h : RunMoved d a b) : b.pages.length = a.pages.length := h.pages.length_eq.symm

/-- C86, documents: if everything in a document is moved by the same distance, its pages are the same but for this: there are as many, of the same sizes, and each shows
the same glyphs and shapes as before, all of them moved by that distance; the fonts are the same, and if there is an error, it is the same error after the same pages. -/
theorem C86_document (d : ℚ × ℚ) (w : World) (s : StyleFull) : ∀ (items : List DocItem) (done : Nat) (r : Res), (∀ it ∈ items, it.HasColumns) →
    (docRun w s (items.map (DocItem.moved d)) done r).res = (docRun w s items done r).res ∧
    (docRun w s (items.map (DocItem.moved d)) done r).err = (docRun w s items done r).err ∧
    List.Forall₂ (Written.Moved d) (docRun w s items done r).pages (docRun w s (items.map (DocItem.moved d)) done r).pages := by
  have key : ∀ (items : List DocItem) (done : Nat) (r : Res), (∀ it ∈ items, it.HasColumns) →
      RunMoved d (docRun w s items done r) (docRun w s (items.map (DocItem.moved d)) done r) := by
    intro items
    induction items with
    | nil => intro done r _; exact ⟨rfl, rfl, .nil⟩
    | cons it items ih =>
      intro done r h
      have hit : RunMoved d (it.run w s (done + 1) r) ((it.moved d).run w s (done + 1) r) := by
        cases it with
        | page p => exact writePages_moved d w s [⟨p, []⟩] r
        | auto a =>
          have hc : ∀ n, (a.template n).columns ≠ [] := h (.auto a) (by simp)
          have := autoLoop_moved d w s a.content (fun n => PageFill.new (a.template (done + 1 + n))) r (by intro n; simpa [PageFill.new] using hc _)
          simp only [← new_moved] at this
          exact this
      rw [List.map_cons, docRun, docRun]
      simp only [hit.length]
      exact hit.andThen fun r' => ih _ r' fun x hx => h x (by simp [hx])
  intro items done r h
  exact ⟨(key items done r h).res, (key items done r h).err, (key items done r h).pages⟩

/-- C86, margins: on pages without drawings, margins that are made wider on one side and narrower by as much on the other side move everything. -/
theorem C86_margins (d : ℚ × ℚ) (size : ℚ × ℚ) (rotate : Int) (m : Sides) :
    Page.new [] size rotate (.sides ⟨m.top - d.2, m.right - d.1, m.bottom + d.2, m.left + d.1⟩) [] =
      (Page.new [] size rotate (.sides m) []).map (Page.moved d) := by
  have h1 : size.1 - (m.left + d.1) - (m.right - d.1) = size.1 - m.left - m.right := by ring
  have h2 : size.2 - (m.top - d.2) - (m.bottom + d.2) = size.2 - m.top - m.bottom := by ring
  simp only [Page.new, defaultColumn, Sides.parse, Column.new, h1, h2]
  split
  · simp [Page.moved, Column.moved, movedBy]
  · rfl

/-- The document of two pages of Props/Flow: its second page has the glyph "b", which moves. -/
example : ∃ q1 q2, (docRun demoWorld faceStyle [(DocItem.auto flowPages).moved (3, 5)] 0 Res.empty).pages = [q1, q2] ∧
    (pageGlyphs (demoWorld.env shortRes).widths q2.ops).map (fun g => (g.char, g.x, g.y)) = [('b', 3, 5)] := by
  obtain ⟨-, -, h⟩ := C86_document (3, 5) demoWorld faceStyle [.auto flowPages] 0 Res.empty (by
    intro it hit
    rw [List.mem_singleton] at hit
    subst hit
    intro n
    simp [flowPages])
  rw [flow_run] at h
  have hlen : flowRun.pages.length = 2 := by decide +kernel
  obtain ⟨p1, p2, hp⟩ := List.length_eq_two.1 hlen
  rw [hp] at h
  obtain ⟨q1, l1, h1, hl1, e1⟩ := List.forall₂_cons_left_iff.1 h
  obtain ⟨q2, l2, h2, hl2, e2⟩ := List.forall₂_cons_left_iff.1 hl1
  rw [List.forall₂_nil_left_iff] at hl2
  subst hl2 e2
  refine ⟨q1, q2, e1, ?_⟩
  rw [h2.glyphs]
  have hops : (flowRun.pages.map fun p => (pageGlyphs (demoWorld.env shortRes).widths p.ops).map fun g => ((g.moved (3, 5)).char, (g.moved (3, 5)).x, (g.moved (3, 5)).y))[1]? =
      some [('b', 3, 5)] := by decide +kernel
  rw [hp] at hops
  simpa using hops

end Pdfje
