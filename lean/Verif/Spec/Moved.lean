import Verif.Spec.Glyphs
import Verif.Spec.Paths
import Verif.Model.Pages
/-
SPECIFICATION: moving points, drawings, columns and pages, and moving what is displayed.
-/

namespace Pdfje

/-- A point, moved. -/
def movedBy (v p : ℚ × ℚ) : ℚ × ℚ := (p.1 + v.1, p.2 + v.2)

/-! ### What is displayed -/

/-- A glyph, moved. -/
def Glyph.moved (v : ℚ × ℚ) (g : Glyph) : Glyph := { g with x := g.x + v.1, y := g.y + v.2 }

@[inherit_doc Glyph.moved] def Seg.moved (v : ℚ × ℚ) : Seg → Seg
  | .line p => .line (movedBy v p)
  | .curve c1 c2 p => .curve (movedBy v c1) (movedBy v c2) (movedBy v p)

@[inherit_doc Glyph.moved] def Subpath.moved (v : ℚ × ℚ) (s : Subpath) : Subpath := { s with start := movedBy v s.start, segs := s.segs.map (Seg.moved v) }

/-- A painted path, moved: its colours are the same. -/
def Shape.moved (v : ℚ × ℚ) (s : Shape) : Shape := { s with path := s.path.map (Subpath.moved v) }

/-- The graphics state at the beginning of a page: black, no path. -/
def Gfx.initial : Gfx := ⟨⟨0, 0, 0⟩, ⟨0, 0, 0⟩, []⟩

/-- Everything that is painted on a page with path operators; `none` if there is an operator where it is not allowed. -/
def pageShapes (ops : List PageOp) : Option (List Shape) := (Gfx.run ops .initial).map (·.1)

/-- One page shows what the other shows, moved: it has the same size and rotation, and the same glyphs and shapes, all of them moved. -/
structure Written.Moved (v : ℚ × ℚ) (p q : Written) : Prop where
  size : q.page.base.size = p.page.base.size
  rotate : q.page.base.rotate = p.page.base.rotate
  glyphs : ∀ W, pageGlyphs W q.ops = (pageGlyphs W p.ops).map (Glyph.moved v)
  shapes : pageShapes q.ops = (pageShapes p.ops).map fun l => l.map (Shape.moved v)

/-! ### What is moved -/

@[inherit_doc Glyph.moved] def PointLike.moved (v : ℚ × ℚ) : PointLike → PointLike
  | .xy p => .xy (movedBy v p)
  | .tuple p => .tuple (movedBy v p)

/-- A drawing, at another place. -/
def Drawing.moved (v : ℚ × ℚ) : Drawing → Drawing
  | .line a b stroke => .line (movedBy v a) (movedBy v b) stroke
  | .rect o w h fill stroke => .rect (movedBy v o) w h fill stroke
  | .ellipse c w h fill stroke => .ellipse (movedBy v c) w h fill stroke
  | .circle c r fill stroke => .circle (movedBy v c) r fill stroke
  | .polyline ps close fill stroke => .polyline (ps.map (PointLike.moved v)) close fill stroke
  | .text loc content style align => .text (movedBy v loc) content style align

/-- A column of the same size, at another place. -/
def Column.moved (v : ℚ × ℚ) (c : Column) : Column := { c with origin := movedBy v c.origin }

/-- A page with all its drawings and columns at another place. -/
def Page.moved (v : ℚ × ℚ) (p : Page) : Page := { p with content := p.content.map (Drawing.moved v), columns := p.columns.map (Column.moved v) }

/-- An item of a document with everything at another place. -/
def DocItem.moved (v : ℚ × ℚ) : DocItem → DocItem
  | .page p => .page (p.moved v)
  | .auto a => .auto ⟨a.content, fun n => (a.template n).moved v⟩

/-- What was put in a column: lines of text are placed by their position, a rule has its own ends. -/
def Shaped.moved (v : ℚ × ℚ) : Shaped → Shaped
  | .text t => .text t
  | .rule a b c h => .rule (movedBy v a) (movedBy v b) c h

/-- A column with what is in it, at another place. -/
def ColumnFill.moved (v : ℚ × ℚ) (c : ColumnFill) : ColumnFill :=
  { c with box := c.box.moved v, blocks := c.blocks.map fun e => (movedBy v e.1, e.2.moved v) }

end Pdfje
