import Verif.Spec.Moved
/-
SPECIFICATION: changing the unit of length (all lengths are multiplied by a number) and changing colours (each colour is replaced by another one, different ones by
different ones), of everything that a document is made of, and of what is displayed.
-/

namespace Pdfje

/-- A change of the unit of length, and of colours. -/
structure Rescale where
  factor : ℚ
  color : RGB → RGB
  pos : 0 < factor
  inj : Function.Injective color

/-- Only the unit of length. -/
def Rescale.unit (k : ℚ) (h : 0 < k) : Rescale := ⟨k, id, h, Function.injective_id⟩

/-- Only the colours. -/
def Rescale.recolor (f : RGB → RGB) (h : Function.Injective f) : Rescale := ⟨1, f, one_pos, h⟩

variable (σ : Rescale)

/-- A point or a size. -/
def Rescale.pt (p : ℚ × ℚ) : ℚ × ℚ := (σ.factor * p.1, σ.factor * p.2)

/-! ### What is displayed -/

/-- A glyph: its place, its size, its colour. -/
def Glyph.via (g : Glyph) : Glyph :=
  { g with font := g.font.map fun e => (e.1, σ.factor * e.2), color := σ.color g.color, x := σ.factor * g.x, y := σ.factor * g.y }

@[inherit_doc Glyph.via] def Seg.via : Seg → Seg
  | .line p => .line (σ.pt p)
  | .curve c1 c2 p => .curve (σ.pt c1) (σ.pt c2) (σ.pt p)

@[inherit_doc Glyph.via] def Subpath.via (s : Subpath) : Subpath := { s with start := σ.pt s.start, segs := s.segs.map (Seg.via σ) }

/-- A painted path. -/
def Shape.via (s : Shape) : Shape := ⟨s.path.map (Subpath.via σ), s.fill.map σ.color, s.stroke.map σ.color⟩

/-- One page shows what the other shows, after the change: its size, its glyphs and its shapes. -/
structure Written.Rescaled (p q : Written) : Prop where
  size : q.page.base.size = σ.pt p.page.base.size
  rotate : q.page.base.rotate = p.page.base.rotate
  glyphs : ∀ W, pageGlyphs W q.ops = (pageGlyphs W p.ops).map (Glyph.via σ)
  shapes : pageShapes q.ops = (pageShapes p.ops).map fun l => l.map (Shape.via σ)

/-! ### What documents are made of -/

/-- A style: its size (line spacing is a factor), its colour. -/
def Style.via (s : Style) : Style := { s with size := s.size.map (σ.factor * ·), color := s.color.map σ.color }

@[inherit_doc Style.via] def StyleFull.via (s : StyleFull) : StyleFull := { s with size := σ.factor * s.size, color := σ.color s.color }

mutual
/-- Text with its styles. -/
def Item.via : Item → Item
  | .str s => .str s
  | .span c st => .span (itemsVia c) (st.via σ)
/-- A sequence. -/
def itemsVia : List Item → List Item
  | [] => []
  | i :: is => i.via :: itemsVia is
end

@[inherit_doc Item.via] def PointLike.via : PointLike → PointLike
  | .xy p => .xy (σ.pt p)
  | .tuple p => .tuple (σ.pt p)

/-- A drawing. -/
def Drawing.via : Drawing → Drawing
  | .line a b stroke => .line (σ.pt a) (σ.pt b) (stroke.map σ.color)
  | .rect o w h fill stroke => .rect (σ.pt o) (σ.factor * w) (σ.factor * h) (fill.map σ.color) (stroke.map σ.color)
  | .ellipse c w h fill stroke => .ellipse (σ.pt c) (σ.factor * w) (σ.factor * h) (fill.map σ.color) (stroke.map σ.color)
  | .circle c r fill stroke => .circle (σ.pt c) (σ.factor * r) (fill.map σ.color) (stroke.map σ.color)
  | .polyline ps close fill stroke => .polyline (ps.map (PointLike.via σ)) close (fill.map σ.color) (stroke.map σ.color)
  | .text loc content style align => .text (σ.pt loc) (itemsVia σ content) (style.via σ) align

/-- A column. -/
def Column.via (c : Column) : Column := ⟨σ.pt c.origin, σ.factor * c.width, σ.factor * c.height⟩

/-- A page. -/
def Page.via (p : Page) : Page := ⟨p.content.map (Drawing.via σ), σ.pt p.size, p.rotate, p.columns.map (Column.via σ)⟩

/-- A paragraph: its text, its style, its indentation. The parameters of line breaking are no lengths. -/
def Paragraph.via (p : Paragraph) : Paragraph := { p with content := itemsVia σ p.content, style := p.style.via σ, indent := σ.factor * p.indent }

/-- Four lengths. -/
def Sides.via (s : Sides) : Sides := ⟨σ.factor * s.top, σ.factor * s.right, σ.factor * s.bottom, σ.factor * s.left⟩

/-- A paragraph or a rule. -/
def Block.via : Block → Block
  | .paragraph p => .paragraph (p.via σ)
  | .rule r => .rule ⟨σ.color r.color, r.margin.via σ⟩

/-- An item of a document. -/
def DocItem.via : DocItem → DocItem
  | .page p => .page (p.via σ)
  | .auto a => .auto ⟨a.content.map (Block.via σ), fun n => (a.template n).via σ⟩

end Pdfje
