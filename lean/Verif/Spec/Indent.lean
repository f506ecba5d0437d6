import Verif.Spec.Paragraph
/-
Specification: where the first line of a paragraph starts.
-/

namespace Pdfje

/-- Wherever the chunk is put, the first glyph of its first line is `x` to the right of where that line starts. -/
def ShapedText.StartsAt (W : FontRef → Char → ℚ) (x : ℚ) (c : ShapedText) : Prop :=
  ∀ (pos : ℚ × ℚ) (width : ℚ) (v : Viewer), ∃ ops b1 b2 s ss g gs, c.render pos width = .text ops ∧
    Viewer.textLines W ops v = b1 :: b2 :: s :: ss ∧ b1.glyphs = [] ∧ b2.glyphs = [] ∧ s.glyphs = g :: gs ∧ g.x = s.left + x

/-- The first of these chunks with any lines starts at the indent. -/
def Indented (W : FontRef → Char → ℚ) (indent : ℚ) (cs : List ShapedText) : Prop :=
  ∃ pre c post, cs = pre ++ c :: post ∧ (∀ x ∈ pre, x.lines = []) ∧ c.lines ≠ [] ∧ c.StartsAt W indent

/-- The first of these chunks (for columns of these widths) with any lines starts at the indent; or its first line is one piece of text that, without a
space at its end but with the indent, is too wide for its column. That piece is not indented. -/
def IndentedOrTooWide (W : FontRef → Char → ℚ) (indent : ℚ) (widths : Nat → ℚ) (cs : List ShapedText) : Prop :=
  ∃ pre c post l ls, cs = pre ++ c :: post ∧ (∀ x ∈ pre, x.lines = []) ∧ c.lines = l :: ls ∧
    (c.StartsAt W indent ∨ c.StartsAt W 0 ∧ ∃ piece, l.words = [piece] ∧ widths pre.length < indent + piece.prunedWidth)

/-- Lines of text and their chunks, put on the tape as `PutLines` says: those whose text does not start with a space have the property `P`, which may
depend on the widths of the columns they are for. -/
inductive LinesStart (P : (Nat → ℚ) → List ShapedText → Prop) : List (List ShapedText) → List (List (Char × State)) → Tape → Prop
  | nil (t) : LinesStart P [] [] t
  | cons (chunks css line lines t) : ((∃ e ∈ line.head?, e.1 ≠ ' ') → P (fun i => (t.view i).box.width) chunks) →
      LinesStart P css lines (t.fill (chunks.mapIdx fun i c => (t.view i).add (.text c))) → LinesStart P (chunks :: css) (line :: lines) t

end Pdfje
