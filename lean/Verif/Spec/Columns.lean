import Verif.Spec.Text
import Verif.Model.Pages
/-
Specification: the blocks of a column are inside of it.
-/

namespace Pdfje

/-- Every block of the column lies between its upper and its lower edge: it starts below the one and ends above the other. -/
def ColumnFill.Inside (c : ColumnFill) : Prop :=
  ∀ e ∈ c.blocks, c.box.origin.2 ≤ e.1.2 - e.2.height ∧ e.1.2 ≤ c.box.origin.2 + c.box.height

/-- The lines of text in a block. -/
def Shaped.lines : Shaped → List TLine
  | .text t => t.lines
  | .rule .. => []

/-- The lines of text in a column. -/
def ColumnFill.lines (c : ColumnFill) : List TLine := c.blocks.flatMap fun e => e.2.lines

/-- A paragraph with some text and without empty strings, of positive sizes and line spacings; `P` holds of the paragraph and of the height of each of its lines. -/
def Block.Lines (base : StyleFull) (P : Paragraph → ℚ → Prop) : Block → Prop
  | .paragraph p => itemsStrings [p.style] p.content ≠ [] ∧
      ∀ e ∈ itemsStrings [p.style] p.content, e.1 ≠ [] ∧ 0 < (base.overlay e.2).size ∧ 0 < (base.overlay e.2).lineSpacing ∧
        P p ((base.overlay e.2).size * (base.overlay e.2).lineSpacing)
  | .rule _ => False

/-- The operators draw this block, with its top at the height `top`: the lines of a text that have any glyphs have their baselines one leading below the top, two leadings below it,
and so on, and the last at the lower end of the block; a rule is a straight line between its ends. -/
def Shaped.DrawnAt (W : FontRef → Char → ℚ) (s : Shaped) (top : ℚ) (ops : List PageOp) : Prop :=
  match s with
  | .text t => ∃ tops, ops = [.text tops] ∧ ∀ (v : Viewer), ∀ l ∈ Viewer.textLines W tops v, l.glyphs ≠ [] →
      ∃ k < t.lines.length, l.y = top - (k + 1) * t.lead
  | .rule a b c _ => ops = [.moveTo a.1 a.2, .lineTo b.1 b.2, .strokeColor c, .paint .stroke]

end Pdfje
