import Verif.Model.Pages
import Verif.Spec.Styled
/-
SPECIFICATION: documents that can be written.
-/

namespace Pdfje

/-- All drawings, except polylines whose first point is an `XY` (they raise an error: C55). -/
def Drawing.Drawable : Drawing → Prop
  | .polyline points _ _ _ => ∀ p rest, points = p :: rest → ∀ q, p ≠ .xy q
  | _ => True

/-- The strings of the text of a drawing. -/
def Drawing.strings : Drawing → List (List Char)
  | .text _ content style _ => (itemsStrings [style] content).map (·.1)
  | _ => []

/-- The strings of the text of a block. -/
def Block.strings : Block → List (List Char)
  | .paragraph p => (itemsStrings [p.style] p.content).map (·.1)
  | .rule _ => []

/-- A rule, or a paragraph with line breaks by first-fit, and positive sizes and line spacings. -/
def Block.Plain (base : StyleFull) : Block → Prop
  | .paragraph p => p.optimal = none ∧ 0 < (base.or p.style).size ∧ 0 < (base.or p.style).lineSpacing ∧
      ∀ e ∈ itemsStrings [p.style] p.content, 0 < (base.overlay e.2).size ∧ 0 < (base.overlay e.2).lineSpacing
  | .rule _ => True

/-- Not empty, and with these characters only. -/
def StringOver (alphabet : List Char) (s : List Char) : Prop := s ≠ [] ∧ ∀ c ∈ s, c ∈ alphabet

/-- A page of drawings, or automatic pages that all have columns (of any height, but not a negative one) for blocks as above; all strings are made of
characters of the alphabet. -/
def DocItem.Plain (base : StyleFull) (alphabet : List Char) : DocItem → Prop
  | .page p => ∀ d ∈ p.content, d.Drawable ∧ ∀ s ∈ d.strings, StringOver alphabet s
  | .auto a => (∀ n, (a.template n).columns ≠ [] ∧ (∀ c ∈ (a.template n).columns, 0 ≤ c.height) ∧
        ∀ d ∈ (a.template n).content, d.Drawable ∧ ∀ s ∈ d.strings, StringOver alphabet s) ∧
      ∀ b ∈ a.content, b.Plain base ∧ ∀ s ∈ b.strings, StringOver alphabet s

end Pdfje
