import Verif.Spec.Glyphs
import Verif.Spec.Paragraph
/-
SPECIFICATION: the text of flowing paragraphs as it is read from a file: a sequence of code points, which does not tell where lines end.
-/

namespace Pdfje
open PdfSpec

/-- The lines that a text is set in, as they are read: the text is cut into consecutive pieces, and each line is its piece, or that without the space at its end, or
that with a hyphen. (Which of these, and where text may be cut, is in C48.) -/
inductive LinesRead : List (List Nat) → List Nat → Prop
  | nil : LinesRead [] []
  | cons (line piece rest lines) : line = piece ∨ piece = line ++ [0x20] ∨ line = piece ++ [0x2D] → LinesRead lines rest →
      LinesRead (line :: lines) (piece ++ rest)

/-- The lines of strings with their typefaces, as code points; lines end at newlines. -/
def readLines : List (List Char × Typeface) → List (List Nat)
  | [] => [[]]
  | (s, f) :: rest => joinLines ((textLines s).map fun l => l.map f.readAs) (readLines rest)

/-- The text of a block, line by line (lines end at newlines), each string read in the typeface of its style: its innermost style overrides the ones around it. -/
def Block.lines (base : StyleFull) : Block → List (List Nat)
  | .paragraph p => readLines ((itemsStrings [p.style] p.content).map fun e => (e.1, (base.overlay e.2).font))
  | .rule _ => []

/-- A paragraph with some text and without empty strings, in which the style changes only after newlines, of positive size and line spacing, no line being higher than `height`. -/
def Block.Flowing (base : StyleFull) (height : ℚ) : Block → Prop
  | .paragraph p => itemsStrings [p.style] p.content ≠ [] ∧
      (∀ e ∈ itemsStrings [p.style] p.content, e.1 ≠ [] ∧ 0 < (base.overlay e.2).size ∧ 0 < (base.overlay e.2).lineSpacing ∧
        (base.overlay e.2).size * (base.overlay e.2).lineSpacing ≤ height) ∧
      ∀ r, ChangesAtNewlines (contentStrings base p.style p.content r)
  | .rule _ => False

end Pdfje
