import Verif.Model.Pages
/-
SPECIFICATION: text with newlines, and paragraphs of lines.
-/

namespace Pdfje

/-- The same kind of paragraph (style, alignment, indentation, line breaking) with this text: `Paragraph(text, ...)`. -/
def Paragraph.ofText (p : Paragraph) (text : List Char) : Paragraph := { p with content := [.str text] }

/-- `"\n".join(lines)`. -/
def withNewlines : List (List Char) → List Char
  | [] => []
  | [l] => l
  | l :: ls => l ++ '\n' :: withNewlines ls

/-- A line: a text without newlines, and that does not end in a carriage return (which would be part of the newline after it). -/
def IsLine (l : List Char) : Prop := '\n' ∉ l ∧ l.getLast? ≠ some '\r'

end Pdfje
