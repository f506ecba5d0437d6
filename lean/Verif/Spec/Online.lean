import Verif.Spec.Words
import Verif.Model.Pages
/-
SPECIFICATION: text that is added at the end of a paragraph.
-/

namespace Pdfje

/-- The first text ends with a place where a line may end (a space, a hyphen, an em dash, a zero-width space) or does end (a newline), and the second one does not start with another space. -/
def EndsBefore (s t : List Char) : Prop := (∃ c, s.getLast? = some c ∧ (isBreak c = true ∨ c = '\n')) ∧ t.head? ≠ some ' '

/-- The column `b` has the same lines as `a`, in the same places, but for the last one: it may have other text there and after it. -/
def ColumnFill.SameButLastLine (a b : ColumnFill) : Prop :=
  a.box = b.box ∧ ∃ before pos s t after, a.blocks = before ++ [(pos, .text s)] ∧ b.blocks = before ++ (pos, .text t) :: after ∧
    s.lead = t.lead ∧ s.align = t.align ∧ s.lines.dropLast <+: t.lines

end Pdfje
