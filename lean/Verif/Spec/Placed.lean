import Verif.Spec.Columns
/-
SPECIFICATION: the lines of text on pages.
-/

namespace Pdfje

/-- The lines of text on the pages: page by page, column by column, and in each column from the top down. Each has its words, with the spaces after them as they are set, and its width. -/
def PagesRun.lines (run : PagesRun) : List TLine := run.pages.flatMap fun x => x.page.cols.flatMap ColumnFill.lines

/-- All columns of a template have this width, and at least this height. -/
def AutoPage.Uniform (a : AutoPage) (width height : ℚ) : Prop :=
  ∀ n, (a.template n).columns ≠ [] ∧ ∀ c ∈ (a.template n).columns, c.width = width ∧ height ≤ c.height

/-- A line, rectangle, ellipse, circle or polyline, no text. -/
def Drawing.Graphic : Drawing → Prop
  | .text .. => False
  | _ => True

end Pdfje
