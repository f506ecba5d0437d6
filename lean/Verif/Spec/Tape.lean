import Verif.Model.Pages
/-
Specification: laying out blocks as writing on a tape. The cells of the tape are all columns of all pages, in order.
-/

namespace Pdfje

/-- `n` elements of a sequence from position `a` on. -/
def slice {α} (f : Nat → α) (a n : Nat) : List α := (List.range n).map fun i => f (a + i)

/-- All columns of all pages in order, and the position of the column that is being filled. -/
structure Tape where
  cells : Nat → ColumnFill
  head : Nat

/-- The columns that a block can fill: the current one and all after it. -/
def Tape.view (t : Tape) : Nat → ColumnFill := fun i => t.cells (t.head + i)

/-- Putting filled columns in place of the current one and those after it; the last of them becomes the current column. -/
def Tape.fill (t : Tape) (filled : List ColumnFill) : Tape :=
  if filled = [] then t
  else ⟨fun i => if t.head ≤ i then (filled[i - t.head]?).getD (t.cells i) else t.cells i, t.head + filled.length - 1⟩

/-- Blocks one after the other, each given the columns that the ones before it left, and filling some. -/
inductive Fills (w : World) (s : StyleFull) : List Block → Tape → Tape → Prop
  | nil (t) : Fills w s [] t t
  | cons (b bs t r r' filled t') : b.intoColumns w r s t.view = (some filled, r') → Fills w s bs (t.fill filled) t' →
      Fills w s (b :: bs) t t'

/-- A paragraph, whose text is given line by line (lines end where the text has newlines): the chunks that each line is cut into are put at the end
of consecutive columns, one each, starting with the current one, which for the next line is the one of the last chunk. The
chunks are made for exactly these columns. -/
inductive LinesFill (p : Paragraph) (env : Env) (lead : ℚ) : List (List Passage) → State → Tape → Tape → Prop
  | nil (st t) : LinesFill p env lead [] st t t
  | cons (line rest st t cmd words chunks t') : intoWords env line st = some (cmd, words) →
      p.shape env (fun i => ((t.view i).box.width, (t.view i).heightFree)) lead (indentFirst words p.indent)
        (!(t.view 0).blocks.isEmpty) = some chunks → chunks ≠ [] →
      LinesFill p env lead rest (chunksState chunks (cmd.apply st)) (t.fill (chunks.mapIdx fun i c => (t.view i).add (.text c))) t' →
      LinesFill p env lead (line :: rest) st t t'

/-- The number of columns on the pages before page `n`. -/
def offset (pages : Nat → Page) : Nat → Nat
  | 0 => 0
  | n + 1 => offset pages n + (pages n).columns.length

/-- The columns of page `n` on the tape. -/
def Tape.page (t : Tape) (pages : Nat → Page) (n : Nat) : List ColumnFill := slice t.cells (offset pages n) (pages n).columns.length

/-- The tape at the beginning: all columns are empty, and the first is the current one. -/
structure Tape.IsNew (t : Tape) (pages : Nat → Page) : Prop where
  head : t.head = 0
  cells : ∀ n, t.page pages n = (pages n).columns.map ColumnFill.new

/-- A column with more blocks on it: the place is the same, and nothing that was there has changed. -/
def ColumnFill.Extends (a b : ColumnFill) : Prop := a.box = b.box ∧ ∃ added, b.blocks = a.blocks ++ added

/-- A block has only added to the columns it was given. -/
def Adds (cs : Nat → ColumnFill) (filled : List ColumnFill) : Prop := ∀ i c, filled[i]? = some c → (cs i).Extends c

/-- A tape on which more has been written: everything that was there is still in its place. -/
structure Tape.Grows (t u : Tape) : Prop where
  head : t.head ≤ u.head
  cells : ∀ i, (t.cells i).Extends (u.cells i)
  before : ∀ i, i < t.head → u.cells i = t.cells i
  after : ∀ i, u.head < i → u.cells i = t.cells i

/-- The blocks of a column are placed from its top down, each where the one before it ends. -/
structure ColumnFill.Stacked (c : ColumnFill) : Prop where
  place : ∀ i e, c.blocks[i]? = some e →
    e.1 = (c.box.origin.1, c.box.origin.2 + c.box.height - ((c.blocks.take i).map fun x => x.2.height).sum)
  free : c.heightFree = c.box.height - (c.blocks.map fun x => x.2.height).sum

end Pdfje
