import Verif.Spec.Tight
/-
Specification: how far the lines of a paragraph reach across their column.
-/

namespace Pdfje

/-- The glyph ends at `x`. -/
def Glyph.EndsAt (W : FontRef → Char → ℚ) (g : Glyph) (x : ℚ) : Prop := ∃ f z, g.font = some (f, z) ∧ x = g.x + W f g.char / 1000 * z

/-- The line is no wider than that; or it ends with a space, and without it the line is no wider than that. -/
def ShownLine.Narrow (W : FontRef → Char → ℚ) (width : ℚ) (s : ShownLine) : Prop :=
  s.right - s.left ≤ width ∨ ∃ gs h, s.glyphs = gs ++ [h] ∧ h.char = ' ' ∧ ∀ g ∈ gs.getLast?, ∃ x, g.EndsAt W x ∧ x - s.left ≤ width

/-- There is no place inside the text where a line may end: a space, hyphen, zero-width space or em dash is at its end, or among the spaces at its end. -/
def NoBreakPlace (cs : List Char) : Prop := ∀ a c d b, cs = a ++ c :: d :: b → isBreak c = true → c = ' ' ∧ d = ' '

/-- There is no place inside the line where it may be broken, a hyphen at its end aside. -/
def ShownLine.OnePiece (s : ShownLine) : Prop := ∃ cs, NoBreakPlace cs ∧ (s.glyphs.map Glyph.char = cs ∨ s.glyphs.map Glyph.char = cs ++ ['-'])

/-- A line of at most one word, which is not hyphenated inside the line. -/
def TLine.OneSyllable (l : TLine) : Prop := l.words.length ≤ 1 ∧ ∀ w ∈ l.words, w.boxes.length ≤ 1

/-- A line without spaces that could be stretched. -/
def TLine.Unspaced (l : TLine) : Prop := ∀ w ∈ l.words, w.tail = none

/-- These chunks for columns of these widths: if they start quietly, their lines are no wider than the columns, with the exceptions `E`. -/
def FitAcross (W : FontRef → Char → ℚ) (E : ShownLine → TLine → Prop) (widths : Nat → ℚ) (cs : List ShapedText) : Prop :=
  ∀ (i : Nat) (c : ShapedText), cs[i]? = some c → c.StartsQuiet → ∀ (pos : ℚ × ℚ) (v : Viewer) (k : Nat) (s : ShownLine) (l : TLine),
    (c.shownAt W pos (widths i) v)[k]? = some s → c.lines[k]? = some l → s.Narrow W (widths i) ∨ E s l

/-- These chunks for columns of these widths: if they start quietly, their lines, but for the last one and for those without spaces that could be stretched, reach from edge to edge. -/
def FillAcross (W : FontRef → Char → ℚ) (widths : Nat → ℚ) (cs : List ShapedText) : Prop :=
  ∀ (i : Nat) (c : ShapedText), cs[i]? = some c → c.StartsQuiet → ∀ (pos : ℚ × ℚ) (v : Viewer) (k : Nat) (s : ShownLine) (l : TLine),
    (c.shownAt W pos (widths i) v)[k]? = some s → c.lines[k]? = some l → ¬ (i + 1 = cs.length ∧ k + 1 = c.lines.length) →
    ¬ l.Unspaced → s.left = pos.1 ∧ s.right = pos.1 + widths i

/-- The same, but a line may also be too short by the widths of its spaces: they would have to be exactly twice as wide, and are as they were. -/
def FillAcrossOr (W : FontRef → Char → ℚ) (widths : Nat → ℚ) (cs : List ShapedText) : Prop :=
  ∀ (i : Nat) (c : ShapedText), cs[i]? = some c → c.StartsQuiet → ∀ (pos : ℚ × ℚ) (v : Viewer) (k : Nat) (s : ShownLine) (l : TLine),
    (c.shownAt W pos (widths i) v)[k]? = some s → c.lines[k]? = some l → ¬ (i + 1 = cs.length ∧ k + 1 = c.lines.length) →
    ¬ l.Unspaced → s.left = pos.1 ∧ (s.right = pos.1 + widths i ∨ s.right = pos.1 + widths i - totalSpace l.words)

/-- Lists of chunks that are put on the tape as `PutLines` says have the property `P`, which may depend on the widths of the columns they are for. -/
inductive PutWith (P : (Nat → ℚ) → List ShapedText → Prop) : List (List ShapedText) → Tape → Prop
  | nil (t) : PutWith P [] t
  | cons (chunks css t) : P (fun i => (t.view i).box.width) chunks →
      PutWith P css (t.fill (chunks.mapIdx fun i c => (t.view i).add (.text c))) → PutWith P (chunks :: css) t

end Pdfje
