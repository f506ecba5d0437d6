import Verif.Spec.Lines
/-
SPECIFICATION: ways to divide words into lines of one width.
-/

namespace Pdfje

/-- How long a line of these words is; a space at its end does not count. -/
def lineLength : List WordLike → ℚ
  | [] => 0
  | [w] => w.prunedWidth
  | w :: v :: ws => w.width + lineLength (v :: ws)

/-- The words, if a line starts with them: the first one is not kerned with the word before it. -/
def atStart : List WordLike → List WordLike
  | [] => []
  | w :: ws => w.withoutInitKern :: ws

/-- The words are divided into these lines. No line is empty, and each one fits into this width. (The first word of the first line may be indented, which counts.) -/
structure Division (width : ℚ) (ws : List WordLike) (lines : List (List WordLike)) : Prop where
  all : lines.flatten = ws
  ne : ∀ l ∈ lines, l ≠ []
  first : ∀ l ∈ lines.head?, lineLength l ≤ width
  rest : ∀ l ∈ lines.tail, lineLength (atStart l) ≤ width

/-- Words that are not hyphenated, with usual measures: no word and no space has a negative width, and a word takes no more room at the start of a line than it does together with the word before
it: it is not kerned back by more than the width of that word. -/
structure Unhyphenated (ws : List WordLike) : Prop where
  whole : ∀ w ∈ ws, w.boxes.length ≤ 1
  width : ∀ w ∈ ws, 0 ≤ w.prunedWidth ∧ 0 ≤ w.withoutInitKern.prunedWidth
  space : ∀ w ∈ ws, 0 ≤ w.prunableSpace ∧ 0 ≤ w.withoutInitKern.prunableSpace
  kern : ∀ v w, [v, w] <:+: ws → w.withoutInitKern.prunedWidth ≤ v.withoutInitKern.width + w.prunedWidth ∧ w.withoutInitKern.width ≤ v.withoutInitKern.width + w.width

end Pdfje
