import Verif.Spec.Words
import Verif.Model.FirstFit
/-
Specification vocabulary for lines of text.
-/

namespace Pdfje

/-- There is a place between two of these words (or before the first or after the last) with `n` characters after it. -/
def Boundary (ws : List WordLike) (n : Nat) : Prop := ∃ x y, ws = x ++ y ∧ (y.flatMap WordLike.styled).length = n

/-- The lines show this text, which is that of the words `ws` or of the last of them: it is cut into consecutive
pieces, one for each line. If the cut is between words then the line is its piece, or that without a space at the end;
if the cut is inside a word then the line is its piece and a hyphen. -/
inductive LinesShow (ws : List WordLike) : List (List (Char × State)) → List (Char × State) → Prop
  | nil : LinesShow ws [] []
  | cons (line piece rest lines) : (Boundary ws rest.length → line = piece ∨ ∃ st, piece = line ++ [(' ', st)]) →
      (¬ Boundary ws rest.length → ∃ st, line = piece ++ [('-', st)]) → LinesShow ws lines rest →
      LinesShow ws (line :: lines) (piece ++ rest)

/-- The characters of a line. -/
def TLine.styled (l : TLine) : List (Char × State) := l.words.flatMap WordLike.styled

/-- A hyphen never moves the pen to the left, in any font. -/
def HyphenOk (env : Env) : Prop :=
  ∀ f, 0 ≤ (env.metrics f).charwidth '-' ∧ ∀ c, 0 ≤ (env.metrics f).charwidth '-' + (env.metrics f).kerning (c, '-')

/-- No syllable of this word has a negative font size. -/
def SizesOk (w : WordLike) : Prop := ∀ b ∈ w.boxes, 0 ≤ b.state.size

/-- The words of a paragraph: each starts in the state in which the one before it ends, and no word is empty.
(`paragraph_words` shows that these are the words of any styled text, indented or not.) -/
structure ParagraphWords (env : Env) (ws : List WordLike) : Prop where
  built : ∀ w ∈ ws, Built env w
  consecutive : Consecutive ws
  ne : ∀ w ∈ ws, w.text ≠ []

/-- The sum of the widths of words. -/
def totalWidth (ws : List WordLike) : ℚ := (ws.map WordLike.width).sum

/-- Words as they are made from text: not single syllables, and with at most one command. (`paragraph_plain` shows that
the words of any text are.) -/
def WordLike.Plain : WordLike → Prop
  | .word _ => True
  | .withCmd (.word _) _ => True
  | _ => False

/-- The width of the space at the end of a word, without kerning. -/
def WordLike.spaceWidth (w : WordLike) : ℚ := match w.tail with | some t => t.widthExclKern | none => 0

/-- The sum of the spaces of words. -/
def totalSpace (ws : List WordLike) : ℚ := (ws.map WordLike.spaceWidth).sum

/-- A line of this width with the words `content` and the first `k` syllables of `w` on it must end there: neither
what is left of `w` (without a space at its end) fits, nor its next syllable with a hyphen. -/
structure MustBreak (env : Env) (width : ℚ) (content : List WordLike) (w : WordLike) (k : Nat) : Prop where
  word : width < totalWidth content + w.prunedWidth
  syllable : ∀ x, w.boxes[k]? = some x → k + 1 < w.boxes.length →
    width < totalWidth content + ((w.boxes.take k).map Box.width).sum + (x.withHyphen env).width

/-- `b` is what is left of `w` after `k` syllables. -/
structure RestOf (w : WordLike) (k : Nat) (b : WordLike) : Prop where
  boxes : b.boxes.map Box.styled = (w.boxes.drop k).map Box.styled
  tail : b.tail.isSome = w.tail.isSome
  whole : k = 0 → b.styled = w.styled

/-- A greedy line: of the words `ws` it shows as many words and syllables as fit, and leaves the words `ws'`. If
not even the first syllable fits, this one is shown anyway. -/
def Greedy (env : Env) (width : ℚ) (ws : List WordLike) (line : List (Char × State)) (ws' : List WordLike) : Prop :=
  ∃ content w rest k, ws = content ++ w :: rest ∧ MustBreak env width content w k ∧
    ((content ≠ [] ∧ k = 0 ∧ (∃ b, RestOf w 0 b ∧ ws' = b :: rest) ∧
        (line = content.flatMap WordLike.styled ∨ ∃ st, content.flatMap WordLike.styled = line ++ [(' ', st)])) ∨
      (0 < k ∧ k < w.boxes.length ∧ (∃ b, RestOf w k b ∧ ws' = b :: rest) ∧
        ∃ st, line = content.flatMap WordLike.styled ++ (w.boxes.take k).flatMap Box.styled ++ [('-', st)]) ∨
      (content = [] ∧ k = 0 ∧ 2 ≤ w.boxes.length ∧ (∃ b, RestOf w 1 b ∧ ws' = b :: rest) ∧
        ∃ st, line = (w.boxes.take 1).flatMap Box.styled ++ [('-', st)]) ∨
      (content = [] ∧ k = 0 ∧ w.boxes.length ≤ 1 ∧ ws' = rest ∧ line = w.styled))

/-- Greedy lines, each with its width. The last shows all words that are left, and these fit (a space at the end
aside) or are one word of one syllable. -/
inductive GreedyLines (env : Env) : List WordLike → List (ℚ × List (Char × State)) → Prop
  | last (ws width) : (∀ init l, ws = init ++ [l] → totalWidth init + l.prunedWidth ≤ width ∨ init = [] ∧ l.boxes.length ≤ 1) →
      GreedyLines env ws [(width, ws.flatMap WordLike.styled)]
  | more (ws width line ws' lines) : Greedy env width ws line ws' → GreedyLines env ws' lines →
      GreedyLines env ws ((width, line) :: lines)

/-- The lines in columns `i` and on, each with the width of its column. -/
def linesOf (cols : Cols) : Nat → List ShapedText → List (ℚ × TLine)
  | _, [] => []
  | i, c :: cs => c.lines.map (fun l => ((cols i).1, l)) ++ linesOf cols (i + 1) cs

end Pdfje
