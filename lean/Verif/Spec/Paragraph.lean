import Verif.Spec.Text
import Verif.Spec.Tape
import Verif.Spec.Lines
/-
Specification: what is shown of a paragraph.
-/

namespace Pdfje

/-- The chunks of the lines of a paragraph are put in columns: those of each line at the end of consecutive columns, one each, starting with the
current one, which for the next line is that of the last chunk. -/
inductive PutLines : List (List ShapedText) → Tape → Tape → Prop
  | nil (t) : PutLines [] t t
  | cons (chunks rest t t') : chunks ≠ [] → PutLines rest (t.fill (chunks.mapIdx fun i c => (t.view i).add (.text c))) t' →
      PutLines (chunks :: rest) t t'

/-- Wherever the chunk is put, a viewer shows these lines below that place, one leading apart, each with exactly these characters in their styles. -/
def ShapedText.Shows (W : FontRef → Char → ℚ) (lead : ℚ) (c : ShapedText) (lines : List (List (Char × State))) : Prop :=
  ∀ (pos : ℚ × ℚ) (width : ℚ) (v : Viewer), ∃ ops b1 b2 ss, c.render pos width = .text ops ∧
    Viewer.textLines W ops v = b1 :: b2 :: ss ∧ b1.glyphs = [] ∧ b2.glyphs = [] ∧ ShowsBelow ss lines pos lead

/-- The chunks show this text: each of them shows some lines, which together show the text, each a piece of it, without the space at its end
maybe, or with a hyphen (`LinesShow` is in `Spec/Lines.lean`). -/
def TextShown (W : FontRef → Char → ℚ) (lead : ℚ) (chunks : List ShapedText) (text : List (Char × State)) : Prop :=
  ∃ (ws : List WordLike) (shown : List (List (List (Char × State)))), ws.flatMap WordLike.styled = text ∧
    List.Forall₂ (ShapedText.Shows W lead) chunks shown ∧ LinesShow ws shown.flatten text

/-- The same, but only the chunks with property `P` are known to show their lines. -/
def TextShownIf (P : ShapedText → Prop) (W : FontRef → Char → ℚ) (lead : ℚ) (chunks : List ShapedText) (text : List (Char × State)) : Prop :=
  ∃ (ws : List WordLike) (shown : List (List (List (Char × State)))), ws.flatMap WordLike.styled = text ∧
    List.Forall₂ (fun c lines => P c → ShapedText.Shows W lead c lines) chunks shown ∧ LinesShow ws shown.flatten text

/-- Wherever the chunk is put, its lines are where alignment `align` asks for. -/
def ShapedText.IsPlaced (W : FontRef → Char → ℚ) (align : Align) (c : ShapedText) : Prop :=
  ∀ (pos : ℚ × ℚ) (width : ℚ) (v : Viewer), ∃ ops b1 b2 ss, c.render pos width = .text ops ∧
    Viewer.textLines W ops v = b1 :: b2 :: ss ∧ b1.glyphs = [] ∧ b2.glyphs = [] ∧ ∀ s ∈ ss, s.Placed align pos.1 width

/-- The style changes only after newlines. -/
def ChangesAtNewlines (strings : List (List Char × State)) : Prop :=
  List.IsChain (fun a b => a.1.getLast? ≠ some '\n' → a.2 = b.2) strings

/-- There is room: no column is over-full, and in an empty column there is room for a line; columns after the current one are empty. -/
structure Tape.Roomy (t : Tape) (lead : ℚ) : Prop where
  free : ∀ i, t.head ≤ i → 0 ≤ (t.cells i).heightFree
  empty : ∀ i, t.head ≤ i → (t.cells i).blocks = [] → lead ≤ (t.cells i).heightFree
  after : ∀ i, t.head < i → (t.cells i).blocks = []

/-- The first word of the chunk ends in the style in which it starts. -/
def ShapedText.StartsQuiet (c : ShapedText) : Prop := ∀ w ∈ (c.lines.flatMap TLine.words).head?, w.state = w.preState

/-- No line of the chunks is blank, unless the text is. -/
def NoBlankLines (chunks : List ShapedText) (text : List (Char × State)) : Prop := text ≠ [] → ∀ c ∈ chunks, ∀ l ∈ c.lines, l.styled ≠ []

end Pdfje
