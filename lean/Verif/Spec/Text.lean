import Verif.Model.Render
import Verif.Spec.Words
/-
Specification: what a PDF viewer shows for a text object (`BT` ... `ET`, ISO 32000-1, 9.4), line by line.
-/

namespace Pdfje

/-- `BT` puts the start of the line at the origin; font, size, colour and leading stay. -/
def Viewer.beginText (v : Viewer) : Viewer := { v with lineX := 0, lineY := 0, x := 0 }

/-- A line of text on the page: its glyphs, its baseline, where it starts and where it ends. -/
structure ShownLine where
  glyphs : List Glyph
  y : ℚ
  left : ℚ
  right : ℚ
  deriving DecidableEq

/-- An operator that moves to a new line. -/
def TextOp.moves : TextOp → Bool
  | .td _ _ => true
  | .tdl _ _ => true
  | .tstar => true
  | _ => false

/-- The lines shown by operators: `cur` is the current line as far as it has been shown. -/
def Viewer.lines (W : FontRef → Char → ℚ) : List TextOp → Viewer → ShownLine → List ShownLine
  | [], _, cur => [cur]
  | op :: ops, v, cur =>
    let (g, v') := v.step W op
    if op.moves then cur :: Viewer.lines W ops v' ⟨g, v'.lineY, v'.x, v'.x⟩
    else Viewer.lines W ops v' { cur with glyphs := cur.glyphs ++ g, right := v'.x }

/-- The lines shown by a text object. -/
def Viewer.textLines (W : FontRef → Char → ℚ) (ops : List TextOp) (v : Viewer) : List ShownLine :=
  Viewer.lines W ops v.beginText ⟨[], 0, 0, 0⟩

/-- Where a line should be: at `x` (left-aligned and justified text), in the middle of the `width` after `x`
(centred text), or ending `width` after `x` (right-aligned text). -/
def ShownLine.Placed (l : ShownLine) (align : Align) (x width : ℚ) : Prop :=
  match align with
  | .left => l.left = x
  | .justify => l.left = x
  | .center => (l.left + l.right) / 2 = x + width / 2
  | .right => l.right = x + width

/-- These lines are shown below `pos`, one leading apart, each with exactly the given characters in their styles. -/
structure ShowsBelow (shown : List ShownLine) (lines : List (List (Char × State))) (pos : ℚ × ℚ) (lead : ℚ) : Prop where
  count : shown.length = lines.length
  baseline : ∀ (k : Nat) (s : ShownLine), shown[k]? = some s → s.y = pos.2 - (k + 1) * lead
  looks : ∀ (k : Nat) (s : ShownLine) (l : List (Char × State)), shown[k]? = some s → lines[k]? = some l →
    s.glyphs.map Glyph.look = l.map (lookOf s.y)

/-- The lines of a sequence of strings, each with its state: lines end at `"\n"` and `"\r\n"`. (`textLines` and
`joinLines` are in `Spec/Styled.lean`.) -/
def stringsLines : List (List Char × State) → List (List (Char × State))
  | [] => [[]]
  | (s, st) :: rest => joinLines ((textLines s).map fun l => l.map fun c => (c, st)) (stringsLines rest)

/-- The strings of styled content, in order, each with the state that its style stands for: its innermost style overrides the ones
around it, attribute by attribute (`r` tells which fonts the typefaces have). -/
def contentStrings (base : StyleFull) (style : Style) (content : List Item) (r : Res) : List (List Char × State) :=
  (itemsStrings [style] content).map fun e => (e.1, ((base.overlay e.2).asState r).1)

/-- The lines of styled content; nothing at all if there is no string. -/
def contentLines (strings : List (List Char × State)) : List (List (Char × State)) :=
  if strings = [] then [] else stringsLines strings

/-- The leading of a text: the largest product of font size and line spacing of any of its strings. -/
def IsLeading (strings : List (List Char × State)) (lead : ℚ) : Prop :=
  (∃ e ∈ strings, e.1 ≠ [] ∧ lead = e.2.size * e.2.lineSpacing) ∧ ∀ e ∈ strings, e.1 ≠ [] → e.2.size * e.2.lineSpacing ≤ lead

/-- There is some text, and sizes and line spacings are positive. -/
def HasText (strings : List (List Char × State)) : Prop :=
  (∃ e ∈ strings, e.1 ≠ []) ∧ ∀ e ∈ strings, e.1 ≠ [] → 0 < e.2.size ∧ 0 < e.2.lineSpacing

/-- The text starts with a newline. -/
def StartsLine (s : List Char) : Prop := ∃ rest, s = '\n' :: rest ∨ s = '\r' :: '\n' :: rest

/-- Where one string ends with a newline (or at the very beginning) and the next starts with one, so that there is an empty line between, the style does
not change. -/
def KeepsOnEmptyLines (st : State) (strings : List (List Char × State)) : Prop :=
  List.IsChain (fun a b => a.1.getLast? = some '\n' → StartsLine b.1 → a.2 = b.2) ((['\n'], st) :: strings)

end Pdfje
