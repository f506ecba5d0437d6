import Verif.Spec.Paragraph
/-
Specification: the distances between glyphs on the lines of a paragraph.
-/

namespace Pdfje

/-- The lines that a viewer in state `v` shows of a chunk put at `pos`. (The first two entries of `Viewer.textLines` are what is before the first line; they show nothing.) -/
def ShapedText.shownAt (W : FontRef → Char → ℚ) (c : ShapedText) (pos : ℚ × ℚ) (width : ℚ) (v : Viewer) : List ShownLine :=
  match c.render pos width with | .text ops => (Viewer.textLines W ops v).drop 2 | _ => []

/-- What is shown of the chunks of one line of text, line by line, wherever the chunks are put. -/
inductive ShownFor (W : FontRef → Char → ℚ) : List ShapedText → List ShownLine → Prop
  | nil : ShownFor W [] []
  | cons (c cs pos width v ss) : ShownFor W cs ss → ShownFor W (c :: cs) (c.shownAt W pos width v ++ ss)

/-- These two glyphs are as far apart as the first one is wide. -/
def UnkernedPair (M : FontRef → Metrics) (g h : Glyph) : Prop := ∀ f z, g.font = some (f, z) → h.x = g.x + (M f).charwidth g.char / 1000 * z

/-- If these two glyphs are in the same font and size, then they are as far apart as the font says: by the width of the first one and the kerning of the pair. Otherwise they are not
kerned (except maybe before a hyphen). -/
def KernedPair (M : FontRef → Metrics) (g h : Glyph) : Prop := (g.font ≠ h.font → h.char ≠ '-' → UnkernedPair M g h) ∧ ∀ f z, g.font = some (f, z) → h.font = some (f, z) →
  h.x = g.x + ((M f).charwidth g.char + (M f).kerning (g.char, h.char)) / 1000 * z

/-- There is no break character, except maybe at the end. -/
def NoBreakInside (gs : List Glyph) : Prop := ∀ g ∈ gs.dropLast, isBreak g.char = false

/-- `c` is the last character on a line; or, with `optimal` line breaking, it may be the space dropped at its end, or the character before the hyphen at its end. -/
def EndsWith (optimal : Bool) (s : ShownLine) (c : Char) : Prop :=
  (∃ g ∈ s.glyphs.getLast?, g.char = c) ∨
    optimal = true ∧ (c = ' ' ∨ (∃ g ∈ s.glyphs.getLast?, g.char = '-') ∧ ∃ g ∈ s.glyphs.dropLast.getLast?, g.char = c)

/-- The first glyph is at the left edge of the line, moved by the kerning after `c`. -/
def KernedFrom (M : FontRef → Metrics) (s : ShownLine) (c : Char) (g : Glyph) : Prop :=
  ∃ f z, g.font = some (f, z) ∧ g.x = s.left + (M f).kerning (c, g.char) / 1000 * z

/-- On each of these lines, two neighbours in the same font and size are as far apart as the font says; or the first of them is a break character (a space, say), and they are not kerned.
(`justified`: spaces may be wider.) -/
def KernedInWords (M : FontRef → Metrics) (justified : Bool) (ss : List ShownLine) : Prop := ∀ s ∈ ss, ∀ a g h b, s.glyphs = a ++ g :: h :: b →
  (justified = true → h.char ≠ ' ') → KernedPair M g h ∨ isBreak g.char = true ∧ UnkernedPair M g h

/-- On each of these lines, two neighbours in the same font and size are as far apart as the font says; or they are not kerned, the first of them is a break character (a space, say),
and it is the last one on these lines, but for those at the very end of a line. -/
def KernedToLast (M : FontRef → Metrics) (justified : Bool) (ss : List ShownLine) : Prop := ∀ pre s post, ss = pre ++ s :: post → ∀ a g h b, s.glyphs = a ++ g :: h :: b →
  (justified = true → h.char ≠ ' ') → KernedPair M g h ∨ isBreak g.char = true ∧ UnkernedPair M g h ∧ NoBreakInside (h :: b) ∧ ∀ s' ∈ post, NoBreakInside s'.glyphs

/-- Each of these lines but the first starts at its left edge, or moved from it by the kerning with the end of the line before. -/
def KernedStarts (M : FontRef → Metrics) (optimal justified : Bool) (ss : List ShownLine) : Prop := ∀ pre s s' post, ss = pre ++ s :: s' :: post →
  ∀ g ∈ s'.glyphs.head?, (justified = true → g.char ≠ ' ') → g.x = s'.left ∨ ∃ c, EndsWith optimal s c ∧ KernedFrom M s' c g

end Pdfje
