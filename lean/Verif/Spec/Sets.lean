import Verif.Model.Pages
import Verif.Spec.Styled
import Verif.Spec.Text
import Verif.Spec.Written
/-
SPECIFICATION: documents whose paragraphs have room for every word and line.
-/

namespace Pdfje

/-- Usual metrics: a space has a width, no character has a negative width, text never gets narrower when a character is added to it, and no character is wider than `most`
(in thousandths of the font size), with kerning or without. -/
structure Metrics.Proper (m : Metrics) (most : ℚ) : Prop where
  space : 0 < m.charwidth ' '
  char : ∀ c, 0 ≤ m.charwidth c ∧ m.charwidth c ≤ most
  pair : ∀ a c, 0 ≤ m.charwidth c + m.kerning (a, c) ∧ m.charwidth c + m.kerning (a, c) ≤ most

/-- All fonts are so: the standard ones, and those made from files. -/
def World.Proper (w : World) (most : ℚ) : Prop := (∀ f, (w.builtin f).Proper most) ∧ ∀ path, (w.files path).metrics.Proper most

/-- There is no place to break a line inside of the text: after a space (that is not followed by another one), a hyphen, a zero-width space or an em dash. -/
def OneWord (s : List Char) : Prop :=
  ∀ a c d b, s = a ++ c :: d :: b → c = ' ' ∨ c = '-' ∨ c = Char.ofNat 0x200B ∨ c = Char.ofNat 0x2014 → c = ' ' ∧ d = ' '

/-- No word of the text is longer than `n` characters (with the spaces after it). -/
def ShortWords (n : Nat) (s : List Char) : Prop := ∀ a word b, s = a ++ word ++ b → OneWord word → word.length ≤ n

/-- A paragraph for columns at least `width` wide and `height` high, in fonts whose characters are at most `most` thousandths wide: font sizes and line spacings are positive, every
line is as high as a column at most; and unless lines are broken by first-fit, the tolerance is positive, and if lines are aligned, `n + 1` of the widest characters (with the indent) fit
in a column, where no word is longer than `n` characters; if they are justified, the indent is not negative. -/
def Paragraph.Sets (base : StyleFull) (width height most : ℚ) (p : Paragraph) : Prop :=
  (0 < (base.or p.style).size ∧ 0 < (base.or p.style).lineSpacing ∧ (base.or p.style).size * (base.or p.style).lineSpacing ≤ height) ∧
  (∀ e ∈ itemsStrings [p.style] p.content, 0 < (base.overlay e.2).size ∧ 0 < (base.overlay e.2).lineSpacing ∧
    (base.overlay e.2).size * (base.overlay e.2).lineSpacing ≤ height) ∧
  ∀ o, p.optimal = some o → 0 < o.tolerance ∧
    if p.align = .justify then 0 ≤ p.indent
    else ∃ (n : Nat) (size : ℚ), (base.or p.style).size ≤ size ∧ (∀ e ∈ itemsStrings [p.style] p.content, (base.overlay e.2).size ≤ size) ∧
      (n + 1) * (most / 1000 * size) + max 0 p.indent ≤ width ∧
      ∀ r, ∀ l ∈ contentLines (contentStrings base p.style p.content r), ShortWords n (l.map (·.1))

/-- A block that can be set: a paragraph as above; or a rule that takes no height, or any rule, if there may be rules. -/
def Block.Sets (rules : Prop) (base : StyleFull) (width height most : ℚ) : Block → Prop
  | .paragraph p => p.Sets base width height most
  | .rule r => r.margin.top + r.margin.bottom ≤ 0 ∨ rules

/-- A page of drawings, or automatic pages whose columns are at least as wide and high as given, for paragraphs as above; all strings are made of characters of the alphabet. -/
def DocItem.Sets (rules : Prop) (base : StyleFull) (alphabet : List Char) (most : ℚ) : DocItem → Prop
  | .page p => ∀ d ∈ p.content, d.Drawable ∧ ∀ s ∈ d.strings, StringOver alphabet s
  | .auto a => ∃ width height, 0 < width ∧ 0 ≤ height ∧
      (∀ n, (a.template n).columns ≠ [] ∧ (∀ c ∈ (a.template n).columns, width ≤ c.width ∧ height ≤ c.height) ∧
        ∀ d ∈ (a.template n).content, d.Drawable ∧ ∀ s ∈ d.strings, StringOver alphabet s) ∧
      ∀ b ∈ a.content, b.Sets rules base width height most ∧ ∀ s ∈ b.strings, StringOver alphabet s

end Pdfje
