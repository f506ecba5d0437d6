import Verif.Model.Parse
import Verif.Spec.Styled
import Verif.Spec.Viewer
/-
Specification vocabulary for words: their characters with their styles, and how they look on the page.
-/

namespace Pdfje

/-- The characters of a slug, with their state. -/
def Slug.styled (s : Slug) : List (Char × State) := s.txt.map fun c => (c, s.state)

@[inherit_doc Slug.styled] def Box.styled : Box → List (Char × State)
  | .slug s => s.styled
  | .mixed segs _ => segs.flatMap fun e => e.1.styled

@[inherit_doc Slug.styled] def Word.styled (w : Word) : List (Char × State) :=
  w.boxes.flatMap Box.styled ++ match w.tail with | some _ => [(' ', w.state)] | none => []

/-- The characters of a word, each with the state it is set in. -/
def WordLike.styled : WordLike → List (Char × State)
  | .box b => b.styled
  | .word w => w.styled
  | .withCmd w _ => w.styled

/-- The text of a word. -/
def WordLike.text (w : WordLike) : List Char := w.styled.map (·.1)

/-- What can be seen of a glyph except its horizontal position: character, font of its code, font and size and colour
in use, baseline. -/
def Glyph.look (g : Glyph) : Char × FontRef × Option (FontRef × ℚ) × RGB × ℚ := (g.char, g.enc, g.font, g.color, g.y)

/-- How a character in a state should look: encoded for the font of its style, and shown in font, size and colour of
its style. -/
def lookOf (y : ℚ) (e : Char × State) : Char × FontRef × Option (FontRef × ℚ) × RGB × ℚ :=
  (e.1, e.2.font, some (e.2.font, e.2.size), e.2.color, y)

/-- The viewer uses the font, size and colour of this state. -/
def Viewer.In (v : Viewer) (st : State) : Prop := v.font = some (st.font, st.size) ∧ v.color = st.color

/-- The widths of a PDF viewer are those the metrics give. -/
def Env.widths (env : Env) : FontRef → Char → ℚ := fun f c => (env.metrics f).charwidth c

/-- The break characters: space, hyphen, zero-width space, em dash. -/
def isBreak (c : Char) : Bool := c = ' ' || c = '-' || c = zwsp || c = emDash

/-- A hyphenation function that cuts texts into pieces, of which only the last may be empty. -/
def Cuts (h : List Char → List (List Char)) : Prop := ∀ s, (h s).flatten = s ∧ ∀ p ∈ (h s).dropLast, p ≠ []

/-- All hyphenation functions cut texts into pieces, and number 0 (`hyphens=None`) does not cut. -/
structure Env.Ok (env : Env) : Prop where
  cuts : ∀ h, Cuts (env.hyph h)
  never : ∀ s, env.hyph 0 s = [s]

/-- Passages without empty text, except that the first may be empty if its command is a single one (or it is the
only passage), and the last may be empty. This is what `splitlines` makes of passages that are not empty. -/
def Tidy (ps : List Passage) : Prop :=
  (∀ p ∈ ps.tail.dropLast, p.txt ≠ []) ∧ (ps.tail ≠ [] → ∀ p ∈ ps.head?, p.txt = [] → p.cmd.Flat)

/-- No font size of these characters is zero. -/
def NonZero (cs : List (Char × State)) : Prop := ∀ e ∈ cs, e.2.size ≠ 0

/-- The words that typesetting works with: those that come from text, and everything made from them by the operations
of words.py, in any order. -/
inductive Built (env : Env) : WordLike → Prop
  | parsed {ps st cmd ws w} : Tidy ps → intoWords env ps st = some (cmd, ws) → w ∈ ws → Built env w
  | withoutInitKern {w} : Built env w → Built env w.withoutInitKern
  | indent {w} (a : ℚ) : Built env w → NonZero w.styled → Built env (w.indent a)
  | extendTail {w} (a : ℚ) : Built env w → NonZero w.styled → Built env (w.extendTail a)
  | stretchTail {w} (a : ℚ) : Built env w → NonZero w.styled → Built env (w.stretchTail a)
  | pruned {w} : Built env w → Built env w.pruned
  | hyphenateFirst {w a b} (space : ℚ) : Built env w → w.hyphenate env space = some (some a, b) → Built env a
  | hyphenateRest {w a b} (space : ℚ) : Built env w → w.hyphenate env space = some (a, b) → Built env b
  | minimalFirst {w a b} : Built env w → w.minimalBox env = (a, b) → Built env a
  | minimalRest {w a b} : Built env w → w.minimalBox env = (a, some b) → Built env b
  | box {w b} : Built env w → b ∈ w.boxes → Built env (.box b)
  | boxHyphen {w b} : Built env w → b ∈ w.boxes → Built env (.box (b.withHyphen env))
  | lastBox {w b} : Built env (.word w) → w.boxes.getLast? = some b → Built env (.word ⟨[b], w.tail, w.state⟩)
  | noBox {w} : Built env (.word w) → Built env (.word ⟨[], w.tail, w.state⟩)
  | unwrap {w c} : Built env (.withCmd w c) → Built env w
  | addCmd {w} (c : Command) : Built env w → Built env (w.addCmd c)

/-- How `hyphenate` may cut a word at a width: after the first `k` syllables, where `0 < k`, and there is at least
one syllable left. The first part is these syllables and a hyphen, and fits; one more syllable would not fit. The rest
is the other syllables, and the trailing space if there is one. -/
structure CutAt (env : Env) (w a b : WordLike) (space : ℚ) (k : Nat) : Prop where
  pos : 0 < k
  lt : k < w.boxes.length
  first : ∃ st, a.styled = (w.boxes.take k).flatMap Box.styled ++ [('-', st)]
  rest : b.boxes.map Box.styled = (w.boxes.drop k).map Box.styled
  tail : b.tail = w.tail
  whole : ∃ l, w.styled = l ++ b.styled ∧ a.styled.dropLast = l
  fits : a.width ≤ space
  most : ∀ x, w.boxes[k]? = some x → space < ((w.boxes.take k).map Box.width).sum + (x.withHyphen env).width

/-- Consecutive words: each starts in the state in which the one before it ends. -/
def Consecutive : List WordLike → Prop
  | [] => True
  | [_] => True
  | a :: b :: rest => a.state = b.preState ∧ Consecutive (b :: rest)

end Pdfje
