import Verif.Spec.Words
import Verif.Model.Pages
/-
SPECIFICATION: cutting a string of a paragraph into two.
-/

namespace Pdfje

/-- A text may be cut here: the first part ends with a place where a line may end (a space, a hyphen, an em dash, a zero-width space), the second one does not start with another space, and no font
kerns the two characters at the cut. -/
structure MayCut (w : World) (s t : List Char) : Prop where
  brk : ∃ c, s.getLast? = some c ∧ isBreak c = true
  space : t.head? ≠ some ' '
  kern : ∀ c d, s.getLast? = some c → t.head? = some d → ∀ (r : Res) (f : FontRef), ((w.env r).metrics f).kerning (c, d) = 0

/-- The second content is the first one with one of its strings, perhaps in spans within spans, cut into two: at a place where a line may end, as above, or after a line end. -/
inductive CutInTwo (w : World) : List Item → List Item → Prop
  | here {s t : List Char} (ht : t ≠ []) (h : MayCut w s t) (after : List Item) : CutInTwo w (.str (s ++ t) :: after) (.str s :: .str t :: after)
  | newline (s t : List Char) (after : List Item) : CutInTwo w (.str (s ++ '\n' :: t) :: after) (.str (s ++ ['\n']) :: .str t :: after)
  | later (i : Item) {a b : List Item} (h : CutInTwo w a b) : CutInTwo w (i :: a) (i :: b)
  | inSpan {a b : List Item} (h : CutInTwo w a b) (style : Style) (after : List Item) : CutInTwo w (.span a style :: after) (.span b style :: after)

/-- The second list of items has the same paragraphs and texts as the first one, on the same pages, but the content of each may be changed in the given way, which may depend on the style in use. -/
inductive Block.With (s : StyleFull) (R : StyleFull → List Item → List Item → Prop) : Block → Block → Prop
  | paragraph (p : Paragraph) {a b : List Item} (h : R (s.or p.style) a b) : With s R (.paragraph { p with content := a }) (.paragraph { p with content := b })
  | same (b : Block) : With s R b b

@[inherit_doc Block.With] inductive Drawing.With (s : StyleFull) (R : StyleFull → List Item → List Item → Prop) : Drawing → Drawing → Prop
  | text (loc : ℚ × ℚ) (style : Style) (align : Align) {a b : List Item} (h : R (s.or style) a b) : With s R (.text loc a style align) (.text loc b style align)
  | same (d : Drawing) : With s R d d

@[inherit_doc Block.With] structure Page.With (s : StyleFull) (R : StyleFull → List Item → List Item → Prop) (p q : Page) : Prop where
  content : List.Forall₂ (Drawing.With s R) p.content q.content
  columns : p.columns = q.columns
  size : p.size = q.size
  rotate : p.rotate = q.rotate

@[inherit_doc Block.With] inductive DocItem.With (s : StyleFull) (R : StyleFull → List Item → List Item → Prop) : DocItem → DocItem → Prop
  | page {p q : Page} (h : p.With s R q) : With s R (.page p) (.page q)
  | auto {bs bs' : List Block} {f g : Nat → Page} (hb : List.Forall₂ (Block.With s R) bs bs') (h : ∀ n, (f n).With s R (g n)) : With s R (.auto ⟨bs, f⟩) (.auto ⟨bs', g⟩)

end Pdfje
