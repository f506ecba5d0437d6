import Verif.Model.Pages
/-
SPECIFICATION: documents on paper of other sizes, or turned.
-/

namespace Pdfje

/-- The pages differ at most in the size of the paper and in the way it is turned: drawings and columns are the same. -/
structure Page.SameInside (p q : Page) : Prop where
  content : p.content = q.content
  columns : p.columns = q.columns

/-- The items differ at most in the paper of their pages. -/
inductive DocItem.SameInside : DocItem → DocItem → Prop
  | page {p q : Page} (h : p.SameInside q) : SameInside (.page p) (.page q)
  | auto {blocks : List Block} {f g : Nat → Page} (h : ∀ n, (f n).SameInside (g n)) : SameInside (.auto ⟨blocks, f⟩) (.auto ⟨blocks, g⟩)

/-- The objects have the same number, and are the same except for the entries `MediaBox` and `Rotate` of a page. -/
def SameButFrame (a b : Obj) : Prop :=
  a.1 = b.1 ∧ (a.2 = b.2 ∨ ∃ d e : List (Bytes × Atom), a.2 = .dict d ∧ b.2 = .dict e ∧ (b!"Type", Atom.name b!"Page") ∈ d ∧
    List.Forall₂ (fun x y => x.1 = y.1 ∧ (x.1 ≠ b!"MediaBox" → x.1 ≠ b!"Rotate" → x.2 = y.2)) d e)

end Pdfje
