import Verif.Model.Sources
/-
SPECIFICATION: documents made of collections, and of iterators.
-/

namespace Pdfje

/-- The items that the iterable gives now. -/
def Source.now {α} (s : Source α) (left : Nat → List α) : List α := match s with | .seq l => l | .iter i => left i

/-- Not an iterator. -/
def Source.Repeatable {α} (s : Source α) : Prop := ∃ l, s = .seq l

/-- The page, with the drawings that its content gives now. -/
def LazyPage.now (p : LazyPage) (left : Iterators) : Page := ⟨p.content.now left.drawings, p.size, p.rotate, p.columns⟩

/-- The item, with the content there is now. -/
def LazyItem.now (it : LazyItem) (left : Iterators) : DocItem :=
  match it with
  | .page p => .page (p.now left)
  | .auto a => .auto ⟨a.content.now left.blocks, fun n => (a.template n).now left⟩

/-- Nothing in the item is an iterator. -/
def LazyItem.Repeatable : LazyItem → Prop
  | .page p => p.content.Repeatable
  | .auto a => a.content.Repeatable ∧ ∀ n, (a.template n).content.Repeatable

/-- Nothing in the document is an iterator. -/
def LazyDoc.Repeatable (doc : LazyDoc) : Prop := ∃ its, doc.content = .seq its ∧ ∀ it ∈ its, it.Repeatable

/-- The iterator that gives the drawings of a page. -/
def LazyItem.drawingsIter : LazyItem → Option Nat
  | .page ⟨.iter i, _, _, _⟩ => some i
  | _ => none

/-- The iterator that gives the blocks of automatic pages. -/
def LazyItem.blocksIter : LazyItem → Option Nat
  | .auto ⟨.iter i, _⟩ => some i
  | _ => none

/-- Iterators are used only where they are read once: as the content of pages and automatic pages, each in one place; not in templates. -/
structure UsedOnce (its : List LazyItem) : Prop where
  drawings : (its.filterMap LazyItem.drawingsIter).Nodup
  blocks : (its.filterMap LazyItem.blocksIter).Nodup
  templates : ∀ a, .auto a ∈ its → ∀ n, (a.template n).content.Repeatable

end Pdfje
