import Verif.Proofs.DocRead
import Mathlib.Logic.Function.Basic
/-
Model of what is given as content: document.py, page.py and layout/pages.py accept any iterable, keep it as it is, and read it whenever a document is written. A collection can be read again
and again; an iterator (a generator, `map(...)`, an open file) gives its items once. In Model/Pages contents are lists, as if they were read once only; here that is a separate step.
-/

namespace Pdfje

/-- An iterable: a collection, or an iterator, given by its identity. (page.py:131 `Iterable[Drawing]`, layout/pages.py:38 `Iterable[Block | str]`, document.py:58 `Iterable[Page | AutoPage]`.) -/
inductive Source (α : Type) where
  | seq (l : List α)
  | iter (id : Nat)

/-- `iter(x)` and then `next` until the end, if iterators have these items left: the items, and what is left afterwards. -/
def Source.read {α} (s : Source α) (left : Nat → List α) : List α × (Nat → List α) :=
  match s with
  | .seq l => (l, left)
  | .iter i => (left i, Function.update left i [])

/-- page.py:129-141 `Page`: the content is kept as it is given (line 138). -/
structure LazyPage where
  content : Source Drawing
  size : ℚ × ℚ
  rotate : Int
  columns : List Column

/-- layout/pages.py:36-49 `AutoPage`: the content is kept as it is given (line 45). Strings and paragraphs are blocks here (pages.py:68-69). -/
structure LazyAuto where
  content : Source Block
  template : Nat → LazyPage

/-- document.py:53: an item of a document. -/
inductive LazyItem where
  | page (p : LazyPage)
  | auto (a : LazyAuto)

/-- What all iterators have left. -/
structure Iterators where
  drawings : Nat → List Drawing
  blocks : Nat → List Block
  items : Nat → List LazyItem

/-- page.py:161 and 170: the content is read when the page is written. -/
def LazyPage.read (p : LazyPage) (left : Nat → List Drawing) : Page × (Nat → List Drawing) :=
  (⟨(p.content.read left).1, p.size, p.rotate, p.columns⟩, (p.content.read left).2)

/-- page.py:143-153 `Page.add`: the content is read (line 152). The columns of a page are never empty (line 140), so those of the new page are the same. -/
def LazyPage.add (p : LazyPage) (d : Drawing) (left : Nat → List Drawing) : LazyPage × (Nat → List Drawing) :=
  (⟨.seq ((p.content.read left).1 ++ [d]), p.size, p.rotate, p.columns⟩, (p.content.read left).2)

/-- What is left after the first `n` pages of a template were written, from page `pnum` on (layout/pages.py:54-65; page.py:170). -/
def readPages (template : Nat → LazyPage) (pnum : Nat) : Nat → (Nat → List Drawing) → (Nat → List Drawing)
  | 0, left => left
  | n + 1, left => ((template (pnum + n)).read (readPages template pnum n left)).2

/-- `render` of an item (page.py:155-162, layout/pages.py:51-65), which reads the content of the item and of the pages it writes. After an error the model says that the blocks have all been
read, the code does not read those after the error. -/
def LazyItem.run (w : World) (s : StyleFull) (it : LazyItem) (pnum : Nat) (r : Res) (left : Iterators) : PagesRun × Iterators :=
  match it with
  | .page p => (DocItem.run w s (.page (p.read left.drawings).1) pnum r, { left with drawings := (p.read left.drawings).2 })
  | .auto a =>
    let run := DocItem.run w s (.auto ⟨(a.content.read left.blocks).1, fun n => ((a.template n).read (readPages a.template pnum (n - pnum) left.drawings)).1⟩) pnum r
    (run, { left with blocks := (a.content.read left.blocks).2, drawings := readPages a.template pnum run.pages.length left.drawings })

/-- document.py:137-141, the loop over the items (as `docRun`). -/
def lazyRun (w : World) (s : StyleFull) : List LazyItem → Nat → Res → Iterators → PagesRun × Iterators
  | [], _, r, left => (⟨[], r, none⟩, left)
  | it :: its, done, r, left =>
    let a := it.run w s (done + 1) r left
    match a.1.err with
    | some _ => a
    | none =>
      let b := lazyRun w s its (done + a.1.pages.length) a.1.res a.2
      (⟨a.1.pages ++ b.1.pages, b.1.res, b.1.err⟩, b.2)

/-- document.py:53-69 `Document`: the content is kept as it is given (line 68). -/
structure LazyDoc where
  content : Source LazyItem
  style : StyleFull

/-- document.py:77-125 `Document.write`: the pages that are written, and what iterators have left. -/
def LazyDoc.write (w : World) (doc : LazyDoc) (left : Iterators) : PagesRun × Iterators :=
  lazyRun w doc.style (doc.content.read left.items).1 0 Res.empty { left with items := (doc.content.read left.items).2 }

end Pdfje
