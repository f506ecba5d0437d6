import Verif.Model.Resources
/-
Model of /repo/src/pdfje/document.py and of RenderedPage (page.py:58-79). How an item renders its pages is a
parameter here; `Model/Pages` gives the concrete rendering.
-/

namespace Pdfje

/-- page.py:58-62 `RenderedPage`; the stream is the joined content. -/
structure RenderedPage where
  rotate : Int
  size : ℚ × ℚ
  stream : Bytes
  deriving DecidableEq

/-- page.py:65-78: the page object. -/
def RenderedPage.dict (p : RenderedPage) (i : Nat) : Atom :=
  .dict [(b!"Type", .name b!"Page"), (b!"Parent", .ref 2),
    (b!"MediaBox", .array [.real 0, .real 0, .real p.size.1, .real p.size.2]),
    (b!"Contents", .ref (i + 1)), (b!"Resources", .ref 3), (b!"Rotate", .int p.rotate)]

/-- page.py:64-79 `RenderedPage.to_atoms`. -/
def RenderedPage.toAtoms (p : RenderedPage) (i : Nat) : List Obj := [(i, p.dict i), (i + 1, .stream p.stream [])]

/-- What happens when items are rendered: the pages completed, the registry afterwards, and whether an error was raised after
these pages: while laying out (`inLayout`) or while producing the content of a further page (`inStream`), whose
page object has been yielded by then (page.py:65 before page.py:79). -/
inductive Failure where
  | inLayout
  | inStream (p : RenderedPage)
  deriving DecidableEq

@[inherit_doc Failure] structure Run where
  pages : List RenderedPage
  res : Res
  err : Option Failure
  deriving DecidableEq

/-- document.py:137-141: the pages of all items in order. `done` is the number of pages yielded so far, which is the value of
`pagenum` when the generator expression calls `p.render(res, style, pagenum + 1)`. -/
def docPages {I : Type} (render : I → Nat → Res → Run) : List I → Nat → Res → Run
  | [], _, r => ⟨[], r, none⟩
  | it :: its, done, r =>
    let a := render it (done + 1) r
    match a.err with
    | some e => ⟨a.pages, a.res, some e⟩
    | none =>
      let b := docPages render its (done + a.pages.length) a.res
      ⟨a.pages ++ b.pages, b.res, b.err⟩

/-- document.py:137-142: the objects of the pages, numbered from `i` in steps of two (document.py:18-19). -/
def pageObjects : List RenderedPage → Nat → List Obj
  | [], _ => []
  | p :: ps, i => p.toAtoms i ++ pageObjects ps (i + 2)

/-- document.py:156-162 `_CATALOG_OBJ`. -/
def catalogObj : Obj := (1, .dict [(b!"Type", .name b!"Catalog"), (b!"Pages", .ref 2)])

/-- `islice(count(4, step=2), n)` (document.py:178-181). -/
def pageIds : Nat → Nat → List Nat
  | 0, _ => []
  | n + 1, i => i :: pageIds n (i + 2)

/-- document.py:165-187 `_write_headers`. -/
def headers (numPages : Nat) (resources : Atom) : List Obj :=
  [catalogObj,
   (2, .dict [(b!"Type", .name b!"Pages"), (b!"Kids", .array ((pageIds numPages 4).map .ref)),
     (b!"Count", .int numPages)]),
   (3, resources)]

section
variable (compress : Bytes → Bytes) (files : Path → FontFile)

/-- document.py:128-152 `_doc_objects`: the objects yielded, and whether the generator finished (`false`: it raised). -/
def docObjects {I : Type} (render : I → Nat → Res → Run) (items : List I) : List Obj × Bool :=
  let run := docPages render items 0 Res.empty
  let n := run.pages.length
  let objs := pageObjects run.pages 4
  match run.err with
  | some .inLayout => (objs, false)
  | some (.inStream p) => (objs ++ [(4 + 2 * n, p.dict (4 + 2 * n))], false)
  | none =>
    if n = 0 then (objs, false)
    else
      let objId := 4 + 2 * (n - 1)
      let firstFont := objId + 2
      let (fonts, ok) := run.res.toObjects compress files firstFont
      if ok then (objs ++ fonts ++ headers ((objId - 4) / 2 + 1) (run.res.toAtoms firstFont), true)
      else (objs ++ fonts, false)

/-- document.py:120-121 `_write_iter`, through atoms.py:212-233: the chunks yielded, and whether it finished. -/
def docWrite {I : Type} (render : I → Nat → Res → Run) (id : Bytes) (items : List I) : List Bytes × Bool :=
  match docObjects compress files render items with
  | (objs, false) => (header :: objs.map (writeObj compress), false)
  | (objs, true) =>
    match write compress id objs with
    | some chunks => (chunks, true)
    | none => (header :: objs.map (writeObj compress), false)

/-- The three ways of writing, document.py:105-122, when the target accepts only the first `j` chunks (a full disk,
a crash, ...): the contents of the target afterwards. A path is truncated first (`open("wb")`); a file object keeps what it had. -/
inductive Target where
  | path (before : Bytes)
  | file (before : Bytes)
  | iterator

@[inherit_doc Target] def docWriteTo {I : Type} (render : I → Nat → Res → Run) (id : Bytes) (items : List I)
    (t : Target) (j : Nat) : Bytes :=
  let received := ((docWrite compress files render id items).1.take j).flatten
  match t with
  | .path _ => received
  | .file before => before ++ received
  | .iterator => received

end
end Pdfje
