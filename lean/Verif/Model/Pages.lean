import Verif.Model.Ops
import Verif.Model.Optimum
import Verif.Model.Document
/-
Model of /repo/src/pdfje/page.py, /repo/src/pdfje/layout/ and of the constructors of document.py. Iterators
of pages and of columns that never end are functions from natural numbers. `tee` gives two iterators over the same
elements. A template is a function from page numbers to pages (that raises no error).
-/

namespace Pdfje

/-! ### page.py -/

/-- page.py:29-47 `Column`. -/
structure Column where
  origin : ℚ × ℚ
  width : ℚ
  height : ℚ
  deriving DecidableEq

/-- page.py:49-55 `Column.__init__`; `none` if the assertion fails. -/
def Column.new (origin : ℚ × ℚ) (width height : ℚ) : Option Column :=
  if 0 < width then some ⟨origin, width, height⟩ else none

/-- common.py:198-205 `Sides`. -/
structure Sides where
  top : ℚ
  right : ℚ
  bottom : ℚ
  left : ℚ
  deriving DecidableEq

/-- common.py:252-254 `SidesLike`. -/
inductive SidesLike where
  | sides (s : Sides)
  | tuple (v : List ℚ)
  | num (v : ℚ)

/-- common.py:233-249 `Sides.parse`; `none` is a TypeError. -/
def Sides.parse : SidesLike → Option Sides
  | .sides s => some s
  | .tuple [a, b, c, d] => some ⟨a, b, c, d⟩
  | .tuple [a, b, c] => some ⟨a, b, c, b⟩
  | .tuple [a, b] => some ⟨a, b, a, b⟩
  | .tuple _ => none
  | .num v => some ⟨v, v, v, v⟩

/-- page.py:177-181 `_column`. -/
def defaultColumn (page : ℚ × ℚ) (margin : SidesLike) : Option Column :=
  match Sides.parse margin with
  | none => none
  | some m => Column.new (m.left, m.bottom) (page.1 - m.left - m.right) (page.2 - m.top - m.bottom)

/-- page.py:82-127 `Page`. -/
structure Page where
  content : List Drawing
  size : ℚ × ℚ
  rotate : Int
  columns : List Column

/-- units.py:18 `inch(1)`, and page.py:134 the default margin. -/
def defaultMargin : SidesLike := .num 72

/-- units.py:41 `A4`. -/
def a4 : ℚ × ℚ := (595, 842)

/-- page.py:129-141 `Page.__init__`. -/
def Page.new (content : List Drawing) (size : ℚ × ℚ) (rotate : Int) (margin : SidesLike) (columns : List Column) : Option Page :=
  match columns with
  | [] => (defaultColumn size margin).map fun c => ⟨content, size, rotate, [c]⟩
  | c :: cs => some ⟨content, size, rotate, c :: cs⟩

/-- page.py:143-153 `Page.add`. -/
def Page.add (p : Page) (d : Drawing) : Option Page := Page.new (p.content ++ [d]) p.size p.rotate defaultMargin p.columns

/-! ### layout/common.py -/

/-- layout/common.py:46-57 `Shaped`: typeset/layout.py:14-40 `ShapedText`, or layout/rule.py:59-71 `ShapedRule`. -/
inductive Shaped where
  | text (t : ShapedText)
  | rule (start stop : ℚ × ℚ) (color : RGB) (height : ℚ)

/-- `height`. -/
def Shaped.height : Shaped → ℚ
  | .text t => t.height
  | .rule _ _ _ h => h

/-- `render`, typeset/layout.py:21-24, layout/rule.py:66-71. -/
def Shaped.render (s : Shaped) (pos : ℚ × ℚ) (width : ℚ) : List PageOp :=
  match s with
  | .text t => [t.render pos width]
  | .rule a b c _ => [.moveTo a.1 a.2, .lineTo b.1 b.2, .strokeColor c, .paint .stroke]

/-- layout/common.py:60-64 `ColumnFill`. -/
structure ColumnFill where
  box : Column
  blocks : List ((ℚ × ℚ) × Shaped)
  heightFree : ℚ

/-- layout/common.py:66-68 `ColumnFill.new`. -/
def ColumnFill.new (c : Column) : ColumnFill := ⟨c, [], c.height⟩

/-- layout/common.py:77-78 `ColumnFill.cursor`. -/
def ColumnFill.cursor (c : ColumnFill) : ℚ × ℚ := (c.box.origin.1, c.box.origin.2 + c.heightFree)

/-- layout/common.py:70-75 `ColumnFill.add`. -/
def ColumnFill.add (c : ColumnFill) (s : Shaped) : ColumnFill :=
  ⟨c.box, c.blocks ++ [(c.cursor, s)], c.heightFree - s.height⟩

/-- layout/common.py:80-82 `ColumnFill.__iter__`. -/
def ColumnFill.ops (c : ColumnFill) : List PageOp := c.blocks.flatMap fun e => e.2.render e.1 c.box.width

/-- layout/common.py:88-92 `PageFill`. -/
structure PageFill where
  base : Page
  todo : List ColumnFill
  done : List ColumnFill

/-- layout/common.py:97-99 `PageFill.new`. -/
def PageFill.new (p : Page) : PageFill := ⟨p, p.columns.map ColumnFill.new, []⟩

/-- layout/common.py:94-95 `PageFill.reopen_most_recent_column`; `none` is an IndexError. -/
def PageFill.reopen (p : PageFill) : Option PageFill :=
  match p.done.getLast? with
  | none => none
  | some c => some ⟨p.base, c :: p.todo, p.done.dropLast⟩

/-- common.py:40-41 `prepend` on an infinite iterator. -/
def consStream {α} (a : α) (s : Nat → α) : Nat → α
  | 0 => a
  | n + 1 => s n

/-- The `i`-th element of `flatten` (common.py:28) of infinitely many lists. `fuel` is the number of lists to look at: `i + 1`
is enough if none is empty, which holds for the columns left on pages. -/
def flatNth {α} (f : Nat → List α) : Nat → Nat → Option α
  | 0, _ => none
  | fuel + 1, i => if i < (f 0).length then (f 0)[i]? else flatNth (fun n => f (n + 1)) fuel (i - (f 0).length)

/-- A column that does not exist. -/
def noColumn : ColumnFill := ⟨⟨(0, 0), 0, 0⟩, [], 0⟩

/-- layout/common.py:102-108: the columns that are left, on all pages. -/
def columnsLeft (doc : Nat → PageFill) (i : Nat) : ColumnFill := (flatNth (fun n => (doc n).todo) (i + 1) i).getD noColumn

/-- The loop of layout/common.py:119-132 over the columns `filled`, which are not empty: completed pages, the last of which is still to be
reopened, and the pages after them. `fuel`: a bound on the number of pages, `filled.length` is enough. -/
def fillLoop : Nat → List ColumnFill → (Nat → PageFill) → List PageFill × (Nat → PageFill)
  | 0, _, doc => ([], doc)
  | fuel + 1, filled, doc =>
    let page := doc 0
    let cols := filled.take page.todo.length
    let rest := filled.drop page.todo.length
    let p : PageFill := ⟨page.base, page.todo.drop cols.length, page.done ++ cols⟩
    match rest with
    | [] => ([p], fun n => doc (n + 1))
    | _ :: _ =>
      let (ps, doc') := fillLoop fuel rest fun n => doc (n + 1)
      (p :: ps, doc')

/-- layout/common.py:111-134 `_fill_into`: the pages left, and the completed pages. `none` is an IndexError. -/
def fillInto (filled : List ColumnFill) (doc : Nat → PageFill) : Option ((Nat → PageFill) × List PageFill) :=
  if filled = [] then some (doc, [])
  else
    let (completed, rest) := fillLoop filled.length filled doc
    match completed.getLast? with
    | none => none
    | some p => p.reopen.map fun q => (consStream q rest, completed.dropLast)

/-! ### layout/paragraph.py and layout/rule.py -/

/-- layout/paragraph.py:61-140 `Paragraph`, after its constructor ran: `optimal` is `None` for the first-fit algorithm. -/
structure Paragraph where
  content : List Item
  style : Style
  align : Align
  indent : ℚ
  avoidOrphans : Bool
  optimal : Option OptParams

/-- layout/paragraph.py:160-167: the `shape` function of a paragraph. -/
def Paragraph.shape (p : Paragraph) (env : Env) (cols : Cols) (lead : ℚ) (ws : List WordLike) (allowEmpty : Bool) :
    Option (List ShapedText) :=
  match p.optimal with
  | some o => optimumShape env cols lead p.avoidOrphans p.align o ws allowEmpty
  | none => firstfitShape env cols lead p.avoidOrphans p.align ws allowEmpty

/-- The loop of layout/paragraph.py:202-214: chunks are added to consecutive columns. -/
def addChunks : List ShapedText → (Nat → ColumnFill) → List ColumnFill
  | [], _ => []
  | t :: ts, cs => (cs 0).add (.text t) :: addChunks ts fun n => cs (n + 1)

/-- layout/paragraph.py:214: the state after the chunks. -/
def chunksState : List ShapedText → State → State
  | [], st => st
  | t :: ts, st => chunksState ts (match t.endState with | some s => s | none => st)

/-- layout/paragraph.py:186-215 `_fill_paragraph`. -/
def fillParagraph (p : Paragraph) (env : Env) (txt : List Passage) (cs : Nat → ColumnFill) (st : State) (lead : ℚ) :
    Option (List ColumnFill × State) :=
  match intoWords env txt st with
  | none => none
  | some (cmd, words) =>
    (p.shape env (fun i => ((cs i).box.width, (cs i).heightFree)) lead (indentFirst words p.indent) (!(cs 0).blocks.isEmpty)).map
      fun chunks => (addChunks chunks cs, chunksState chunks (cmd.apply st))

/-- The loop of layout/paragraph.py:149-171 and the `yield` after it; `cs` starts with `col`. `none`: an error. -/
def paragraphLoop (p : Paragraph) (env : Env) (lead : ℚ) : List (List Passage) → (Nat → ColumnFill) → State → Option (List ColumnFill)
  | [], cs, _ => some [cs 0]
  | para :: rest, cs, st =>
    match fillParagraph p env para cs st lead with
    | none => none
    | some (done, st') =>
      match done.getLast? with
      | none => none
      | some col =>
        (paragraphLoop p env lead rest (consStream col fun n => cs (n + done.length)) st').map (done.dropLast ++ ·)

/-- layout/paragraph.py:142-171 `Paragraph.into_columns`. -/
def Paragraph.intoColumns (p : Paragraph) (w : World) (r : Res) (style : StyleFull) (cs : Nat → ColumnFill) :
    Option (List ColumnFill) × Res :=
  let style := style.or p.style
  let (st, r1) := style.asState r
  let (passages, _, r2) := flattenSpan p.style style [] p.content r1
  (paragraphLoop p (w.env r2) (maxLead passages st) (splitlines passages) cs st, r2)

/-- layout/rule.py:22-36 `Rule`, after its constructor ran. -/
structure Rule where
  color : RGB
  margin : Sides

/-- layout/rule.py:42-55: the rule in a column. -/
def Rule.shaped (r : Rule) (col : ColumnFill) : Shaped :=
  let y := col.box.origin.2 + col.heightFree - r.margin.top
  .rule (col.box.origin.1 + r.margin.left, y) (col.box.origin.1 + col.box.width - r.margin.right, y) r.color
    (r.margin.top + r.margin.bottom)

/-- layout/rule.py:38-56 `Rule.into_columns`. -/
def Rule.intoColumns (r : Rule) (cs : Nat → ColumnFill) : List ColumnFill :=
  let col := cs 0
  if r.margin.top + r.margin.bottom > col.heightFree then [col, col.add (r.shaped col)] else [col.add (r.shaped col)]

/-- layout/common.py:26-43 `Block`: a paragraph or a rule. -/
inductive Block where
  | paragraph (p : Paragraph)
  | rule (r : Rule)

/-- `Block.into_columns`. -/
def Block.intoColumns (b : Block) (w : World) (r : Res) (style : StyleFull) (cs : Nat → ColumnFill) : Option (List ColumnFill) × Res :=
  match b with
  | .paragraph p => p.intoColumns w r style cs
  | .rule x => (some (x.intoColumns cs), r)

/-! ### layout/pages.py -/

/-- A page that is written: the page, and the columns of text on it. -/
structure Filled where
  base : Page
  cols : List ColumnFill

/-- page.py:158-162, 168-175: the drawings of a page, each rendered and then written: operators, bytes. `none`: an error. -/
def drawingsRun (w : World) (s : StyleFull) : List Drawing → Res → Option (List PageOp × Bytes) × Res
  | [], r => (some ([], []), r)
  | d :: ds, r =>
    match d.render w s r with
    | (none, r1) => (none, r1)
    | (some ops, r1) =>
      match opsBytes ops r1 with
      | none => (none, r1)
      | some (b, r2) =>
        match drawingsRun w s ds r2 with
        | (none, r3) => (none, r3)
        | (some (ops', b'), r3) => (some (ops ++ ops', b ++ b'), r3)

/-- page.py:164-175 `Page.fill` with `flatten` of columns, and page.py:155-162 `Page.render` (no columns), when written out. -/
def Filled.run (w : World) (s : StyleFull) (p : Filled) (r : Res) : Option (List PageOp × Bytes) × Res :=
  match drawingsRun w s p.base.content r with
  | (none, r1) => (none, r1)
  | (some (ops, b), r1) =>
    match opsBytes (p.cols.flatMap ColumnFill.ops) r1 with
    | none => (none, r1)
    | some (b', r2) => (some (ops ++ p.cols.flatMap ColumnFill.ops, b ++ b'), r2)

/-- A page that was written: the page with its columns, its operators and their bytes. -/
structure Written where
  page : Filled
  ops : List PageOp
  bytes : Bytes

/-- page.py:58-62: what is written of it. -/
def Written.rendered (p : Written) : RenderedPage := ⟨p.page.base.rotate, p.page.base.size, p.bytes⟩

/-- What happens when pages are rendered: the pages written, the registry afterwards, whether an error was raised after them. -/
structure PagesRun where
  pages : List Written
  res : Res
  err : Option Failure

/-- Pages yielded by a `render` method, each written before the next one is made (document.py:135-140). -/
def writePages (w : World) (s : StyleFull) : List Filled → Res → PagesRun
  | [], r => ⟨[], r, none⟩
  | p :: ps, r =>
    match p.run w s r with
    | (none, r1) => ⟨[], r1, some (.inStream ⟨p.base.rotate, p.base.size, []⟩)⟩
    | (some (ops, b), r1) =>
      let rest := writePages w s ps r1
      ⟨⟨p, ops, b⟩ :: rest.pages, rest.res, rest.err⟩

/-- One run after another. -/
def PagesRun.andThen (a : PagesRun) (f : Res → PagesRun) : PagesRun :=
  match a.err with
  | some e => ⟨a.pages, a.res, some e⟩
  | none =>
    let b := f a.res
    ⟨a.pages ++ b.pages, b.res, b.err⟩

/-- The loop of layout/pages.py:57-62, and lines 64-65: the last page. -/
def autoLoop (w : World) (s : StyleFull) : List Block → (Nat → PageFill) → Res → PagesRun
  | [], doc, r => writePages w s [⟨(doc 0).base, (doc 0).done ++ (doc 0).todo⟩] r
  | b :: bs, doc, r =>
    match b.intoColumns w r s (columnsLeft doc) with
    | (none, r1) => ⟨[], r1, some .inLayout⟩
    | (some filled, r1) =>
      match fillInto filled doc with
      | none => ⟨[], r1, some .inLayout⟩
      | some (doc', completed) =>
        (writePages w s (completed.map fun p => ⟨p.base, p.done⟩) r1).andThen (autoLoop w s bs doc')

/-- layout/pages.py:33-49 `AutoPage`, after its constructor ran and strings became paragraphs (pages.py:68-69). -/
structure AutoPage where
  content : List Block
  template : Nat → Page

/-- layout/pages.py:51-65 `AutoPage.render`. -/
def AutoPage.render (a : AutoPage) (w : World) (s : StyleFull) (pnum : Nat) (r : Res) : PagesRun :=
  autoLoop w s a.content (fun n => PageFill.new (a.template (pnum + n))) r

/-- document.py:53: an item of a document. -/
inductive DocItem where
  | page (p : Page)
  | auto (a : AutoPage)

/-- page.py:155-162, layout/pages.py:51-65 `render`. -/
def DocItem.run (w : World) (s : StyleFull) (it : DocItem) (pnum : Nat) (r : Res) : PagesRun :=
  match it with
  | .page p => writePages w s [⟨p, []⟩] r
  | .auto a => a.render w s pnum r

/-- What the document gets from an item. -/
def DocItem.render (w : World) (s : StyleFull) (it : DocItem) (pnum : Nat) (r : Res) : Run :=
  let x := it.run w s pnum r
  ⟨x.pages.map Written.rendered, x.res, x.err⟩

/-- layout/paragraph.py:120-140: the defaults (`LinebreakParams()`, paragraph.py:50-58). -/
def Paragraph.plain (content : List Item) : Paragraph := ⟨content, Style.empty, .left, 0, true, some ⟨1, 1000, 1000, 1000⟩⟩

/-- layout/pages.py:68-69 `_as_block` of a string. -/
def Block.ofText (s : List Char) : Block := .paragraph (.plain [.str s])

/-- `Page()`, page.py:129-136. -/
def Page.default : Page := ⟨[], a4, 0, [⟨(72, 72), 595 - 72 - 72, 842 - 72 - 72⟩]⟩

/-- document.py:56-60: what `Document` takes. -/
inductive DocContent where
  | none
  | text (s : List Char)
  | block (b : Block)
  | items (l : List DocItem)

/-- document.py:56-69 `Document.__init__`: the items. -/
def DocContent.items' : DocContent → List DocItem
  | .none => [.page .default]
  | .text s => [.auto ⟨[.ofText s], fun _ => .default⟩]
  | .block b => [.auto ⟨[b], fun _ => .default⟩]
  | .items l => l

end Pdfje
