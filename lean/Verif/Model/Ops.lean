import Verif.Model.Render
/-
The bytes of the operators. Text is encoded when it is written (words.py:607-630 runs when typeset/words.py:592-593 is
iterated), which can add codes to an embedded font, so the registry is threaded through. Simplification: the pieces of a
kerned text are encoded one by one, where the code encodes the whole text and cuts the result every one or two
bytes (words.py:616-630). That is the same as long as a font has at most 65536 codes, and a document with
more is refused (embed.py:161).
-/

namespace Pdfje

/-- atoms.py:87-89, 102-103: an element of a `TJ` array. -/
def ShowItem.bytes (r : Res) : ShowItem → Option (Bytes × Res)
  | .adj x => some (fmtG x, r)
  | .txt f s => match r.encode f s with | none => none | some (b, r1) => some (b!"(" ++ escape b ++ b!")", r1)

/-- atoms.py:120-122. -/
def itemsBytes : List ShowItem → Res → Option (Bytes × Res)
  | [], r => some ([], r)
  | i :: is, r =>
    match i.bytes r with
    | none => none
    | some (b, r1) =>
      match itemsBytes is r1 with
      | none => none
      | some (bs, r2) => some (b ++ b!" " ++ bs, r2)

/-- The text operators: state.py:75, 100 (`Tf`, `rg`), words.py:592-593 and atoms.py:118-123 (`TJ`),
typeset/layout.py:51, 71-72, 81, 90 (`Td`, `TL`, `T*`, `TD`). -/
def TextOp.bytes (r : Res) : TextOp → Option (Bytes × Res)
  | .tf f z => match r.fontId f with | none => none | some i => some (b!"/" ++ i ++ b!" " ++ fmtG z ++ b!" Tf\n", r)
  | .rg c => some (fmtG c.red ++ b!" " ++ fmtG c.green ++ b!" " ++ fmtG c.blue ++ b!" rg\n", r)
  | .tj is => match itemsBytes is r with | none => none | some (b, r1) => some (b!"[" ++ b ++ b!"] TJ\n", r1)
  | .td x y => some (fmtG x ++ b!" " ++ fmtG y ++ b!" Td\n", r)
  | .tdl x y => some (fmtG x ++ b!" " ++ fmtG y ++ b!" TD\n", r)
  | .tl l => some (fmtG l ++ b!" TL\n", r)
  | .tstar => some (b!"T*\n", r)

/-- A sequence of text operators. -/
def textOpsBytes : List TextOp → Res → Option (Bytes × Res)
  | [], r => some ([], r)
  | op :: ops, r =>
    match op.bytes r with
    | none => none
    | some (b, r1) =>
      match textOpsBytes ops r1 with
      | none => none
      | some (bs, r2) => some (b ++ bs, r2)

/-- draw.py:203-213. -/
def Paint.bytes : Paint → Bytes
  | .none => b!"n\n"
  | .stroke => b!"S\n"
  | .closeStroke => b!"s\n"
  | .fill => b!"f\n"
  | .fillStroke => b!"B\n"
  | .closeFillStroke => b!"b\n"

/-- draw.py:68, 113, 203-213, 228-260, 302-305, layout/rule.py:66-70, typeset/layout.py:51-54. -/
def PageOp.bytes (r : Res) : PageOp → Option (Bytes × Res)
  | .moveTo x y => some (fmtG x ++ b!" " ++ fmtG y ++ b!" m ", r)
  | .lineTo x y => some (fmtG x ++ b!" " ++ fmtG y ++ b!" l ", r)
  | .curveTo x1 y1 x2 y2 x3 y3 =>
    some (fmtG x1 ++ b!" " ++ fmtG y1 ++ b!" " ++ fmtG x2 ++ b!" " ++ fmtG y2 ++ b!" " ++ fmtG x3 ++ b!" " ++ fmtG y3 ++ b!" c ", r)
  | .rect x y w h => some (fmtG x ++ b!" " ++ fmtG y ++ b!" " ++ fmtG w ++ b!" " ++ fmtG h ++ b!" re ", r)
  | .fillColor c => some (fmtG c.red ++ b!" " ++ fmtG c.green ++ b!" " ++ fmtG c.blue ++ b!" rg ", r)
  | .strokeColor c => some (fmtG c.red ++ b!" " ++ fmtG c.green ++ b!" " ++ fmtG c.blue ++ b!" RG ", r)
  | .paint p => some (p.bytes, r)
  | .text ops => match textOpsBytes ops r with | none => none | some (b, r1) => some (b!"BT\n" ++ b ++ b!"ET\n", r1)

/-- A sequence of operators. -/
def opsBytes : List PageOp → Res → Option (Bytes × Res)
  | [], r => some ([], r)
  | op :: ops, r =>
    match op.bytes r with
    | none => none
    | some (b, r1) =>
      match opsBytes ops r1 with
      | none => none
      | some (bs, r2) => some (b ++ bs, r2)

end Pdfje
