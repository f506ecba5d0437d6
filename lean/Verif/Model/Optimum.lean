import Verif.Model.FirstFit
import Verif.Model.KnuthPlass
import Verif.Model.Parse
/-
Model of /repo/src/pdfje/typeset/optimum.py. The infinite iterator of columns is a function from the number of the
column to its width and height. `none` as a result means that an error is raised (or that the loop never ends).
-/

namespace Pdfje

/-- optimum.py:23-34 `Parameters` (layout/paragraph.py:28-58 `LinebreakParams`). -/
structure OptParams where
  tolerance : ℚ
  hyphenPenalty : ℚ
  consecutiveHyphenPenalty : ℚ
  fitnessDiffPenalty : ℚ

/-- layout/paragraph.py:52-58: the default values. -/
def OptParams.default : OptParams := ⟨1, 1000, 1000, 1000⟩

/-- optimum.py:37-75 `ColumnQueue`: width of each column, and how many lines it holds. `line_counts` are the sums
of these (`ColQueue.count`). Simplification: a function of all columns, while the code reads them on demand. -/
structure ColQueue where
  width : Nat → ℚ
  cap : Nat → ℤ

/-- `int(y // lead or default)`. -/
def lineCap (y lead : ℚ) (default : ℤ) : ℤ := if ⌊y / lead⌋ = 0 then default else ⌊y / lead⌋

/-- optimum.py:45-51 `ColumnQueue.__init__` and `_next_column`, for `lead` not 0. -/
def ColQueue.new (cols : Cols) (lead : ℚ) (allowEmpty : Bool) : ColQueue where
  width i := (cols i).1
  cap i := lineCap (cols i).2 lead (if i = 0 ∧ allowEmpty then 0 else 1)

/-- `line_counts[c]`. -/
def ColQueue.count (q : ColQueue) : Nat → ℤ
  | 0 => q.cap 0
  | c + 1 => q.count c + q.cap (c + 1)

/-- The first of at most `fuel` columns from `c` on with more than `i` lines in it and those before it, of which
there are `acc` before `c`. -/
def ColQueue.find (q : ColQueue) (i : Nat) : Nat → Nat → ℤ → Nat
  | 0, c, _ => c
  | fuel + 1, c, acc => if i < acc + q.cap c then c else q.find i fuel (c + 1) (acc + q.cap c)

/-- optimum.py:62-68 `ColumnQueue.line_length`. Simplification: the code looks with `bisect`, and reads more columns if
needed; this is the same if the columns after the first have no negative height, as all theorems about it assume.
(Then each of them holds at least one line, and the fuel is enough.) -/
def ColQueue.lineLength (q : ColQueue) (i : Nat) : ℚ := q.width (q.find i (i + 2 + (q.cap 0).natAbs) 0 0)

/-- optimum.py:70-73 `ColumnQueue.remove_first_column`. -/
def ColQueue.removeFirst (q : ColQueue) : ColQueue := ⟨fun i => q.width (i + 1), fun i => q.cap (i + 1)⟩

/-- optimum.py:75-76 `ColumnQueue.shorten_column`. -/
def ColQueue.shorten (q : ColQueue) (i : Nat) : ColQueue := ⟨q.width, fun j => if j = i then q.cap j - 1 else q.cap j⟩

/-- optimum.py:78-82 `Fragment`. -/
structure Fragment where
  txt : WordLike
  onBreak : Option WordLike
  cmd : Command

/-- optimum.py:115-136: all syllables of a word but the last. -/
def chunkFrags (env : Env) (stretch shrink : ℚ) : ℚ → List Box → List (Fragment × KBox)
  | _, [] => []
  | width, b :: bs =>
    (⟨.box b, some (.box (b.withHyphen env)), .noop⟩,
      ⟨width + b.width, stretch, shrink, width + b.width, width + (b.withHyphen env).width, true, false⟩)
    :: chunkFrags env stretch shrink (width + b.width) bs

/-- optimum.py:138-171: the end of a word, with `last` its last syllable if there is one; `width` is that of
everything before it. The fragment and box, and the new width, stretch and shrink. `none`: IndexError. -/
def endFrag (justify : Bool) (last : Option Box) (tail : Option TrailingSpace) (st : State) (cmd : Command)
    (width stretch shrink : ℚ) : Option ((Fragment × KBox) × ℚ × ℚ × ℚ) :=
  match tail with
  | some t =>
    let width := width + (match last with | some b => b.width | none => 0)
    some ((⟨.word ⟨last.toList, some t, st⟩, last.map .box, cmd⟩,
        ⟨width, stretch, shrink, width + t.width, width, false, false⟩),
      width + t.width, if justify then stretch + t.widthExclKern * (1/2) else stretch,
      if justify then shrink + t.widthExclKern * (1/3) else shrink)
  | none =>
    match last with
    | none => none
    | some b =>
      some ((⟨.box b, some (.box b), cmd⟩,
          ⟨width + b.width, stretch, shrink, width + b.width, width + b.width, b.last = some '-' ∨ b.last = some emDash, false⟩),
        width + b.width, stretch, shrink)

/-- optimum.py:110-114 `isinstance(word, WithCmd)`. -/
def WordLike.stripCmd : WordLike → WordLike × Command
  | .withCmd w c => (w, c)
  | w => (w, .noop)

/-- The loop of optimum.py:109-171. -/
def fragsLoop (env : Env) (justify : Bool) : List WordLike → ℚ → ℚ → ℚ → Option (List (Fragment × KBox))
  | [], _, _, _ => some []
  | word :: ws, width, stretch, shrink =>
    let w := word.stripCmd.1
    let init := w.boxes.dropLast
    match endFrag justify w.boxes.getLast? w.tail w.state word.stripCmd.2 (width + (init.map Box.width).sum) stretch shrink with
    | none => none
    | some (f, width', stretch', shrink') =>
      (fragsLoop env justify ws width' stretch' shrink').map fun more => chunkFrags env stretch shrink width init ++ f :: more

/-- optimum.py:92-107: the stretch at the start. -/
def initStretch (env : Env) (justify : Bool) (ws : List WordLike) : ℚ :=
  if justify then 0
  else match ws with
    | [] => 0
    | w :: _ => w.state.size * ((env.metrics w.state.font).charwidth ' ' / 1000) * 3

/-- optimum.py:85-171 `_to_boxes` and `into_boxes`. -/
def intoBoxes (env : Env) (ws : List WordLike) (justify : Bool) : Option (List (Fragment × KBox)) :=
  fragsLoop env justify ws 0 (initStretch env justify ws) 0

/-- optimum.py:226-236: the words of a line made of these fragments. (Without any fragment a ValueError; breaks
are never at the same place.) -/
def lineWords (fs : List Fragment) : List WordLike :=
  match fs.getLast? with
  | none => []
  | some last =>
    let body := fs.dropLast.map fun f => f.txt.addCmd f.cmd
    match last.onBreak with
    | some t => body ++ [t.addCmd last.cmd]
    | none =>
      match body.getLast? with
      | some l => body.dropLast ++ [l.addCmd last.cmd]
      | none => []

/-- optimum.py:221-238 `_into_lines_ragged` from `pos_prev`. -/
def raggedLines (frags : List Fragment) : Nat → List KBreak → List TLine
  | _, [] => []
  | prev, br :: brs => ⟨lineWords ((frags.take br.pos).drop prev), br.width, 0⟩ :: raggedLines frags br.pos brs

/-- optimum.py:194-206 `Line.stretch`. -/
def TLine.stretch (l : TLine) (adjust : ℚ) : TLine :=
  { l with words := l.words.map (WordLike.stretchTail (adjust * (if 0 < adjust then 1/2 else 1/3))) }

/-- optimum.py:214-218 `_into_lines_justified` and `_into_lines_ragged`. -/
def intoLines (justify : Bool) (brs : List KBreak) (frags : List Fragment) : List TLine :=
  if justify then (brs.zip (raggedLines frags 0 brs)).map fun e => e.2.stretch e.1.adjust
  else raggedLines frags 0 brs

/-- optimum.py:249, 254: the tolerances tried. Infinity times 0 is NaN. -/
def tolerances (t : ℚ) : List Tol :=
  [.fin t, .fin (t * 2), .fin (t * 3), .fin (t * 5), .fin (t * 8), if 0 < t then .inf else .never]

/-- optimum.py:249-267: the loop over the tolerances. -/
def tryTolerances (p : FitParams) (bs : List KBox) (width : Nat → ℚ) : List Tol → Option (List KBreak)
  | [] => none
  | t :: ts =>
    match optimumFit p bs width t with
    | .ok brs => some brs
    | .error .noFeasibleBreaks => tryTolerances p bs width ts
    | .error .zeroDivision => none

/-- The parameters given to `optimum_fit` at optimum.py:251-259. -/
def OptParams.fit (p : OptParams) (ragged : Bool) : FitParams :=
  ⟨p.hyphenPenalty, p.consecutiveHyphenPenalty, p.fitnessDiffPenalty, ragged⟩

/-- optimum.py:241-267 `find_breaks`. -/
def findBreaks (p : OptParams) (bs : List KBox) (width : Nat → ℚ) (ragged : Bool) : Option (List KBreak) :=
  tryTolerances (p.fit ragged) bs width (tolerances p.tolerance)

/-- An index of a Python slice. -/
def sliceIndex (n : Nat) (i : ℤ) : Nat := if i < 0 then (n + i).toNat else i.toNat

/-- `ls[a:b]`. -/
def pySlice {α} (ls : List α) (a b : ℤ) : List α := (ls.take (sliceIndex ls.length b)).drop (sliceIndex ls.length a)

/-- optimum.py:270-279 `_lines_per_column` from column `c`. The loop ends at the first column without lines; `fuel`
is enough, because there are no more columns with lines than lines. -/
def linesPerColumn (q : ColQueue) (ls : List TLine) : Nat → Nat → ℤ → List (List TLine)
  | 0, _, _ => []
  | fuel + 1, c, prev =>
    if pySlice ls prev (q.count c) = [] then [] else pySlice ls prev (q.count c) :: linesPerColumn q ls fuel (c + 1) (q.count c)

/-- optimum.py:306-307, 323-326, 345-348: lines for these columns. -/
def breakLines (p : OptParams) (justify : Bool) (fbs : List (Fragment × KBox)) (q : ColQueue) : Option (List TLine) :=
  (findBreaks p (fbs.map (·.2)) q.lineLength (!justify)).map fun brs => intoLines justify brs (fbs.map (·.1))

/-- `list(_lines_per_column(lines, col_queue.line_counts))`. -/
def groupLines (q : ColQueue) (ls : List TLine) : List (List TLine) := linesPerColumn q ls (ls.length + 1) 0 0

/-- optimum.py:333-343: the condition of the loop. (The order of its parts does not matter: if there is one group
then `line_counts[-1]` is looked at first, but the third part is false.) `none`: IndexError, there are no groups. -/
def orphaned (q : ColQueue) (groups : List (List TLine)) : Option Bool :=
  match groups.reverse with
  | [] => none
  | [_] => some false
  | last :: prev :: _ => some (last.length = 1 ∧ q.cap (groups.length - 1) > 1 ∧ prev.length > 2)

/-- The loop of optimum.py:333-361. -/
def orphanLoop (p : OptParams) (justify : Bool) (fbs : List (Fragment × KBox)) (q : ColQueue) (groups : List (List TLine)) :
    Option (List (List TLine)) :=
  match orphaned q groups with
  | none => none
  | some false => some groups
  | some true =>
    match breakLines p justify fbs (q.shorten (groups.length - 2)) with
    | none => none
    | some lines =>
      match (groupLines (q.shorten (groups.length - 2)) lines).getLast? with
      | none => none
      | some last =>
        if groups.length = (groupLines (q.shorten (groups.length - 2)) lines).length ∧ last.length = 1 then some groups
        else orphanLoop p justify fbs (q.shorten (groups.length - 2)) (groupLines (q.shorten (groups.length - 2)) lines)
partial_fixpoint

/-- optimum.py:328-364: lines in columns, with `lines` set for the columns of `q`. -/
def placeLines (p : OptParams) (justify avoidOrphans : Bool) (fbs : List (Fragment × KBox)) (q : ColQueue) (lines : List TLine) :
    Option (List (List TLine)) :=
  if avoidOrphans then orphanLoop p justify fbs q (groupLines q lines) else some (groupLines q lines)

/-- optimum.py:302-364, after the first column may have been skipped: groups of lines, one for each column. -/
def shapeFrom (p : OptParams) (justify avoidOrphans allowEmpty : Bool) (fbs : List (Fragment × KBox)) (q : ColQueue) :
    Option (List (List TLine)) :=
  if fbs = [] then some [[⟨[], 0, 0⟩]]
  else
    match breakLines p justify fbs q with
    | none => none
    | some lines =>
      if avoidOrphans ∧ allowEmpty ∧ q.count 0 = 1 ∧ lines.length > 1 ∧ q.count 1 ≥ 2 then
        match breakLines p justify fbs q.removeFirst with
        | none => none
        | some lines => (placeLines p justify avoidOrphans fbs q.removeFirst lines).map ([] :: ·)
      else placeLines p justify avoidOrphans fbs q lines

/-- optimum.py:282-364 `shape`, all chunks. The `Line.EMPTY` (optimum.py:211) of a paragraph without words is set with
the leading as height; the height of other chunks is the number of lines times the leading. -/
def optimumShape (env : Env) (cols : Cols) (lead : ℚ) (avoidOrphans : Bool) (align : Align) (p : OptParams) (ws : List WordLike)
    (allowEmpty : Bool) : Option (List ShapedText) :=
  if lead = 0 then none
  else
    match intoBoxes env ws (align = .justify) with
    | none => none
    | some fbs =>
      (if (ColQueue.new cols lead allowEmpty).count 0 = 0 then
        (shapeFrom p (align = .justify) avoidOrphans allowEmpty fbs (ColQueue.new (fun i => cols (i + 1)) lead false)).map ([] :: ·)
      else shapeFrom p (align = .justify) avoidOrphans allowEmpty fbs (ColQueue.new cols lead allowEmpty)).map fun chunks =>
        chunks.map fun ls => ⟨ls, lead, align, ls.length * lead⟩

end Pdfje
