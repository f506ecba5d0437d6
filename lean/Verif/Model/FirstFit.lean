import Verif.Model.Words
import Mathlib.Algebra.Order.Floor.Ring
import Mathlib.Data.Rat.Floor
/-
Model of /repo/src/pdfje/typeset/firstfit.py. An iterator of words is the list of the words it still gives, or `none`
for Python's `None`; `tee` gives two iterators over the same list. The infinite iterator of columns is a function from
the number of the column to its width and height. `none` as a result means that an error is raised (or that the loop
never ends, for the two `shape` functions).
-/

namespace Pdfje

/-- typeset/firstfit.py:169-173 `Line` and typeset/optimum.py:182-185 `Line` (which has no `space`: 0). -/
structure TLine where
  words : List WordLike
  width : ℚ
  space : ℚ

/-- common.py:183-195 `Align`. -/
inductive Align where
  | left | center | right | justify
  deriving DecidableEq

/-- typeset/layout.py:14-19 `ShapedText`. -/
structure ShapedText where
  lines : List TLine
  lead : ℚ
  align : Align
  height : ℚ

/-- A column: width and height. -/
abbrev Cols := Nat → ℚ × ℚ

/-- The loop of firstfit.py:130-138: words put on the line, space left, and (if the loop ends with `break`) the word
that did not fit and the words after it. -/
def fillLine : List WordLike → ℚ → List WordLike × ℚ × Option (WordLike × List WordLike)
  | [], space => ([], space, none)
  | w :: ws, space =>
    if w.prunedWidth > space then ([], space, some (w, ws))
    else
      let (content, space', r) := fillLine ws (space - w.width)
      (w :: content, space', r)

/-- firstfit.py:140-166, after the loop ended with `break` at `word`. -/
def endLine (env : Env) (width : ℚ) (content : List WordLike) (space : ℚ) (word : WordLike) (rest : List WordLike) :
    Option (Option (List WordLike) × TLine) :=
  match word.hyphenate env space with
  | none => none
  | some (some last, dangling) =>
    some (some (dangling :: rest), ⟨content ++ [last], width - (space - last.width), space - last.width⟩)
  | some (none, dangling) =>
    match content.getLast? with
    | some l =>
      if l.prunableSpace ≠ 0 then
        some (some (dangling :: rest), ⟨content.dropLast ++ [l.pruned], width - (space + l.prunableSpace), space + l.prunableSpace⟩)
      else some (some (dangling :: rest), ⟨content, width - space, space⟩)
    | none =>
      match dangling.minimalBox env with
      | (w, some leftover) => some (some (leftover :: rest), ⟨[w], width - (space - w.width), space - w.width⟩)
      | (w, none) =>
        match rest with
        | [] => some (none, ⟨[w], w.width, 0⟩)
        | _ :: _ => some (some rest, ⟨[w], width - (space - w.width), space - w.width⟩)

/-- firstfit.py:124-166 `take_line`. -/
def takeLine (env : Env) (ws : List WordLike) (width : ℚ) : Option (Option (List WordLike) × TLine) :=
  match fillLine ws width with
  | (content, space, none) => some (none, ⟨content, width - space, 0⟩)
  | (content, space, some (word, rest)) => endLine env width content space word rest

/-- firstfit.py:113 `max_line_count` (as a number of iterations of the loop), for `lead` not 0. -/
def maxLines (height lead : ℚ) (allowEmpty : Bool) : Nat :=
  if ⌊height / lead⌋ = 0 then (if allowEmpty then 0 else 1) else ⌊height / lead⌋.toNat

/-- The loop of firstfit.py:116-120: `queue`, lines, `queue_prev`. -/
def takeLines (env : Env) (width : ℚ) : Nat → Option (List WordLike) → Option (List WordLike) →
    Option (Option (List WordLike) × List TLine × Option (List WordLike))
  | 0, queue, prev => some (queue, [], prev)
  | _ + 1, none, prev => some (none, [], prev)
  | n + 1, some ws, _ =>
    match takeLine env ws width with
    | none => none
    | some (queue, ln) => (takeLines env width n queue (some ws)).map fun (q, lines, p) => (q, ln :: lines, p)

/-- firstfit.py:106-121 `take_box`. -/
def takeBox (env : Env) (queue : Option (List WordLike)) (col : ℚ × ℚ) (allowEmpty : Bool) (lead : ℚ) :
    Option (Option (List WordLike) × List TLine × Option (List WordLike)) :=
  if lead = 0 then none else takeLines env col.1 (maxLines col.2 lead allowEmpty) queue queue

/-- firstfit.py:86-97 `_shape_simple`, from column `i` on. -/
def shapeSimple (env : Env) (cols : Cols) (lead : ℚ) (i : Nat) (ws : Option (List WordLike)) (allowEmpty : Bool) :
    Option (List (List TLine)) :=
  match takeBox env ws (cols i) allowEmpty lead with
  | none => none
  | some (ws, lines, _) =>
    match ws with
    | none => some [lines]
    | some ws => do
      let more ← shapeSimple env cols lead (i + 1) (some ws) false
      some (lines :: more)
partial_fixpoint

/-- The loop of firstfit.py:57-82, with `lines` and `ws_undo` those of the column before `i`, and the two `yield`s
after the loop. -/
def avoidLoop (env : Env) (cols : Cols) (lead : ℚ) (i : Nat) (ws : Option (List WordLike)) (linesPrev : List TLine)
    (undoPrev : Option (List WordLike)) : Option (List (List TLine)) :=
  match takeBox env ws (cols i) false lead with
  | none => none
  | some (ws, lines, undo) =>
    match ws with
    | some ws => do
      let more ← avoidLoop env cols lead (i + 1) (some ws) lines undo
      some (linesPrev :: more)
    | none =>
      if lines.length = 1 ∧ linesPrev.length > 2 ∧ (cols i).2 ≥ lead * 2 then
        match undoPrev with
        | none => none
        | some wu =>
          match takeBox env (some wu) (cols i) false lead with
          | none => none
          | some (_, linesNew, undo) =>
            if linesNew.length = 1 then some [linesPrev, lines]
            else avoidLoop env cols lead i (some wu) linesPrev.dropLast undo
      else some [linesPrev, lines]
partial_fixpoint

/-- firstfit.py:40-82 `_shape_avoid_orphans`. -/
def shapeAvoidOrphans (env : Env) (cols : Cols) (lead : ℚ) (ws : Option (List WordLike)) (allowEmpty : Bool) :
    Option (List (List TLine)) :=
  match takeBox env ws (cols 0) allowEmpty lead with
  | none => none
  | some (ws, lines, undo) =>
    if ws.isSome ∧ lines.length = 1 ∧ allowEmpty then avoidLoop env cols lead 1 undo [] undo
    else if ws.isNone then some [lines]
    else avoidLoop env cols lead 1 ws lines undo

/-- The sizes summed in firstfit.py:179-181. -/
def tailSizes (ws : List WordLike) : ℚ := ((ws.filter fun w => w.tail.isSome).map fun w => w.state.size).sum

/-- firstfit.py:175-191 `Line.justify`. -/
def TLine.justify (l : TLine) : TLine :=
  if tailSizes l.words = 0 then l
  else ⟨l.words.map fun w => w.extendTail (l.space / tailSizes l.words * w.state.size), l.width + l.space, 0⟩

/-- firstfit.py:16-37 `shape`, all chunks. -/
def firstfitShape (env : Env) (cols : Cols) (lead : ℚ) (avoidOrphans : Bool) (align : Align) (ws : List WordLike)
    (allowEmpty : Bool) : Option (List ShapedText) :=
  (if avoidOrphans then shapeAvoidOrphans env cols lead (some ws) allowEmpty
    else shapeSimple env cols lead 0 (some ws) allowEmpty).map fun chunks => chunks.map fun ls =>
      if align = .justify then ⟨ls.map TLine.justify, lead, align, ls.length * lead⟩
      else ⟨ls, lead, align, ls.length * lead⟩

end Pdfje
