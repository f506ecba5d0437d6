import Verif.Model.Style
/-
Model of /repo/src/pdfje/typeset/words.py. Division by a font size of zero raises an error in Python; in the model
it gives zero, so theorems that need it assume sizes that are not zero.
-/

namespace Pdfje

/-- The metrics of a font, fonts/common.py:26-61, 163-179 and fonts/embed.py:119-153: character widths in
thousandths, and the kerning of a pair (0 for a font without kerning table). -/
structure Metrics where
  charwidth : Char → ℚ
  kerning : Char × Char → ℚ

/-- What the typesetting code calls: font metrics, hyphenation functions, and what `re` knows about characters. -/
structure Env where
  metrics : FontRef → Metrics
  hyph : Nat → List Char → List (List Char)
  unicode : Unicode

/-- `Font.width`, fonts/common.py:167-168. -/
def Metrics.width (m : Metrics) (s : List Char) : ℚ := (s.map m.charwidth).sum / 1000

/-- words.py:102-110 `Slug`. -/
structure Slug where
  txt : List Char
  kern : List (Nat × ℚ)
  width : ℚ
  state : State
  deriving DecidableEq

/-- words.py:137-147 `Slug.new`. -/
def Slug.new (env : Env) (s : List Char) (st : State) (prev : Option Char) : Slug :=
  let m := env.metrics st.font
  let k := Pdfje.kern m.kerning s prev
  ⟨s, k, (m.width s + (k.map (·.2)).sum / 1000) * st.size, st⟩

/-- words.py:116-117 `Slug.last`; `none` for empty text, which is an IndexError in the code. -/
def Slug.last (s : Slug) : Option Char := s.txt.getLast?

/-- words.py:120-121: the kerning of the last character with a hyphen. -/
def Slug.hyphenKern (env : Env) (s : Slug) : ℚ :=
  match s.last with | some c => (env.metrics s.state.font).kerning (c, '-') | none => 0

/-- words.py:119-131 `Slug.with_hyphen`. -/
def Slug.withHyphen (env : Env) (s : Slug) : Slug :=
  let m := env.metrics s.state.font
  let k := s.hyphenKern env
  ⟨s.txt ++ ['-'], if k ≠ 0 then s.kern ++ [(s.txt.length, k)] else s.kern,
   s.width + (m.charwidth '-' + k) / 1000 * s.state.size, s.state⟩

/-- words.py:133-134 `Slug.has_init_kern`. -/
def Slug.hasInitKern (s : Slug) : Bool := match s.kern with | (0, _) :: _ => true | _ => false

/-- words.py:149-156 `Slug.without_init_kern`. -/
def Slug.withoutInitKern (s : Slug) : Slug :=
  match s.kern with
  | (0, k) :: rest => { s with kern := rest, width := s.width - k * s.state.size / 1000 }
  | _ => s

/-- words.py:158-177 `Slug.indent`. The assertion that there is no kerning before the first character is not in the
model; `C58` is about first words, which have none. -/
def Slug.indent (s : Slug) (amount : ℚ) : Slug :=
  if amount = 0 then s
  else { s with kern := (0, amount / s.state.size * 1000) :: s.kern, width := s.width + amount }

/-- A string or a number of a `TJ` array, with strings over any alphabet. -/
inductive Piece (α : Type) where
  | adj (x : ℚ)
  | str (s : List α)
  deriving DecidableEq

/-- The loop of words.py:624-630 from `index_prev`. -/
def encodeKerningLoop {α} (encoded : List α) (w : Nat) : Nat → List (Nat × ℚ) → List (Piece α)
  | prev, [] => [.str (encoded.drop prev)]
  | prev, (i, k) :: rest =>
    .str ((encoded.take (i * w)).drop prev) :: .adj (-k) :: encodeKerningLoop encoded w (i * w) rest

/-- words.py:607-630 `_encode_kerning`, for a text that was already encoded with `w` units per character. -/
def encodeKerning {α} (encoded : List α) (kerning : List (Nat × ℚ)) (w : Nat) : List (Piece α) :=
  match kerning with
  | [] => [.str encoded]
  | (0, k) :: rest => .adj (-k) :: encodeKerningLoop encoded w 0 rest
  | kerning => encodeKerningLoop encoded w 0 kerning

/-- A piece of text still in characters, to be encoded with font `f` when written out. -/
def Piece.item (f : FontRef) : Piece Char → ShowItem
  | .adj x => .adj x
  | .str s => .txt f s

/-- words.py:205-206 `Slug.to_atoms`: the text is kept in characters (one unit per character). -/
def Slug.toItems (s : Slug) : List ShowItem := (encodeKerning s.txt s.kern 1).map (Piece.item s.state.font)

/-- words.py:184-186, 240-243: `Slug | MixedSlug` (219-226: segments, each followed by a command, and the state). -/
inductive Box where
  | slug (s : Slug)
  | mixed (segments : List (Slug × Command)) (state : State)

/-- `state` of a slug or mixed slug. -/
def Box.state : Box → State
  | .slug s => s.state
  | .mixed _ st => st

/-- words.py:113-114, 245-246 `pre_state`. -/
def Box.preState : Box → State
  | .slug s => s.state
  | .mixed ((s, _) :: _) _ => s.state
  | .mixed [] st => st

/-- words.py:105, 292-294 `width`. -/
def Box.width : Box → ℚ
  | .slug s => s.width
  | .mixed segs _ => (segs.map (fun e => e.1.width)).sum

/-- words.py:116-117, 248-249 `last`. -/
def Box.last : Box → Option Char
  | .slug s => s.last
  | .mixed segs _ => match segs.getLast? with | some e => e.1.last | none => none

/-- words.py:119-131, 260-270 `with_hyphen`. -/
def Box.withHyphen (env : Env) : Box → Box
  | .slug s => .slug (s.withHyphen env)
  | .mixed segs st => .mixed (segs ++ [(Slug.new env ['-'] st (Box.last (.mixed segs st)), .noop)]) st

/-- words.py:133-134, 279-280 `has_init_kern`. -/
def Box.hasInitKern : Box → Bool
  | .slug s => s.hasInitKern
  | .mixed ((s, _) :: _) _ => s.hasInitKern
  | .mixed [] _ => false

/-- words.py:149-156, 272-277 `without_init_kern`. -/
def Box.withoutInitKern : Box → Box
  | .slug s => .slug s.withoutInitKern
  | .mixed ((s, c) :: rest) st => .mixed ((s.withoutInitKern, c) :: rest) st
  | .mixed [] st => .mixed [] st

/-- words.py:158-177, 282-290 `indent`. -/
def Box.indent (amount : ℚ) : Box → Box
  | .slug s => .slug (s.indent amount)
  | .mixed ((s, c) :: rest) st => if amount = 0 then .mixed ((s, c) :: rest) st else .mixed ((s.indent amount, c) :: rest) st
  | .mixed [] st => .mixed [] st

/-- The loop of words.py:296-303. -/
def encodeSegments : List (Slug × Command) → List ShowItem → List TextOp × List ShowItem
  | [], line => ([], line)
  | (s, c) :: rest, line =>
    let (ops, line') := encodeSegments rest []
    (.tj (line ++ s.toItems) :: c.ops ++ ops, line')

/-- words.py:210-216, 296-303 `encode_into_line`: operators written, and items not written yet. -/
def Box.encodeInto : Box → List ShowItem → List TextOp × List ShowItem
  | .slug s, line => ([], line ++ s.toItems)
  | .mixed segs _, line => encodeSegments segs line

/-- The runs of word characters of a string (`re.compile(r"\w+").finditer`), each with the text before it, and the
text after the last. -/
def isWord (U : Unicode) (c : Char) : Bool :=
  if c.toNat < 128 then ('a' ≤ c && c ≤ 'z') || ('A' ≤ c && c ≤ 'Z') || ('0' ≤ c && c ≤ '9') || c == '_' else U.word c

@[inherit_doc isWord] def wordRuns (U : Unicode) : List Char → List (List Char × List Char) × List Char
  | [] => ([], [])
  | c :: s =>
    if isWord U c then
      match wordRuns U s with
      | (([], run) :: rest, gap) => (([], c :: run) :: rest, gap)
      | (rest, gap) => (([], [c]) :: rest, gap)
    else
      match wordRuns U s with
      | ((g, run) :: rest, gap) => ((c :: g, run) :: rest, gap)
      | ([], gap) => ([], c :: gap)

/-- The loop of words.py:307-318: pieces yielded and the leftover. `none`: the hyphenator gave no piece
(a RuntimeError, from StopIteration inside a generator). -/
def syllablesLoop (h : List Char → List (List Char)) : List (List Char × List Char) → List Char →
    Option (List (List Char) × List Char)
  | [], leftover => some ([], leftover)
  | (gap, run) :: rest, leftover =>
    match h run with
    | [] => none
    | p :: ps =>
      let buffer := (leftover ++ gap ++ p) :: ps
      match syllablesLoop h rest (buffer.getLastD []) with
      | none => none
      | some (out, left) => some (buffer.dropLast ++ out, left)

/-- words.py:306-321 `into_syllables`. -/
def intoSyllables (U : Unicode) (s : List Char) (h : List Char → List (List Char)) : Option (List (List Char)) :=
  let (runs, gap) := wordRuns U s
  match syllablesLoop h runs [] with
  | none => none
  | some (out, left) => some (if left ++ gap = [] then out else out ++ [left ++ gap])

/-- words.py:551-555 `TrailingSpace`. -/
structure TrailingSpace where
  widthExclKern : ℚ
  kern : ℚ
  size : ℚ
  deriving DecidableEq

/-- words.py:573-577 `TrailingSpace.width`. -/
def TrailingSpace.width (t : TrailingSpace) : ℚ := t.widthExclKern + t.kern * t.size / 1000

/-- words.py:579-584 `TrailingSpace.stretch`. -/
def TrailingSpace.stretch (t : TrailingSpace) (amount : ℚ) (st : State) : TrailingSpace :=
  { t with kern := t.kern + amount / st.size * 1000 }

/-- A trailing space in a state, after a character (words.py:565-569, parse.py:124-130). -/
def TrailingSpace.make (env : Env) (st : State) (prev : Option Char) : TrailingSpace :=
  let m := env.metrics st.font
  ⟨m.charwidth ' ' / 1000 * st.size, match prev with | some c => m.kerning (c, ' ') | none => 0, st.size⟩

/-- words.py:557-570 `TrailingSpace.parse`. -/
def TrailingSpace.parse (env : Env) (s : List Char) (st : State) (prev : Option Char) : List Char × Option TrailingSpace :=
  if s.getLast? = some ' ' then
    let s := s.dropLast
    let prev := match s.getLast? with | some c => some c | none => prev
    (s, some (.make env st prev))
  else (s, none)

/-- words.py:586-589 `TrailingSpace.into_atoms`. -/
def TrailingSpace.toItems (t : TrailingSpace) (st : State) : List ShowItem :=
  (if t.kern ≠ 0 then [.adj (-t.kern)] else []) ++ [.txt st.font [' ']]

/-- words.py:324-330 `Word`. -/
structure Word where
  boxes : List Box
  tail : Option TrailingSpace
  state : State

/-- The loop of words.py:352-355. `none`: a syllable is empty (IndexError). -/
def slugsOf (env : Env) (st : State) : List (List Char) → Option Char → Option (List Slug)
  | [], _ => some []
  | part :: rest, prev =>
    match part.getLast? with
    | none => none
    | some c => (slugsOf env st rest (some c)).map (Slug.new env part st prev :: ·)

/-- words.py:349-356 `Word.new`; `none` if the hyphenator misbehaves. -/
def Word.new (env : Env) (s : List Char) (st : State) (prev : Option Char) : Option Word :=
  let (s, tail) := TrailingSpace.parse env s st prev
  match intoSyllables env.unicode s (env.hyph st.hyphens) with
  | none => none
  | some parts => (slugsOf env st parts prev).map fun l => ⟨l.map Box.slug, tail, st⟩

/-- words.py:332-337 `Word.pre_state`. -/
def Word.preState (w : Word) : State := match w.boxes with | [] => w.state | b :: _ => b.preState

/-- words.py:339-340 `Word.last`. -/
def Word.last (w : Word) : Option Char :=
  match w.tail with | some _ => some ' ' | none => match w.boxes.getLast? with | some b => b.last | none => none

/-- words.py:342-347 `Word.has_init_kern`. -/
def Word.hasInitKern (w : Word) : Bool :=
  match w.boxes with
  | b :: _ => b.hasInitKern
  | [] => match w.tail with | some t => decide (t.kern ≠ 0) | none => false

/-- words.py:395-413 `Word.without_init_kern`. -/
def Word.withoutInitKern (w : Word) : Word :=
  match w.boxes with
  | b :: rest => if b.hasInitKern then { w with boxes := b.withoutInitKern :: rest } else w
  | [] => match w.tail with | some t => if t.kern ≠ 0 then { w with tail := some { t with kern := 0 } } else w | none => w

/-- words.py:428-429 `Word.pruned_width`. -/
def Word.prunedWidth (w : Word) : ℚ := (w.boxes.map Box.width).sum

/-- words.py:455-456 `Word.prunable_space`. -/
def Word.prunableSpace (w : Word) : ℚ := match w.tail with | some t => t.width | none => 0

/-- words.py:431-433 `Word.width`. -/
def Word.width (w : Word) : ℚ := w.prunedWidth + w.prunableSpace

/-- The loop of words.py:363-371 after its first check: boxes that fit (the last with its hyphen) and the rest,
which is not empty. `none`: the loop ends without `break` (RuntimeError). -/
def hyphenateLoop (env : Env) : Box → List Box → ℚ → Option (List Box × Box × List Box × State)
  | _, [], _ => none
  | box, next :: rest, space =>
    let space := space - box.width
    if space < (next.withHyphen env).width then some ([box.withHyphen env], next, rest, box.state)
    else (hyphenateLoop env next rest space).map fun (fit, n, r, st) => (box :: fit, n, r, st)

/-- words.py:358-377 `Word.hyphenate`. Outer `none`: RuntimeError. -/
def Word.hyphenate (env : Env) (w : Word) (space : ℚ) : Option (Option Word × Word) :=
  match w.boxes with
  | [] => some (none, w.withoutInitKern)
  | b :: rest =>
    if space < (b.withHyphen env).width then some (none, w.withoutInitKern)
    else (hyphenateLoop env b rest space).map fun (fit, n, r, st) =>
      (some ⟨fit, none, st⟩, ⟨n.withoutInitKern :: r, w.tail, w.state⟩)

/-- words.py:379-393 `Word.minimal_box`. -/
def Word.minimalBox (env : Env) (w : Word) : Word × Option Word :=
  match w.boxes with
  | b :: b2 :: rest => (⟨[b.withHyphen env], none, b.state⟩, some ⟨b2.withoutInitKern :: rest, w.tail, w.state⟩)
  | _ => (w, none)

/-- words.py:415-426 `Word.indent`. -/
def Word.indent (w : Word) (amount : ℚ) : Word :=
  if amount = 0 then w
  else match w.boxes with
    | b :: rest => { w with boxes := b.indent amount :: rest }
    | [] => match w.tail with | some t => { w with tail := some (t.stretch amount w.state) } | none => w

/-- words.py:435-440 `Word.extend_tail`. -/
def Word.extendTail (w : Word) (amount : ℚ) : Word :=
  match w.tail with
  | some t => if amount = 0 then w else { w with tail := some (t.stretch amount w.state) }
  | none => w

/-- words.py:442-453 `Word.stretch_tail`. -/
def Word.stretchTail (w : Word) (ratio : ℚ) : Word :=
  match w.tail with
  | some t => if ratio = 1 then w else { w with tail := some (t.stretch (ratio * t.widthExclKern) w.state) }
  | none => w

/-- words.py:458-459 `Word.pruned`. -/
def Word.pruned (w : Word) : Word := match w.tail with | some _ => { w with tail := none } | none => w

/-- The loop of words.py:464-465. -/
def encodeBoxes : List Box → List ShowItem → List TextOp × List ShowItem
  | [], line => ([], line)
  | b :: bs, line =>
    let (ops1, line1) := b.encodeInto line
    let (ops2, line2) := encodeBoxes bs line1
    (ops1 ++ ops2, line2)

/-- words.py:461-470 `Word.encode_into_line`. -/
def Word.encodeInto (w : Word) (line : List ShowItem) : List TextOp × List ShowItem :=
  let (ops, line) := encodeBoxes w.boxes line
  (ops, match w.tail with | some t => line ++ t.toItems w.state | none => line)

/-- words.py:35-99 `WordLike`: a box, a word, or one of these followed by a command (473-476 `WithCmd`). -/
inductive WordLike where
  | box (b : Box)
  | word (w : Word)
  | withCmd (w : WordLike) (cmd : Command)

namespace WordLike

/-- words.py:98-99 `with_cmd`: `cmd is NO_OP`, a singleton. -/
def addCmd (w : WordLike) (cmd : Command) : WordLike := match cmd with | .noop => w | _ => .withCmd w cmd

/-- `state`, words.py:484-486. -/
def state : WordLike → State
  | .box b => b.state
  | .word w => w.state
  | .withCmd w c => c.apply w.state

/-- `pre_state`, words.py:488-489. -/
def preState : WordLike → State
  | .box b => b.preState
  | .word w => w.preState
  | .withCmd w _ => w.preState

/-- `tail`, words.py:111, 227, 491-493. -/
def tail : WordLike → Option TrailingSpace
  | .box _ => none
  | .word w => w.tail
  | .withCmd w _ => w.tail

/-- `boxes`, words.py:184-186, 240-243, 495-497. -/
def boxes : WordLike → List Box
  | .box b => [b]
  | .word w => w.boxes
  | .withCmd w _ => w.boxes

/-- `last`, words.py:478-479. -/
def last : WordLike → Option Char
  | .box b => b.last
  | .word w => w.last
  | .withCmd w _ => w.last

/-- `width`, words.py:502-504. -/
def width : WordLike → ℚ
  | .box b => b.width
  | .word w => w.width
  | .withCmd w _ => w.width

/-- `pruned_width`, words.py:179-180, 235-236, 506-507. -/
def prunedWidth : WordLike → ℚ
  | .box b => b.width
  | .word w => w.prunedWidth
  | .withCmd w _ => w.prunedWidth

/-- `prunable_space`, words.py:202-203, 229-230, 536-537. -/
def prunableSpace : WordLike → ℚ
  | .box _ => 0
  | .word w => w.prunableSpace
  | .withCmd w _ => w.prunableSpace

/-- `pruned`, words.py:182-183, 232-233, 509-510. -/
def pruned : WordLike → WordLike
  | .box b => .box b
  | .word w => .word w.pruned
  | .withCmd w c => .withCmd w.pruned c

/-- `has_init_kern`, words.py:481-482. -/
def hasInitKern : WordLike → Bool
  | .box b => b.hasInitKern
  | .word w => w.hasInitKern
  | .withCmd w _ => w.hasInitKern

/-- `without_init_kern`, words.py:499-500. -/
def withoutInitKern : WordLike → WordLike
  | .box b => .box b.withoutInitKern
  | .word w => .word w.withoutInitKern
  | .withCmd w c => .withCmd w.withoutInitKern c

/-- `indent`, words.py:539-540. -/
def indent (amount : ℚ) : WordLike → WordLike
  | .box b => .box (b.indent amount)
  | .word w => .word (w.indent amount)
  | .withCmd w c => if amount = 0 then .withCmd w c else .withCmd (w.indent amount) c

/-- `extend_tail`, words.py:188-189, 251-252, 512-517. -/
def extendTail (amount : ℚ) : WordLike → WordLike
  | .box b => .box b
  | .word w => .word (w.extendTail amount)
  | .withCmd w c => if w.tail.isSome ∧ amount ≠ 0 then .withCmd (w.extendTail amount) c else .withCmd w c

/-- `stretch_tail`, words.py:192-193, 254-255, 519-524. -/
def stretchTail (ratio : ℚ) : WordLike → WordLike
  | .box b => .box b
  | .word w => .word (w.stretchTail ratio)
  | .withCmd w c => if w.tail.isSome then .withCmd (w.stretchTail ratio) c else .withCmd w c

/-- `hyphenate`, words.py:195-196, 257-258, 526-528. -/
def hyphenate (env : Env) (space : ℚ) : WordLike → Option (Option WordLike × WordLike)
  | .box b => some (none, .box b)
  | .word w => (w.hyphenate env space).map fun (a, b) => (a.map .word, .word b)
  | .withCmd w c => (w.hyphenate env space).map fun (a, b) => (a, b.addCmd c)

/-- `minimal_box`, words.py:198-200, 238-239, 530-534. -/
def minimalBox (env : Env) : WordLike → WordLike × Option WordLike
  | .box b => (.box b, none)
  | .word w => let (a, b) := w.minimalBox env; (.word a, b.map .word)
  | .withCmd w c =>
    match w.minimalBox env with
    | (a, none) => (a.addCmd c, none)
    | (a, some b) => (a, some (b.addCmd c))

/-- `encode_into_line`, words.py:542-548. -/
def encodeInto : WordLike → List ShowItem → List TextOp × List ShowItem
  | .box b, line => b.encodeInto line
  | .word w, line => w.encodeInto line
  | .withCmd w c, line =>
    let (ops, line) := w.encodeInto line
    (ops ++ [.tj line] ++ c.ops, [])

end WordLike

/-- The loop over the words of a line, then `render_kerned` (firstfit.py:188-192, optimum.py:187-191, draw.py:371-375). -/
def encodeWords : List WordLike → List ShowItem → List TextOp
  | [], line => [.tj line]
  | w :: ws, line =>
    let (ops, line) := w.encodeInto line
    ops ++ encodeWords ws line

/-- words.py:596-603 `indent_first`. -/
def indentFirst (ws : List WordLike) (amount : ℚ) : List WordLike :=
  match ws with
  | [] => []
  | w :: ws => w.indent amount :: ws

end Pdfje
