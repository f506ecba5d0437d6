import Verif.Model.Resources
/-
Model of colours (/repo/src/pdfje/common.py:257-336), styles (/repo/src/pdfje/style.py) and the text state and
its commands (/repo/src/pdfje/typeset/state.py). Floats are rational numbers. Hyphenators (callables) are
represented by a number; number 0 is `never_hyphenate`, number 1 is `default_hyphenator`.
-/

namespace Pdfje

/-- What Python's `str` methods and `re` know about non-ASCII characters: value of a decimal digit, white space,
`\w`. Every theorem is for all such tables. -/
structure Unicode where
  digit : Char → Option (Fin 10)
  space : Char → Bool
  word : Char → Bool

/-- common.py:257-278 `RGB`. -/
structure RGB where
  red : ℚ
  green : ℚ
  blue : ℚ
  deriving DecidableEq

/-- common.py:280-283 `RGB.__post_init__`: `none` if the assertion fails. -/
def RGB.new (r g b : ℚ) : Option RGB := if r ≤ 1 ∧ g ≤ 1 ∧ b ≤ 1 then some ⟨r, g, b⟩ else none

/-- A digit of `int(_, 16)`. -/
def hexDigit (U : Unicode) (c : Char) : Option Nat :=
  if '0' ≤ c ∧ c ≤ '9' then some (c.toNat - 48)
  else if 'a' ≤ c ∧ c ≤ 'f' then some (c.toNat - 87)
  else if 'A' ≤ c ∧ c ≤ 'F' then some (c.toNat - 55)
  else if c.toNat < 128 then none
  else (U.digit c).map (·.val)

/-- White space, as stripped by `int`. -/
def isSpace (U : Unicode) (c : Char) : Bool :=
  if c.toNat < 128 then c == ' ' || (9 ≤ c.toNat && c.toNat ≤ 13) || (28 ≤ c.toNat && c.toNat ≤ 31) else U.space c

/-- Python's `int(s, 16)` for a string of two characters: two digits, or a sign and a digit, or a digit with white
space before or after it. `none` is a ValueError. (Underscores are only allowed between digits, so not here.) -/
def int16 (U : Unicode) (a b : Char) : Option ℤ :=
  match hexDigit U a, hexDigit U b with
  | some x, some y => some (16 * x + y)
  | some x, none => if isSpace U b then some x else none
  | none, some y => if a = '+' ∨ isSpace U a then some y else if a = '-' then some (-(y : ℤ)) else none
  | none, none => none

/-- What `RGB.parse` takes. -/
inductive ColorLike where
  | rgb (c : RGB)
  | tuple (v : List ℚ)
  | str (s : List Char)

/-- common.py:300-315 `RGB.parse` of a string. `none`: an AssertionError or ValueError is raised. -/
def RGB.parseStr (U : Unicode) (s : List Char) : Option RGB :=
  match s with
  | ['#', a, b, c, d, e, f] => do
    let r ← int16 U a b
    let g ← int16 U c d
    let b' ← int16 U e f
    RGB.new (r / 255) (g / 255) (b' / 255)
  | _ => none

/-- common.py:300-315 `RGB.parse`. -/
def RGB.parse (U : Unicode) : ColorLike → Option RGB
  | .rgb c => some c
  | .tuple [r, g, b] => RGB.new r g b
  | .tuple _ => none
  | .str s => RGB.parseStr U s

/-- style.py:87-93 `Style`; `none` is Python's `None` (attribute not set). -/
structure Style where
  font : Option Typeface := none
  size : Option ℚ := none
  bold : Option Bool := none
  italic : Option Bool := none
  color : Option RGB := none
  lineSpacing : Option ℚ := none
  hyphens : Option Nat := none
  deriving DecidableEq

/-- style.py:207 `Style.EMPTY`. -/
def Style.empty : Style := {}

/-- style.py:277-278 `_fallback(a, b)`, also `a or b` for values that are never falsy. -/
def fallback {α} (a : Option α) (b : α) : α := match a with | some x => x | none => b

/-- style.py:277-278 `_fallback(a, b)` (and `a or b`) where `b` can be `None`. -/
def fallbackO {α} (a b : Option α) : Option α := match a with | some x => some x | none => b

/-- style.py:130-148 `Style.__or__` with a `Style`. -/
def Style.or (self other : Style) : Style where
  font := fallbackO other.font self.font
  size := fallbackO other.size self.size
  bold := fallbackO other.bold self.bold
  italic := fallbackO other.italic self.italic
  color := fallbackO other.color self.color
  lineSpacing := fallbackO other.lineSpacing self.lineSpacing
  hyphens := fallbackO other.hyphens self.hyphens

/-- style.py:206 `StyleLike`. -/
inductive StyleLike where
  | style (s : Style)
  | rgb (c : RGB)
  | font (f : Typeface)
  | str (s : List Char)

/-- style.py:165-176 `Style.parse`. `none`: an error is raised. -/
def Style.parse (U : Unicode) : StyleLike → Option Style
  | .style s => some s
  | .rgb c => some { color := some c }
  | .font f => some { font := some f }
  | .str s => if s.head? = some '#' then (RGB.parseStr U s).map fun c => { color := some c } else none

/-- style.py:130-148 `Style.__or__`. -/
def Style.orLike (U : Unicode) (self : Style) : StyleLike → Option Style
  | .style o => some (self.or o)
  | .font f => some { self with font := some f }
  | .str s => (RGB.parseStr U s).map fun c => { self with color := some c }
  | .rgb c => some { self with color := some c }

/-- The operator `a | b` on style-like values: style.py:130-151 (`Style.__or__`, `__ror__`), 365-383 (fonts and
colours). Outer `none`: the operator is not defined (`str | str`, a TypeError). Inner `none`: it raises an error. -/
def opOr (U : Unicode) (a b : StyleLike) : Option (Option Style) :=
  match a with
  | .style s => some (s.orLike U b)
  | .font f => some (({ font := some f } : Style).orLike U b)
  | .rgb c => some (({ color := some c } : Style).orLike U b)
  | .str t =>
    match b with
    | .style s => some ((RGB.parseStr U t).map fun c => ({ color := some c } : Style).or s)
    | .font f => some ((RGB.parseStr U t).bind fun c => ({ font := some f } : Style).orLike U (.rgb c))
    | .rgb c => some (some { color := some c })
    | .str _ => none

/-- style.py:217-225 `StyleFull`. -/
structure StyleFull where
  font : Typeface
  size : ℚ
  bold : Bool
  italic : Bool
  color : RGB
  lineSpacing : ℚ
  hyphens : Nat
  deriving DecidableEq

/-- style.py:227-236 `StyleFull.__or__`. -/
def StyleFull.or (self : StyleFull) (s : Style) : StyleFull where
  font := fallback s.font self.font
  size := fallback s.size self.size
  bold := fallback s.bold self.bold
  italic := fallback s.italic self.italic
  color := fallback s.color self.color
  lineSpacing := fallback s.lineSpacing self.lineSpacing
  hyphens := fallback s.hyphens self.hyphens

/-- style.py:270-272 `StyleFull.DEFAULT`. -/
def StyleFull.default : StyleFull := ⟨.builtin helvetica, 12, false, false, ⟨0, 0, 0⟩, 5/4, 1⟩

/-- style.py:200-201 `Style.setdefault`. -/
def Style.setdefault (s : Style) : StyleFull := StyleFull.default.or s

/-- typeset/state.py:116-136 `State`. -/
structure State where
  font : FontRef
  size : ℚ
  color : RGB
  lineSpacing : ℚ
  hyphens : Nat
  deriving DecidableEq

/-- typeset/state.py:126, 132-133: the cached `lead`. -/
def State.lead (s : State) : ℚ := s.size * s.lineSpacing

/-- typeset/state.py:135-136 `State.kerns_with`. -/
def State.kernsWith (s o : State) : Bool := s.font == o.font && s.size == o.size

/-- typeset/state.py:31-113: the commands. -/
inductive Command where
  | noop
  | setFont (f : FontRef) (size : ℚ)
  | setColor (c : RGB)
  | setLineSpacing (v : ℚ)
  | setHyphens (h : Nat)
  | chain (items : List Command)

mutual
/-- `Command.apply`, state.py:33-34, 47-50, 71-72, 82-83, 96-97, 107-108. -/
def Command.apply : Command → State → State
  | .noop, s => s
  | .setFont f z, s => { s with font := f, size := z }
  | .setColor c, s => { s with color := c }
  | .setLineSpacing v, s => { s with lineSpacing := v }
  | .setHyphens h, s => { s with hyphens := h }
  | .chain l, s => applyAll l s
/-- The loop of state.py:47-50. -/
def applyAll : List Command → State → State
  | [], s => s
  | c :: cs, s => applyAll cs (c.apply s)
end

/-- An element of the array of a `TJ` operator: an adjustment, or a string that was encoded with a font. Encoding
is done when the operators are written out (`Model/Ops.lean`), so text is still characters here. -/
inductive ShowItem where
  | adj (x : ℚ)
  | txt (f : FontRef) (s : List Char)
  deriving DecidableEq

/-- The text operators that pdfje writes: `Tf`, `rg`, `TJ`, `Td`, `TD`, `TL`, `T*`. -/
inductive TextOp where
  | tf (f : FontRef) (size : ℚ)
  | rg (c : RGB)
  | tj (items : List ShowItem)
  | td (x y : ℚ)
  | tdl (x y : ℚ)
  | tl (lead : ℚ)
  | tstar
  deriving DecidableEq

mutual
/-- What a command writes (`Command.__iter__`): state.py:36-37, 52-53, 74-75, 85-89, 99-100, 110-113. -/
def Command.ops : Command → List TextOp
  | .noop => []
  | .setFont f z => [.tf f z]
  | .setColor c => [.rg c]
  | .setLineSpacing _ => []
  | .setHyphens _ => []
  | .chain l => opsAll l
/-- `flatten(self.items)` of state.py:52-53. -/
def opsAll : List Command → List TextOp
  | [] => []
  | c :: cs => c.ops ++ opsAll cs
end

/-- typeset/state.py:128-130 `State.__iter__`. -/
def State.ops (s : State) : List TextOp := [.tf s.font s.size, .rg s.color]

/-- `type(c)`, as a number. -/
def Command.kind : Command → Nat
  | .noop => 0
  | .setFont .. => 1
  | .setColor _ => 2
  | .setLineSpacing _ => 3
  | .setHyphens _ => 4
  | .chain _ => 5

/-- `d[k] = v` for a Python dict: an existing key keeps its place. -/
def dictSet {α β} [BEq α] : List (α × β) → α → β → List (α × β)
  | [], k, v => [(k, v)]
  | (k', v') :: d, k, v => if k' == k then (k', v) :: d else (k', v') :: dictSet d k v

/-- state.py:57 `{type(i): i for i in it}`. -/
def byType (it : List Command) : List (Nat × Command) := it.foldl (fun d c => dictSet d c.kind c) []

/-- state.py:55-63 `Chain.squash`. -/
def squash (it : List Command) : Command :=
  match byType it with
  | [e] => e.2
  | [] => .noop
  | d => .chain (d.map (·.2))

/-- style.py:238-245 `StyleFull.as_state`. -/
def StyleFull.asState (s : StyleFull) (r : Res) : State × Res :=
  let (f, r1) := r.font s.font s.bold s.italic
  (⟨f, s.size, s.color, s.lineSpacing, s.hyphens⟩, r1)

/-- style.py:284-290 `_differs`. -/
def differs {α} [DecidableEq α] (a : Option α) (b : α) : Bool := match a with | some x => decide (x ≠ b) | none => false

/-- The commands after the font command of style.py:193-198. -/
def diffRest (color : Option RGB) (spacing : Option ℚ) (hyph : Option Nat) (base : StyleFull) : List Command :=
  (if differs color base.color then (color.map Command.setColor).toList else [])
  ++ (if differs spacing base.lineSpacing then (spacing.map Command.setLineSpacing).toList else [])
  ++ (if differs hyph base.hyphens then (hyph.map Command.setHyphens).toList else [])

/-- style.py:178-198 `Style.diff`. -/
def Style.diff (self : Style) (base : StyleFull) (r : Res) : List Command × Res :=
  if differs self.bold base.bold || differs self.italic base.italic || differs self.font base.font
      || differs self.size base.size then
    let (f, r1) := r.font (fallback self.font base.font) (fallback self.bold base.bold) (fallback self.italic base.italic)
    (.setFont f (fallback self.size base.size) :: diffRest self.color self.lineSpacing self.hyphens base, r1)
  else (diffRest self.color self.lineSpacing self.hyphens base, r)

/-- style.py:247-265 `StyleFull.diff`. -/
def StyleFull.diff (self : StyleFull) (base : StyleFull) (r : Res) : List Command × Res :=
  let rest := (if self.color ≠ base.color then [.setColor self.color] else [])
    ++ (if self.lineSpacing ≠ base.lineSpacing then [.setLineSpacing self.lineSpacing] else [])
    ++ (if self.hyphens ≠ base.hyphens then [.setHyphens self.hyphens] else [])
  if ¬ (self.bold = base.bold ∧ self.italic = base.italic ∧ self.font = base.font ∧ self.size = base.size) then
    let (f, r1) := r.font self.font self.bold self.italic
    (.setFont f self.size :: rest, r1)
  else (rest, r)

/-- typeset/state.py:165-167 `Passage`. -/
structure Passage where
  cmd : Command
  txt : List Char

/-- `str | Span`, style.py:316-360: a `Span` has a content and an (already parsed) style. -/
inductive Item where
  | str (s : List Char)
  | span (content : List Item) (style : Style)

/-- A generator object of `Style.diff` or `StyleFull.diff` that was not started yet. `todo` in style.py:300-313 is
an `itertools.chain` of such generators. -/
inductive Pending where
  | style (s : Style) (base : StyleFull)
  | full (s : StyleFull) (base : StyleFull)

/-- Running such a generator to its end. -/
def Pending.run : Pending → Res → List Command × Res
  | .style s base, r => s.diff base r
  | .full s base, r => s.diff base r

/-- Running `todo` to its end. -/
def runTodo : List Pending → Res → List Command × Res
  | [], r => ([], r)
  | p :: ps, r =>
    let (c1, r1) := p.run r
    let (c2, r2) := runTodo ps r1
    (c1 ++ c2, r2)

mutual
/-- style.py:300-313 `StyledMixin.flatten` for a span: passages, the returned iterator, and the resources after
consuming the passages. -/
def flattenSpan (style : Style) (base : StyleFull) (todo : List Pending) (content : List Item) (r : Res) :
    List Passage × List Pending × Res :=
  let newbase := base.or style
  let (ps, todo', r') := flattenItems newbase (todo ++ [.style style base]) content r
  (ps, todo' ++ [.full base newbase], r')
termination_by (sizeOf content, 1)
/-- The loop of style.py:308-312. -/
def flattenItems (newbase : StyleFull) (todo : List Pending) (content : List Item) (r : Res) :
    List Passage × List Pending × Res :=
  match content with
  | [] => ([], todo, r)
  | .str s :: rest =>
    let (cmds, r1) := runTodo todo r
    let (ps, todo', r2) := flattenItems newbase [] rest r1
    (⟨squash cmds, s⟩ :: ps, todo', r2)
  | .span c style :: rest =>
    let (ps1, todo1, r1) := flattenSpan style newbase todo c r
    let (ps2, todo2, r2) := flattenItems newbase todo1 rest r1
    (ps1 ++ ps2, todo2, r2)
termination_by (sizeOf content, 0)
end

/-- typeset/state.py:170-180 `max_lead`, the loop. -/
def maxLeadLoop : List Passage → State → ℚ → State × ℚ
  | [], st, lead => (st, lead)
  | p :: ps, st, lead =>
    let st := p.cmd.apply st
    maxLeadLoop ps st (if p.txt ≠ [] then max lead st.lead else lead)

/-- typeset/state.py:170-180 `max_lead`. -/
def maxLead (ps : List Passage) (st : State) : ℚ :=
  let (st, lead) := maxLeadLoop ps st 0
  if lead = 0 then st.lead else lead

/-- typeset/state.py:21 `_next_newline(txt)`: the text before the first newline, and the text after it. -/
def nextNewline : List Char → Option (List Char × List Char)
  | [] => none
  | '\r' :: '\n' :: rest => some ([], rest)
  | '\n' :: rest => some ([], rest)
  | c :: rest => (nextNewline rest).map fun (a, b) => (c :: a, b)

theorem nextNewline_lt : ∀ (txt a b : List Char), nextNewline txt = some (a, b) → b.length < txt.length
  | [], _, _, h => by simp [nextNewline] at h
  | c :: rest, a, b, h => by
    unfold nextNewline at h
    split at h
    · simp at h
    · simp only [Option.some.injEq, Prod.mk.injEq] at h; rename_i heq; simp only [heq, ← h.2, List.length_cons]; omega
    · simp only [Option.some.injEq, Prod.mk.injEq] at h; rename_i heq; simp only [heq, ← h.2, List.length_cons]; omega
    · rename_i c' rest' _ _ heq
      simp only [List.cons.injEq] at heq
      obtain ⟨rfl, rfl⟩ := heq
      simp only [Option.map_eq_some_iff, Prod.mk.injEq, Prod.exists] at h
      obtain ⟨a', b', h, _, rfl⟩ := h
      have := nextNewline_lt rest a' b' h
      simp only [List.length_cons]; omega

/-- typeset/state.py:146-159 `_group`, and the loop of 161-162: the groups made from the passage being read
(its text from the current position on; `pos` tells whether the position is not 0, in which case the passage's
command was emitted before) and the remaining passages. Groups are eager here; the code requires consuming them
in order. -/
def splitFrom (cmd : Command) (txt : List Char) (pos : Bool) (it : List Passage) : List (List Passage) :=
  let cmd' := if pos then .noop else cmd
  match _h : nextNewline txt with
  | some (a, b) => [⟨cmd', a⟩] :: splitFrom cmd b true it
  | none =>
    match it with
    | [] => [[⟨cmd', txt⟩]]
    | p :: ps =>
      match splitFrom p.cmd p.txt false ps with
      | [] => [[⟨cmd', txt⟩]]
      | g :: gs => (⟨cmd', txt⟩ :: g) :: gs
termination_by (it.length, txt.length)
decreasing_by
  · exact Prod.Lex.right _ (nextNewline_lt _ _ _ _h)
  · exact Prod.Lex.left _ _ (by simp)

/-- typeset/state.py:140-162 `splitlines`. -/
def splitlines (it : List Passage) : List (List Passage) :=
  match it with
  | [] => []
  | p :: ps => splitFrom p.cmd p.txt false ps

end Pdfje
