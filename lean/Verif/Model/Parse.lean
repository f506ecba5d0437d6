import Verif.Model.Words
/-
Model of /repo/src/pdfje/typeset/parse.py. Texts have no newline here (`splitlines` runs first, paragraph.py:152,
draw.py:358); `_WORD_RE` would treat a newline specially.
-/

namespace Pdfje

/-- U+200B ZERO WIDTH SPACE and U+2014 EM DASH. -/
def zwsp : Char := Char.ofNat 0x200B
@[inherit_doc zwsp] def emDash : Char := Char.ofNat 0x2014

/-- parse.py:14-18 `_WORD_RE`, one match from the start of the text: the text up to and including the first run of
spaces, hyphen, zero-width space or em dash, and the rest. (The last alternative, a position before an em dash,
never matches, because the em dash itself is tried before it.) -/
def nextWord : List Char → Option (List Char × List Char)
  | [] => none
  | c :: s =>
    if c = ' ' then some (c :: s.takeWhile (· = ' '), s.dropWhile (· = ' '))
    else if c = '-' ∨ c = zwsp ∨ c = emDash then some ([c], s)
    else (nextWord s).map fun (a, b) => (c :: a, b)

theorem nextWord_lt : ∀ (s a b : List Char), nextWord s = some (a, b) → b.length < s.length
  | [], _, _, h => by simp [nextWord] at h
  | c :: s, a, b, h => by
    simp only [nextWord] at h
    split at h
    · simp only [Option.some.injEq, Prod.mk.injEq] at h
      rw [← h.2, List.length_cons]
      have := (List.dropWhile_suffix (· = ' ') (l := s)).length_le
      omega
    · split at h
      · simp only [Option.some.injEq, Prod.mk.injEq] at h
        rw [← h.2, List.length_cons]; omega
      · simp only [Option.map_eq_some_iff, Prod.mk.injEq, Prod.exists] at h
        obtain ⟨a', b', h, _, rfl⟩ := h
        have := nextWord_lt s a' b' h
        simp only [List.length_cons]; omega

/-- `_WORD_RE.finditer(txt, pos)`: all matches, and the text after the last one. -/
def allWords (s : List Char) : List (List Char) × List Char :=
  match _h : nextWord s with
  | none => ([], s)
  | some (a, b) => let (ws, rest) := allWords b; (a :: ws, rest)
termination_by s.length
decreasing_by exact nextWord_lt _ _ _ _h

/-- The words made in parse.py:65-72, each after the last character of the one before. -/
def makeWords (env : Env) (st : State) : List (List Char) → Option Char → Option (List Word)
  | [], _ => some []
  | w :: ws, prev =>
    match Word.new env w st prev with
    | none => none
    | some x => (makeWords env st ws w.getLast?).map (x :: ·)

/-- parse.py:55-77 `_parse_simple_words` (`txt` is the text from `pos` on): words yielded, and the result, a text or
a word. -/
def parseSimple (env : Env) (txt : List Char) (st : State) (prev : Option Char) :
    Option (List Word × (List Char ⊕ Word)) :=
  match allWords txt with
  | ([], _) => some ([], .inl txt)
  | (ms, left) =>
    match makeWords env st ms prev with
    | none => none
    | some ws =>
      if left ≠ [] then some (ws, .inl left)
      else match ws.getLast? with
        | some w => some (ws.dropLast, .inr w)
        | none => none

/-- The loop of parse.py:86-95: parts, whether there is a trailing space, the text after the match of the passage
that ended the word (`none`: passages exhausted), and the passages left. -/
def takeParts : List Passage → List (Command × List Char) × Bool × Option (List Char) × List Passage
  | [] => ([], false, none, [])
  | p :: ps =>
    match nextWord p.txt with
    | some (word, rest) =>
      if word.getLast? = some ' ' then ([(p.cmd, word.dropLast)], true, some rest, ps)
      else ([(p.cmd, word)], false, some rest, ps)
    | none =>
      let (parts, sp, left, rest) := takeParts ps
      ((p.cmd, p.txt) :: parts, sp, left, rest)

/-- The loop of parse.py:111-122, from the current segment, its commands so far, the state and `prev`: segments,
state and `prev` at the end. -/
def segmentsLoop (env : Env) : List (Command × List Char) → Slug → List Command → State → Option Char →
    List (Slug × Command) × State × Option Char
  | [], seg, cmds, st, prev => ([(seg, squash cmds)], st, prev)
  | (cmd, txt) :: parts, seg, cmds, st, prev =>
    let new := cmd.apply st
    let prev := if st.kernsWith new then prev else none
    if txt ≠ [] then
      let (segs, st', prev') := segmentsLoop env parts (Slug.new env txt new prev) [] new txt.getLast?
      ((seg, squash (cmds ++ [cmd])) :: segs, st', prev')
    else segmentsLoop env parts seg (cmds ++ [cmd]) new prev

/-- parse.py:80-136 `_complete_word`: the word, the text left of the passage that ended it (`none`: no more
passages), and the passages left. Outer `none`: the hyphenator misbehaves. -/
def completeWord (env : Env) (it : List Passage) (head : List Char) (st : State) (prev : Option Char) :
    Option (Word × Option (List Char) × List Passage) :=
  match takeParts it with
  | ([], _, _, _) => (Word.new env head st prev).map fun w => (w, none, [])
  | (parts, space, left, rest) =>
    let seg := Slug.new env head st prev
    let (segs, st', prev') := segmentsLoop env parts seg [] st seg.last
    let tail := if space then some (TrailingSpace.make env st' prev') else none
    some (⟨[.mixed segs st'], tail, st'⟩, left, rest)

theorem takeParts_lt : ∀ (it : List Passage) parts sp l rest, takeParts it = (parts, sp, some l, rest) → rest.length < it.length
  | [], _, _, _, _, h => by simp [takeParts] at h
  | p :: ps, parts, sp, l, rest, h => by
    simp only [takeParts] at h
    split at h
    · split at h <;> · simp only [Prod.mk.injEq] at h; rw [← h.2.2.2]; simp
    · simp only [Prod.mk.injEq] at h
      have := takeParts_lt ps (takeParts ps).1 (takeParts ps).2.1 l rest (by
        rw [← h.2.2.1, ← h.2.2.2])
      simp only [List.length_cons]; omega

theorem completeWord_lt (env : Env) (it : List Passage) (head : List Char) (st : State) (prev : Option Char) (w l rest)
    (h : completeWord env it head st prev = some (w, some l, rest)) : rest.length < it.length := by
  unfold completeWord at h
  split at h
  · simp at h
  · rename_i parts sp left rest' hne ht
    simp only [Option.some.injEq, Prod.mk.injEq] at h
    obtain ⟨-, rfl, rfl⟩ := h
    exact takeParts_lt _ _ _ _ _ ht

/-- parse.py:27-52 `_parse`, with `txt` the text from `pos` on (the loop condition `while txt` is
on the whole text of a passage; when only a rest of it is looked at, that rest is not empty). -/
def parse (env : Env) (it : List Passage) (st : State) (txt : List Char) : Option (List WordLike) :=
  if txt = [] then some []
  else
    match parseSimple env txt st none with
    | none => none
    | some (ws, .inr last) =>
      match it with
      | [] => some (ws.map .word ++ [.word last])
      | p :: it' =>
        (parse env it' (p.cmd.apply st) p.txt).map fun more =>
          ws.map .word ++ (WordLike.word last).addCmd p.cmd :: more
    | some (ws, .inl head) =>
      match _h : completeWord env it head st none with
      | none => none
      | some (last, none, _) => some (ws.map .word ++ [.word last])
      | some (last, some left, rest) =>
        if left ≠ [] then (parse env rest last.state left).map fun more => ws.map .word ++ .word last :: more
        else
          match rest with
          | [] => some (ws.map .word ++ [.word last])
          | p :: it' =>
            (parse env it' (p.cmd.apply last.state) p.txt).map fun more =>
              ws.map .word ++ (WordLike.word last).addCmd p.cmd :: more
termination_by it.length
decreasing_by
  all_goals simp_wf
  all_goals try have := completeWord_lt _ _ _ _ _ _ _ _ _h
  all_goals try simp only [List.length_cons] at this
  all_goals omega

/-- parse.py:139-148 `_fold_commands`: command, text (`none` if there is none), state, passages left. -/
def foldCommands : List Passage → State → List Command → Command × Option (List Char) × State × List Passage
  | [], st, buffer => (squash buffer, none, st, [])
  | p :: it, st, buffer =>
    let st := p.cmd.apply st
    if p.txt ≠ [] then (squash (buffer ++ [p.cmd]), some p.txt, st, it)
    else foldCommands it st (buffer ++ [p.cmd])

/-- parse.py:21-26 `into_words`. -/
def intoWords (env : Env) (it : List Passage) (st : State) : Option (Command × List WordLike) :=
  match foldCommands it st [] with
  | (cmd, none, _, _) => some (cmd, [])
  | (cmd, some txt, st, rest) => (parse env rest st txt).map fun ws => (cmd, ws)

end Pdfje
