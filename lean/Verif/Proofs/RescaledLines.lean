import Verif.Proofs.RescaledWords
import Verif.Proofs.Parse
/-
Splitting into words, first-fit and optimal line breaks commute with a change of the unit of length and of colours.
-/

namespace Pdfje

variable (σ : Change)

/-! ### Splitting into words -/

theorem makeWords_via (env : Env) (st : State) : ∀ (ms : List (List Char)) (prev : Option Char),
    makeWords (env.via σ) (st.via σ) ms prev = (makeWords env st ms prev).map fun l => l.map (Word.via σ)
  | [], _ => rfl
  | m :: ms, prev => by
    rw [makeWords, makeWords, wordNew_via]
    cases Word.new env m st prev with
    | none => rfl
    | some x =>
      simp only [Option.map_some, makeWords_via env st ms, Option.map_map]
      rfl

theorem parseSimple_via (env : Env) (txt : List Char) (st : State) (prev : Option Char) :
    parseSimple (env.via σ) txt (st.via σ) prev = (parseSimple env txt st prev).map fun x => (x.1.map (Word.via σ), x.2.map id (Word.via σ)) := by
  unfold parseSimple
  match allWords txt with
  | ([], _) => rfl
  | (m :: ms, left) =>
    simp only [makeWords_via]
    cases makeWords env st (m :: ms) prev with
    | none => rfl
    | some ws =>
      simp only [Option.map_some]
      split
      · rfl
      · rw [List.getLast?_map]
        cases ws.getLast? with
        | none => rfl
        | some w => simp

/-- The parts of a word. -/
def partVia (e : Command × List Char) : Command × List Char := (e.1.via σ, e.2)

theorem takeParts_via : ∀ it : List Passage, takeParts (it.map (Passage.via σ)) =
    ((takeParts it).1.map (partVia σ), (takeParts it).2.1, (takeParts it).2.2.1, (takeParts it).2.2.2.map (Passage.via σ))
  | [] => rfl
  | p :: ps => by
    rw [List.map_cons, takeParts, takeParts]
    simp only [Passage.via]
    cases nextWord p.txt with
    | none => simp only [takeParts_via ps]; rfl
    | some x =>
      obtain ⟨word, rest⟩ := x
      simp only
      split <;> rfl

theorem kernsWith_via (s o : State) : (s.via σ).kernsWith (o.via σ) = s.kernsWith o := by
  simp only [State.kernsWith, State.via]
  congr 1
  · rw [Bool.eq_iff_iff]
    simp [σ.font_inj.eq_iff]
  · rw [Bool.eq_iff_iff]
    simp [σ.ne]

theorem segmentsLoop_via (env : Env) : ∀ (parts : List (Command × List Char)) (seg : Slug) (cmds : List Command) (st : State) (prev : Option Char),
    segmentsLoop (env.via σ) (parts.map (partVia σ)) (seg.via σ) (cmds.map (Command.via σ)) (st.via σ) prev =
      ((segmentsLoop env parts seg cmds st prev).1.map (segVia σ), (segmentsLoop env parts seg cmds st prev).2.1.via σ, (segmentsLoop env parts seg cmds st prev).2.2)
  | [], seg, cmds, st, prev => by simp [segmentsLoop, squash_via, segVia]
  | (cmd, txt) :: parts, seg, cmds, st, prev => by
    rw [List.map_cons, partVia, segmentsLoop, segmentsLoop]
    have hs := squash_via σ (cmds ++ [cmd])
    rw [List.map_append] at hs
    simp only [List.map_cons, List.map_nil] at hs
    simp only [apply_via, kernsWith_via, slugNew_via]
    split
    · have := segmentsLoop_via env parts (Slug.new env txt (cmd.apply st) (if st.kernsWith (cmd.apply st) = true then prev else none)) [] (cmd.apply st) txt.getLast?
      rw [List.map_nil] at this
      simp only [this, hs]
      rfl
    · have := segmentsLoop_via env parts seg (cmds ++ [cmd]) (cmd.apply st) (if st.kernsWith (cmd.apply st) = true then prev else none)
      rw [List.map_append] at this
      simp only [List.map_cons, List.map_nil] at this
      rw [this]

theorem completeWord_via (env : Env) (it : List Passage) (head : List Char) (st : State) (prev : Option Char) :
    completeWord (env.via σ) (it.map (Passage.via σ)) head (st.via σ) prev =
      (completeWord env it head st prev).map fun x => (x.1.via σ, x.2.1, x.2.2.map (Passage.via σ)) := by
  unfold completeWord
  rw [takeParts_via]
  match takeParts it with
  | ([], a, b, c) =>
    simp only [List.map_nil, wordNew_via, Option.map_map]
    rfl
  | (p :: parts, space, left, rest) =>
    have := segmentsLoop_via σ env (p :: parts) (Slug.new env head st prev) [] st (Slug.new env head st prev).last
    rw [List.map_nil] at this
    simp only [slugNew_via, List.map_cons]
    rw [List.map_cons] at this
    rw [show ((Slug.new env head st prev).via σ).last = (Slug.new env head st prev).last from rfl, this]
    simp only [Option.map_some, Word.via, List.map_cons, List.map_nil, Box.via, tailMake_via, Option.some.injEq, Prod.mk.injEq, and_true, Word.mk.injEq, true_and]
    split <;> rfl

theorem parse_unfold (env : Env) (it : List Passage) (st : State) (txt : List Char) : parse env it st txt =
    if txt = [] then some []
    else
      match parseSimple env txt st none with
      | none => none
      | some (ws, .inr last) =>
        match it with
        | [] => some (ws.map .word ++ [.word last])
        | p :: it' => (parse env it' (p.cmd.apply st) p.txt).map fun more => ws.map .word ++ (WordLike.word last).addCmd p.cmd :: more
      | some (ws, .inl head) =>
        match completeWord env it head st none with
        | none => none
        | some (last, none, _) => some (ws.map .word ++ [.word last])
        | some (last, some left, rest) =>
          if left ≠ [] then (parse env rest last.state left).map fun more => ws.map .word ++ .word last :: more
          else
            match rest with
            | [] => some (ws.map .word ++ [.word last])
            | p :: it' => (parse env it' (p.cmd.apply last.state) p.txt).map fun more => ws.map .word ++ (WordLike.word last).addCmd p.cmd :: more := by
  rw [parse.eq_def]
  split
  · rfl
  · rcases parseSimple env txt st none with _ | ⟨ws, head | last⟩
    · rfl
    · simp only
      split <;> rename_i h <;> simp only [h]
      rename_i rest
      split
      · rfl
      · cases rest <;> rfl
    · rfl

theorem parse_via (env : Env) : ∀ (n : Nat) (it : List Passage) (st : State) (txt : List Char), it.length < n →
    parse (env.via σ) (it.map (Passage.via σ)) (st.via σ) txt = (parse env it st txt).map fun l => l.map (WordLike.via σ) := by
  intro n
  induction n with
  | zero => intro it st txt h; omega
  | succ n ih =>
    intro it st txt h
    have hw : ∀ ws : List Word, (ws.map (Word.via σ)).map WordLike.word = (ws.map WordLike.word).map (WordLike.via σ) := by
      intro ws; simp [WordLike.via]
    have hp : ∀ (p : Passage) (w : Word), (WordLike.word (w.via σ)).addCmd (p.via σ).cmd = ((WordLike.word w).addCmd p.cmd).via σ := fun p w => addCmd_via σ (.word w) p.cmd
    rw [parse_unfold, parse_unfold, parseSimple_via]
    split
    · rfl
    · rcases parseSimple env txt st none with _ | ⟨ws, head | last⟩
      · rfl
      · simp only [Option.map_some, Sum.map_inl, id_eq, completeWord_via]
        cases hc : completeWord env it head st none with
        | none => rfl
        | some x =>
          obtain ⟨last, left, rest⟩ := x
          cases left with
          | none => simp [WordLike.via]
          | some left =>
            have hlt := completeWord_lt env it head st none last left rest hc
            simp only [Option.map_some]
            split
            · rw [show (last.via σ).state = last.state.via σ from rfl, ih rest last.state left (by omega)]
              simp only [Option.map_map]
              congr 1
              funext more
              simp [WordLike.via]
            · cases rest with
              | nil => simp [WordLike.via]
              | cons p it' =>
                simp only [List.map_cons, hp]
                rw [show (p.via σ).cmd = p.cmd.via σ from rfl, show (last.via σ).state = last.state.via σ from rfl, apply_via, show (p.via σ).txt = p.txt from rfl,
                  ih it' _ _ (by simp only [List.length_cons] at hlt; omega)]
                simp only [Option.map_map, hw]
                congr 1
                funext more
                simp
      · simp only [Option.map_some, Sum.map_inr]
        cases it with
        | nil => simp [WordLike.via]
        | cons p it' =>
          simp only [List.map_cons, hp]
          rw [show (p.via σ).cmd = p.cmd.via σ from rfl, apply_via, show (p.via σ).txt = p.txt from rfl, ih it' _ _ (by simp only [List.length_cons] at h; omega)]
          simp only [Option.map_map, hw]
          congr 1
          funext more
          simp

theorem foldCommands_via : ∀ (it : List Passage) (st : State) (buf : List Command), foldCommands (it.map (Passage.via σ)) (st.via σ) (buf.map (Command.via σ)) =
    ((foldCommands it st buf).1.via σ, (foldCommands it st buf).2.1, (foldCommands it st buf).2.2.1.via σ, (foldCommands it st buf).2.2.2.map (Passage.via σ))
  | [], st, buf => by simp [foldCommands, squash_via]
  | p :: it, st, buf => by
    rw [List.map_cons, foldCommands, foldCommands]
    have hb : buf.map (Command.via σ) ++ [(p.via σ).cmd] = (buf ++ [p.cmd]).map (Command.via σ) := by simp [Passage.via]
    rw [hb, squash_via, show (p.via σ).cmd = p.cmd.via σ from rfl, apply_via, show (p.via σ).txt = p.txt from rfl]
    split
    · rfl
    · rw [foldCommands_via it]

theorem intoWords_via (env : Env) (it : List Passage) (st : State) :
    intoWords (env.via σ) (it.map (Passage.via σ)) (st.via σ) = (intoWords env it st).map fun x => (x.1.via σ, x.2.map (WordLike.via σ)) := by
  unfold intoWords
  have h := foldCommands_via σ it st []
  rw [List.map_nil] at h
  rw [h]
  rcases foldCommands it st [] with ⟨cmd, _ | txt, st', rest⟩
  · rfl
  · simp only [parse_via σ env (rest.length + 1) rest st' txt (by omega), Option.map_map]
    rfl

/-! ### First fit -/

/-- A line. -/
def TLine.via (l : TLine) : TLine := ⟨l.words.map (WordLike.via σ), σ.factor * l.width, σ.factor * l.space⟩

/-- Lines of text in a column. -/
def ShapedText.via (t : ShapedText) : ShapedText := ⟨t.lines.map (TLine.via σ), σ.factor * t.lead, t.align, σ.factor * t.height⟩

/-- Columns. -/
def colsVia (cols : Cols) : Cols := fun i => σ.pt (cols i)

theorem fillLine_via : ∀ (ws : List WordLike) (space : ℚ), fillLine (ws.map (WordLike.via σ)) (σ.factor * space) =
    ((fillLine ws space).1.map (WordLike.via σ), σ.factor * (fillLine ws space).2.1, (fillLine ws space).2.2.map fun x => (x.1.via σ, x.2.map (WordLike.via σ)))
  | [], _ => rfl
  | w :: ws, space => by
    rw [List.map_cons, fillLine, fillLine]
    simp only [wlPrunedWidth_via, wlWidth_via, gt_iff_lt, lt_via, ← mul_sub]
    split
    · rfl
    · rw [fillLine_via ws]
      rfl

theorem endLine_via (env : Env) (width : ℚ) (content : List WordLike) (space : ℚ) (word : WordLike) (rest : List WordLike) :
    endLine (env.via σ) (σ.factor * width) (content.map (WordLike.via σ)) (σ.factor * space) (word.via σ) (rest.map (WordLike.via σ)) =
      (endLine env width content space word rest).map fun x => (x.1.map fun l => l.map (WordLike.via σ), x.2.via σ) := by
  unfold endLine
  rw [wlHyphenate_via]
  rcases word.hyphenate env space with _ | ⟨_ | last, dangling⟩
  · rfl
  · simp only [Option.map_some, Option.map_none, List.getLast?_map]
    cases content.getLast? with
    | some l =>
      simp only [Option.map_some, wlPrunable_via, ne_eq, zero_via]
      split
      · simp [TLine.via, wlPruned_via, mul_add, mul_sub]
      · simp [TLine.via, mul_sub]
    | none =>
      simp only [Option.map_none, wlMinimal_via]
      rcases dangling.minimalBox env with ⟨w, _ | leftover⟩
      · cases rest with
        | nil => simp [TLine.via, wlWidth_via]
        | cons r rs => simp [TLine.via, wlWidth_via, mul_sub]
      · simp [TLine.via, wlWidth_via, mul_sub]
  · simp [TLine.via, wlWidth_via, mul_sub]

/-- The words left. -/
def queueVia (q : Option (List WordLike)) : Option (List WordLike) := q.map fun l => l.map (WordLike.via σ)

theorem takeLine_via (env : Env) (ws : List WordLike) (width : ℚ) : takeLine (env.via σ) (ws.map (WordLike.via σ)) (σ.factor * width) =
    (takeLine env ws width).map fun x => (queueVia σ x.1, x.2.via σ) := by
  unfold takeLine
  rw [fillLine_via]
  rcases fillLine ws width with ⟨content, space, _ | ⟨word, rest⟩⟩
  · simp [TLine.via, mul_sub, queueVia]
  · exact endLine_via σ env width content space word rest

theorem maxLines_via (h lead : ℚ) (ae : Bool) : maxLines (σ.factor * h) (σ.factor * lead) ae = maxLines h lead ae := by
  unfold maxLines
  rw [mul_div_mul_left _ _ σ.ne]

/-- The outcome of filling a column. -/
def boxVia (x : Option (List WordLike) × List TLine × Option (List WordLike)) : Option (List WordLike) × List TLine × Option (List WordLike) :=
  (queueVia σ x.1, x.2.1.map (TLine.via σ), queueVia σ x.2.2)

theorem takeLines_via (env : Env) (width : ℚ) : ∀ (n : Nat) (q prev : Option (List WordLike)),
    takeLines (env.via σ) (σ.factor * width) n (queueVia σ q) (queueVia σ prev) = (takeLines env width n q prev).map (boxVia σ)
  | 0, q, prev => by rw [takeLines, takeLines]; rfl
  | n + 1, none, prev => by rw [show queueVia σ none = none from rfl, takeLines, takeLines]; rfl
  | n + 1, some ws, prev => by
    rw [show queueVia σ (some ws) = some (ws.map (WordLike.via σ)) from rfl, takeLines, takeLines, takeLine_via]
    cases takeLine env ws width with
    | none => rfl
    | some x =>
      simp only [Option.map_some]
      have := takeLines_via env width n x.1 (some ws)
      rw [show queueVia σ (some ws) = some (ws.map (WordLike.via σ)) from rfl] at this
      rw [this]
      simp only [Option.map_map]
      rfl

theorem takeBox_via (env : Env) (q : Option (List WordLike)) (col : ℚ × ℚ) (ae : Bool) (lead : ℚ) :
    takeBox (env.via σ) (queueVia σ q) (σ.pt col) ae (σ.factor * lead) = (takeBox env q col ae lead).map (boxVia σ) := by
  unfold takeBox
  simp only [zero_via, Rescale.pt, maxLines_via, takeLines_via]
  split <;> rfl

end Pdfje
