import Verif.Proofs.ShapeEnds
/-
First-fit lines are greedy.
-/

namespace Pdfje

variable {env : Env}

theorem Box.withoutInitKern_styled' (b : Box) : b.withoutInitKern.styled = b.styled := by
  rcases b with s | ⟨_ | ⟨x, l⟩, st⟩
  · simp only [Box.withoutInitKern, Box.styled, Slug.withoutInitKern]; split <;> rfl
  · rfl
  · simp only [Box.withoutInitKern, Box.styled, List.flatMap_cons, Slug.withoutInitKern]
    congr 1; split <;> rfl

theorem WordLike.hyphenate_none_rest {space : ℚ} : ∀ {w d : WordLike}, w.WF env → w.hyphenate env space = some (none, d) → RestOf w 0 d := by
  intro w d hwf h
  refine ⟨?_, ?_, fun _ => (WordLike.hyphenate_none hwf h).styled⟩
  · clear hwf
    revert d
    induction w with
    | box b => intro d h; simp [WordLike.hyphenate] at h; simp [← h]
    | word w =>
      intro d h
      simp only [WordLike.hyphenate, Option.map_eq_some_iff, Prod.exists, Prod.mk.injEq, Option.map_eq_none_iff] at h
      obtain ⟨a, b, h, rfl, rfl⟩ := h
      rw [Word.hyphenate_none h]
      obtain ⟨bs, t, st⟩ := w
      unfold Word.withoutInitKern
      repeat' split
      all_goals simp_all [WordLike.boxes, Box.withoutInitKern_styled']
    | withCmd w c ih =>
      intro d h
      simp only [WordLike.hyphenate, Option.map_eq_some_iff, Prod.exists, Prod.mk.injEq] at h
      obtain ⟨a, b, h, rfl, rfl⟩ := h
      rw [WordLike.addCmd_boxes]
      exact ih h
  · clear hwf
    revert d
    induction w with
    | box b => intro d h; simp [WordLike.hyphenate] at h; simp [← h]
    | word w =>
      intro d h
      simp only [WordLike.hyphenate, Option.map_eq_some_iff, Prod.exists, Prod.mk.injEq, Option.map_eq_none_iff] at h
      obtain ⟨a, b, h, rfl, rfl⟩ := h
      rw [Word.hyphenate_none h]
      obtain ⟨bs, t, st⟩ := w
      unfold Word.withoutInitKern
      repeat' split
      all_goals simp_all [WordLike.tail]
    | withCmd w c ih =>
      intro d h
      simp only [WordLike.hyphenate, Option.map_eq_some_iff, Prod.exists, Prod.mk.injEq] at h
      obtain ⟨a, b, h, rfl, rfl⟩ := h
      have : (b.addCmd c).tail = b.tail := by cases c <;> rfl
      rw [this]
      exact ih h

theorem WordLike.minimalBox_parts : ∀ w : WordLike,
    (w.boxes.length ≤ 1 ∧ (w.minimalBox env).2 = none ∧ (w.minimalBox env).1.styled = w.styled ∧ (w.minimalBox env).1.boxes.length ≤ 1) ∨
    (2 ≤ w.boxes.length ∧ (w.minimalBox env).1.boxes.length ≤ 1 ∧
      ∃ b st, (w.minimalBox env).2 = some b ∧ b.boxes.map Box.styled = (w.boxes.drop 1).map Box.styled ∧
        b.tail.isSome = w.tail.isSome ∧ (w.minimalBox env).1.styled = (w.boxes.take 1).flatMap Box.styled ++ [('-', st)]) := by
  intro w
  induction w with
  | box b => exact Or.inl ⟨by simp [WordLike.boxes], rfl, rfl, by simp [WordLike.boxes, WordLike.minimalBox]⟩
  | word w =>
    obtain ⟨bs, t, st⟩ := w
    match bs with
    | [] => exact Or.inl ⟨by simp [WordLike.boxes], rfl, rfl, by simp [WordLike.boxes, WordLike.minimalBox, Word.minimalBox]⟩
    | [b] => exact Or.inl ⟨by simp [WordLike.boxes], rfl, rfl, by simp [WordLike.boxes, WordLike.minimalBox, Word.minimalBox]⟩
    | b :: b2 :: rest =>
      refine Or.inr ⟨by simp [WordLike.boxes], by simp [WordLike.boxes, WordLike.minimalBox, Word.minimalBox], _, b.state, rfl, ?_, rfl, ?_⟩
      · simp [WordLike.boxes, Box.withoutInitKern_styled']
      · simp only [WordLike.minimalBox, Word.minimalBox, WordLike.styled, Word.styled, List.flatMap_cons, List.flatMap_nil,
          List.append_nil, WordLike.boxes, List.take_succ_cons, List.take_zero]
        rcases b with s | ⟨segs, st'⟩
        · simp [Box.styled, Box.withHyphen, Slug.styled, Slug.withHyphen, Box.state]
        · simp [Box.styled, Box.withHyphen, Slug.styled, Slug.new, Box.state]
  | withCmd w c ih =>
    simp only [WordLike.minimalBox]
    split
    · rename_i a e
      rw [e] at ih
      rcases ih with ⟨h1, h2, h3, h4⟩ | ⟨_, _, b, st, h, -⟩
      · refine Or.inl ⟨h1, rfl, ?_, by rw [WordLike.addCmd_boxes]; exact h4⟩
        rw [WordLike.addCmd_styled]; exact h3
      · simp at h
    · rename_i a b e
      rw [e] at ih
      rcases ih with ⟨_, h, -⟩ | ⟨h1, h2, b', st, h3, h4, h5, h6⟩
      · simp at h
      · simp only [Option.some.injEq] at h3
        subst h3
        refine Or.inr ⟨h1, h2, _, st, rfl, by rw [WordLike.addCmd_boxes]; exact h4, ?_, h6⟩
        have : (b.addCmd c).tail = b.tail := by cases c <;> rfl
        rw [this]; exact h5

theorem Ending.greedy {ws : List WordLike} {width : ℚ} {r : List WordLike} {line : TLine} {pre fin : State}
    (h : Ending env ws width (some r) line) (hw : WordsWF env ws pre fin) : Greedy env width ws line.styled r := by
  cases h with
  | all h => simp at h
  | cut content rest w a b k h1 h2 h3 h4 h5 h6 =>
    simp only [Option.some.injEq] at h2
    refine ⟨content, w, rest, k, h1, ⟨by unfold totalWidth; linarith, ?_⟩, Or.inr (Or.inl ⟨h6.pos, h6.lt, ⟨b, ⟨h6.rest, by rw [h6.tail], ?_⟩, h2⟩, ?_⟩)⟩
    · intro x hx _
      have := h6.most x hx
      unfold totalWidth; linarith
    · have := h6.pos; omega
    · obtain ⟨st, hst⟩ := h6.first
      exact ⟨st, by simp [TLine.styled, h3, hst]⟩
  | word content rest l w b h1 h2 h3 h4 h5 h6 h7 =>
    simp only [Option.some.injEq] at h2
    subst h1
    obtain ⟨m, hc, hl1, hl2, hw'⟩ := hw.split
    refine ⟨content ++ [l], w, rest, 0, by simp, ⟨by unfold totalWidth; linarith, ?_⟩,
      Or.inl ⟨by simp, rfl, ⟨b, WordLike.hyphenate_none_rest hw'.1 h6, h2⟩, ?_⟩⟩
    · intro x hx hlt
      rcases h7 with h7 | h7
      · omega
      · have := h7 x (by rw [List.head?_eq_getElem?]; exact hx)
        simp only [List.take_zero, List.map_nil, List.sum_nil, totalWidth]; linarith
    · rcases h3 with h3 | ⟨h3, -⟩
      · rcases WordLike.pruned_styled l with h | ⟨st, h⟩
        · exact Or.inl (by simp [TLine.styled, h3, h])
        · exact Or.inr ⟨st, by simp [TLine.styled, h3, h]⟩
      · exact Or.inl (by simp [TLine.styled, h3])
  | forced rest w d a h1 h2 h3 h4 h5 h6 =>
    subst h1
    have hb : w.boxes.length ≤ 1 ∨ ∀ x ∈ w.boxes.head?, width < (x.withHyphen env).width := by
      rcases WordLike.hyphenate_cut h4 with ⟨_, e2, hb⟩ | ⟨a, b, k, e2, hc⟩
      · exact hb
      · simp at e2
    have rd := WordLike.hyphenate_none_rest hw.1 h4
    have hlen : d.boxes.length = w.boxes.length := by simpa using congrArg List.length rd.boxes
    have htake : (d.boxes.take 1).flatMap Box.styled = (w.boxes.take 1).flatMap Box.styled := by
      have := congrArg (fun l => (l.take 1).flatten) rd.boxes
      simpa [← List.map_take, List.flatMap] using this
    refine ⟨[], w, rest, 0, rfl, ⟨by simpa [totalWidth] using h3, ?_⟩, Or.inr (Or.inr ?_)⟩
    · intro x hx hlt
      rcases hb with h7 | h7
      · omega
      · have := h7 x (by rw [List.head?_eq_getElem?]; exact hx)
        simpa [totalWidth] using this
    · rcases WordLike.minimalBox_parts (env := env) d with ⟨g1, g2, g3, -⟩ | ⟨g1, -, b, st, g2, g3, g4, g5⟩
      · right
        rcases h6 with ⟨h6, h7⟩ | ⟨b, h6, h7⟩
        · rcases h7 with ⟨h7, -⟩ | ⟨h7, -⟩
          · simp only [Option.some.injEq] at h7
            refine ⟨rfl, rfl, by omega, h7, ?_⟩
            rw [← rd.whole rfl, ← g3, h5]
            simp [TLine.styled, h2]
          · simp at h7
        · rw [g2] at h6; simp at h6
      · left
        rcases h6 with ⟨h6, h7⟩ | ⟨b', h6, h7⟩
        · rw [g2] at h6; simp at h6
        · rw [g2] at h6
          simp only [Option.some.injEq] at h6 h7
          subst h6
          refine ⟨rfl, rfl, by omega, ⟨b, ⟨?_, by rw [g4, rd.tail], by omega⟩, h7⟩, st, ?_⟩
          · rw [g3, List.map_drop, List.map_drop, rd.boxes]; simp
          · rw [← htake, ← g5, h5]
            simp [TLine.styled, h2]

theorem Ending.last {ws : List WordLike} {width : ℚ} {line : TLine} {pre fin : State}
    (h : Ending env ws width none line) (hw : WordsWF env ws pre fin) : line.styled = ws.flatMap WordLike.styled ∧
      ∀ init l, ws = init ++ [l] → totalWidth init + l.prunedWidth ≤ width ∨ init = [] ∧ l.boxes.length ≤ 1 := by
  cases h with
  | all h1 h2 h3 h4 h5 =>
    refine ⟨by rw [TLine.styled, h2], ?_⟩
    intro init l e
    exact Or.inl (h5 init l [] e)
  | cut content rest w a b k h1 h2 => simp at h2
  | word content rest l w b h1 h2 => simp at h2
  | forced rest w d a h1 h2 h3 h4 h5 h6 =>
    subst h1
    have rd := WordLike.hyphenate_none_rest hw.1 h4
    have hlen : d.boxes.length = w.boxes.length := by simpa using congrArg List.length rd.boxes
    rcases h6 with ⟨h6, h7⟩ | ⟨b, h6, h7⟩
    · rcases h7 with ⟨h7, -⟩ | ⟨-, rfl⟩
      · simp at h7
      · rcases WordLike.minimalBox_parts (env := env) d with ⟨g1, g2, g3, -⟩ | ⟨g1, -, b, st, g2, -⟩
        · refine ⟨?_, ?_⟩
          · rw [TLine.styled, h2, ← h5]
            simp [g3, rd.whole rfl]
          · intro init l e
            cases init with
            | nil =>
              simp only [List.nil_append, List.cons.injEq, and_true] at e
              subst e
              exact Or.inr ⟨rfl, by omega⟩
            | cons x init => simp at e
        · rw [g2] at h6; simp at h6
    · simp at h7

/-- Lines with their widths, before justification. -/
def rawLines (cols : Cols) : Nat → List (List TLine) → List (ℚ × TLine)
  | _, [] => []
  | i, c :: cs => c.map (fun l => ((cols i).1, l)) ++ rawLines cols (i + 1) cs

theorem LinesFrom.greedy {width : ℚ} {q : Option (List WordLike)} {lines : List TLine} {q' : Option (List WordLike)}
    (h : LinesFrom env width q lines q') : ∀ ws, q = some ws → ∀ pre fin, WordsWF env ws pre fin →
      (q' = none → GreedyLines env ws (lines.map fun l => (width, l.styled))) ∧
      (∀ ws', q' = some ws' → ∀ more, GreedyLines env ws' more → GreedyLines env ws ((lines.map fun l => (width, l.styled)) ++ more)) := by
  induction h with
  | nil q => rintro ws rfl pre fin hw; exact ⟨by simp, by rintro _ rfl' more hm; simp at rfl'; subst rfl'; exact hm⟩
  | cons ws q ln lines q' h1 h2 ih =>
    rintro _ e pre fin hw
    simp only [Option.some.injEq] at e
    subst e
    have en := (takeLine_ending h1).1
    obtain ⟨mid, piece, a1, a2, a3, a4⟩ := (en.lineOk hw).ok
    cases q with
    | none =>
      obtain ⟨rfl, rfl⟩ := h2.from_none
      obtain ⟨e1, e2⟩ := en.last hw
      refine ⟨fun _ => ?_, by simp⟩
      simp only [List.map_cons, List.map_nil, e1]
      exact .last _ _ e2
    | some ws' =>
      obtain ⟨i1, i2⟩ := ih ws' rfl mid fin a2
      refine ⟨fun hq => ?_, fun ws2 hq more hm => ?_⟩
      · exact .more _ _ _ _ _ (en.greedy hw) (i1 hq)
      · exact .more _ _ _ _ _ (en.greedy hw) (i2 ws2 hq more hm)

theorem Chunks.greedy {cols : Cols} {lead : ℚ} {i : Nat} {ae : Bool} {ws : List WordLike} {out : List (List TLine)}
    (h : Chunks env cols lead i ae ws out) : ∀ pre fin, WordsWF env ws pre fin →
      GreedyLines env ws ((rawLines cols i out).map fun e => (e.1, e.2.styled)) := by
  induction h with
  | last i ae ws lines h _ =>
    intro pre fin hw
    simpa [rawLines, Function.comp_def] using (h.greedy ws rfl pre fin hw).1 rfl
  | more i ae ws lines ws' rest h1 _ _ h2 ih =>
    intro pre fin hw
    obtain ⟨mid, hm⟩ := h1.left.wf hw
    have := (h1.greedy ws rfl pre fin hw).2 ws' rfl _ (ih _ _ hm)
    simpa [rawLines, Function.comp_def] using this

end Pdfje
