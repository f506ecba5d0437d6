import Verif.Proofs.Greedy
import Verif.Props.Words
/-
C32 to C37 and C59: first-fit layout (`optimal=False`).
-/

namespace Pdfje

variable {env : Env}

/-! ### Words of a paragraph -/

theorem WordsWF.consecutive : ∀ {ws : List WordLike} {s t : State}, WordsWF env ws s t → Consecutive ws
  | [], _, _, _ => trivial
  | [_], _, _, _ => trivial
  | _ :: b :: rest, _, _, h => ⟨h.2.2.2.1.symm, WordsWF.consecutive (ws := b :: rest) h.2.2⟩

/-- The words of any styled text, indented by any amount (layout/paragraph.py:146-152), are words as the theorems
below need them. -/
theorem paragraph_words (henv : env.Ok) (ps : List Passage) (hps : Tidy ps) (st : State) (cmd : Command) (ws : List WordLike)
    (h : intoWords env ps st = some (cmd, ws)) (a : ℚ) (hz : NonZero (styled ps st)) :
    ParagraphWords env (indentFirst ws a) ∧ (indentFirst ws a).flatMap WordLike.styled = styled ps st := by
  obtain ⟨cmd', ws', h1, h2, h3⟩ := intoWords_spec henv ps st
  rw [h] at h1
  simp only [Option.some.injEq, Prod.mk.injEq] at h1
  obtain ⟨rfl, rfl⟩ := h1
  obtain ⟨h4, h5⟩ := h3 hps
  cases ws with
  | nil => exact ⟨⟨by simp [indentFirst], trivial, by simp [indentFirst]⟩, h5⟩
  | cons w ws =>
    have hw : Built env w := .parsed hps h (by simp)
    have hnz : NonZero w.styled := by
      intro e he
      exact hz e (by rw [← h5]; simp [he])
    have hb : Built env (w.indent a) := .indent a hw hnz
    have same : (w.indent a).styled = w.styled ∧ (w.indent a).state = w.state := by
      have key : ∀ w : WordLike, (w.indent a).styled = w.styled ∧ (w.indent a).state = w.state := by
        intro w
        induction w with
        | box b => exact ⟨by simp [WordLike.indent, WordLike.styled], by
            rcases b with s | ⟨_ | ⟨x, l⟩, st⟩
            · simp only [WordLike.indent, WordLike.state, Box.indent, Box.state, Slug.indent]; split <;> rfl
            · rfl
            · obtain ⟨s, c⟩ := x
              by_cases ha : a = 0 <;> simp [WordLike.indent, WordLike.state, Box.indent, Box.state, ha]⟩
        | word w => exact ⟨by simp [WordLike.indent, WordLike.styled], by
            simp only [WordLike.indent, WordLike.state, Word.indent]
            repeat' split
            all_goals rfl⟩
        | withCmd w c ih =>
          simp only [WordLike.indent]
          split
          · exact ⟨rfl, rfl⟩
          · exact ⟨ih.1, congrArg c.apply ih.2⟩
      exact key w
    have hc := h4.consecutive
    refine ⟨⟨?_, ?_, ?_⟩, ?_⟩
    · intro x hx
      rcases List.mem_cons.1 hx with rfl | hx
      · exact hb
      · exact .parsed hps h (by simp [hx])
    · cases ws with
      | nil => trivial
      | cons y ws => exact ⟨by rw [same.2]; exact hc.1, hc.2⟩
    · intro x hx
      rcases List.mem_cons.1 hx with rfl | hx
      · rw [WordLike.text, same.1]; exact h2.ne w (by simp)
      · exact h2.ne x (by simp [hx])
    · rw [← h5]; simp [indentFirst, same.1]

theorem ParagraphWords.wf (henv : env.Ok) {ws : List WordLike} (h : ParagraphWords env ws) :
    (∃ pre fin, WordsWF env ws pre fin) ∧ ∀ w ∈ ws, w.styled ≠ [] := by
  refine ⟨?_, fun w hw e => h.ne w hw (by simp [WordLike.text, e])⟩
  cases ws with
  | nil => exact ⟨demoState 1, demoState 1, rfl⟩
  | cons w ws =>
    obtain ⟨fin, hf⟩ := Consecutive.wordsWF (fun x hx => (h.built x hx).wf henv) h.consecutive
    exact ⟨_, _, hf⟩

/-- The words of the examples: "AVAV " three times, cut in "AV" and "AV ". -/
def demoWords : List WordLike := [.word demoWord, .word demoWord, .word demoWord]

theorem demoWords_ok : ParagraphWords demoEnv demoWords where
  built := by
    intro w hw
    have : w = .word demoWord := by simpa [demoWords] using hw
    subst this; exact demoWord_built
  consecutive := ⟨rfl, rfl, trivial⟩
  ne := by
    intro w hw
    have : w = .word demoWord := by simpa [demoWords] using hw
    subst this; decide

/-! ### From chunks to columns -/

/-- The line as it is set. -/
def setLine (align : Align) (l : TLine) : TLine := if align = .justify then l.justify else l

theorem firstfit_chunks {cols : Cols} {lead : ℚ} {avoid : Bool} {align : Align} {ws : List WordLike} {ae : Bool} {out : List ShapedText}
    (h : firstfitShape env cols lead avoid align ws ae = some out) : ∃ raw,
      (if avoid then shapeAvoidOrphans env cols lead (some ws) ae else shapeSimple env cols lead 0 (some ws) ae) = some raw ∧
      Chunks env cols lead 0 ae ws raw ∧
      out = raw.map fun ls => ⟨ls.map (setLine align), lead, align, ls.length * lead⟩ := by
  unfold firstfitShape at h
  rw [Option.map_eq_some_iff] at h
  obtain ⟨raw, h1, rfl⟩ := h
  refine ⟨raw, h1, shape_chunks _ _ _ _ _ _ h1, ?_⟩
  apply List.map_congr_left
  intro ls _
  have e1 : setLine .justify = TLine.justify := by funext l; simp [setLine]
  split
  · rename_i e; subst e; rw [e1]
  · rename_i e
    have : setLine align = id := by funext l; simp [setLine, e]
    rw [this]; simp

/-- The raw line of a line of the result. -/
theorem firstfit_line {cols : Cols} {lead : ℚ} {align : Align} {ws : List WordLike} {ae : Bool} {raw : List (List TLine)}
    (hc : Chunks env cols lead 0 ae ws raw) {i k : Nat} {chunk : ShapedText} {line : TLine}
    (hi : (raw.map fun ls => (⟨ls.map (setLine align), lead, align, ls.length * lead⟩ : ShapedText))[i]? = some chunk)
    (hk : chunk.lines[k]? = some line) : ∃ l0 a r, line = setLine align l0 ∧ Left env ws a ∧
      takeLine env a (cols i).1 = some (r, l0) ∧ (r = none ↔ i + 1 = raw.length ∧ k + 1 = chunk.lines.length) := by
  rw [List.getElem?_map, Option.map_eq_some_iff] at hi
  obtain ⟨c, h1, rfl⟩ := hi
  simp only at hk
  rw [List.getElem?_map, Option.map_eq_some_iff] at hk
  obtain ⟨l0, h2, rfl⟩ := hk
  obtain ⟨a, r, h3, h4, h5⟩ := hc.line i c h1 k l0 h2
  rw [Nat.zero_add] at h4
  exact ⟨l0, a, r, rfl, h3, h4, by simpa using h5⟩

theorem setLine_styled {align : Align} {l : TLine} {s t : State} (h : WordsWF env l.words s t) : (setLine align l).styled = l.styled := by
  unfold setLine
  split
  · exact TLine.justify_styled h
  · rfl

theorem setLine_wf {align : Align} {l : TLine} {s t : State} (h : WordsWF env l.words s t) : WordsWF env (setLine align l).words s t := by
  unfold setLine
  split
  · exact TLine.justify_wf h
  · exact h

/-- Words of lines that are well-formed one by one. -/
theorem wf_lines {lines : List TLine} {f : TLine → TLine}
    (hf : ∀ (l : TLine) (s t : State), WordsWF env l.words s t → WordsWF env (f l).words s t ∧ (f l).styled = l.styled) :
    ∀ {pre fin : State}, WordsWF env (lines.flatMap TLine.words) pre fin →
      WordsWF env ((lines.map f).flatMap TLine.words) pre fin ∧ (lines.map f).map TLine.styled = lines.map TLine.styled := by
  induction lines with
  | nil => intro pre fin h; exact ⟨h, rfl⟩
  | cons l lines ih =>
    intro pre fin h
    rw [List.flatMap_cons] at h
    obtain ⟨m, h1, h2⟩ := h.split
    obtain ⟨i1, i2⟩ := ih h2
    obtain ⟨j1, j2⟩ := hf l _ _ h1
    refine ⟨by simp only [List.map_cons, List.flatMap_cons]; exact j1.append i1, by simp [j2]; simpa using i2⟩

/-! ### C32 -/

/-- C32. However the words of a paragraph are laid out over columns, the lines of all columns show its text: each
line a piece, without the space at its end maybe, and with a hyphen exactly if the piece ends inside a word. -/
theorem C32_text (henv : env.Ok) {ws : List WordLike} (hw : ParagraphWords env ws) {cols : Cols} {lead : ℚ} {avoid : Bool}
    {align : Align} {ae : Bool} {out : List ShapedText} (h : firstfitShape env cols lead avoid align ws ae = some out) :
    LinesShow ws ((out.flatMap ShapedText.lines).map TLine.styled) (ws.flatMap WordLike.styled) := by
  obtain ⟨raw, -, hc, rfl⟩ := firstfit_chunks h
  obtain ⟨⟨pre, fin, hwf⟩, hne⟩ := hw.wf henv
  obtain ⟨h1, h2⟩ := hc.text pre fin hwf hne (SameBounds.refl ws)
  have e : (raw.map fun ls => (⟨ls.map (setLine align), lead, align, ls.length * lead⟩ : ShapedText)).flatMap ShapedText.lines =
      raw.flatten.map (setLine align) := by
    rw [List.flatMap_map, List.map_flatten]; rfl
  rw [e, (wf_lines (fun l s t hl => ⟨setLine_wf hl, setLine_styled hl⟩) h1).2]
  exact h2

/-- C32 for a paragraph: the lines show the text of the passages. -/
theorem C32_paragraph (henv : env.Ok) (ps : List Passage) (hps : Tidy ps) (st : State) (cmd : Command) (ws : List WordLike)
    (hi : intoWords env ps st = some (cmd, ws)) (indent : ℚ) (hz : NonZero (styled ps st)) {cols : Cols} {lead : ℚ} {avoid : Bool}
    {align : Align} {ae : Bool} {out : List ShapedText} (h : firstfitShape env cols lead avoid align (indentFirst ws indent) ae = some out) :
    LinesShow (indentFirst ws indent) ((out.flatMap ShapedText.lines).map TLine.styled) (styled ps st) := by
  obtain ⟨h1, h2⟩ := paragraph_words henv ps hps st cmd ws hi indent hz
  rw [← h2]
  exact C32_text henv h1 h

/-- C32: a viewer shows a line as its characters, each in its own style, if it starts in the style of the first. -/
theorem C32_shown (henv : env.Ok) {ws : List WordLike} (hw : ParagraphWords env ws) {cols : Cols} {lead : ℚ} {avoid : Bool}
    {align : Align} {ae : Bool} {out : List ShapedText} (h : firstfitShape env cols lead avoid align ws ae = some out)
    {i k : Nat} {chunk : ShapedText} {line : TLine} (hi : out[i]? = some chunk) (hk : chunk.lines[k]? = some line)
    (v : Viewer) (hv : ∀ w ∈ line.words.head?, v.In w.preState) :
    (Viewer.run env.widths (encodeWords line.words []) v).1.map Glyph.look = line.styled.map (lookOf v.lineY) := by
  obtain ⟨raw, -, hc, rfl⟩ := firstfit_chunks h
  obtain ⟨⟨pre, fin, hwf⟩, hne⟩ := hw.wf henv
  obtain ⟨l0, a, r, rfl, hl, ht, -⟩ := firstfit_line hc hi hk
  obtain ⟨mid, hm⟩ := hl.wf hwf
  obtain ⟨m, piece, h1, -⟩ := ((takeLine_ending ht).1.lineOk hm).ok
  have h2 := setLine_wf (align := align) h1
  generalize setLine align l0 = line at *
  cases e : line.words with
  | nil => simp [TLine.styled, e, encodeWords, Viewer.run, Viewer.step, Viewer.show]
  | cons w l =>
    rw [e] at h2
    have hv' := hv w (by simp [e])
    obtain ⟨g, v', h3, h4⟩ := encodeWords_shown (w :: l) mid m h2 [] v [] v rfl (by rw [← h2.2.1]; exact hv')
    rw [h3]
    simpa [TLine.styled, e] using h4.looks

/-! ### C33 -/

theorem WordLike.extendTail_boxes (a : ℚ) : ∀ w : WordLike, (w.extendTail a).boxes = w.boxes
  | .box b => rfl
  | .word w => by
    simp only [WordLike.extendTail, WordLike.boxes, Word.extendTail]
    repeat' split
    all_goals rfl
  | .withCmd w c => by
    simp only [WordLike.extendTail]
    split
    · exact WordLike.extendTail_boxes a w
    · rfl

/-- A line that is not the last fits, or is one piece that cannot be broken. -/
theorem Ending.fits {ws : List WordLike} {width : ℚ} {r : List WordLike} {line : TLine} (h : Ending env ws width (some r) line) :
    totalWidth line.words ≤ width ∨ ∃ w, line.words = [w] ∧ w.boxes.length ≤ 1 := by
  cases h with
  | all h => simp at h
  | cut content rest w a b k h1 h2 h3 h4 h5 h6 =>
    left
    have := h6.fits
    simp only [totalWidth, h3, List.map_append, List.sum_append, List.map_cons, List.map_nil, List.sum_cons, List.sum_nil]
    linarith
  | word content rest l w b h1 h2 h3 h4 h5 h6 h7 =>
    left
    rcases h3 with h3 | ⟨h3, h0⟩
    · simp only [totalWidth, h3, List.map_append, List.sum_append, List.map_cons, List.map_nil, List.sum_cons, List.sum_nil,
        WordLike.pruned_width]
      linarith
    · simp only [totalWidth, h3, List.map_append, List.sum_append, List.map_cons, List.map_nil, List.sum_cons, List.sum_nil,
        WordLike.width_eq l, h0]
      linarith
  | forced rest w d a h1 h2 h3 h4 h5 h6 =>
    right
    refine ⟨a, h2, ?_⟩
    rw [← h5]
    rcases WordLike.minimalBox_parts (env := env) d with ⟨-, -, -, h⟩ | ⟨-, h, -⟩ <;> exact h

/-- Sizes of trailing spaces. -/
theorem tails_ok {ws a : List WordLike} (hz : ∀ w ∈ ws, 0 < w.state.size ∧ NonZero w.styled) (hl : Left env ws a) {r : Option (List WordLike)}
    {line : TLine} {width : ℚ} (ht : takeLine env a width = some (r, line)) :
    (∀ w ∈ line.words, ∀ st ∈ w.tailState, st.size ≠ 0) ∧ (∀ w ∈ line.words, w.tail.isSome → 0 < w.state.size) := by
  have key : ∀ x ∈ line.words, ∃ w ∈ ws, TailFrom x w := by
    intro x hx
    obtain ⟨y, hy, h1⟩ := (takeLine_ending ht).1.tailFrom.1 x hx
    obtain ⟨w, hw, h2⟩ := hl.tailFrom y hy
    exact ⟨w, hw, h1.trans h2⟩
  refine ⟨?_, ?_⟩
  · intro x hx st hst
    obtain ⟨w, hw, h⟩ := key x hx
    rcases h with h | ⟨h, -⟩
    · rw [h] at hst; simp at hst
    · rw [h] at hst
      exact (hz w hw).2 _ (WordLike.tailState_mem hst)
  · intro x hx hs
    obtain ⟨w, hw, h⟩ := key x hx
    rcases h with h | ⟨-, h⟩
    · rw [← WordLike.tailState_isSome, h] at hs; simp at hs
    · rw [h]; exact (hz w hw).1

/-- C33. Every line but the last of a paragraph is at most as wide as its column, or a single piece that cannot be
broken. The recorded width of every line is the sum of the widths of its words. -/
theorem C33_fits (henv : env.Ok) {ws : List WordLike} (hw : ParagraphWords env ws)
    (hz : ∀ w ∈ ws, 0 < w.state.size ∧ NonZero w.styled) {cols : Cols} {lead : ℚ} {avoid : Bool}
    {align : Align} {ae : Bool} {out : List ShapedText} (h : firstfitShape env cols lead avoid align ws ae = some out)
    {i k : Nat} {chunk : ShapedText} {line : TLine} (hi : out[i]? = some chunk) (hk : chunk.lines[k]? = some line) :
    line.width = totalWidth line.words ∧
    (¬ (i + 1 = out.length ∧ k + 1 = chunk.lines.length) →
      line.width ≤ (cols i).1 ∨ ∃ w, line.words = [w] ∧ w.boxes.length ≤ 1) := by
  obtain ⟨raw, -, hc, rfl⟩ := firstfit_chunks h
  obtain ⟨⟨pre, fin, hwf⟩, hne⟩ := hw.wf henv
  obtain ⟨l0, a, r, rfl, hl, ht, hr⟩ := firstfit_line hc hi hk
  obtain ⟨mid, hm⟩ := hl.wf hwf
  obtain ⟨he, hwd, hsp⟩ := takeLine_ending ht
  obtain ⟨m, piece, h1, -⟩ := (he.lineOk hm).ok
  obtain ⟨t1, t2⟩ := tails_ok hz hl ht
  constructor
  · unfold setLine
    split
    · exact TLine.justify_width hwd h1.mem t1
    · exact hwd
  · intro hlast
    have hrs : r ≠ none := by rw [ne_eq, hr]; simpa using hlast
    obtain ⟨r', rfl⟩ := Option.ne_none_iff_exists'.1 hrs
    unfold setLine
    split
    · unfold TLine.justify
      split
      · rw [hwd]; exact he.fits
      · left
        rw [hsp rfl]
        simp
    · rw [hwd]; exact he.fits

/-- C33, the last line: without the space at its end it fits, or it is a single piece that cannot be broken. -/
theorem C33_last (henv : env.Ok) {ws : List WordLike} (hw : ParagraphWords env ws) {cols : Cols} {lead : ℚ} {avoid : Bool}
    {align : Align} (hal : align ≠ .justify) {ae : Bool} {out : List ShapedText} (h : firstfitShape env cols lead avoid align ws ae = some out)
    {i k : Nat} {chunk : ShapedText} {line : TLine} (hi : out[i]? = some chunk) (hk : chunk.lines[k]? = some line)
    (hlast : i + 1 = out.length ∧ k + 1 = chunk.lines.length) :
    ∀ init l, line.words = init ++ [l] → totalWidth init + l.prunedWidth ≤ (cols i).1 ∨ init = [] ∧ l.boxes.length ≤ 1 := by
  obtain ⟨raw, -, hc, rfl⟩ := firstfit_chunks h
  obtain ⟨⟨pre, fin, hwf⟩, hne⟩ := hw.wf henv
  obtain ⟨l0, a, r, rfl, hl, ht, hr⟩ := firstfit_line hc hi hk
  obtain ⟨mid, hm⟩ := hl.wf hwf
  obtain ⟨he, hwd, hsp⟩ := takeLine_ending ht
  have : r = none := hr.2 (by simpa using hlast)
  subst this
  have e : setLine align l0 = l0 := by simp [setLine, hal]
  rw [e]
  cases he with
  | all h1 h2 h3 h4 h5 => intro init l el; exact Or.inl (h5 init l [] (by rw [← h2, el]))
  | cut content rest w a b k h1 h2 => simp at h2
  | word content rest l w b h1 h2 => simp at h2
  | forced rest w d a h1 h2 h3 h4 h5 h6 =>
    intro init l el
    rw [h2] at el
    cases init with
    | nil =>
      simp only [List.nil_append, List.cons.injEq, and_true] at el
      subst el
      right
      refine ⟨rfl, ?_⟩
      rw [← h5]
      rcases WordLike.minimalBox_parts (env := env) d with ⟨-, -, -, h⟩ | ⟨-, h, -⟩ <;> exact h
    | cons x init => simp at el

/-! ### C34 -/

theorem linesOf_raw (cols : Cols) (lead : ℚ) (align : Align) : ∀ (raw : List (List TLine)) (i : Nat),
    linesOf cols i (raw.map fun ls => ⟨ls.map (setLine align), lead, align, ls.length * lead⟩) =
      (rawLines cols i raw).map fun e => (e.1, setLine align e.2)
  | [], _ => rfl
  | c :: cs, i => by
    simp only [List.map_cons, linesOf, rawLines, List.map_append, linesOf_raw cols lead align cs (i + 1), List.map_map]
    rfl

theorem rawLines_mem (cols : Cols) : ∀ (raw : List (List TLine)) (i : Nat), ∀ e ∈ rawLines cols i raw, e.2 ∈ raw.flatten
  | [], _, e, h => by simp [rawLines] at h
  | c :: cs, i, e, h => by
    simp only [rawLines, List.mem_append, List.mem_map] at h
    rw [List.flatten_cons, List.mem_append]
    rcases h with ⟨l, hl, rfl⟩ | h
    · exact Or.inl hl
    · exact Or.inr (rawLines_mem cols cs (i + 1) e h)

theorem wf_of_mem {lines : List TLine} : ∀ {pre fin : State}, WordsWF env (lines.flatMap TLine.words) pre fin →
    ∀ l ∈ lines, ∃ s t, WordsWF env l.words s t := by
  induction lines with
  | nil => intro _ _ _ l hl; simp at hl
  | cons a lines ih =>
    intro pre fin h l hl
    rw [List.flatMap_cons] at h
    obtain ⟨m, h1, h2⟩ := h.split
    rcases List.mem_cons.1 hl with rfl | hl
    · exact ⟨_, _, h1⟩
    · exact ih h2 l hl

/-- C34. The lines of all columns are greedy: each ends only where the rest of the next word does not fit, and neither
does the next syllable of it with a hyphen. -/
theorem C34_greedy (henv : env.Ok) {ws : List WordLike} (hw : ParagraphWords env ws) {cols : Cols} {lead : ℚ} {avoid : Bool}
    {align : Align} {ae : Bool} {out : List ShapedText} (h : firstfitShape env cols lead avoid align ws ae = some out) :
    GreedyLines env ws ((linesOf cols 0 out).map fun e => (e.1, e.2.styled)) := by
  obtain ⟨raw, -, hc, rfl⟩ := firstfit_chunks h
  obtain ⟨⟨pre, fin, hwf⟩, hne⟩ := hw.wf henv
  have hl := (hc.text pre fin hwf hne (SameBounds.refl ws)).1
  rw [linesOf_raw, List.map_map]
  have e : ((rawLines cols 0 raw).map ((fun e : ℚ × TLine => (e.1, e.2.styled)) ∘ fun e => (e.1, setLine align e.2))) =
      (rawLines cols 0 raw).map fun e => (e.1, e.2.styled) := by
    apply List.map_congr_left
    intro e he
    obtain ⟨s, t, hst⟩ := wf_of_mem hl e.2 (rawLines_mem cols raw 0 e he)
    simp [setLine_styled hst]
  rw [e]
  exact hc.greedy pre fin hwf

/-! ### C35 -/

/-- C35 as stated: it is about all columns. -/
def C35_Statement : Prop := ∀ (env : Env) (ws : List WordLike) (cols : Cols) (lead : ℚ) (avoid : Bool) (align : Align) (ae : Bool),
  env.Ok → HyphenOk env → ParagraphWords env ws → (∀ w ∈ ws, SizesOk w) → 0 < lead →
  ∃ out, firstfitShape env cols lead avoid align ws ae = some out

/-- Columns of negative height (margins larger than the page) never get a line, so the layout does not end. -/
theorem C35_counterexample : ¬ C35_Statement := by
  intro h
  obtain ⟨out, ho⟩ := h demoEnv demoWords (fun _ => (30, -1)) 10 false .left false demoEnv_ok (fun f => by
      refine ⟨by simp [demoEnv], fun c => ?_⟩
      simp [demoEnv]) demoWords_ok
    (by
      intro w hw b hb
      have : w = .word demoWord := by simpa [demoWords] using hw
      subst this
      have : b.state = demoState 10 1 := by
        simp only [WordLike.boxes, demoWord, List.mem_cons, List.not_mem_nil, or_false] at hb
        rcases hb with rfl | rfl <;> rfl
      rw [this]; simp [demoState])
    (by norm_num)
  obtain ⟨raw, -, hc, -⟩ := firstfit_chunks ho
  have h0 : maxLines (-1) 10 false = 0 := by decide +kernel
  -- no column has lines, so the last cannot be the last
  have key : ∀ (i : Nat) (ae : Bool) (ws : List WordLike) (raw : List (List TLine)),
      Chunks demoEnv (fun _ => (30, -1)) 10 i ae ws raw → ae = false → False := by
    intro i ae ws raw hc
    induction hc with
    | last i ae ws lines h1 h2 =>
      rintro rfl
      have := List.length_pos_iff.2 h1.ne_nil
      simp only [h0] at h2
      omega
    | more i ae ws lines ws' rest _ _ _ _ ih => intro _; exact ih rfl
  exact key _ _ _ _ hc rfl

/-- C35 for columns that do not have a negative height (the first may be any: it may be over-full already): the
layout ends, and every column after the first that it gives has at least one line; the first too, if it must. -/
theorem C35_terminates_partial (hh : HyphenOk env) {ws : List WordLike} (hs : ∀ w ∈ ws, SizesOk w) {cols : Cols}
    (hcol : ∀ j, 1 ≤ j → 0 ≤ (cols j).2) {lead : ℚ} (hl : 0 < lead) (avoid : Bool) (align : Align) (ae : Bool) :
    ∃ out, firstfitShape env cols lead avoid align ws ae = some out ∧
      ∀ i chunk, out[i]? = some chunk → 1 ≤ i ∨ (ae = false ∧ 0 ≤ (cols 0).2) → chunk.lines ≠ [] := by
  obtain ⟨raw, hraw⟩ := shape_ends (cols := cols) hh hl avoid ws ae hs hcol
  have hf : ∃ out, firstfitShape env cols lead avoid align ws ae = some out := by
    unfold firstfitShape; rw [hraw]; exact ⟨_, rfl⟩
  obtain ⟨out, ho⟩ := hf
  refine ⟨out, ho, ?_⟩
  obtain ⟨raw', -, hc, rfl⟩ := firstfit_chunks ho
  intro i chunk hi hor
  rw [List.getElem?_map, Option.map_eq_some_iff] at hi
  obtain ⟨c, h1, rfl⟩ := hi
  have := (hc.chunk i c h1).2
  rw [Nat.zero_add] at this
  have hne : c ≠ [] := by
    rcases hor with h | ⟨h, h'⟩
    · exact this (Or.inr (by omega)) (maxLines_pos hl (hcol i h))
    · by_cases h0 : 1 ≤ i
      · exact this (Or.inr (by omega)) (maxLines_pos hl (hcol i h0))
      · have : i = 0 := by omega
        subst this
        exact this (Or.inl h) (maxLines_pos hl h')
  simpa using hne

/-! ### C36 -/

theorem maxLines_le {h lead : ℚ} (hl : 0 < lead) (ae : Bool) {n : Nat} (hn : n ≤ maxLines h lead ae) :
    n * lead ≤ h ∨ n = 0 ∨ (n = 1 ∧ ae = false ∧ h < lead) := by
  unfold maxLines at hn
  split at hn
  · rename_i h0
    cases ae with
    | true => right; left; simpa using hn
    | false =>
      simp only [Bool.false_eq_true, if_false] at hn
      by_cases hz : n = 0
      · exact Or.inr (Or.inl hz)
      · refine Or.inr (Or.inr ⟨by omega, rfl, ?_⟩)
        have := Int.lt_floor_add_one (h / lead)
        rw [h0] at this
        simp only [Int.cast_zero, zero_add] at this
        rwa [div_lt_one hl] at this
  · rename_i h0
    by_cases hneg : ⌊h / lead⌋ < 0
    · right; left
      have : ⌊h / lead⌋.toNat = 0 := Int.toNat_of_nonpos hneg.le
      omega
    · left
      have h1 : (n : ℤ) ≤ ⌊h / lead⌋ := by omega
      have h2 := Int.le_floor.1 h1
      rw [le_div_iff₀ hl] at h2
      exact_mod_cast h2

/-- C36 (first-fit). The lines put in a column take at most its free height; except that one line is put in a column
lower than one line, unless this is the first and it is not empty. -/
theorem C36_firstfit {ws : List WordLike} {cols : Cols} {lead : ℚ} (hl : 0 < lead) {avoid : Bool}
    {align : Align} {ae : Bool} {out : List ShapedText} (h : firstfitShape env cols lead avoid align ws ae = some out)
    {i : Nat} {chunk : ShapedText} (hi : out[i]? = some chunk) :
    chunk.height = chunk.lines.length * lead ∧
    (chunk.height ≤ (cols i).2 ∨ chunk.lines = [] ∨ (chunk.lines.length = 1 ∧ (cols i).2 < lead ∧ (ae = false ∨ 1 ≤ i))) := by
  obtain ⟨raw, -, hc, rfl⟩ := firstfit_chunks h
  rw [List.getElem?_map, Option.map_eq_some_iff] at hi
  obtain ⟨c, h1, rfl⟩ := hi
  have := (hc.chunk i c h1).1
  rw [Nat.zero_add] at this
  refine ⟨by simp, ?_⟩
  simp only [List.length_map, List.map_eq_nil_iff]
  rcases maxLines_le hl _ this with h | h | ⟨h2, h3, h4⟩
  · exact Or.inl h
  · exact Or.inr (Or.inl (List.length_eq_zero_iff.1 h))
  · refine Or.inr (Or.inr ⟨h2, h4, ?_⟩)
    rw [Bool.and_eq_false_iff] at h3
    rcases h3 with h3 | h3
    · exact Or.inl h3
    · have : i ≠ 0 := by simpa using h3
      exact Or.inr (by omega)

/-! ### C37 -/

/-- C37. With justified text, every line but the last of the paragraph that has a word space is displayed exactly as
wide as its column; other lines are as they would be set left-aligned. -/
theorem C37_justified (henv : env.Ok) {ws : List WordLike} (hw : ParagraphWords env ws)
    (hz : ∀ w ∈ ws, 0 < w.state.size ∧ NonZero w.styled) {cols : Cols} {lead : ℚ} {avoid : Bool}
    {ae : Bool} {out : List ShapedText} (h : firstfitShape env cols lead avoid .justify ws ae = some out)
    {i k : Nat} {chunk : ShapedText} {line : TLine} (hi : out[i]? = some chunk) (hk : chunk.lines[k]? = some line) :
    (¬ (i + 1 = out.length ∧ k + 1 = chunk.lines.length) → (∃ w ∈ line.words, w.tail.isSome) →
      ∀ v : Viewer, (∀ w ∈ line.words.head?, v.In w.preState) →
        (Viewer.run env.widths (encodeWords line.words []) v).2.x = v.x + (cols i).1) ∧
    ((i + 1 = out.length ∧ k + 1 = chunk.lines.length) ∨ (∀ w ∈ line.words, w.tail.isSome = false) →
      ∃ out0 chunk0 line0, firstfitShape env cols lead avoid .left ws ae = some out0 ∧ out0[i]? = some chunk0 ∧
        chunk0.lines[k]? = some line0 ∧ line.words = line0.words ∧ line.width = line0.width) := by
  obtain ⟨raw, hraw, hc, rfl⟩ := firstfit_chunks h
  obtain ⟨⟨pre, fin, hwf⟩, hne⟩ := hw.wf henv
  obtain ⟨l0, a, r, rfl, hl, ht, hr⟩ := firstfit_line hc hi hk
  obtain ⟨mid, hm⟩ := hl.wf hwf
  obtain ⟨he, hwd, hsp⟩ := takeLine_ending ht
  obtain ⟨m, piece, h1, -⟩ := (he.lineOk hm).ok
  obtain ⟨t1, t2⟩ := tails_ok hz hl ht
  have tailEq : ∀ (a : ℚ) (w : WordLike), (w.extendTail a).tail.isSome = w.tail.isSome := by
    intro a w
    induction w with
    | box b => rfl
    | word w =>
      obtain ⟨bs, t, st⟩ := w
      cases t with
      | none => rfl
      | some t => simp only [WordLike.extendTail, WordLike.tail, Word.extendTail]; split <;> rfl
    | withCmd w c ih =>
      simp only [WordLike.extendTail]
      split
      · exact ih
      · rfl
  have e0 : setLine .justify l0 = l0.justify := by simp [setLine]
  rw [e0]
  have hsome : (∃ w ∈ l0.justify.words, w.tail.isSome) → ∃ w ∈ l0.words, w.tail.isSome := by
    rintro ⟨w, hw, hs⟩
    unfold TLine.justify at hw
    split at hw
    · exact ⟨w, hw, hs⟩
    · obtain ⟨w', hw', rfl⟩ := List.mem_map.1 hw
      exact ⟨w', hw', by rw [← tailEq]; exact hs⟩
  constructor
  · intro hlast hex v hv
    have hrs : r ≠ none := by rw [ne_eq, hr]; simpa using hlast
    obtain ⟨r', rfl⟩ := Option.ne_none_iff_exists'.1 hrs
    have hpos := tailSizes_pos t2 (hsome hex)
    have hjw : totalWidth l0.justify.words = (cols i).1 := by
      rw [totalWidth, ← TLine.justify_width hwd h1.mem t1]
      unfold TLine.justify
      rw [if_neg hpos.ne', hsp rfl]
      simp
    have h2 := TLine.justify_wf h1
    generalize l0.justify = line at *
    cases e : line.words with
    | nil => rw [e] at hex; simp at hex
    | cons w l =>
      rw [e] at h2
      have hv' := hv w (by simp [e])
      obtain ⟨g, v', h3, h4⟩ := encodeWords_shown (w :: l) mid m h2 [] v [] v rfl (by rw [← h2.2.1]; exact hv')
      rw [h3]
      have := h4.x
      rw [this, ← hjw, totalWidth, e]
  · intro hor
    rw [List.getElem?_map, Option.map_eq_some_iff] at hi
    obtain ⟨c, hc1, rfl⟩ := hi
    simp only at hk
    rw [List.getElem?_map, Option.map_eq_some_iff] at hk
    obtain ⟨l1, hl1, hl2⟩ := hk
    refine ⟨raw.map fun ls => ⟨ls.map (setLine .left), lead, .left, ls.length * lead⟩,
      ⟨c.map (setLine .left), lead, .left, c.length * lead⟩, l1, ?_, ?_, ?_, ?_⟩
    · have : setLine .left = id := by funext l; simp [setLine]
      unfold firstfitShape; rw [hraw, this]; simp
    · rw [List.getElem?_map, hc1]; rfl
    · simp only
      rw [List.getElem?_map, hl1]; simp [setLine]
    · obtain ⟨a', r1, hl', ht', hr'⟩ := hc.line i c hc1 k l1 hl1
      rw [Nat.zero_add] at ht'
      obtain ⟨he', hwd', hsp'⟩ := takeLine_ending ht'
      simp only [setLine, if_true] at hl2
      rw [← hl2]
      have hex' : (∃ w ∈ l1.words, w.tail.isSome = true) → ∃ w ∈ l1.justify.words, w.tail.isSome = true := by
        rintro ⟨w, hw, hs⟩
        unfold TLine.justify
        split
        · exact ⟨w, hw, hs⟩
        · exact ⟨_, List.mem_map_of_mem hw, by rw [tailEq]; exact hs⟩
      rcases hor with hor | hor
      · have hn : r1 = none := hr'.2 (by simpa using hor)
        subst hn
        have hs0 : l1.space = 0 := by
          have := ht'
          unfold takeLine at this
          split at this
          · simp only [Option.some.injEq, Prod.mk.injEq, true_and] at this; rw [← this]
          · unfold endLine at this
            repeat' split at this
            all_goals simp at this
            rw [← this]
        unfold TLine.justify
        split
        · exact ⟨rfl, rfl⟩
        · have h0 : ∀ w : WordLike, w.extendTail 0 = w := by
            intro w
            cases w with
            | box b => rfl
            | word w => simp only [WordLike.extendTail, Word.extendTail]; split <;> simp
            | withCmd w c => simp [WordLike.extendTail]
          simp [hs0, h0]
      · rw [hl2] at hex'
        have : tailSizes l1.words = 0 := by
          apply tailSizes_zero
          intro w hw
          by_contra hcon
          obtain ⟨x, hx, hx2⟩ := hex' ⟨w, hw, by simpa only [Bool.not_eq_false] using hcon⟩
          rw [hor x hx] at hx2
          simp at hx2
        unfold TLine.justify
        rw [if_pos this]
        exact ⟨rfl, rfl⟩

/-! ### C59 -/

/-- C59, the first column: a paragraph that starts in a column with content and goes on in the next never leaves
exactly one line in the first. -/
theorem C59_first {ws : List WordLike} {cols : Cols} {lead : ℚ} {align : Align} {out : List ShapedText}
    (h : firstfitShape env cols lead true align ws true = some out) (h2 : 2 ≤ out.length) :
    ∀ chunk ∈ out.head?, chunk.lines.length ≠ 1 := by
  obtain ⟨raw, hraw, -, rfl⟩ := firstfit_chunks h
  simp only [if_true] at hraw
  have := shapeAvoid_first cols lead ws raw hraw (by simpa using h2)
  intro chunk hc
  rw [List.head?_map, Option.mem_def, Option.map_eq_some_iff] at hc
  obtain ⟨c, h1, rfl⟩ := hc
  simpa using this c h1

/-- C59, the last column: if the last of several columns has a single line then the column before it has at most two
lines, or the last column has no room for two lines, or moving the last line of the column before it would not help:
its words and those of the single line would be one line in the last column. -/
theorem C59_last (henv : env.Ok) {ws : List WordLike} (hw : ParagraphWords env ws) {cols : Cols} {lead : ℚ} (hl : 0 < lead)
    {align : Align} {ae : Bool} {out : List ShapedText}
    (h : firstfitShape env cols lead true align ws ae = some out) {before : List ShapedText} {prev last : ShapedText}
    (ho : out = before ++ [prev, last]) {line : TLine} (h1 : last.lines = [line]) :
    prev.lines.length ≤ 2 ∨ (cols (before.length + 1)).2 < lead * 2 ∨
    ∃ words pl, prev.lines.getLast? = some pl ∧
      GreedyLines env words [((cols before.length).1, pl.styled), ((cols (before.length + 1)).1, line.styled)] ∧
      GreedyLines env words [((cols (before.length + 1)).1, words.flatMap WordLike.styled)] := by
  obtain ⟨raw, hraw, hc, rfl⟩ := firstfit_chunks h
  simp only [if_true] at hraw
  obtain ⟨⟨pre, fin, hwf⟩, hne⟩ := hw.wf henv
  obtain ⟨raw1, raw2, rfl, e1, e2⟩ := List.map_eq_append_iff.1 ho
  obtain ⟨p, raw3, rfl, e3, e4⟩ := List.map_eq_cons_iff.1 e2
  obtain ⟨c, raw4, rfl, e5, e6⟩ := List.map_eq_cons_iff.1 e4
  rw [List.map_eq_nil_iff] at e6
  subst e6 e5 e3 e1
  simp only at h1 ⊢
  obtain ⟨l, cs, rfl, rfl, e7⟩ := List.map_eq_cons_iff.1 h1
  rw [List.map_eq_nil_iff] at e7
  subst e7
  simp only [List.length_map]
  rcases shapeAvoid_last cols hl ws ae _ hraw raw1 p l rfl with h | h | ⟨a, b, pl, l2, g1, g2, g3, g4, g5⟩
  · exact Or.inl h
  · exact Or.inr (Or.inl h)
  · refine Or.inr (Or.inr ⟨a, setLine align pl, by rw [List.getLast?_map, g2]; rfl, ?_, ?_⟩)
    · obtain ⟨mid, hm⟩ := g1.wf hwf
      have k1 := (takeLine_ending g3).1
      obtain ⟨m, piece, k2, k3, -⟩ := (k1.lineOk hm).ok
      have k4 := (takeLine_ending g4).1
      obtain ⟨m', piece', k5, k6, -⟩ := (k4.lineOk k3).ok
      rw [setLine_styled k2, setLine_styled k5]
      refine .more _ _ _ _ _ (k1.greedy hm) ?_
      rw [(k4.last k3).1]
      exact .last _ _ (k4.last k3).2
    · obtain ⟨mid, hm⟩ := g1.wf hwf
      exact .last _ _ ((takeLine_ending g5).1.last hm).2

/-! ### Examples -/

/-- The first column of the example. -/
def demoBox1 : Option (List WordLike) × List TLine × Option (List WordLike) :=
  (takeBox demoEnv (some demoWords) (50, 10) false 10).getD (none, [], none)

/-- The second column of the example. -/
def demoBox2 : Option (List WordLike) × List TLine × Option (List WordLike) :=
  (takeBox demoEnv (some (demoBox1.1.getD [])) (50, 10) false 10).getD (none, [], none)

theorem eq_some_getD {α : Type} {o : Option α} {d : α} (h : o.isSome) : o = some (o.getD d) := by
  cases o with
  | none => simp at h
  | some a => rfl

/-- The three words in columns of width 50 with room for one line of height 10: two words in the first column,
justified, and one in the second. -/
theorem demoShape : ∃ out, firstfitShape demoEnv (fun _ => (50, 10)) 10 false .justify demoWords false = some out ∧
    out.map (fun c => c.lines.map fun l => (l.words.length, l.width)) = [[(2, 50)], [(1, 24)]] := by
  have h1 : takeBox demoEnv (some demoWords) (50, 10) false 10 = some (some (demoBox1.1.getD []), demoBox1.2) := by
    rw [eq_some_getD (o := takeBox demoEnv (some demoWords) (50, 10) false 10) (d := (none, [], none)) (by decide +kernel)]
    show some demoBox1 = _
    rw [← eq_some_getD (o := demoBox1.1) (by decide +kernel)]
  have h2 : takeBox demoEnv (some (demoBox1.1.getD [])) (50, 10) false 10 = some (none, demoBox2.2) := by
    rw [eq_some_getD (o := takeBox demoEnv (some (demoBox1.1.getD [])) (50, 10) false 10) (d := (none, [], none)) (by decide +kernel)]
    show some demoBox2 = _
    rw [← Option.isNone_iff_eq_none.1 (show demoBox2.1.isNone by decide +kernel)]
  have h3 : (demoBox1.2.1.map fun l => (l.justify.words.length, l.justify.width)) = [(2, 50)] := by decide +kernel
  have h4 : (demoBox2.2.1.map fun l => (l.justify.words.length, l.justify.width)) = [(1, 24)] := by decide +kernel
  unfold firstfitShape
  rw [if_neg (by simp), shapeSimple, h1]
  simp only
  rw [shapeSimple, h2]
  simp only [Option.bind_eq_bind, Option.bind_some, Option.map_some, List.map_cons, List.map_nil, if_true, Option.some.injEq,
    exists_eq_left']
  simp only [List.map_map, Function.comp_def]
  rw [h3, h4]

/-- C32 to C37 apply to it. -/
example : ∃ out, firstfitShape demoEnv (fun _ => (50, 10)) 10 false .justify demoWords false = some out ∧
    LinesShow demoWords ((out.flatMap ShapedText.lines).map TLine.styled) (demoWords.flatMap WordLike.styled) ∧
    GreedyLines demoEnv demoWords ((linesOf (fun _ => (50, 10)) 0 out).map fun e => (e.1, e.2.styled)) := by
  obtain ⟨out, h, -⟩ := demoShape
  exact ⟨out, h, C32_text demoEnv_ok demoWords_ok h, C34_greedy demoEnv_ok demoWords_ok h⟩

/-- And the hypotheses about sizes hold. -/
example : ∀ w ∈ demoWords, 0 < w.state.size ∧ NonZero w.styled := by
  intro w hw
  have : w = .word demoWord := by simpa [demoWords] using hw
  subst this
  refine ⟨by decide +kernel, ?_⟩
  intro e he
  have : e.2 = demoState 10 1 := by
    have h : ∀ e ∈ (WordLike.word demoWord).styled, e.2 = demoState 10 1 := by decide +kernel
    exact h e he
  rw [this]; simp [demoState]

/-- With orphans avoided the result exists too, and C59 is about it (two columns). -/
example : ∃ out, firstfitShape demoEnv (fun i => if i = 0 then (30, 10) else (30, 20)) 10 true .left demoWords true = some out := by
  obtain ⟨out, h, -⟩ := C35_terminates_partial (env := demoEnv) (fun f => by simp [demoEnv]) (ws := demoWords) (by
      intro w hw b hb
      have : w = .word demoWord := by simpa [demoWords] using hw
      subst this
      have : b.state = demoState 10 1 := by
        simp only [WordLike.boxes, demoWord, List.mem_cons, List.not_mem_nil, or_false] at hb
        rcases hb with rfl | rfl <;> rfl
      rw [this]; simp [demoState]) (cols := fun i => if i = 0 then (30, 10) else (30, 20)) (by intro j hj; split <;> norm_num)
    (lead := 10) (by norm_num) true .left true
  exact ⟨out, h⟩

end Pdfje
