import Verif.Proofs.Across
import Verif.Props.Mixed
/-
C78, C37: how far the displayed lines of a paragraph reach across their column.
-/

namespace Pdfje

theorem contentLines_states {P : State → Prop} {strings : List (List Char × State)} (h : ∀ e ∈ strings, P e.2) :
    ∀ l ∈ contentLines strings, ∀ e ∈ l, P e.2 := by
  intro l hl e he
  unfold contentLines at hl
  split at hl
  · simp at hl
  · obtain ⟨x, hx, hx'⟩ := stringsLines_mem strings l hl e he
    rw [← hx']; exact h x hx

theorem PutWith.mono {P Q : (Nat → ℚ) → List ShapedText → Prop} (h : ∀ widths cs, P widths cs → Q widths cs) {css : List (List ShapedText)} {t : Tape}
    (hp : PutWith P css t) : PutWith Q css t := by
  induction hp with
  | nil t => exact .nil t
  | cons chunks css t h1 _ ih => exact .cons _ _ _ (h _ _ h1) ih

theorem PutWith.all {P : List ShapedText → Prop} {css : List (List ShapedText)} {t : Tape} (hp : PutWith (fun _ => P) css t) : ∀ cs ∈ css, P cs := by
  induction hp with
  | nil t => simp
  | cons chunks css t h1 _ ih =>
    intro cs hcs
    rcases List.mem_cons.1 hcs with rfl | hcs
    · exact h1
    · exact ih cs hcs

theorem across_all (w : World) (hw : ∀ r, (w.env r).Ok) (base : StyleFull) (p : Paragraph) (r : Res) (t : Tape) (filled : List ColumnFill)
    (r' : Res) (h : (Block.paragraph p).intoColumns w r base t.view = (some filled, r'))
    (hne : ∀ e ∈ itemsStrings [p.style] p.content, e.1 ≠ []) (hb : 0 < (base.or p.style).size)
    (hsz : ∀ e ∈ contentStrings base p.style p.content r', 0 < e.2.size)
    (hroom : p.optimal ≠ none → HasText (contentStrings base p.style p.content r') ∧
      ∀ lead, IsLeading (contentStrings base p.style p.content r') lead → t.Roomy lead)
    (hsp : p.optimal ≠ none → ∀ e ∈ contentStrings base p.style p.content r', 0 < ((w.env r').metrics e.2.font).charwidth ' ') :
    ∃ css lead, PutLines css t (t.fill filled) ∧ css.length = (contentLines (contentStrings base p.style p.content r')).length ∧
      ((p.optimal ≠ none → List.Forall₂ NoBlankLines css (contentLines (contentStrings base p.style p.content r')) ∨ ChangesAtNewlines (contentStrings base p.style p.content r')) →
        List.Forall₂ (TextShownIf ShapedText.StartsQuiet (w.env r').widths lead) css (contentLines (contentStrings base p.style p.content r')) ∧
        PutWith (Across (w.env r') p) css t) := by
  obtain ⟨passages, st, lead, h1, h2, h3, h4, h5, h6⟩ := paragraph_lines p w r base t filled r' h hne
  rw [← h2] at hsz hroom hsp ⊢
  rw [← h2] at h6
  have hz : ∀ l ∈ groupsStyled (splitlines passages) st, NonZero l := by
    rw [h6]
    intro l hl e he
    exact contentLines_sizes (P := (· ≠ 0)) (fun e he => (hsz e he).ne') l hl e he
  obtain ⟨css, k1, k0, k2⟩ := linesFill_groups (hw r') h1 (C27_tidy passages h3) (fun ho => by
    obtain ⟨i1, i2⟩ := hroom ho
    rw [h5]
    exact ⟨paragraph_leading i1, i2 _ (maxLead_strings passages st i1)⟩)
  refine ⟨css, lead, k1, by rw [k0, ← h6, groupsStyled_length], fun hbl => ?_⟩
  have hG := k2 hz (fun ho => (hbl ho).imp (fun hx => by rw [h6]; exact hx) fun hx => splitlines_steady passages st h3 hx)
  refine ⟨h6 ▸ (hG.shown (hw r')).1, hG.across (hw r') (splitlines_keeps passages (passages_keep passages st hsz)) (by rw [h4]; exact hb) fun ho l hl e he => ?_⟩
  rw [h6] at hl
  exact contentLines_states (P := fun s => 0 < ((w.env r').metrics s.font).charwidth ' ') (hsp ho) l hl e he

/-! ### C78 -/

/-- C78. Lines that are shown are no wider than their column, not counting a space at their end; except for lines that cannot be broken. -/
def C78_Statement : Prop := ∀ (w : World) (base : StyleFull) (p : Paragraph) (r : Res) (t : Tape) (filled : List ColumnFill) (r' : Res),
  (∀ r, (w.env r).Ok) → (Block.paragraph p).intoColumns w r base t.view = (some filled, r') →
  (∀ e ∈ itemsStrings [p.style] p.content, e.1 ≠ []) → 0 < (base.or p.style).size → (∀ e ∈ contentStrings base p.style p.content r', 0 < e.2.size) →
  ∃ css, PutLines css t (t.fill filled) ∧ css.length = (contentLines (contentStrings base p.style p.content r')).length ∧
    PutWith (FitAcross (w.env r').widths fun s _ => s.OnePiece) css t

/-- C78 for paragraphs set by first-fit, with positive font sizes, whatever the styles: every chunk that does not start with a word at whose end the style changes shows lines that are,
not counting a space at their end, no wider than the column; the exceptions are lines of a single syllable, in which there is no place for a break. And they stand as the alignment says;
so, without such a space, they are inside the column. -/
theorem C78_firstfit_partial (w : World) (hw : ∀ r, (w.env r).Ok) (base : StyleFull) (p : Paragraph) (hp : p.optimal = none) (r : Res) (t : Tape) (filled : List ColumnFill)
    (r' : Res) (h : (Block.paragraph p).intoColumns w r base t.view = (some filled, r'))
    (hne : ∀ e ∈ itemsStrings [p.style] p.content, e.1 ≠ []) (hb : 0 < (base.or p.style).size)
    (hsz : ∀ e ∈ contentStrings base p.style p.content r', 0 < e.2.size) :
    ∃ css lead, PutLines css t (t.fill filled) ∧
      List.Forall₂ (TextShownIf ShapedText.StartsQuiet (w.env r').widths lead) css (contentLines (contentStrings base p.style p.content r')) ∧
      PutWith (FitAcross (w.env r').widths fun s l => s.OnePiece ∧ l.OneSyllable) css t ∧
      ∀ cs ∈ css, ∀ c ∈ cs, c.StartsQuiet → c.IsPlaced (w.env r').widths p.align := by
  obtain ⟨css, lead, k1, -, k2⟩ := across_all w hw base p r t filled r' h hne hb hsz (by simp [hp]) (by simp [hp])
  obtain ⟨k3, k4⟩ := k2 (by simp [hp])
  exact ⟨css, lead, k1, k3, k4.mono fun _ _ h => h.firstfit hp, (k4.mono (Q := fun _ cs => ∀ c ∈ cs, c.StartsQuiet → c.IsPlaced (w.env r').widths p.align)
    fun _ _ h => h.placed (.inl hp)).all⟩

/-- C78 for paragraphs set with optimal line breaks, with positive font sizes, in fonts in which a space has a width; no column is over-full, and every empty column has room for a line;
the style changes only after newlines, or no line is blank but those of empty lines of the text: every chunk that does not start with a word at whose end the style changes shows lines that
are no wider than the column; the exceptions are justified lines in which no space can be stretched. With left-aligned and justified text the lines start at the edge of the column. -/
theorem C78_optimal_partial (w : World) (hw : ∀ r, (w.env r).Ok) (base : StyleFull) (p : Paragraph) (hp : p.optimal ≠ none) (r : Res) (t : Tape) (filled : List ColumnFill)
    (r' : Res) (h : (Block.paragraph p).intoColumns w r base t.view = (some filled, r'))
    (hne : ∀ e ∈ itemsStrings [p.style] p.content, e.1 ≠ []) (hb : 0 < (base.or p.style).size)
    (hsz : ∀ e ∈ contentStrings base p.style p.content r', 0 < e.2.size)
    (hsp : ∀ e ∈ contentStrings base p.style p.content r', 0 < ((w.env r').metrics e.2.font).charwidth ' ')
    (htext : HasText (contentStrings base p.style p.content r')) (hroom : ∀ lead, IsLeading (contentStrings base p.style p.content r') lead → t.Roomy lead) :
    ∃ css lead, PutLines css t (t.fill filled) ∧ css.length = (contentLines (contentStrings base p.style p.content r')).length ∧
      (List.Forall₂ NoBlankLines css (contentLines (contentStrings base p.style p.content r')) ∨ ChangesAtNewlines (contentStrings base p.style p.content r') →
        List.Forall₂ (TextShownIf ShapedText.StartsQuiet (w.env r').widths lead) css (contentLines (contentStrings base p.style p.content r')) ∧
        PutWith (FitAcross (w.env r').widths fun s l => s.glyphs = [] ∨ p.align = .justify ∧ l.Unspaced) css t ∧
        (p.align = .left ∨ p.align = .justify → ∀ cs ∈ css, ∀ c ∈ cs, c.StartsQuiet → c.IsPlaced (w.env r').widths p.align)) := by
  obtain ⟨css, lead, k1, k0, k2⟩ := across_all w hw base p r t filled r' h hne hb hsz (fun _ => ⟨htext, hroom⟩) (fun _ => hsp)
  refine ⟨css, lead, k1, k0, fun hbl => ?_⟩
  obtain ⟨k3, k4⟩ := k2 (fun _ => hbl)
  exact ⟨k3, k4.mono fun _ _ h => h.optimal hp, fun ha => (k4.mono (Q := fun _ cs => ∀ c ∈ cs, c.StartsQuiet → c.IsPlaced (w.env r').widths p.align)
    fun _ _ h => h.placed (.inr ha)).all⟩

/-! ### C37 -/

/-- C37 for displayed lines: a justified paragraph set by first-fit, with positive font sizes. Every chunk that does not start with a word at whose end the style changes shows lines that
reach from edge to edge of the column, but for the last line and for those in which no space can be stretched. -/
theorem C37_shown (w : World) (hw : ∀ r, (w.env r).Ok) (base : StyleFull) (p : Paragraph) (hp : p.optimal = none) (hj : p.align = .justify) (r : Res) (t : Tape)
    (filled : List ColumnFill) (r' : Res) (h : (Block.paragraph p).intoColumns w r base t.view = (some filled, r'))
    (hne : ∀ e ∈ itemsStrings [p.style] p.content, e.1 ≠ []) (hb : 0 < (base.or p.style).size)
    (hsz : ∀ e ∈ contentStrings base p.style p.content r', 0 < e.2.size) :
    ∃ css lead, PutLines css t (t.fill filled) ∧
      List.Forall₂ (TextShownIf ShapedText.StartsQuiet (w.env r').widths lead) css (contentLines (contentStrings base p.style p.content r')) ∧
      PutWith (FillAcross (w.env r').widths) css t := by
  obtain ⟨css, lead, k1, -, k2⟩ := across_all w hw base p r t filled r' h hne hb hsz (by simp [hp]) (by simp [hp])
  obtain ⟨k3, k4⟩ := k2 (by simp [hp])
  exact ⟨css, lead, k1, k3, k4.mono fun _ _ h => h.fill hp hj⟩

/-! ### C44 -/

/-- C44 for displayed lines, as far as it is true: a justified paragraph set with optimal line breaks, under the conditions of `C78_optimal_partial`. Every chunk that does not start with a
word at whose end the style changes shows lines that reach from edge to edge of the column, but for the last line, for those in which no space can be stretched, and for those whose spaces
would have to be exactly twice as wide. -/
theorem C44_shown_partial (w : World) (hw : ∀ r, (w.env r).Ok) (base : StyleFull) (p : Paragraph) (hp : p.optimal ≠ none) (hj : p.align = .justify) (r : Res) (t : Tape)
    (filled : List ColumnFill) (r' : Res) (h : (Block.paragraph p).intoColumns w r base t.view = (some filled, r'))
    (hne : ∀ e ∈ itemsStrings [p.style] p.content, e.1 ≠ []) (hb : 0 < (base.or p.style).size)
    (hsz : ∀ e ∈ contentStrings base p.style p.content r', 0 < e.2.size)
    (hsp : ∀ e ∈ contentStrings base p.style p.content r', 0 < ((w.env r').metrics e.2.font).charwidth ' ')
    (htext : HasText (contentStrings base p.style p.content r')) (hroom : ∀ lead, IsLeading (contentStrings base p.style p.content r') lead → t.Roomy lead) :
    ∃ css lead, PutLines css t (t.fill filled) ∧ css.length = (contentLines (contentStrings base p.style p.content r')).length ∧
      (List.Forall₂ NoBlankLines css (contentLines (contentStrings base p.style p.content r')) ∨ ChangesAtNewlines (contentStrings base p.style p.content r') →
        List.Forall₂ (TextShownIf ShapedText.StartsQuiet (w.env r').widths lead) css (contentLines (contentStrings base p.style p.content r')) ∧
        PutWith (FillAcrossOr (w.env r').widths) css t) := by
  obtain ⟨css, lead, k1, k0, k2⟩ := across_all w hw base p r t filled r' h hne hb hsz (fun _ => ⟨htext, hroom⟩) (fun _ => hsp)
  refine ⟨css, lead, k1, k0, fun hbl => ?_⟩
  obtain ⟨k3, k4⟩ := k2 (fun _ => hbl)
  exact ⟨k3, k4.mono fun _ _ h => h.fillOr hp hj⟩

/-! ### The counterexample, and cases -/

/-- The paragraph "a-b", justified, with optimal line breaks. -/
def dashText : Paragraph := ⟨[.str ['a', '-', 'b']], Style.empty, .justify, 0, false, some .default⟩

/-- Its words. -/
def dashWords : List WordLike :=
  [.word ⟨[.slug (Slug.new (demoWorld.env shortRes) ['a', '-'] faceState none)], none, faceState⟩,
   .word ⟨[.slug (Slug.new (demoWorld.env shortRes) ['b'] faceState none)], none, faceState⟩]

theorem dashWords_eq : intoWords (demoWorld.env shortRes) [⟨.noop, ['a', '-', 'b']⟩] faceState = some (.noop, dashWords) := by
  have h4 : parseSimple (demoWorld.env shortRes) ['a', '-', 'b'] faceState none = some (
      [⟨[.slug (Slug.new (demoWorld.env shortRes) ['a', '-'] faceState none)], none, faceState⟩], .inl ['b']) := by
    have : allWords ['a', '-', 'b'] = ([['a', '-']], ['b']) := by
      rw [allWords_eq]
      have : nextWord ['a', '-', 'b'] = some (['a', '-'], ['b']) := by decide +kernel
      rw [this]
      simp only
      rw [allWords_eq]
      rfl
    rw [parseSimple, this]
    rfl
  show (parse (demoWorld.env shortRes) [] faceState ['a', '-', 'b']).map _ = _
  rw [parse.eq_def, if_neg (by simp), h4]
  dsimp only
  have e : completeWord (demoWorld.env shortRes) [] ['b'] faceState none =
      some (⟨[.slug (Slug.new (demoWorld.env shortRes) ['b'] faceState none)], none, faceState⟩, none, []) := rfl
  split
  · rename_i e2; rw [e] at e2; simp at e2
  · rename_i e2; rw [e] at e2; simp only [Option.some.injEq, Prod.mk.injEq, true_and] at e2; obtain ⟨rfl, -⟩ := e2; rfl
  · rename_i e2; rw [e] at e2; simp at e2

theorem dash_columns {c : ShapedText} {width : ℚ} (hc : dashText.shape (demoWorld.env shortRes) (fun _ => (width, 500)) 15 (indentFirst dashWords 0) false = some [c]) :
    (Block.paragraph dashText).intoColumns demoWorld Res.empty faceStyle (blankTape width).view = (some [((blankTape width).view 0).add (.text c)], shortRes) := by
  have h5 : maxLead [⟨.noop, ['a', '-', 'b']⟩] faceState = 15 := by decide +kernel
  exact paragraph_one (p := dashText) (w := demoWorld) (base := faceStyle) (r := Res.empty) (ps := [⟨.noop, ['a', '-', 'b']⟩])
    (todo := [.full faceStyle faceStyle]) (st := faceState) (r2 := shortRes)
    (words := dashWords) (width := width) (c := c) (by simp only [dashText, flattenSpan, flattenItems]; rfl) rfl
    (by rw [splitlines, splitFrom_none (by rfl)]; rfl) dashWords_eq (by rw [h5]; exact hc)

/-- What is shown of a chunk at the origin: for each line, where it starts and ends, and its characters. -/
def ShapedText.extent (c : ShapedText) (W : FontRef → Char → ℚ) (width : ℚ) : List (ℚ × ℚ × List Char) :=
  (c.shownAt W (0, 0) width ⟨none, ⟨0, 0, 0⟩, 0, 0, 0, 0⟩).map fun s => (s.left, s.right, s.glyphs.map Glyph.char)

set_option synthInstance.maxHeartbeats 400000 in
set_option synthInstance.maxSize 1024 in
/-- In a column 12 wide it is on one line, which is wider than that. -/
theorem dash_narrow : (dashText.shape (demoWorld.env shortRes) (fun _ => (12, 500)) 15 (indentFirst dashWords 0) false).map
    (fun o => o.map fun c => ((c.lines.flatMap TLine.words).head?.map fun w => decide (w.state = w.preState), c.lines.length, c.extent (demoWorld.env shortRes).widths 12)) =
      some [(some true, 1, [(0, 78 / 5, ['a', '-', 'b'])])] := by
  decide +kernel

/-- C78 is false: "a-b", justified, with optimal line breaks, is put on one line of a column that is too narrow for it, though it could be broken after the hyphen (and is, if it is not
justified). Without spaces to stretch or shrink, any line is as good as any other when all tolerances but infinity have failed. -/
theorem C78_counterexample : ¬ C78_Statement := by
  intro h
  have hs := dash_narrow
  rw [Option.map_eq_some_iff] at hs
  obtain ⟨out, h1, h2⟩ := hs
  obtain ⟨c, l, rfl, h3, h4⟩ := List.map_eq_cons_iff.1 h2
  rw [List.map_eq_nil_iff] at h4
  subst h4
  simp only [Prod.mk.injEq] at h3
  obtain ⟨h5, h6, h7⟩ := h3
  obtain ⟨css, i1, i0, i2⟩ := h demoWorld faceStyle dashText Res.empty (blankTape 12) _ _ demoWorld_ok (dash_columns h1)
    (by have : ∀ e ∈ itemsStrings [dashText.style] dashText.content, e.1 ≠ [] := by decide +kernel
        exact this)
    (by decide +kernel)
    (by have : ∀ e ∈ contentStrings faceStyle dashText.style dashText.content shortRes, 0 < e.2.size := by decide +kernel
        exact this)
  have hl : (contentLines (contentStrings faceStyle dashText.style dashText.content shortRes)).length = 1 := by decide +kernel
  have := putLines_one (by rw [i0, hl]) i1
  subst this
  cases i2 with
  | cons _ _ _ j1 _ =>
    have hq : c.StartsQuiet := by
      intro w hw
      rw [Option.mem_def] at hw
      rw [hw] at h5
      simpa using h5
    unfold ShapedText.extent at h7
    obtain ⟨s, ss, e1, e2, e3⟩ := List.map_eq_cons_iff.1 h7
    simp only [Prod.mk.injEq] at e2
    obtain ⟨e4, e5, e6⟩ := e2
    obtain ⟨ln, eln⟩ := List.length_eq_one_iff.1 h6
    have := j1 0 c rfl hq (0, 0) ⟨none, ⟨0, 0, 0⟩, 0, 0, 0, 0⟩ 0 s ln (by
      show (c.shownAt _ (0, 0) 12 _)[0]? = _
      rw [e1]; rfl) (by rw [eln]; rfl)
    rcases this with (k1 | ⟨gs, g, k2, k3, -⟩) | ⟨cs, k1, k2⟩
    · have k1 : s.right - s.left ≤ 12 := k1
      rw [e4, e5] at k1
      norm_num at k1
    · rw [k2, List.map_append, List.map_cons, List.map_nil, k3] at e6
      have := congrArg List.getLast? e6
      simp at this
    · rcases k2 with k2 | k2
      · rw [e6] at k2
        have := (k1 ['a'] '-' 'b' [] k2.symm (by decide)).1
        simp at this
      · rw [e6] at k2
        have := congrArg List.getLast? k2
        simp at this

/-- "a b c", justified, set by first-fit. -/
def wideText : Paragraph := ⟨[.str ['a', ' ', 'b', ' ', 'c']], Style.empty, .justify, 0, false, none⟩

theorem wide_columns {c : ShapedText} {width : ℚ} (hc : wideText.shape (kernWorld.env shortRes) (fun _ => (width, 500)) 15 (indentFirst abcWords 0) false = some [c]) :
    (Block.paragraph wideText).intoColumns kernWorld Res.empty faceStyle (blankTape width).view = (some [((blankTape width).view 0).add (.text c)], shortRes) := by
  have h5 : maxLead [⟨.noop, ['a', ' ', 'b', ' ', 'c']⟩] faceState = 15 := by decide +kernel
  exact paragraph_one (p := wideText) (w := kernWorld) (base := faceStyle) (r := Res.empty) (ps := [⟨.noop, ['a', ' ', 'b', ' ', 'c']⟩])
    (todo := [.full faceStyle faceStyle]) (st := faceState) (r2 := shortRes)
    (words := abcWords) (width := width) (c := c) (by simp only [wideText, flattenSpan, flattenItems]; rfl) rfl
    (by rw [splitlines, splitFrom_none (by rfl)]; rfl) abcWords_eq (by rw [h5]; exact hc)

set_option synthInstance.maxHeartbeats 400000 in
set_option synthInstance.maxSize 1024 in
/-- In a column 20 wide it is on two lines, of which the first one is as wide as the column. -/
theorem wide_box : (takeBox (kernWorld.env shortRes) (some (indentFirst abcWords 0)) (20, 500) false 15).map (fun e =>
    (e.1.isNone, (((e.2.1.map TLine.justify).flatMap TLine.words).head?.map fun w => decide (w.state = w.preState)),
      (e.2.1.map TLine.justify).map fun l => l.words.map fun w => w.tail.isSome,
      ShapedText.extent ⟨e.2.1.map TLine.justify, 15, .justify, e.2.1.length * 15⟩ (kernWorld.env shortRes).widths 20)) =
      some (true, some true, [[true, false], [false]], [(0, 20, ['a', ' ', 'b']), (0, 6, ['c'])]) := by
  decide +kernel

theorem wide_lines : ∃ c, wideText.shape (kernWorld.env shortRes) (fun _ => (20, 500)) 15 (indentFirst abcWords 0) false = some [c] ∧
    ((c.lines.flatMap TLine.words).head?.map fun w => decide (w.state = w.preState)) = some true ∧ (c.lines.map fun l => l.words.map fun w => w.tail.isSome) = [[true, false], [false]] ∧
      c.extent (kernWorld.env shortRes).widths 20 = [(0, 20, ['a', ' ', 'b']), (0, 6, ['c'])] := by
  have hb := wide_box
  rw [Option.map_eq_some_iff] at hb
  obtain ⟨⟨q, lines, u⟩, h1, h2⟩ := hb
  simp only [Prod.mk.injEq, Option.isNone_iff_eq_none] at h2
  obtain ⟨rfl, h2⟩ := h2
  refine ⟨⟨lines.map TLine.justify, 15, .justify, lines.length * 15⟩, ?_, h2⟩
  simp only [Paragraph.shape, wideText]
  unfold firstfitShape
  rw [if_neg (by simp), shapeSimple, h1]
  rfl

/-- C37 and C78 speak about it. -/
example : ∃ filled r' css c, (Block.paragraph wideText).intoColumns kernWorld Res.empty faceStyle (blankTape 20).view = (some filled, r') ∧
    PutLines css (blankTape 20) ((blankTape 20).fill filled) ∧ css = [[c]] ∧ c.StartsQuiet ∧ c.lines.length = 2 ∧
    PutWith (FillAcross (kernWorld.env r').widths) css (blankTape 20) := by
  obtain ⟨c, h1, h5, h6, h7⟩ := wide_lines
  obtain ⟨css, lead, i1, i2, i3⟩ := C37_shown kernWorld kernWorld_ok faceStyle wideText rfl rfl Res.empty (blankTape 20) _ _ (wide_columns h1)
    (by have : ∀ e ∈ itemsStrings [wideText.style] wideText.content, e.1 ≠ [] := by decide +kernel
        exact this)
    (by decide +kernel)
    (by have : ∀ e ∈ contentStrings faceStyle wideText.style wideText.content shortRes, 0 < e.2.size := by decide +kernel
        exact this)
  have hl : (contentLines (contentStrings faceStyle wideText.style wideText.content shortRes)).length = 1 := by decide +kernel
  refine ⟨_, _, css, c, wide_columns h1, i1, putLines_one (by rw [i2.length_eq, hl]) i1, ?_, ?_, i3⟩
  · intro w hw
    rw [Option.mem_def] at hw
    rw [hw] at h5
    simpa using h5
  · have := congrArg List.length h6
    simpa using this

set_option synthInstance.maxHeartbeats 400000 in
set_option synthInstance.maxSize 1024 in
/-- "a b c", left-aligned, with optimal line breaks, in a column 20 wide. -/
theorem abc_lines : (abcText.shape (kernWorld.env shortRes) (fun _ => (20, 500)) 15 (indentFirst abcWords 0) false).map
    (fun o => o.map fun c => ((c.lines.flatMap TLine.words).head?.map fun w => decide (w.state = w.preState), c.extent (kernWorld.env shortRes).widths 20)) =
      some [(some true, [(0, 84 / 5, ['a', ' ', 'b']), (0, 6, ['c'])])] := by
  decide +kernel

/-- C78 speaks about it. -/
example : ∃ filled r' css c, (Block.paragraph abcText).intoColumns kernWorld Res.empty faceStyle (blankTape 20).view = (some filled, r') ∧
    PutLines css (blankTape 20) ((blankTape 20).fill filled) ∧ css = [[c]] ∧ c.StartsQuiet ∧
    PutWith (FitAcross (kernWorld.env r').widths fun s l => s.glyphs = [] ∨ abcText.align = .justify ∧ l.Unspaced) css (blankTape 20) := by
  have hs := abc_lines
  rw [Option.map_eq_some_iff] at hs
  obtain ⟨out, h1, h2⟩ := hs
  obtain ⟨c, l, rfl, h3, h4⟩ := List.map_eq_cons_iff.1 h2
  rw [List.map_eq_nil_iff] at h4
  subst h4
  simp only [Prod.mk.injEq] at h3
  obtain ⟨h5, h7⟩ := h3
  have hstr : contentStrings faceStyle abcText.style abcText.content shortRes = [(['a', ' ', 'b', ' ', 'c'], faceState)] := by decide +kernel
  obtain ⟨css, lead, i1, i0, i2⟩ := C78_optimal_partial kernWorld kernWorld_ok faceStyle abcText (by simp [abcText]) Res.empty (blankTape 20) _ _ (abc_columns h1)
    (by have : ∀ e ∈ itemsStrings [abcText.style] abcText.content, e.1 ≠ [] := by decide +kernel
        exact this)
    (by decide +kernel)
    (by rw [hstr]; decide +kernel)
    (by rw [hstr]; decide +kernel)
    (by rw [hstr]; exact ⟨⟨_, .head _, by simp⟩, by decide +kernel⟩)
    (by
      rw [hstr]
      rintro lead ⟨⟨e, he, -, rfl⟩, -⟩
      refine blankTape_roomy _ ?_
      have : ∀ e ∈ [(['a', ' ', 'b', ' ', 'c'], faceState)], e.2.size * e.2.lineSpacing ≤ 500 := by decide +kernel
      exact this e he)
  obtain ⟨-, i3, -⟩ := i2 (.inr (by rw [hstr]; simp [ChangesAtNewlines]))
  have hl : (contentLines (contentStrings faceStyle abcText.style abcText.content shortRes)).length = 1 := by decide +kernel
  refine ⟨_, _, css, c, abc_columns h1, i1, putLines_one (by rw [i0, hl]) i1, ?_, i3⟩
  intro w hw
  rw [Option.mem_def] at hw
  rw [hw] at h5
  simpa using h5

/-- "a b c", justified, with optimal line breaks. -/
def fullText : Paragraph := ⟨[.str ['a', ' ', 'b', ' ', 'c']], Style.empty, .justify, 0, false, some .default⟩

theorem full_columns {c : ShapedText} {width : ℚ} (hc : fullText.shape (kernWorld.env shortRes) (fun _ => (width, 500)) 15 (indentFirst abcWords 0) false = some [c]) :
    (Block.paragraph fullText).intoColumns kernWorld Res.empty faceStyle (blankTape width).view = (some [((blankTape width).view 0).add (.text c)], shortRes) := by
  have h5 : maxLead [⟨.noop, ['a', ' ', 'b', ' ', 'c']⟩] faceState = 15 := by decide +kernel
  exact paragraph_one (p := fullText) (w := kernWorld) (base := faceStyle) (r := Res.empty) (ps := [⟨.noop, ['a', ' ', 'b', ' ', 'c']⟩])
    (todo := [.full faceStyle faceStyle]) (st := faceState) (r2 := shortRes)
    (words := abcWords) (width := width) (c := c) (by simp only [fullText, flattenSpan, flattenItems]; rfl) rfl
    (by rw [splitlines, splitFrom_none (by rfl)]; rfl) abcWords_eq (by rw [h5]; exact hc)

set_option synthInstance.maxHeartbeats 400000 in
set_option synthInstance.maxSize 1024 in
/-- In a column 20 wide its first line is as wide as the column. -/
theorem full_lines : (fullText.shape (kernWorld.env shortRes) (fun _ => (20, 500)) 15 (indentFirst abcWords 0) false).map
    (fun o => o.map fun c => ((c.lines.flatMap TLine.words).head?.map fun w => decide (w.state = w.preState), c.extent (kernWorld.env shortRes).widths 20)) =
      some [(some true, [(0, 20, ['a', ' ', 'b']), (0, 6, ['c'])])] := by
  decide +kernel

/-- C44 speaks about it. -/
example : ∃ filled r' css c, (Block.paragraph fullText).intoColumns kernWorld Res.empty faceStyle (blankTape 20).view = (some filled, r') ∧
    PutLines css (blankTape 20) ((blankTape 20).fill filled) ∧ css = [[c]] ∧ c.StartsQuiet ∧
    PutWith (FillAcrossOr (kernWorld.env r').widths) css (blankTape 20) := by
  have hs := full_lines
  rw [Option.map_eq_some_iff] at hs
  obtain ⟨out, h1, h2⟩ := hs
  obtain ⟨c, l, rfl, h3, h4⟩ := List.map_eq_cons_iff.1 h2
  rw [List.map_eq_nil_iff] at h4
  subst h4
  simp only [Prod.mk.injEq] at h3
  obtain ⟨h5, h7⟩ := h3
  have hstr : contentStrings faceStyle fullText.style fullText.content shortRes = [(['a', ' ', 'b', ' ', 'c'], faceState)] := by decide +kernel
  obtain ⟨css, lead, i1, i0, i2⟩ := C44_shown_partial kernWorld kernWorld_ok faceStyle fullText (by simp [fullText]) rfl Res.empty (blankTape 20) _ _ (full_columns h1)
    (by have : ∀ e ∈ itemsStrings [fullText.style] fullText.content, e.1 ≠ [] := by decide +kernel
        exact this)
    (by decide +kernel)
    (by rw [hstr]; decide +kernel)
    (by rw [hstr]; decide +kernel)
    (by rw [hstr]; exact ⟨⟨_, .head _, by simp⟩, by decide +kernel⟩)
    (by
      rw [hstr]
      rintro lead ⟨⟨e, he, -, rfl⟩, -⟩
      refine blankTape_roomy _ ?_
      have : ∀ e ∈ [(['a', ' ', 'b', ' ', 'c'], faceState)], e.2.size * e.2.lineSpacing ≤ 500 := by decide +kernel
      exact this e he)
  obtain ⟨-, i3⟩ := i2 (.inr (by rw [hstr]; simp [ChangesAtNewlines]))
  have hl : (contentLines (contentStrings faceStyle fullText.style fullText.content shortRes)).length = 1 := by decide +kernel
  refine ⟨_, _, css, c, full_columns h1, i1, putLines_one (by rw [i0, hl]) i1, ?_, i3⟩
  intro w hw
  rw [Option.mem_def] at hw
  rw [hw] at h5
  simpa using h5

end Pdfje
