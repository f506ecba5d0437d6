import Verif.Props.Tight
import Verif.Proofs.Mixed
/-
C48, C76 and C77 for paragraphs in which the style changes anywhere.
-/

namespace Pdfje

/-- All of it. -/
theorem mixed_all (w : World) (hw : ∀ r, (w.env r).Ok) (base : StyleFull) (p : Paragraph) (r : Res) (t : Tape) (filled : List ColumnFill)
    (r' : Res) (h : (Block.paragraph p).intoColumns w r base t.view = (some filled, r'))
    (hne : ∀ e ∈ itemsStrings [p.style] p.content, e.1 ≠ [])
    (hsz : ∀ e ∈ contentStrings base p.style p.content r', e.2.size ≠ 0)
    (hroom : p.optimal ≠ none → HasText (contentStrings base p.style p.content r') ∧
      ∀ lead, IsLeading (contentStrings base p.style p.content r') lead → t.Roomy lead) :
    ∃ css lead, (HasText (contentStrings base p.style p.content r') → IsLeading (contentStrings base p.style p.content r') lead) ∧
      PutLines css t (t.fill filled) ∧ css.length = (contentLines (contentStrings base p.style p.content r')).length ∧
      ((p.optimal ≠ none → List.Forall₂ NoBlankLines css (contentLines (contentStrings base p.style p.content r'))) →
        List.Forall₂ (TextShownIf ShapedText.StartsQuiet (w.env r').widths lead) css (contentLines (contentStrings base p.style p.content r')) ∧
        ∀ cs ∈ css, (∀ c ∈ cs, c.StartsQuiet) → ∃ single, Tight (w.env r') (p.optimal = none) (p.align = .justify) single cs) := by
  obtain ⟨passages, st, lead, h1, h2, h3, -, h5, h6⟩ := paragraph_lines p w r base t filled r' h hne
  rw [← h2] at hsz hroom ⊢
  rw [← h2] at h6
  have hz : ∀ l ∈ groupsStyled (splitlines passages) st, NonZero l := by
    rw [h6]
    intro l hl e he
    exact contentLines_sizes (P := (· ≠ 0)) hsz l hl e he
  obtain ⟨css, k1, k0, k2⟩ := linesFill_groups (hw r') h1 (C27_tidy passages h3) (fun ho => by
    obtain ⟨i1, i2⟩ := hroom ho
    rw [h5]
    exact ⟨paragraph_leading i1, i2 _ (maxLead_strings passages st i1)⟩)
  refine ⟨css, lead, fun ht => h5 ▸ maxLead_strings passages st ht, k1, by rw [k0, ← h6, groupsStyled_length], fun hb => ?_⟩
  obtain ⟨k3, k4⟩ := (k2 hz (fun ho => .inl (by rw [h6]; exact hb ho))).shown (hw r')
  refine ⟨h6 ▸ k3, fun cs hcs hq => ?_⟩
  obtain ⟨g, -, hg⟩ := tight_firstfit.forall₂_mem_left k4 cs hcs
  exact ⟨_, hg hq⟩

/-- C48 for paragraphs in which the style changes anywhere, with font sizes other than 0, first-fit or optimal: every chunk that does not start with a word at whose end the style
changes shows its lines as it should. If the optimal line breaking is used, there is also some text, sizes and line spacings are positive, no column is over-full, every empty
column has room for a line, and no line is blank but those of empty lines of the text. -/
theorem C48_mixed_partial (w : World) (hw : ∀ r, (w.env r).Ok) (base : StyleFull) (p : Paragraph) (r : Res) (t : Tape) (filled : List ColumnFill)
    (r' : Res) (h : (Block.paragraph p).intoColumns w r base t.view = (some filled, r'))
    (hne : ∀ e ∈ itemsStrings [p.style] p.content, e.1 ≠ [])
    (hsz : ∀ e ∈ contentStrings base p.style p.content r', e.2.size ≠ 0)
    (hroom : p.optimal ≠ none → HasText (contentStrings base p.style p.content r') ∧
      ∀ lead, IsLeading (contentStrings base p.style p.content r') lead → t.Roomy lead) :
    ∃ css lead, (HasText (contentStrings base p.style p.content r') → IsLeading (contentStrings base p.style p.content r') lead) ∧
      PutLines css t (t.fill filled) ∧ css.length = (contentLines (contentStrings base p.style p.content r')).length ∧
      ((p.optimal ≠ none → List.Forall₂ NoBlankLines css (contentLines (contentStrings base p.style p.content r'))) →
        List.Forall₂ (TextShownIf ShapedText.StartsQuiet (w.env r').widths lead) css (contentLines (contentStrings base p.style p.content r'))) := by
  obtain ⟨css, lead, k1, k2, k0, k3⟩ := mixed_all w hw base p r t filled r' h hne hsz hroom
  exact ⟨css, lead, k1, k2, k0, fun hb => (k3 hb).1⟩

/-- C76 for the same paragraphs. -/
theorem C76_mixed_partial (w : World) (hw : ∀ r, (w.env r).Ok) (base : StyleFull) (p : Paragraph) (r : Res) (t : Tape) (filled : List ColumnFill)
    (r' : Res) (h : (Block.paragraph p).intoColumns w r base t.view = (some filled, r'))
    (hne : ∀ e ∈ itemsStrings [p.style] p.content, e.1 ≠ [])
    (hsz : ∀ e ∈ contentStrings base p.style p.content r', e.2.size ≠ 0)
    (hroom : p.optimal ≠ none → HasText (contentStrings base p.style p.content r') ∧
      ∀ lead, IsLeading (contentStrings base p.style p.content r') lead → t.Roomy lead) :
    ∃ css, PutLines css t (t.fill filled) ∧ css.length = (contentLines (contentStrings base p.style p.content r')).length ∧
      ((p.optimal ≠ none → List.Forall₂ NoBlankLines css (contentLines (contentStrings base p.style p.content r'))) →
        ∀ cs ∈ css, (∀ c ∈ cs, c.StartsQuiet) → ∀ ss, ShownFor (w.env r').widths cs ss → KernedInWords (w.env r').metrics (p.align = .justify) ss) := by
  obtain ⟨css, lead, -, k2, k0, k3⟩ := mixed_all w hw base p r t filled r' h hne hsz hroom
  exact ⟨css, k2, k0, fun hb cs hcs hq => ((k3 hb).2 cs hcs hq).elim fun _ k => k.words⟩

/-- C77 for the same paragraphs. -/
theorem C77_mixed_partial (w : World) (hw : ∀ r, (w.env r).Ok) (base : StyleFull) (p : Paragraph) (r : Res) (t : Tape) (filled : List ColumnFill)
    (r' : Res) (h : (Block.paragraph p).intoColumns w r base t.view = (some filled, r'))
    (hne : ∀ e ∈ itemsStrings [p.style] p.content, e.1 ≠ [])
    (hsz : ∀ e ∈ contentStrings base p.style p.content r', e.2.size ≠ 0)
    (hroom : p.optimal ≠ none → HasText (contentStrings base p.style p.content r') ∧
      ∀ lead, IsLeading (contentStrings base p.style p.content r') lead → t.Roomy lead) :
    ∃ css, PutLines css t (t.fill filled) ∧ css.length = (contentLines (contentStrings base p.style p.content r')).length ∧
      ((p.optimal ≠ none → List.Forall₂ NoBlankLines css (contentLines (contentStrings base p.style p.content r'))) →
        ∀ cs ∈ css, (∀ c ∈ cs, c.StartsQuiet) → ∀ ss, ShownFor (w.env r').widths cs ss →
          KernedStarts (w.env r').metrics (p.optimal ≠ none) (p.align = .justify) ss) := by
  obtain ⟨css, lead, -, k2, k0, k3⟩ := mixed_all w hw base p r t filled r' h hne hsz hroom
  exact ⟨css, k2, k0, fun hb cs hcs hq => ((k3 hb).2 cs hcs hq).elim fun _ k => by simpa using k.starts⟩

/-! ### Blank lines -/

/-- C48, only for chunks that do not start with a word at whose end the style changes. -/
def C48_quiet_Statement : Prop := ∀ (w : World) (base : StyleFull) (p : Paragraph) (r : Res) (t : Tape) (filled : List ColumnFill) (r' : Res),
  (∀ r, (w.env r).Ok) → (Block.paragraph p).intoColumns w r base t.view = (some filled, r') →
  (∀ e ∈ itemsStrings [p.style] p.content, e.1 ≠ []) →
  ∃ css lead, PutLines css t (t.fill filled) ∧
    List.Forall₂ (TextShownIf ShapedText.StartsQuiet (w.env r').widths lead) css (contentLines (contentStrings base p.style p.content r'))

/-- The paragraph `["aa bb ", Span(" ", Style(bold=True)), "cd"]`. -/
def blankText : Paragraph :=
  ⟨[.str ['a', 'a', ' ', 'b', 'b', ' '], .span [.str [' ']] { bold := some true }, .str ['c', 'd']], Style.empty, .left, 0, false, some .default⟩

/-- Its passages. -/
def blankPassages : List Passage := [⟨.noop, ['a', 'a', ' ', 'b', 'b', ' ']⟩, ⟨.setFont (.subset 1) 12, [' ']⟩, ⟨.setFont (.subset 0) 12, ['c', 'd']⟩]

/-- The bold style of the span. -/
def blankState : State := ⟨.subset 1, 12, ⟨0, 0, 0⟩, 5 / 4, 0⟩

/-- Its words. -/
def blankWords : List WordLike :=
  [.word ⟨[.slug (Slug.new (demoWorld.env faceRes) ['a', 'a'] faceState none)], some (TrailingSpace.make (demoWorld.env faceRes) faceState (some 'a')), faceState⟩,
   .withCmd (.word ⟨[.slug (Slug.new (demoWorld.env faceRes) ['b', 'b'] faceState (some ' '))],
     some (TrailingSpace.make (demoWorld.env faceRes) faceState (some 'b')), faceState⟩) (.setFont (.subset 1) 12),
   .withCmd (.word ⟨[], some (TrailingSpace.make (demoWorld.env faceRes) blankState none), blankState⟩) (.setFont (.subset 0) 12),
   .word ⟨[.slug (Slug.new (demoWorld.env faceRes) ['c', 'd'] faceState none)], none, faceState⟩]

theorem blankWords_eq : intoWords (demoWorld.env faceRes) blankPassages faceState = some (.noop, blankWords) := by
  have h1 : parse (demoWorld.env faceRes) [] faceState ['c', 'd'] =
      some [.word ⟨[.slug (Slug.new (demoWorld.env faceRes) ['c', 'd'] faceState none)], none, faceState⟩] :=
    parse_one (by simp) (rest := []) (head := ['c', 'd']) (by rw [parseSimple, allWords_eq]; rfl) rfl
  have h2 : parseSimple (demoWorld.env faceRes) [' '] blankState none =
      some ([], .inr ⟨[], some (TrailingSpace.make (demoWorld.env faceRes) blankState none), blankState⟩) := by
    have : allWords [' '] = ([[' ']], []) := by
      rw [allWords_eq]
      have : nextWord [' '] = some ([' '], []) := by decide +kernel
      rw [this]
      simp only
      rw [allWords_eq]
      rfl
    rw [parseSimple, this]
    rfl
  have h3 : parse (demoWorld.env faceRes) [⟨.setFont (.subset 0) 12, ['c', 'd']⟩] blankState [' '] =
      some [.withCmd (.word ⟨[], some (TrailingSpace.make (demoWorld.env faceRes) blankState none), blankState⟩) (.setFont (.subset 0) 12),
        .word ⟨[.slug (Slug.new (demoWorld.env faceRes) ['c', 'd'] faceState none)], none, faceState⟩] := by
    rw [parse.eq_def, if_neg (by simp), h2]
    dsimp only
    have e : (Command.setFont (.subset 0) 12).apply blankState = faceState := rfl
    rw [e, h1]
    rfl
  have h4 : parseSimple (demoWorld.env faceRes) ['a', 'a', ' ', 'b', 'b', ' '] faceState none = some (
      [⟨[.slug (Slug.new (demoWorld.env faceRes) ['a', 'a'] faceState none)], some (TrailingSpace.make (demoWorld.env faceRes) faceState (some 'a')), faceState⟩],
       .inr ⟨[.slug (Slug.new (demoWorld.env faceRes) ['b', 'b'] faceState (some ' '))], some (TrailingSpace.make (demoWorld.env faceRes) faceState (some 'b')), faceState⟩) := by
    have : allWords ['a', 'a', ' ', 'b', 'b', ' '] = ([['a', 'a', ' '], ['b', 'b', ' ']], []) := by
      rw [allWords_eq]
      have : nextWord ['a', 'a', ' ', 'b', 'b', ' '] = some (['a', 'a', ' '], ['b', 'b', ' ']) := by decide +kernel
      rw [this]
      simp only
      rw [allWords_eq]
      have : nextWord ['b', 'b', ' '] = some (['b', 'b', ' '], []) := by decide +kernel
      rw [this]
      simp only
      rw [allWords_eq]
      rfl
    rw [parseSimple, this]
    rfl
  show (parse (demoWorld.env faceRes) [⟨.setFont (.subset 1) 12, [' ']⟩, ⟨.setFont (.subset 0) 12, ['c', 'd']⟩] faceState ['a', 'a', ' ', 'b', 'b', ' ']).map _ = _
  rw [parse.eq_def, if_neg (by simp), h4]
  dsimp only
  have e : (Command.setFont (.subset 1) 12).apply faceState = blankState := rfl
  rw [e, h3]
  rfl

theorem blank_columns {width : ℚ} (c : ShapedText)
    (h : optimumShape (demoWorld.env faceRes) (fun _ => (width, 500)) 15 false .left .default blankWords false = some [c]) :
    (Block.paragraph blankText).intoColumns demoWorld Res.empty faceStyle (blankTape width).view =
      (some [((blankTape width).view 0).add (.text c)], faceRes) := by
  have h3 : maxLead blankPassages faceState = 15 := by decide +kernel
  refine paragraph_one (p := blankText) (ps := blankPassages)
    (todo := [.full faceStyle faceStyle]) (st := faceState)
    (words := blankWords) ?_ rfl ?_ blankWords_eq ?_
  · simp only [blankText, flattenSpan, flattenItems]
    with_unfolding_all rfl
  · rw [blankPassages, splitlines, splitFrom_none (by rfl)]
    simp only
    rw [splitFrom_none (by rfl)]
    simp only
    rw [splitFrom_none (by rfl)]
    rfl
  · rw [h3]; exact h

theorem blank_fonts : (optimumShape (demoWorld.env faceRes) (fun _ => (12, 500)) 15 false .left .default blankWords false).map
    (fun o => o.map fun c => ((c.lines.flatMap TLine.words).head?.map fun w => decide (w.state = w.preState), c.fonts (demoWorld.env faceRes).widths)) =
      some [(some true, [[], [], [('a', true), ('a', true)], [('b', true), ('b', true)], [], [('c', false), ('d', false)]])] := by
  decide +kernel

/-- A chunk that shows its lines has all characters in the font they were made for. -/
theorem fonts_shows {c : ShapedText} {W : FontRef → Char → ℚ} {lead : ℚ} {lines : List (List (Char × State))} (h : c.Shows W lead lines) :
    ∀ l ∈ c.fonts W, ∀ e ∈ l, e.2 = true := by
  obtain ⟨ops, b1, b2, ss, k1, k2, k3, k4, k5⟩ := h (0, 0) 100 ⟨none, ⟨0, 0, 0⟩, 0, 0, 0, 0⟩
  intro l hl e he
  simp only [ShapedText.fonts, k1, k2, List.map_cons, k3, k4, List.map_nil, List.mem_cons] at hl
  rcases hl with rfl | rfl | hl
  · simp at he
  · simp at he
  · obtain ⟨s, hs, rfl⟩ := List.mem_map.1 hl
    obtain ⟨g, hg, rfl⟩ := List.mem_map.1 he
    obtain ⟨i, hi⟩ := List.getElem?_of_mem hs
    have hlt : i < lines.length := by
      rw [← k5.count]
      exact (List.getElem?_eq_some_iff.1 hi).1
    have := k5.looks i s lines[i] hi (List.getElem?_eq_getElem hlt)
    have hm : g.look ∈ s.glyphs.map Glyph.look := List.mem_map_of_mem hg
    rw [this, List.mem_map] at hm
    obtain ⟨a, -, ha⟩ := hm
    simp only [lookOf, Glyph.look, Prod.mk.injEq] at ha
    obtain ⟨-, a1, a2, -⟩ := ha
    simp [← a1, ← a2]

/-- Even for chunks whose first word ends in the style it starts in, C48 is false if a line is blank: the change of style after the blank word is lost, and "cd" is in bold. -/
theorem C48_counterexample_blank : ¬ C48_quiet_Statement := by
  intro h
  have hs := blank_fonts
  rw [Option.map_eq_some_iff] at hs
  obtain ⟨out, h1, h2⟩ := hs
  obtain ⟨c, l, rfl, h3, h4⟩ := List.map_eq_cons_iff.1 h2
  rw [List.map_eq_nil_iff] at h4
  subst h4
  rw [Prod.mk.injEq] at h3
  obtain ⟨h3, h5⟩ := h3
  obtain ⟨css, lead, i1, i2⟩ := h demoWorld faceStyle blankText Res.empty (blankTape 12) _ _ demoWorld_ok (blank_columns c h1)
    (by intro e he; have : ∀ e ∈ itemsStrings [blankText.style] blankText.content, e.1 ≠ [] := by decide +kernel
        exact this e he)
  have hl : (contentLines (contentStrings faceStyle blankText.style blankText.content faceRes)).length = 1 := by
    decide +kernel
  have := putLines_one (by rw [i2.length_eq, hl]) i1
  subst this
  cases i2 with
  | cons j1 _ =>
    obtain ⟨ws, shown, -, j3, -⟩ := j1
    match shown, j3 with
    | [lines], .cons j3 .nil =>
      have hq : c.StartsQuiet := by
        intro w hw
        rw [Option.mem_def] at hw
        rw [hw] at h3
        simpa using h3
      have := fonts_shows (j3 hq) [('c', false), ('d', false)] (by rw [h5]; simp) ('c', false) (by simp)
      simp at this

theorem blank_wide : (optimumShape (demoWorld.env faceRes) (fun _ => (100, 500)) 15 false .left .default blankWords false).map
    (fun o => o.map fun c => ((c.lines.flatMap TLine.words).head?.map fun w => decide (w.state = w.preState), c.lines.map fun l => l.styled.map (·.1))) =
      some [(some true, [['a', 'a', ' ', 'b', 'b', ' ', ' ', 'c', 'd']])] := by
  decide +kernel

/-- In a wide column the same paragraph, in two fonts, is one line, and C48, C76 and C77 speak about it. -/
example : ∃ filled r' css lead, (Block.paragraph blankText).intoColumns demoWorld Res.empty faceStyle (blankTape 100).view = (some filled, r') ∧
    PutLines css (blankTape 100) ((blankTape 100).fill filled) ∧ (∀ cs ∈ css, ∀ c ∈ cs, c.StartsQuiet) ∧
    List.Forall₂ (TextShownIf ShapedText.StartsQuiet (demoWorld.env r').widths lead) css
      (contentLines (contentStrings faceStyle blankText.style blankText.content r')) := by
  have hs := blank_wide
  rw [Option.map_eq_some_iff] at hs
  obtain ⟨out, h1, h2⟩ := hs
  obtain ⟨c, l, rfl, h3, h4⟩ := List.map_eq_cons_iff.1 h2
  rw [List.map_eq_nil_iff] at h4
  subst h4
  rw [Prod.mk.injEq] at h3
  obtain ⟨h3, h5⟩ := h3
  have hc := blank_columns (width := 100) c h1
  have hstr : contentStrings faceStyle blankText.style blankText.content faceRes =
      [(['a', 'a', ' ', 'b', 'b', ' '], faceState), ([' '], blankState), (['c', 'd'], faceState)] := by decide +kernel
  obtain ⟨css, lead, -, i1, i0, i2⟩ := C48_mixed_partial demoWorld demoWorld_ok faceStyle blankText Res.empty (blankTape 100) _ _ hc
    (by have : ∀ e ∈ itemsStrings [blankText.style] blankText.content, e.1 ≠ [] := by decide +kernel
        exact this)
    (by rw [hstr]; decide +kernel)
    (fun _ => by
      rw [hstr]
      refine ⟨⟨⟨_, .head _, by simp⟩, by decide +kernel⟩, ?_⟩
      rintro lead ⟨⟨e, he, -, rfl⟩, -⟩
      refine blankTape_roomy _ ?_
      have : ∀ e ∈ [(['a', 'a', ' ', 'b', 'b', ' '], faceState), ([' '], blankState), (['c', 'd'], faceState)], e.2.size * e.2.lineSpacing ≤ 500 := by decide +kernel
      exact this e he)
  have hl : (contentLines (contentStrings faceStyle blankText.style blankText.content faceRes)).length = 1 := by
    decide +kernel
  have hq : c.StartsQuiet := by
    intro w hw
    rw [Option.mem_def] at hw
    rw [hw] at h3
    simpa using h3
  have := putLines_one (i0.trans hl) i1
  subst this
  have hq' : ∀ cs ∈ [[c]], ∀ c ∈ cs, c.StartsQuiet := by
    intro cs hcs c' hc'
    rw [List.mem_singleton] at hcs; subst hcs
    rw [List.mem_singleton] at hc'; subst hc'
    exact hq
  obtain ⟨e, he⟩ := List.length_eq_one_iff.1 hl
  refine ⟨_, _, [[c]], lead, hc, i1, hq', i2 fun _ => ?_⟩
  rw [he]
  refine .cons ?_ .nil
  intro _ c' hc' l hl e0
  rw [List.mem_singleton] at hc'; subst hc'
  have := List.mem_map_of_mem (f := fun l => l.styled.map (·.1)) hl
  rw [h5, List.mem_singleton, e0] at this
  simp at this

end Pdfje
