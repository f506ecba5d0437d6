import Verif.Proofs.Indented
/-
C69: the first line of a paragraph starts at its indent.
-/

namespace Pdfje

/-- C69 as it is claimed: whatever the paragraph and the columns, the first line of each of its lines of text (that does not start with a space) starts
at the indent. -/
def C69_Statement : Prop := ∀ (w : World) (base : StyleFull) (p : Paragraph) (r : Res) (t : Tape) (filled : List ColumnFill) (r' : Res),
  (∀ r, (w.env r).Ok) → (Block.paragraph p).intoColumns w r base t.view = (some filled, r') →
  ∃ css, PutLines css t (t.fill filled) ∧
    LinesStart (fun _ => Indented (w.env r').widths p.indent) css (contentLines (contentStrings base p.style p.content r')) t

theorem linesFill_first {env : Env} (henv : env.Ok) {p : Paragraph} {lead : ℚ} {gs : List (List Passage)} {st : State} {t t' : Tape}
    (h : LinesFill p env lead gs st t t') (hg : ∀ g ∈ gs, Tidy g) (hs : SteadyGroups gs st) (hz : ∀ l ∈ groupsStyled gs st, NonZero l)
    (hroom : p.optimal ≠ none → 0 < lead ∧ t.Roomy lead) :
    ∃ css, PutLines css t t' ∧ LinesStart (fun widths cs => IndentedOrTooWide env.widths p.indent widths cs ∧
      (p.optimal ≠ none → Indented env.widths p.indent cs)) css (groupsStyled gs st) t := by
  induction h with
  | nil st t => exact ⟨[], .nil t, .nil t⟩
  | cons line rest st t cmd words chunks t' h1 h2 h3 h4 ih =>
    have htidy := hg line List.mem_cons_self
    obtain ⟨hf, hend⟩ := steady_words henv htidy hs.1 h1
    have hnz : NonZero (styled line st) := hz _ (by simp [groupsStyled])
    have hff := indentFirst_fixed p.indent hf
    have key : (∀ c ∈ chunks, ∀ l ∈ c.lines, FixedAll (cmd.apply st) l.words) ∧
        ((∃ e ∈ (styled line st).head?, e.1 ≠ ' ') → IndentedOrTooWide env.widths p.indent (fun i => (t.view i).box.width) chunks ∧
          (p.optimal ≠ none → Indented env.widths p.indent chunks)) ∧
        (p.optimal ≠ none → 0 < lead ∧ (t.fill (chunks.mapIdx fun i c => (t.view i).add (.text c))).Roomy lead) := by
      unfold Paragraph.shape at h2
      cases ho : p.optimal with
      | none =>
        simp only [ho] at h2
        have hfix := firstfit_fixed h2 hff
        refine ⟨hfix, fun hsp => ⟨?_, by simp⟩, by simp⟩
        obtain ⟨w, ws, e, hw⟩ := words_start henv htidy h1 hnz hsp p.indent
        rw [e] at h2
        obtain ⟨pre, c, post, l, ls, rfl, k2, k3, x, xs, k4, k5⟩ := firstfit_starts h2 hw
        have hq := fixed_quiet (hfix c (by simp))
        refine ⟨pre, c, post, l, ls, rfl, k2, k3, ?_⟩
        rcases k5 with k5 | ⟨k5, rfl, k6⟩
        · exact .inl (chunk_startsAt _ k3 k4 k5 hq)
        · exact .inr ⟨chunk_startsAt _ k3 k4 k5 hq, x, k4, k6⟩
      | some o =>
        simp only [ho] at h2
        obtain ⟨hl, hr⟩ := hroom (by simp [ho])
        have hcol : ∀ i, 0 ≤ (t.view i).heightFree := fun i => hr.free _ (by omega)
        have hfix := optimum_fixed hl hcol h2 hff
        refine ⟨hfix, fun hsp => ?_, fun _ => ⟨hl, hr.fill h3 ?_⟩⟩
        · obtain ⟨w, ws, e, hw⟩ := words_start henv htidy h1 hnz hsp p.indent
          rw [e] at h2
          obtain ⟨pre, c, post, l, ls, x, xs, rfl, k2, k3, k4, k5⟩ := optimum_starts hl hcol h2 hw
          have hst := chunk_startsAt env.widths k3 k4 k5 (fixed_quiet (hfix c (by simp)))
          exact ⟨⟨pre, c, post, l, ls, rfl, k2, k3, .inl hst⟩, fun _ => ⟨pre, c, post, rfl, k2, by rw [k3]; simp, hst⟩⟩
        · intro i c hi
          obtain ⟨e1, e2⟩ := C36_optimum_partial hl hcol h2 hi
          rcases e2 with e2 | e2 | ⟨-, e3, e4⟩
          · exact e2
          · rw [e1, e2]; simpa using hcol i
          · have : (t.view i).blocks = [] := by
              rcases e4 with e4 | e4
              · cases i with
                | zero => simpa using e4
                | succ i => exact hr.after _ (by omega)
              · exact hr.after _ (by omega)
            have := hr.empty (t.head + i) (by omega) this
            simp only [Tape.view] at e3
            linarith
    obtain ⟨k2, k3, k4⟩ := key
    have hstate : chunksState chunks (cmd.apply st) = endState line st := by
      rw [hend]; exact chunksState_fixed k2 rfl
    rw [hstate] at ih
    obtain ⟨css, i1, i2⟩ := ih (fun g hg' => hg g (List.mem_cons_of_mem _ hg')) hs.2 (fun l hl => hz l (by simp [groupsStyled, hl])) k4
    exact ⟨chunks :: css, .cons _ _ _ _ h3 i1, .cons _ _ _ _ _ k3 i2⟩

theorem LinesStart.imp {P Q : (Nat → ℚ) → List ShapedText → Prop} (hPQ : ∀ widths cs, P widths cs → Q widths cs) {css : List (List ShapedText)}
    {lines : List (List (Char × State))} {t : Tape} (h : LinesStart P css lines t) : LinesStart Q css lines t := by
  induction h with
  | nil t => exact .nil t
  | cons chunks css line lines t h1 h2 ih => exact .cons _ _ _ _ _ (fun hs => hPQ _ _ (h1 hs)) ih

theorem paragraph_first (w : World) (hw : ∀ r, (w.env r).Ok) (base : StyleFull) (p : Paragraph) (r : Res) (t : Tape) (filled : List ColumnFill)
    (r' : Res) (h : (Block.paragraph p).intoColumns w r base t.view = (some filled, r'))
    (hne : ∀ e ∈ itemsStrings [p.style] p.content, e.1 ≠ [])
    (hch : ChangesAtNewlines (contentStrings base p.style p.content r'))
    (hsz : ∀ e ∈ contentStrings base p.style p.content r', e.2.size ≠ 0)
    (hroom : p.optimal ≠ none → HasText (contentStrings base p.style p.content r') ∧
      ∀ lead, IsLeading (contentStrings base p.style p.content r') lead → t.Roomy lead) :
    ∃ css, PutLines css t (t.fill filled) ∧ LinesStart (fun widths cs => IndentedOrTooWide (w.env r').widths p.indent widths cs ∧
      (p.optimal ≠ none → Indented (w.env r').widths p.indent cs)) css (contentLines (contentStrings base p.style p.content r')) t := by
  obtain ⟨passages, st, lead, h1, h2, h3, -, h5, h6⟩ := paragraph_lines p w r base t filled r' h hne
  rw [← h2] at hch hsz hroom
  have hz : ∀ l ∈ groupsStyled (splitlines passages) st, NonZero l := by
    rw [h6, ← h2]
    intro l hl e he
    exact contentLines_sizes (P := (· ≠ 0)) hsz l hl e he
  rw [← h6]
  exact linesFill_first (hw r') h1 (C27_tidy passages h3) (splitlines_steady passages st h3 hch) hz (fun ho => by
    obtain ⟨i1, i2⟩ := hroom ho
    rw [h5]
    exact ⟨paragraph_leading i1, i2 _ (maxLead_strings passages st i1)⟩)

/-- C69 for paragraphs set by first-fit in which the style changes only after newlines, with font sizes other than 0: each line of text starts at the
indent, except where its first piece does not fit in the column together with the indent. -/
theorem C69_firstfit_partial (w : World) (hw : ∀ r, (w.env r).Ok) (base : StyleFull) (p : Paragraph) (hp : p.optimal = none) (r : Res) (t : Tape)
    (filled : List ColumnFill) (r' : Res) (h : (Block.paragraph p).intoColumns w r base t.view = (some filled, r'))
    (hne : ∀ e ∈ itemsStrings [p.style] p.content, e.1 ≠ [])
    (hch : ChangesAtNewlines (contentStrings base p.style p.content r'))
    (hsz : ∀ e ∈ contentStrings base p.style p.content r', e.2.size ≠ 0) :
    ∃ css, PutLines css t (t.fill filled) ∧
      LinesStart (IndentedOrTooWide (w.env r').widths p.indent) css (contentLines (contentStrings base p.style p.content r')) t := by
  obtain ⟨css, h1, h2⟩ := paragraph_first w hw base p r t filled r' h hne hch hsz (fun ho => absurd hp ho)
  exact ⟨css, h1, h2.imp fun _ _ h => h.1⟩

/-- C69 for paragraphs set by the optimal algorithm, the default, in which the style changes only after newlines, with some text in positive sizes, if no
column is over-full and every empty column has room for a line: each line of text starts at the indent. -/
theorem C69_optimal_partial (w : World) (hw : ∀ r, (w.env r).Ok) (base : StyleFull) (p : Paragraph) (hp : p.optimal ≠ none) (r : Res) (t : Tape)
    (filled : List ColumnFill) (r' : Res) (h : (Block.paragraph p).intoColumns w r base t.view = (some filled, r'))
    (hne : ∀ e ∈ itemsStrings [p.style] p.content, e.1 ≠ [])
    (hch : ChangesAtNewlines (contentStrings base p.style p.content r'))
    (hsz : ∀ e ∈ contentStrings base p.style p.content r', e.2.size ≠ 0)
    (ht : HasText (contentStrings base p.style p.content r'))
    (hroom : ∀ lead, IsLeading (contentStrings base p.style p.content r') lead → t.Roomy lead) :
    ∃ css, PutLines css t (t.fill filled) ∧
      LinesStart (fun _ => Indented (w.env r').widths p.indent) css (contentLines (contentStrings base p.style p.content r')) t := by
  obtain ⟨css, h1, h2⟩ := paragraph_first w hw base p r t filled r' h hne hch hsz (fun _ => ⟨ht, hroom⟩)
  exact ⟨css, h1, h2.imp fun _ _ h => h.2 hp⟩

/-! ### The counterexample, and examples -/

/-- The paragraph "a b" with an indent of 7, set by first-fit. -/
def indentedShort (opt : Option OptParams) : Paragraph := ⟨[.str ['a', ' ', 'b']], Style.empty, .left, 7, false, opt⟩

/-- Where the first glyph of each line is. -/
def ShapedText.firsts (c : ShapedText) (W : FontRef → Char → ℚ) : List (Option (ℚ × ℚ)) :=
  match c.render (0, 0) 10 with
  | .text ops => (Viewer.textLines W ops ⟨none, ⟨0, 0, 0⟩, 0, 0, 0, 0⟩).map fun s => s.glyphs.head?.map fun g => (s.left, g.x)
  | _ => []

/-- All that first-fit puts in the first column. -/
def shortBox : Option (Option (List WordLike) × List TLine × Option (List WordLike)) :=
  takeBox (demoWorld.env shortRes) (some (indentFirst shortWords 7)) (10, 500) false 15

theorem shortBox_firsts : shortBox.map (fun e => (e.1.isNone, (⟨e.2.1, 15, .left, e.2.1.length * 15⟩ : ShapedText).firsts (demoWorld.env shortRes).widths)) =
    some (true, [none, none, some (0, 0), some (0, 0)]) := by
  decide +kernel

theorem short_strings (opt : Option OptParams) (r' : Res) : contentStrings faceStyle (indentedShort opt).style (indentedShort opt).content r' =
    [(['a', ' ', 'b'], ((faceStyle.or Style.empty).asState r').1)] := by
  have hor : faceStyle.overlay [Style.empty] = faceStyle.or Style.empty := by
    have := overlay_snoc faceStyle [] Style.empty
    rw [overlay_nil] at this
    exact this
  simp [indentedShort, contentStrings, itemsStrings, Item.strings, hor]

theorem short_lines (opt : Option OptParams) (r' : Res) : contentLines (contentStrings faceStyle (indentedShort opt).style (indentedShort opt).content r') =
    [[('a', ((faceStyle.or Style.empty).asState r').1), (' ', ((faceStyle.or Style.empty).asState r').1), ('b', ((faceStyle.or Style.empty).asState r').1)]] := by
  rw [short_strings]
  simp [contentLines, stringsLines, textLines, joinLines]

theorem short_columns {opt : Option OptParams} {c : ShapedText} {width : ℚ} (hc : (indentedShort opt).shape (demoWorld.env shortRes) (fun _ => (width, 500)) 15
    (indentFirst shortWords 7) false = some [c]) : (Block.paragraph (indentedShort opt)).intoColumns demoWorld Res.empty faceStyle (blankTape width).view =
      (some [((blankTape width).view 0).add (.text c)], shortRes) := by
  have h5 : maxLead [⟨.noop, ['a', ' ', 'b']⟩] faceState = 15 := by decide +kernel
  exact paragraph_one (p := indentedShort opt) (w := demoWorld) (base := faceStyle) (r := Res.empty) (ps := [⟨.noop, ['a', ' ', 'b']⟩])
    (todo := [.full faceStyle faceStyle]) (st := faceState) (r2 := shortRes)
    (words := shortWords) (width := width) (c := c) (by simp only [indentedShort, flattenSpan, flattenItems]; rfl) rfl
    (by rw [splitlines, splitFrom_none (by rfl)]; rfl) shortWords_eq (by rw [h5]; exact hc)

/-- What first-fit makes of the paragraph. -/
theorem short_firstfit : ∃ c, (indentedShort none).shape (demoWorld.env shortRes) (fun _ => (10, 500)) 15 (indentFirst shortWords 7) false = some [c] ∧
    c.firsts (demoWorld.env shortRes).widths = [none, none, some (0, 0), some (0, 0)] := by
  have hb := shortBox_firsts
  rw [Option.map_eq_some_iff] at hb
  obtain ⟨⟨q, lines, u⟩, h1, h2⟩ := hb
  simp only [Prod.mk.injEq, Option.isNone_iff_eq_none] at h2
  obtain ⟨rfl, h2⟩ := h2
  refine ⟨_, ?_, h2⟩
  simp only [Paragraph.shape, indentedShort]
  unfold firstfitShape
  rw [if_neg (by simp), shapeSimple]
  rw [shortBox] at h1
  rw [h1]
  rfl

/-- C69 is false: first-fit loses the indent of "a b" in a column that is wide enough for a letter, but not for a letter and the indent. -/
theorem C69_counterexample : ¬ C69_Statement := by
  intro h
  obtain ⟨c, h1, h2⟩ := short_firstfit
  have hcol := short_columns h1
  obtain ⟨css, i1, i2⟩ := h demoWorld faceStyle (indentedShort none) Res.empty (blankTape 10) _ _ demoWorld_ok hcol
  rw [short_lines] at i2
  have hn : css.length = 1 := by
    cases i2 with
    | cons _ css _ _ _ _ k => cases k; rfl
  have := putLines_one hn i1
  subst this
  cases i2 with
  | cons _ _ _ _ _ k _ =>
    obtain ⟨pre, c', post, e, -, -, hs⟩ := k ⟨_, rfl, by decide⟩
    have : c' = c := by
      rcases pre with _ | ⟨x, pre⟩
      · simp only [List.nil_append, List.cons.injEq] at e; exact e.1.symm
      · simp at e
    subst this
    obtain ⟨ops, b1, b2, s, ss, g, gs, k1, k2, k3, k4, k5, k6⟩ := hs (0, 0) 10 ⟨none, ⟨0, 0, 0⟩, 0, 0, 0, 0⟩
    simp only [ShapedText.firsts, k1, k2, List.map_cons, k3, k4, k5, List.head?_nil, List.head?_cons, Option.map_none, Option.map_some, List.cons.injEq,
      Option.some.injEq, Prod.mk.injEq, true_and] at h2
    obtain ⟨⟨j1, j2⟩, -⟩ := h2
    rw [j1, j2] at k6
    simp [indentedShort] at k6

/-- C69 for first-fit applies to that paragraph: the letter and the indent are too wide. -/
example : ∃ filled r' css, (Block.paragraph (indentedShort none)).intoColumns demoWorld Res.empty faceStyle (blankTape 10).view = (some filled, r') ∧
    PutLines css (blankTape 10) ((blankTape 10).fill filled) ∧
    LinesStart (IndentedOrTooWide (demoWorld.env r').widths 7) css
      (contentLines (contentStrings faceStyle (indentedShort none).style (indentedShort none).content r')) (blankTape 10) := by
  obtain ⟨c, h1, -⟩ := short_firstfit
  have hcol := short_columns h1
  obtain ⟨css, k1, k2⟩ := C69_firstfit_partial demoWorld demoWorld_ok faceStyle (indentedShort none) rfl Res.empty (blankTape 10) _ _ hcol
    (by simp [indentedShort, itemsStrings, Item.strings]) (by rw [short_strings]; exact List.isChain_singleton _)
    (by rw [short_strings]; intro e he; rw [List.mem_singleton] at he; subst he; show (12 : ℚ) ≠ 0; norm_num)
  exact ⟨_, _, css, hcol, k1, k2⟩

/-- C69 for the optimal algorithm applies to it in a column of width 20. -/
example : ∃ filled r' css, (Block.paragraph (indentedShort (some .default))).intoColumns demoWorld Res.empty faceStyle (blankTape 20).view = (some filled, r') ∧
    PutLines css (blankTape 20) ((blankTape 20).fill filled) ∧
    LinesStart (fun _ => Indented (demoWorld.env r').widths 7) css
      (contentLines (contentStrings faceStyle (indentedShort (some .default)).style (indentedShort (some .default)).content r')) (blankTape 20) := by
  have hs : (optimumShape (demoWorld.env shortRes) (fun _ => (20, 500)) 15 false .left .default (indentFirst shortWords 7) false).map
    (fun o => o.map fun c => c.lines.length) = some [2] := by decide +kernel
  rw [Option.map_eq_some_iff] at hs
  obtain ⟨out, h1, h2⟩ := hs
  obtain ⟨c, l, rfl, h3, h4⟩ := List.map_eq_cons_iff.1 h2
  rw [List.map_eq_nil_iff] at h4
  subst h4
  have hcol := short_columns (opt := some .default) (width := 20) (c := c) h1
  have ht : HasText (contentStrings faceStyle (indentedShort (some .default)).style (indentedShort (some .default)).content shortRes) := by
    rw [short_strings]
    refine ⟨⟨_, List.mem_singleton_self _, by simp⟩, ?_⟩
    intro e he _
    rw [List.mem_singleton] at he; subst he
    exact ⟨by show (0 : ℚ) < 12; norm_num, by show (0 : ℚ) < 5 / 4; norm_num⟩
  obtain ⟨css, k1, k2⟩ := C69_optimal_partial demoWorld demoWorld_ok faceStyle (indentedShort (some .default)) (by simp [indentedShort]) Res.empty (blankTape 20) _ _ hcol
    (by simp [indentedShort, itemsStrings, Item.strings]) (by rw [short_strings]; exact List.isChain_singleton _)
    (by rw [short_strings]; intro e he; rw [List.mem_singleton] at he; subst he; show (12 : ℚ) ≠ 0; norm_num) ht
    (by
      intro lead hlead
      rw [short_strings] at hlead
      obtain ⟨⟨e, he, -, h1⟩, -⟩ := hlead
      rw [List.mem_singleton] at he; subst he
      refine blankTape_roomy 20 ?_
      rw [h1]
      show (12 : ℚ) * (5 / 4) ≤ 500
      norm_num)
  exact ⟨_, _, css, hcol, k1, k2⟩

end Pdfje
