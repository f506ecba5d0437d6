import Verif.Props.Indent
import Verif.Proofs.TightLines
/-
C76 and C77: the distances between the glyphs on the lines of a paragraph.
-/

namespace Pdfje

/-- C76: on the lines of a paragraph, two neighbours in the same font and size are as far apart as the font says: by the width of the first and the kerning of the pair.
(Justified: but for the spaces, which may be wider.) -/
def C76_Statement : Prop := ∀ (w : World) (base : StyleFull) (p : Paragraph) (r : Res) (t : Tape) (filled : List ColumnFill) (r' : Res),
  (∀ r, (w.env r).Ok) → (Block.paragraph p).intoColumns w r base t.view = (some filled, r') →
  ∃ css, PutLines css t (t.fill filled) ∧ ∀ cs ∈ css, ∀ ss, ShownFor (w.env r').widths cs ss → ∀ s ∈ ss, ∀ a g h b, s.glyphs = a ++ g :: h :: b →
    (p.align = .justify → h.char ≠ ' ') → KernedPair (w.env r').metrics g h

/-- C77: each line of a paragraph but the first line of (each line of) its text starts exactly at its left edge: there is no kerning with what is on the line before. -/
def C77_Statement : Prop := ∀ (w : World) (base : StyleFull) (p : Paragraph) (r : Res) (t : Tape) (filled : List ColumnFill) (r' : Res),
  (∀ r, (w.env r).Ok) → (Block.paragraph p).intoColumns w r base t.view = (some filled, r') →
  ∃ css, PutLines css t (t.fill filled) ∧ ∀ cs ∈ css, ∀ ss, ShownFor (w.env r').widths cs ss → ∀ s ∈ ss.tail, ∀ g ∈ s.glyphs.head?,
    (p.align = .justify → g.char ≠ ' ') → g.x = s.left

/-- First-fit, all of it. -/
theorem tight_firstfit (w : World) (hw : ∀ r, (w.env r).Ok) (base : StyleFull) (p : Paragraph) (hp : p.optimal = none) (r : Res) (t : Tape)
    (filled : List ColumnFill) (r' : Res) (h : (Block.paragraph p).intoColumns w r base t.view = (some filled, r'))
    (hne : ∀ e ∈ itemsStrings [p.style] p.content, e.1 ≠ [])
    (hsz : ∀ e ∈ contentStrings base p.style p.content r', e.2.size ≠ 0) :
    ∃ css, PutLines css t (t.fill filled) ∧ ∀ cs ∈ css, (∀ c ∈ cs, c.StartsQuiet) → ∃ single, Tight (w.env r') true (p.align = .justify) single cs := by
  obtain ⟨passages, st, lead, h1, h2, h3, -, h5, h6⟩ := paragraph_lines p w r base t filled r' h hne
  rw [← h2] at hsz
  rw [← h2] at h6
  have hz : ∀ l ∈ groupsStyled (splitlines passages) st, NonZero l := by
    rw [h6]
    intro l hl e he
    exact contentLines_sizes (P := (· ≠ 0)) hsz l hl e he
  obtain ⟨css, k1, k2⟩ := linesFill_tight_firstfit (hw r') hp h1 (C27_tidy passages h3) hz
  exact ⟨css, k1, fun cs hcs hq => by
    obtain ⟨g, -, hg⟩ := forall₂_mem_left k2 cs hcs
    exact ⟨_, hg hq⟩⟩
where
  forall₂_mem_left {α β : Type} {R : α → β → Prop} {a : List α} {b : List β} (h : List.Forall₂ R a b) : ∀ x ∈ a, ∃ y ∈ b, R x y := by
    intro x hx
    obtain ⟨y, hy, hr⟩ := forall₂_seek h.flip x hx
    exact ⟨y, hy, hr⟩

theorem splitFrom_single (cmd : Command) : ∀ (n : Nat) (txt : List Char) (pos : Bool), txt.length < n → ∀ g ∈ splitFrom cmd txt pos [], g.length = 1
  | 0, txt, pos, h => by omega
  | n + 1, txt, pos, h => by
    cases e : nextNewline txt with
    | none => rw [splitFrom_none e]; simp
    | some ab =>
      obtain ⟨a, b⟩ := ab
      rw [splitFrom_some e]
      intro g hg
      rcases List.mem_cons.1 hg with rfl | hg
      · rfl
      · exact splitFrom_single cmd n b true (by have := nextNewline_lt _ _ _ e; omega) g hg

theorem splitlines_single {ps : List Passage} (h : ps.length = 1) : ∀ g ∈ splitlines ps, g.length = 1 := by
  obtain ⟨p, rfl⟩ := List.length_eq_one_iff.1 h
  exact splitFrom_single p.cmd _ p.txt false (Nat.lt_succ_self _)

theorem passageStrings_length : ∀ (ps : List Passage) (st : State), (passageStrings ps st).length = ps.length
  | [], _ => rfl
  | p :: ps, st => by simp [passageStrings, passageStrings_length ps]

/-- Style changes at newlines only, all of it. -/
theorem tight_newlines (w : World) (hw : ∀ r, (w.env r).Ok) (base : StyleFull) (p : Paragraph) (r : Res) (t : Tape) (filled : List ColumnFill)
    (r' : Res) (h : (Block.paragraph p).intoColumns w r base t.view = (some filled, r'))
    (hne : ∀ e ∈ itemsStrings [p.style] p.content, e.1 ≠ [])
    (hch : ChangesAtNewlines (contentStrings base p.style p.content r'))
    (hsz : ∀ e ∈ contentStrings base p.style p.content r', e.2.size ≠ 0)
    (hroom : p.optimal ≠ none → HasText (contentStrings base p.style p.content r') ∧
      ∀ lead, IsLeading (contentStrings base p.style p.content r') lead → t.Roomy lead) :
    ∃ css, PutLines css t (t.fill filled) ∧ ∀ cs ∈ css, ∃ single, ((contentStrings base p.style p.content r').length = 1 → single = true) ∧
      Tight (w.env r') (p.optimal = none) (p.align = .justify) single cs := by
  obtain ⟨passages, st, lead, h1, h2, h3, -, h5, h6⟩ := paragraph_lines p w r base t filled r' h hne
  rw [← h2] at hch hsz hroom ⊢
  rw [← h2] at h6
  have hz : ∀ l ∈ groupsStyled (splitlines passages) st, NonZero l := by
    rw [h6]
    intro l hl e he
    exact contentLines_sizes (P := (· ≠ 0)) hsz l hl e he
  obtain ⟨css, k1, k2⟩ := linesFill_tight (hw r') h1 (C27_tidy passages h3) (splitlines_steady passages st h3 hch) hz (fun ho => by
    obtain ⟨i1, i2⟩ := hroom ho
    rw [h5]
    exact ⟨paragraph_leading i1, i2 _ (maxLead_strings passages st i1)⟩)
  refine ⟨css, k1, fun cs hcs => ?_⟩
  obtain ⟨g, hg, hg'⟩ := tight_firstfit.forall₂_mem_left k2 cs hcs
  refine ⟨_, fun hl => ?_, hg'⟩
  simpa using splitlines_single (by rwa [passageStrings_length] at hl) g hg

/-- C76 for first-fit, with font sizes other than 0, whatever the styles, for those lines of the text none of whose chunks starts with a word at whose end the style changes (see C48):
two neighbours in the same font and size are as far apart as the font says, or the first is a break character (a space, say) and they are not kerned at all. -/
theorem C76_words_partial (w : World) (hw : ∀ r, (w.env r).Ok) (base : StyleFull) (p : Paragraph) (hp : p.optimal = none) (r : Res) (t : Tape)
    (filled : List ColumnFill) (r' : Res) (h : (Block.paragraph p).intoColumns w r base t.view = (some filled, r'))
    (hne : ∀ e ∈ itemsStrings [p.style] p.content, e.1 ≠ [])
    (hsz : ∀ e ∈ contentStrings base p.style p.content r', e.2.size ≠ 0) :
    ∃ css, PutLines css t (t.fill filled) ∧ ∀ cs ∈ css, (∀ c ∈ cs, c.StartsQuiet) →
      ∀ ss, ShownFor (w.env r').widths cs ss → KernedInWords (w.env r').metrics (p.align = .justify) ss := by
  obtain ⟨css, k1, k2⟩ := tight_firstfit w hw base p hp r t filled r' h hne hsz
  exact ⟨css, k1, fun cs hcs hq => (k2 cs hcs hq).elim fun _ k => k.words⟩

/-- The same for paragraphs in which the style changes only after newlines, whatever the algorithm (as C48_newlines_partial). -/
theorem C76_newlines_partial (w : World) (hw : ∀ r, (w.env r).Ok) (base : StyleFull) (p : Paragraph) (r : Res) (t : Tape) (filled : List ColumnFill)
    (r' : Res) (h : (Block.paragraph p).intoColumns w r base t.view = (some filled, r'))
    (hne : ∀ e ∈ itemsStrings [p.style] p.content, e.1 ≠ [])
    (hch : ChangesAtNewlines (contentStrings base p.style p.content r'))
    (hsz : ∀ e ∈ contentStrings base p.style p.content r', e.2.size ≠ 0)
    (hroom : p.optimal ≠ none → HasText (contentStrings base p.style p.content r') ∧
      ∀ lead, IsLeading (contentStrings base p.style p.content r') lead → t.Roomy lead) :
    ∃ css, PutLines css t (t.fill filled) ∧ ∀ cs ∈ css, ∀ ss, ShownFor (w.env r').widths cs ss → KernedInWords (w.env r').metrics (p.align = .justify) ss := by
  obtain ⟨css, k1, k2⟩ := tight_newlines w hw base p r t filled r' h hne hch hsz hroom
  exact ⟨css, k1, fun cs hcs => (k2 cs hcs).elim fun _ k => k.2.words⟩

/-- One string, all of it. -/
theorem tight_string (w : World) (hw : ∀ r, (w.env r).Ok) (base : StyleFull) (p : Paragraph) (s : List Char) (hs : s ≠ []) (hp : p.content = [.str s])
    (r : Res) (t : Tape) (filled : List ColumnFill) (r' : Res) (h : (Block.paragraph p).intoColumns w r base t.view = (some filled, r'))
    (hsz : 0 < (base.or p.style).size) (hls : 0 < (base.or p.style).lineSpacing)
    (hroom : p.optimal ≠ none → t.Roomy ((base.or p.style).size * (base.or p.style).lineSpacing)) :
    ∃ css, PutLines css t (t.fill filled) ∧ ∀ cs ∈ css, Tight (w.env r') (p.optimal = none) (p.align = .justify) true cs := by
  have hstr : contentStrings base p.style p.content r' = [(s, ((base.or p.style).asState r').1)] := by
    have hor : base.overlay [p.style] = base.or p.style := by
      have := overlay_snoc base [] p.style
      rw [overlay_nil] at this
      exact this
    simp [contentStrings, itemsStrings, Item.strings, hor, hp]
  have hht : HasText (contentStrings base p.style p.content r') := by
    rw [hstr]
    refine ⟨⟨_, List.mem_singleton_self _, hs⟩, ?_⟩
    intro e he _
    rw [List.mem_singleton] at he; subst he
    exact ⟨hsz, hls⟩
  have hlead : ∀ lead, IsLeading (contentStrings base p.style p.content r') lead → lead = (base.or p.style).size * (base.or p.style).lineSpacing := by
    intro lead hlead
    rw [hstr] at hlead
    obtain ⟨⟨e, he, -, h1⟩, -⟩ := hlead
    rw [List.mem_singleton] at he; subst he
    exact h1
  obtain ⟨css, k1, k2⟩ := tight_newlines w hw base p r t filled r' h (by rw [hp]; simpa [itemsStrings, Item.strings] using hs)
    (by rw [hstr]; exact List.isChain_singleton _) (by rw [hstr]; intro e he; rw [List.mem_singleton] at he; subst he; exact hsz.ne')
    (fun ho => ⟨hht, fun lead hl' => by rw [hlead lead hl']; exact hroom ho⟩)
  refine ⟨css, k1, fun cs hcs => ?_⟩
  obtain ⟨single, i1, i2⟩ := k2 cs hcs
  rw [i1 (by rw [hstr]; rfl)] at i2
  exact i2

/-- C76 for a single string that is not empty, first-fit or optimal: two neighbours are as far apart as the font says, but for the character after the last break (a space, say) of
a line of the text: it is not kerned. -/
theorem C76_string_partial (w : World) (hw : ∀ r, (w.env r).Ok) (base : StyleFull) (p : Paragraph) (s : List Char) (hs : s ≠ []) (hp : p.content = [.str s])
    (r : Res) (t : Tape) (filled : List ColumnFill) (r' : Res) (h : (Block.paragraph p).intoColumns w r base t.view = (some filled, r'))
    (hsz : 0 < (base.or p.style).size) (hls : 0 < (base.or p.style).lineSpacing)
    (hroom : p.optimal ≠ none → t.Roomy ((base.or p.style).size * (base.or p.style).lineSpacing)) :
    ∃ css, PutLines css t (t.fill filled) ∧ ∀ cs ∈ css, ∀ ss, ShownFor (w.env r').widths cs ss → KernedToLast (w.env r').metrics (p.align = .justify) ss := by
  obtain ⟨css, k1, k2⟩ := tight_string w hw base p s hs hp r t filled r' h hsz hls hroom
  exact ⟨css, k1, fun cs hcs => (k2 cs hcs).last rfl⟩

/-- C77 for first-fit (as C76_words_partial): each line but the first of a line of the text starts at its left edge, or is moved from it by the kerning with the last character on the
line before (as it happens after a word that is too wide for the column). -/
theorem C77_firstfit_partial (w : World) (hw : ∀ r, (w.env r).Ok) (base : StyleFull) (p : Paragraph) (hp : p.optimal = none) (r : Res) (t : Tape)
    (filled : List ColumnFill) (r' : Res) (h : (Block.paragraph p).intoColumns w r base t.view = (some filled, r'))
    (hne : ∀ e ∈ itemsStrings [p.style] p.content, e.1 ≠ [])
    (hsz : ∀ e ∈ contentStrings base p.style p.content r', e.2.size ≠ 0) :
    ∃ css, PutLines css t (t.fill filled) ∧ ∀ cs ∈ css, (∀ c ∈ cs, c.StartsQuiet) →
      ∀ ss, ShownFor (w.env r').widths cs ss → KernedStarts (w.env r').metrics false (p.align = .justify) ss := by
  obtain ⟨css, k1, k2⟩ := tight_firstfit w hw base p hp r t filled r' h hne hsz
  exact ⟨css, k1, fun cs hcs hq => (k2 cs hcs hq).elim fun _ k => k.starts⟩

/-- C77 for paragraphs in which the style changes only after newlines, whatever the algorithm: each line but the first of a line of the text starts at its left edge, or is moved from
it by the kerning with the end of the line before; if the line breaking is optimal, that may be the space dropped there, or the character before the hyphen. -/
theorem C77_newlines_partial (w : World) (hw : ∀ r, (w.env r).Ok) (base : StyleFull) (p : Paragraph) (r : Res) (t : Tape) (filled : List ColumnFill)
    (r' : Res) (h : (Block.paragraph p).intoColumns w r base t.view = (some filled, r'))
    (hne : ∀ e ∈ itemsStrings [p.style] p.content, e.1 ≠ [])
    (hch : ChangesAtNewlines (contentStrings base p.style p.content r'))
    (hsz : ∀ e ∈ contentStrings base p.style p.content r', e.2.size ≠ 0)
    (hroom : p.optimal ≠ none → HasText (contentStrings base p.style p.content r') ∧
      ∀ lead, IsLeading (contentStrings base p.style p.content r') lead → t.Roomy lead) :
    ∃ css, PutLines css t (t.fill filled) ∧ ∀ cs ∈ css, ∀ ss, ShownFor (w.env r').widths cs ss →
      KernedStarts (w.env r').metrics (p.optimal ≠ none) (p.align = .justify) ss := by
  obtain ⟨css, k1, k2⟩ := tight_newlines w hw base p r t filled r' h hne hch hsz hroom
  exact ⟨css, k1, fun cs hcs => (k2 cs hcs).elim fun _ k => by simpa using k.2.starts⟩

/-! ### Counterexamples -/

/-- A world in which fonts ask for everything to be closer to a space before it. -/
def kernWorld : World := { demoWorld with files := fun f => { demoWorld.files f with kerning := some fun p => if p.1 = ' ' then -100 else 0 } }

theorem kernWorld_ok (r : Res) : (kernWorld.env r).Ok := ⟨demoEnv_ok.cuts, demoEnv_ok.never⟩

/-- The paragraph "a b c". -/
def abcText : Paragraph := ⟨[.str ['a', ' ', 'b', ' ', 'c']], Style.empty, .left, 0, false, some .default⟩

/-- Its words. -/
def abcWords : List WordLike :=
  [.word ⟨[.slug (Slug.new (kernWorld.env shortRes) ['a'] faceState none)], some (TrailingSpace.make (kernWorld.env shortRes) faceState (some 'a')), faceState⟩,
   .word ⟨[.slug (Slug.new (kernWorld.env shortRes) ['b'] faceState (some ' '))], some (TrailingSpace.make (kernWorld.env shortRes) faceState (some 'b')), faceState⟩,
   .word ⟨[.slug (Slug.new (kernWorld.env shortRes) ['c'] faceState none)], none, faceState⟩]

theorem abcWords_eq : intoWords (kernWorld.env shortRes) [⟨.noop, ['a', ' ', 'b', ' ', 'c']⟩] faceState = some (.noop, abcWords) := by
  have h4 : parseSimple (kernWorld.env shortRes) ['a', ' ', 'b', ' ', 'c'] faceState none = some (
      [⟨[.slug (Slug.new (kernWorld.env shortRes) ['a'] faceState none)], some (TrailingSpace.make (kernWorld.env shortRes) faceState (some 'a')), faceState⟩,
       ⟨[.slug (Slug.new (kernWorld.env shortRes) ['b'] faceState (some ' '))], some (TrailingSpace.make (kernWorld.env shortRes) faceState (some 'b')), faceState⟩], .inl ['c']) := by
    have : allWords ['a', ' ', 'b', ' ', 'c'] = ([['a', ' '], ['b', ' ']], ['c']) := by
      rw [allWords_eq]
      have : nextWord ['a', ' ', 'b', ' ', 'c'] = some (['a', ' '], ['b', ' ', 'c']) := by decide +kernel
      rw [this]
      simp only
      rw [allWords_eq]
      have : nextWord ['b', ' ', 'c'] = some (['b', ' '], ['c']) := by decide +kernel
      rw [this]
      simp only
      rw [allWords_eq]
      rfl
    rw [parseSimple, this]
    rfl
  show (parse (kernWorld.env shortRes) [] faceState ['a', ' ', 'b', ' ', 'c']).map _ = _
  rw [parse.eq_def, if_neg (by simp), h4]
  dsimp only
  have e : completeWord (kernWorld.env shortRes) [] ['c'] faceState none =
      some (⟨[.slug (Slug.new (kernWorld.env shortRes) ['c'] faceState none)], none, faceState⟩, none, []) := rfl
  split
  · rename_i e2; rw [e] at e2; simp at e2
  · rename_i e2; rw [e] at e2; simp only [Option.some.injEq, Prod.mk.injEq, true_and] at e2; obtain ⟨rfl, -⟩ := e2; rfl
  · rename_i e2; rw [e] at e2; simp at e2

theorem abc_columns {c : ShapedText} {width : ℚ} (hc : abcText.shape (kernWorld.env shortRes) (fun _ => (width, 500)) 15 (indentFirst abcWords 0) false = some [c]) :
    (Block.paragraph abcText).intoColumns kernWorld Res.empty faceStyle (blankTape width).view = (some [((blankTape width).view 0).add (.text c)], shortRes) := by
  have h5 : maxLead [⟨.noop, ['a', ' ', 'b', ' ', 'c']⟩] faceState = 15 := by decide +kernel
  exact paragraph_one (p := abcText) (w := kernWorld) (base := faceStyle) (r := Res.empty) (ps := [⟨.noop, ['a', ' ', 'b', ' ', 'c']⟩])
    (todo := [.full faceStyle faceStyle]) (st := faceState) (r2 := shortRes)
    (words := abcWords) (width := width) (c := c) (by simp only [abcText, flattenSpan, flattenItems]; rfl) rfl
    (by rw [splitlines, splitFrom_none (by rfl)]; rfl) abcWords_eq (by rw [h5]; exact hc)

/-- What is shown of a chunk at the origin: for each line, where it starts, and its characters, their fonts and places. -/
def ShapedText.sketch (c : ShapedText) (W : FontRef → Char → ℚ) : List (ℚ × List (Char × Option (FontRef × ℚ) × ℚ)) :=
  (c.shownAt W (0, 0) 100 ⟨none, ⟨0, 0, 0⟩, 0, 0, 0, 0⟩).map fun s => (s.left, s.glyphs.map fun g => (g.char, g.font, g.x))

set_option synthInstance.maxHeartbeats 400000 in
set_option synthInstance.maxSize 1024 in
theorem abc_wide : (abcText.shape (kernWorld.env shortRes) (fun _ => (100, 500)) 15 (indentFirst abcWords 0) false).map
    (fun o => o.map fun c => c.sketch (kernWorld.env shortRes).widths) = some [[(0,
      [('a', some (.subset 0, 12), 0), (' ', some (.subset 0, 12), 6), ('b', some (.subset 0, 12), 54 / 5), (' ', some (.subset 0, 12), 84 / 5), ('c', some (.subset 0, 12), 114 / 5)])]] := by
  decide +kernel

set_option synthInstance.maxHeartbeats 400000 in
set_option synthInstance.maxSize 1024 in
theorem abc_narrow : (abcText.shape (kernWorld.env shortRes) (fun _ => (6, 500)) 15 (indentFirst abcWords 0) false).map
    (fun o => o.map fun c => c.sketch (kernWorld.env shortRes).widths) = some [[(0, [('a', some (.subset 0, 12), 0)]),
      (0, [('b', some (.subset 0, 12), -6 / 5)]), (0, [('c', some (.subset 0, 12), 0)])]] := by
  decide +kernel

theorem shownFor_exists (W : FontRef → Char → ℚ) : ∀ cs : List ShapedText, ∃ ss, ShownFor W cs ss
  | [] => ⟨[], .nil⟩
  | c :: cs => by
    obtain ⟨ss, h⟩ := shownFor_exists W cs
    exact ⟨_, .cons c cs (0, 0) 100 ⟨none, ⟨0, 0, 0⟩, 0, 0, 0, 0⟩ ss h⟩

theorem shownFor_mem (W : FontRef → Char → ℚ) {c : ShapedText} : ∀ {cs : List ShapedText}, c ∈ cs →
    ∃ a b, ShownFor W cs (a ++ (c.shownAt W (0, 0) 100 ⟨none, ⟨0, 0, 0⟩, 0, 0, 0, 0⟩ ++ b))
  | x :: cs, h => by
    rcases List.mem_cons.1 h with rfl | h
    · obtain ⟨ss, hs⟩ := shownFor_exists W cs
      exact ⟨[], ss, .cons _ _ _ _ _ _ hs⟩
    · obtain ⟨a, b, hs⟩ := shownFor_mem W h
      refine ⟨x.shownAt W (0, 0) 100 ⟨none, ⟨0, 0, 0⟩, 0, 0, 0, 0⟩ ++ a, b, ?_⟩
      rw [List.append_assoc]
      exact .cons _ _ _ _ _ _ hs

/-- The chunk of this paragraph, among those put in the columns. -/
theorem abc_chunk {width : ℚ} {c : ShapedText} {css : List (List ShapedText)}
    (h : PutLines css (blankTape width) ((blankTape width).fill [((blankTape width).view 0).add (.text c)])) : ∃ cs ∈ css, c ∈ cs := by
  obtain h1 | ⟨cs, h1, c', h2, h3⟩ := putLines_blocks h 0 (((blankTape width).view 0).cursor, .text c) (by simp [Tape.fill, blankTape, ColumnFill.add, Tape.view])
  · simp [blankTape, ColumnFill.new] at h1
  · simp only [Shaped.text.injEq] at h3
    subst h3
    exact ⟨cs, h1, h2⟩

/-- C76 is false: the "c" of "a b c" is not kerned with the space before it, as the font asks for. -/
theorem C76_counterexample : ¬ C76_Statement := by
  intro h
  have hs := abc_wide
  rw [Option.map_eq_some_iff] at hs
  obtain ⟨out, h1, h2⟩ := hs
  obtain ⟨c, l, rfl, h3, h4⟩ := List.map_eq_cons_iff.1 h2
  rw [List.map_eq_nil_iff] at h4
  subst h4
  obtain ⟨css, i1, i2⟩ := h kernWorld faceStyle abcText Res.empty (blankTape 100) _ _ kernWorld_ok (abc_columns h1)
  obtain ⟨cs, hcs, hc⟩ := abc_chunk i1
  obtain ⟨a, b, hss⟩ := shownFor_mem (kernWorld.env shortRes).widths hc
  obtain ⟨s, l, e1, e2, e3⟩ := List.map_eq_cons_iff.1 h3
  rw [List.map_eq_nil_iff] at e3
  subst e3
  simp only [Prod.mk.injEq] at e2
  obtain ⟨-, e2⟩ := e2
  obtain ⟨g1, l1, f1, k1, e2⟩ := List.map_eq_cons_iff.1 e2
  obtain ⟨g2, l2, rfl, k2, e2⟩ := List.map_eq_cons_iff.1 e2
  obtain ⟨g3, l3, rfl, k3, e2⟩ := List.map_eq_cons_iff.1 e2
  obtain ⟨g4, l4, rfl, k4, e2⟩ := List.map_eq_cons_iff.1 e2
  obtain ⟨g5, l5, rfl, k5, e2⟩ := List.map_eq_cons_iff.1 e2
  simp only [Prod.mk.injEq] at k4 k5
  have := (i2 cs hcs _ hss s (by rw [e1]; simp) [g1, g2, g3] g4 g5 l5 (by rw [f1]; rfl) (by simp [abcText])).2 _ _ k4.2.1 k5.2.1
  have hk : (kernWorld.env shortRes).metrics (.subset 0) = ⟨fun c => if c = '-' then 300 else 500, fun p => if p.1 = ' ' then -100 else 0⟩ := rfl
  rw [k4.2.2, k5.2.2, k4.1, k5.1, hk] at this
  revert this
  decide +kernel

/-- C77 is false: in a column with room for a letter, the second line of "a b c" is moved to the left, as if the dropped space were before it. -/
theorem C77_counterexample : ¬ C77_Statement := by
  intro h
  have hs := abc_narrow
  rw [Option.map_eq_some_iff] at hs
  obtain ⟨out, h1, h2⟩ := hs
  obtain ⟨c, l, rfl, h3, h4⟩ := List.map_eq_cons_iff.1 h2
  rw [List.map_eq_nil_iff] at h4
  subst h4
  obtain ⟨css, i1, i2⟩ := h kernWorld faceStyle abcText Res.empty (blankTape 6) _ _ kernWorld_ok (abc_columns h1)
  obtain ⟨cs, hcs, hc⟩ := abc_chunk i1
  obtain ⟨a, b, hss⟩ := shownFor_mem (kernWorld.env shortRes).widths hc
  obtain ⟨s1, l1, e1, -, e2⟩ := List.map_eq_cons_iff.1 h3
  obtain ⟨s2, l2, rfl, k2, -⟩ := List.map_eq_cons_iff.1 e2
  simp only [Prod.mk.injEq] at k2
  obtain ⟨k3, k2⟩ := k2
  obtain ⟨g, l3, f1, k4, -⟩ := List.map_eq_cons_iff.1 k2
  simp only [Prod.mk.injEq] at k4
  have := i2 cs hcs _ hss s2 (by rw [e1]; cases a <;> simp) g (by rw [f1]; rfl) (by simp [abcText])
  rw [k3, k4.2.2] at this
  norm_num at this

/-- C76 for a string applies to that paragraph; as does C77. -/
example : ∃ filled r' css, (Block.paragraph abcText).intoColumns kernWorld Res.empty faceStyle (blankTape 6).view = (some filled, r') ∧
    PutLines css (blankTape 6) ((blankTape 6).fill filled) ∧ css ≠ [] ∧
    ∀ cs ∈ css, ∀ ss, ShownFor (kernWorld.env r').widths cs ss → KernedToLast (kernWorld.env r').metrics false ss := by
  have hs := abc_narrow
  rw [Option.map_eq_some_iff] at hs
  obtain ⟨out, h1, h2⟩ := hs
  obtain ⟨c, l, rfl, h3, h4⟩ := List.map_eq_cons_iff.1 h2
  rw [List.map_eq_nil_iff] at h4
  subst h4
  obtain ⟨css, i1, i2⟩ := C76_string_partial kernWorld kernWorld_ok faceStyle abcText ['a', ' ', 'b', ' ', 'c'] (by simp) rfl Res.empty (blankTape 6) _ _ (abc_columns h1)
    (by show (0 : ℚ) < 12; norm_num) (by show (0 : ℚ) < 5 / 4; norm_num) (fun _ => blankTape_roomy _ (by show (12 : ℚ) * (5 / 4) ≤ 500; norm_num))
  obtain ⟨cs, hcs, -⟩ := abc_chunk i1
  exact ⟨_, _, css, abc_columns h1, i1, List.ne_nil_of_mem hcs, by simpa [abcText] using i2⟩

example : ∃ filled r' css, (Block.paragraph abcText).intoColumns kernWorld Res.empty faceStyle (blankTape 6).view = (some filled, r') ∧
    PutLines css (blankTape 6) ((blankTape 6).fill filled) ∧ css ≠ [] ∧
    ∀ cs ∈ css, ∀ ss, ShownFor (kernWorld.env r').widths cs ss → KernedStarts (kernWorld.env r').metrics true false ss := by
  have hs := abc_narrow
  rw [Option.map_eq_some_iff] at hs
  obtain ⟨out, h1, h2⟩ := hs
  obtain ⟨c, l, rfl, h3, h4⟩ := List.map_eq_cons_iff.1 h2
  rw [List.map_eq_nil_iff] at h4
  subst h4
  have hstr : contentStrings faceStyle abcText.style abcText.content shortRes = [(['a', ' ', 'b', ' ', 'c'], faceState)] := by decide +kernel
  have hlead : ∀ lead, IsLeading [(['a', ' ', 'b', ' ', 'c'], faceState)] lead → lead = 15 := by
    rintro lead ⟨⟨e, he, -, h1⟩, -⟩
    rw [List.mem_singleton] at he; subst he
    rw [h1]; show (12 : ℚ) * (5 / 4) = 15; norm_num
  obtain ⟨css, i1, i2⟩ := C77_newlines_partial kernWorld kernWorld_ok faceStyle abcText Res.empty (blankTape 6) _ _ (abc_columns h1)
    (by simp [abcText, itemsStrings, Item.strings]) (by rw [hstr]; exact List.isChain_singleton _)
    (by rw [hstr]; intro e he; rw [List.mem_singleton] at he; subst he; show (12 : ℚ) ≠ 0; norm_num)
    (fun _ => by
      rw [hstr]
      refine ⟨⟨⟨_, List.mem_singleton_self _, by simp⟩, ?_⟩, fun lead hl => by rw [hlead lead hl]; exact blankTape_roomy _ (by norm_num)⟩
      intro e he _
      rw [List.mem_singleton] at he; subst he
      exact ⟨by show (0 : ℚ) < 12; norm_num, by show (0 : ℚ) < 5 / 4; norm_num⟩)
  obtain ⟨cs, hcs, -⟩ := abc_chunk i1
  exact ⟨_, _, css, abc_columns h1, i1, List.ne_nil_of_mem hcs, by simpa [abcText] using i2⟩

end Pdfje
