import Verif.Proofs.Paragraph
import Verif.Props.Text
/-
What paragraphs show on the page: C48 (characters and styles), C46 (positions of lines).
-/

namespace Pdfje

/-- C48: a paragraph puts lines of text in its columns that show the characters of its content, line by line, each in its style. (The lines
of the content end at newlines; each is cut into chunks for consecutive columns, and each chunk into lines.) -/
def C48_Statement : Prop := ∀ (w : World) (base : StyleFull) (p : Paragraph) (r : Res) (t : Tape) (filled : List ColumnFill) (r' : Res),
  (∀ r, (w.env r).Ok) → (Block.paragraph p).intoColumns w r base t.view = (some filled, r') →
  ∃ css lead, PutLines css t (t.fill filled) ∧
    List.Forall₂ (TextShown (w.env r').widths lead) css (contentLines (contentStrings base p.style p.content r'))

mutual
theorem Item.strings_outer (outer : List Style) : ∀ i : Item, ∀ e ∈ i.strings outer, ∃ l, e.2 = outer ++ l
  | .str s, e, he => by
    simp only [Item.strings, List.mem_singleton] at he
    subst he; exact ⟨[], by simp⟩
  | .span c st, e, he => by
    simp only [Item.strings] at he
    obtain ⟨l, hl⟩ := itemsStrings_outer (outer ++ [st]) c e he
    exact ⟨st :: l, by simp [hl]⟩
theorem itemsStrings_outer (outer : List Style) : ∀ is : List Item, ∀ e ∈ itemsStrings outer is, ∃ l, e.2 = outer ++ l
  | [], e, he => by simp [itemsStrings] at he
  | i :: is, e, he => by
    simp only [itemsStrings, List.mem_append] at he
    rcases he with he | he
    · exact Item.strings_outer outer i e he
    · exact itemsStrings_outer outer is e he
end

theorem contentStrings_or (base : StyleFull) (style : Style) (content : List Item) (r : Res) :
    contentStrings (base.or style) style content r = contentStrings base style content r := by
  have key : ∀ l : List Style, (base.or style).overlay (style :: l) = base.overlay (style :: l) := by
    intro l
    induction l using List.reverseRecOn with
    | nil =>
      have h1 := overlay_snoc base [] style
      have h2 := overlay_snoc (base.or style) [] style
      rw [overlay_nil] at h1 h2
      simp only [List.nil_append] at h1 h2
      rw [h1, h2]
      have h := C22_or style style style base
      rw [← h.2.2.2.2.2.1, h.2.2.2.1]
    | append_singleton l x ih => rw [← List.cons_append, overlay_snoc, overlay_snoc, ih]
  unfold contentStrings
  apply List.map_congr_left
  intro e he
  obtain ⟨l, hl⟩ := itemsStrings_outer [style] content e he
  rw [hl, List.singleton_append, key]

/-- The lines of the content of a paragraph, and what is put in the columns. -/
theorem paragraph_lines (p : Paragraph) (w : World) (r : Res) (s : StyleFull) (t : Tape) (filled : List ColumnFill) (r' : Res)
    (h : (Block.paragraph p).intoColumns w r s t.view = (some filled, r')) (hne : ∀ e ∈ itemsStrings [p.style] p.content, e.1 ≠ []) :
    ∃ passages st lead, LinesFill p (w.env r') lead (splitlines passages) st t (t.fill filled) ∧
      passageStrings passages st = contentStrings s p.style p.content r' ∧ (∀ q ∈ passages, q.txt ≠ []) ∧
      st = ((s.or p.style).asState r).1 ∧ lead = maxLead passages st ∧
      groupsStyled (splitlines passages) st = contentLines (contentStrings s p.style p.content r') := by
  have hc := contentStrings_passages (s.or p.style) p.style p.content r
  obtain ⟨h1, -⟩ := C24_spans (s.or p.style) p.style p.content r
  simp only [Block.intoColumns, Paragraph.intoColumns, Prod.mk.injEq] at h
  obtain ⟨h, rfl⟩ := h
  rw [contentStrings_or] at hc
  refine ⟨_, _, _, (paragraphLoop_spec p _ _ _ t _ filled h).2, hc.symm, ?_, rfl, rfl, ?_⟩
  · intro q hq
    have := List.mem_map_of_mem (f := Passage.txt) hq
    rw [h1, List.mem_map] at this
    obtain ⟨e, he, e'⟩ := this
    rw [← e']; exact hne e he
  · rw [hc]
    cases e : (flattenSpan p.style (s.or p.style) [] p.content ((s.or p.style).asState r).2).1 with
    | nil => rfl
    | cons q qs =>
      rw [(C26_newlines (q :: qs) _ (by simp)).1, styledLines_strings, contentLines, if_neg (by simp [passageStrings])]

theorem stringsLines_mem : ∀ (strings : List (List Char × State)), ∀ l ∈ stringsLines strings, ∀ e ∈ l, ∃ x ∈ strings, x.2 = e.2
  | [], l, hl, e, he => by
    simp only [stringsLines, List.mem_singleton] at hl
    subst hl; simp at he
  | (s, st) :: rest, l, hl, e, he => by
    have key : ∀ (a b : List (List (Char × State))), l ∈ joinLines a b → (∃ x ∈ a, e ∈ x) ∨ ∃ x ∈ b, e ∈ x := by
      intro a
      induction a with
      | nil => intro b h; exact Or.inr ⟨l, by simpa [joinLines] using h, he⟩
      | cons x a ih =>
        intro b h
        cases a with
        | nil =>
          cases b with
          | nil =>
            simp only [joinLines, List.mem_singleton] at h
            exact Or.inl ⟨x, by simp, h ▸ he⟩
          | cons y b =>
            simp only [joinLines, List.mem_cons] at h
            rcases h with rfl | h
            · rcases List.mem_append.1 he with he | he
              · exact Or.inl ⟨x, by simp, he⟩
              · exact Or.inr ⟨y, by simp, he⟩
            · exact Or.inr ⟨l, by simp [h], he⟩
        | cons x' a =>
          rw [joinLines_cons _ _ _ (by simp)] at h
          rcases List.mem_cons.1 h with rfl | h
          · exact Or.inl ⟨_, List.mem_cons_self, he⟩
          · rcases ih b h with ⟨y, hy, hy'⟩ | h
            · exact Or.inl ⟨y, List.mem_cons_of_mem _ hy, hy'⟩
            · exact Or.inr h
    simp only [stringsLines] at hl
    rcases key _ _ hl with ⟨x, hx, hx'⟩ | ⟨x, hx, hx'⟩
    · obtain ⟨y, -, rfl⟩ := List.mem_map.1 hx
      obtain ⟨c, -, rfl⟩ := List.mem_map.1 hx'
      exact ⟨(s, st), by simp, rfl⟩
    · obtain ⟨y, hy, hy'⟩ := stringsLines_mem rest x hx e hx'
      exact ⟨y, List.mem_cons_of_mem _ hy, hy'⟩

theorem contentLines_sizes {P : ℚ → Prop} {strings : List (List Char × State)} (h : ∀ e ∈ strings, P e.2.size) :
    ∀ l ∈ contentLines strings, ∀ e ∈ l, P e.2.size := by
  intro l hl e he
  unfold contentLines at hl
  split at hl
  · simp at hl
  · obtain ⟨x, hx, hx'⟩ := stringsLines_mem strings l hl e he
    rw [← hx']; exact h x hx

theorem paragraph_leading {passages : List Passage} {st : State} (h : HasText (passageStrings passages st)) :
    0 < maxLead passages st := by
  obtain ⟨⟨e, he, hn, h1⟩, -⟩ := maxLead_strings passages st h
  obtain ⟨h2, h3⟩ := h.2 e he hn
  rw [h1]; exact mul_pos h2 h3

/-- C48 for paragraphs in which the style changes only after newlines, with font sizes other than 0. If the optimal line breaking is used, there is also some text,
sizes and line spacings are positive, no column is over-full, and every empty column has room for a line. -/
theorem C48_newlines_partial (w : World) (hw : ∀ r, (w.env r).Ok) (base : StyleFull) (p : Paragraph) (r : Res) (t : Tape) (filled : List ColumnFill)
    (r' : Res) (h : (Block.paragraph p).intoColumns w r base t.view = (some filled, r'))
    (hne : ∀ e ∈ itemsStrings [p.style] p.content, e.1 ≠ [])
    (hch : ChangesAtNewlines (contentStrings base p.style p.content r'))
    (hsz : ∀ e ∈ contentStrings base p.style p.content r', e.2.size ≠ 0)
    (hroom : p.optimal ≠ none → HasText (contentStrings base p.style p.content r') ∧
      ∀ lead, IsLeading (contentStrings base p.style p.content r') lead → t.Roomy lead) :
    ∃ css lead, (HasText (contentStrings base p.style p.content r') → IsLeading (contentStrings base p.style p.content r') lead) ∧
      PutLines css t (t.fill filled) ∧
      List.Forall₂ (TextShown (w.env r').widths lead) css (contentLines (contentStrings base p.style p.content r')) := by
  obtain ⟨passages, st, lead, h1, h2, h3, -, h5, h6⟩ := paragraph_lines p w r base t filled r' h hne
  rw [← h2] at hch hsz hroom ⊢
  rw [← h2] at h6
  have hz : ∀ l ∈ groupsStyled (splitlines passages) st, NonZero l := by
    rw [h6]
    intro l hl e he
    exact contentLines_sizes (P := (· ≠ 0)) hsz l hl e he
  obtain ⟨css, k1, k2, -⟩ := linesFill_shown (hw r') h1 (C27_tidy passages h3) (splitlines_steady passages st h3 hch) hz (fun ho => by
    obtain ⟨i1, i2⟩ := hroom ho
    rw [h5]
    exact ⟨paragraph_leading i1, i2 _ (maxLead_strings passages st i1)⟩)
  exact ⟨css, lead, fun ht => h5 ▸ maxLead_strings passages st ht, k1, h6 ▸ k2⟩

/-- C48 for paragraphs set by first-fit, with font sizes other than 0, whatever the styles: every chunk that does not start with a word at whose end the style changes
shows its lines as it should. -/
theorem C48_firstfit_partial (w : World) (hw : ∀ r, (w.env r).Ok) (base : StyleFull) (p : Paragraph) (hp : p.optimal = none) (r : Res) (t : Tape)
    (filled : List ColumnFill) (r' : Res) (h : (Block.paragraph p).intoColumns w r base t.view = (some filled, r'))
    (hne : ∀ e ∈ itemsStrings [p.style] p.content, e.1 ≠ [])
    (hsz : ∀ e ∈ contentStrings base p.style p.content r', e.2.size ≠ 0) :
    ∃ css lead, (HasText (contentStrings base p.style p.content r') → IsLeading (contentStrings base p.style p.content r') lead) ∧
      PutLines css t (t.fill filled) ∧
      List.Forall₂ (TextShownIf ShapedText.StartsQuiet (w.env r').widths lead) css (contentLines (contentStrings base p.style p.content r')) := by
  obtain ⟨passages, st, lead, h1, h2, h3, -, h5, h6⟩ := paragraph_lines p w r base t filled r' h hne
  rw [← h2] at hsz ⊢
  rw [← h2] at h6
  have hz : ∀ l ∈ groupsStyled (splitlines passages) st, NonZero l := by
    rw [h6]
    intro l hl e he
    exact contentLines_sizes (P := (· ≠ 0)) hsz l hl e he
  obtain ⟨css, k1, k2, -⟩ := linesFill_firstfit (hw r') hp h1 (C27_tidy passages h3) hz
  exact ⟨css, lead, fun ht => h5 ▸ maxLead_strings passages st ht, k1, h6 ▸ k2⟩

/-! ### C35 -/

theorem maxLeadLoop_pos : ∀ (ps : List Passage) (st : State) (lead : ℚ), 0 ≤ lead → 0 < st.lead → (∀ e ∈ passageStrings ps st, 0 < e.2.lead) →
    0 < (maxLeadLoop ps st lead).1.lead ∧ 0 ≤ (maxLeadLoop ps st lead).2
  | [], _, _, h1, h2, _ => ⟨h2, h1⟩
  | p :: ps, st, lead, h1, h2, h => by
    simp only [passageStrings, List.mem_cons, forall_eq_or_imp] at h
    refine maxLeadLoop_pos ps _ _ ?_ h.1 h.2
    split
    · exact le_max_of_le_left h1
    · exact h1

theorem maxLead_pos {ps : List Passage} {st : State} (hs : 0 < st.lead) (h : ∀ e ∈ passageStrings ps st, 0 < e.2.lead) : 0 < maxLead ps st := by
  obtain ⟨h1, h2⟩ := maxLeadLoop_pos ps st 0 le_rfl hs h
  simp only [maxLead]
  split
  · exact h1
  · rename_i hne
    exact lt_of_le_of_ne h2 (Ne.symm hne)

theorem indentFirst_sized {ws : List WordLike} (a : ℚ) (h : ∀ w ∈ ws, w.Sized) : ∀ w ∈ indentFirst ws a, SizesOk w := by
  intro w hw b hb
  cases ws with
  | nil => simp [indentFirst] at hw
  | cons x xs =>
    rcases List.mem_cons.1 hw with rfl | hw
    · exact (indent_sized a x (h x List.mem_cons_self).2 b hb).le
    · exact ((h w (List.mem_cons_of_mem _ hw)).2 b hb).le
where
  indent_sized (a : ℚ) : ∀ w : WordLike, (∀ b ∈ w.boxes, 0 < b.state.size) → ∀ b ∈ (w.indent a).boxes, 0 < b.state.size
    | .box b, h, b', hb' => by
      simp only [WordLike.indent, WordLike.boxes, List.mem_singleton] at hb' h
      subst hb'
      rw [(b.indent_states a).2]; exact h b rfl
    | .word w, h, b', hb' => by
      simp only [WordLike.indent, WordLike.boxes, Word.indent] at hb' h
      split at hb'
      · exact h b' hb'
      · split at hb'
        · rename_i b0 rest e
          rw [e] at h
          rcases List.mem_cons.1 hb' with rfl | hb'
          · rw [(b0.indent_states a).2]; exact h b0 List.mem_cons_self
          · exact h b' (List.mem_cons_of_mem _ hb')
        · split at hb' <;> exact h b' hb'
    | .withCmd w c, h, b', hb' => by
      simp only [WordLike.indent] at hb'
      split at hb'
      · exact h b' hb'
      · exact indent_sized a w h b' hb'

theorem paragraphLoop_firstfit {env : Env} (henv : env.Ok) (hh : HyphenOk env) (p : Paragraph) (hp : p.optimal = none) {lead : ℚ} (hl : 0 < lead) :
    ∀ (gs : List (List Passage)) (st : State) (cs : Nat → ColumnFill), (∀ g ∈ gs, Tidy g) → (∀ g ∈ gs, ∀ q ∈ g, q.cmd.Keeps) → 0 < st.size →
      (∀ j, 1 ≤ j → 0 ≤ (cs j).heightFree) → ∃ filled, paragraphLoop p env lead gs cs st = some filled
  | [], st, cs, _, _, _, _ => ⟨_, rfl⟩
  | g :: gs, st, cs, ht, hk, hs, hc => by
    obtain ⟨cmd, ws, h1, -, h3⟩ := intoWords_spec henv g st
    have htg := ht g List.mem_cons_self
    have hkg := hk g List.mem_cons_self
    obtain ⟨hpw, hst⟩ := paragraph_words henv g htg st cmd ws h1 p.indent (fun e he => (styled_sizes g st hkg hs e he).ne')
    obtain ⟨out, ho, -⟩ := C35_terminates_partial hh (indentFirst_sized p.indent (intoWords_sizes hkg hs h1))
      (cols := fun i => ((cs i).box.width, (cs i).heightFree)) hc hl p.avoidOrphans p.align (!(cs 0).blocks.isEmpty)
    have hne : out ≠ [] := by
      obtain ⟨raw, -, hch, rfl⟩ := firstfit_chunks ho
      cases hch <;> simp
    have hstate : chunksState out (cmd.apply st) = endState g st :=
      chunksState_wf (firstfit_wf henv hpw (indentFirst_wf henv (h3 htg).1 p.indent hpw) ho)
    have hfill : fillParagraph p env g cs st lead = some (addChunks out cs, endState g st) := by
      unfold fillParagraph
      simp only [h1, Paragraph.shape, hp, ho, Option.map_some, hstate]
    have hne' : addChunks out cs ≠ [] := by
      cases out with
      | nil => exact absurd rfl hne
      | cons c out => simp [addChunks]
    obtain ⟨col, hcol⟩ : ∃ col, (addChunks out cs).getLast? = some col := ⟨_, List.getLast?_eq_some_getLast hne'⟩
    obtain ⟨filled, hf⟩ := paragraphLoop_firstfit henv hh p hp hl gs (endState g st) (consStream col fun n => cs (n + (addChunks out cs).length))
      (fun g' hg' => ht g' (List.mem_cons_of_mem _ hg')) (fun g' hg' => hk g' (List.mem_cons_of_mem _ hg')) (endState_size g st hkg hs) (by
        intro j hj
        cases j with
        | zero => omega
        | succ j => exact hc _ (by have := List.length_pos_iff.2 hne'; omega))
    exact ⟨(addChunks out cs).dropLast ++ filled, by rw [paragraphLoop]; simp only [hfill, hcol, hf, Option.map_some]⟩

/-- C35 for paragraphs set by first-fit: layout ends, without an error, whatever the text, for positive sizes and line spacings, and hyphens that do not move backwards.
(The current column may be over-full; the others are not.) -/
theorem C35_paragraph_partial (w : World) (hw : ∀ r, (w.env r).Ok) (hh : ∀ r, HyphenOk (w.env r)) (base : StyleFull) (p : Paragraph) (hp : p.optimal = none)
    (r : Res) (cs : Nat → ColumnFill) (hc : ∀ j, 1 ≤ j → 0 ≤ (cs j).heightFree) (hne : ∀ e ∈ itemsStrings [p.style] p.content, e.1 ≠ [])
    (hb : 0 < (base.or p.style).size ∧ 0 < (base.or p.style).lineSpacing)
    (hsz : ∀ r', ∀ e ∈ contentStrings base p.style p.content r', 0 < e.2.size ∧ 0 < e.2.lineSpacing) :
    ∃ filled r', (Block.paragraph p).intoColumns w r base cs = (some filled, r') := by
  have hcs := contentStrings_passages (base.or p.style) p.style p.content r
  obtain ⟨h1, -⟩ := C24_spans (base.or p.style) p.style p.content r
  rw [contentStrings_or] at hcs
  simp only [Block.intoColumns, Paragraph.intoColumns]
  set out := flattenSpan p.style (base.or p.style) [] p.content ((base.or p.style).asState r).2 with hout
  set st := ((base.or p.style).asState r).1 with hst
  have hsz' := hsz out.2.2
  rw [hcs] at hsz'
  have hne' : ∀ q ∈ out.1, q.txt ≠ [] := by
    intro q hq
    have := List.mem_map_of_mem (f := Passage.txt) hq
    rw [h1, List.mem_map] at this
    obtain ⟨e, he, e'⟩ := this
    rw [← e']; exact hne e he
  obtain ⟨filled, hf⟩ := paragraphLoop_firstfit (hw out.2.2) (hh out.2.2) p hp (maxLead_pos (ps := out.1) (st := st) (mul_pos hb.1 hb.2)
    (fun e he => mul_pos (hsz' e he).1 (hsz' e he).2)) (splitlines out.1) st cs (C27_tidy _ hne')
    (splitlines_keeps _ (passages_keep out.1 st fun e he => (hsz' e he).1)) hb.1 hc
  exact ⟨filled, out.2.2, by rw [hf]⟩

/-! ### C46 -/

/-- C46 for paragraphs: every line is where the alignment asks for, in its column. -/
def C46_paragraph_Statement : Prop := ∀ (w : World) (base : StyleFull) (p : Paragraph) (r : Res) (t : Tape) (filled : List ColumnFill) (r' : Res),
  (∀ r, (w.env r).Ok) → (Block.paragraph p).intoColumns w r base t.view = (some filled, r') →
  ∃ css, PutLines css t (t.fill filled) ∧ ∀ cs ∈ css, ∀ c ∈ cs, c.IsPlaced (w.env r').widths p.align

theorem linesFill_put {env : Env} {p : Paragraph} {lead : ℚ} {gs : List (List Passage)} {st : State} {t t' : Tape}
    (h : LinesFill p env lead gs st t t') : ∃ css, PutLines css t t' ∧ ∀ cs ∈ css, ∀ c ∈ cs, c.lead = lead ∧ c.align = p.align := by
  induction h with
  | nil st t => exact ⟨[], .nil t, by simp⟩
  | cons line rest st t cmd words chunks t' h1 h2 h3 h4 ih =>
    obtain ⟨css, i1, i2⟩ := ih
    refine ⟨chunks :: css, .cons _ _ _ _ h3 i1, ?_⟩
    intro cs hcs
    rcases List.mem_cons.1 hcs with rfl | hcs
    · exact shape_lead h2
    · exact i2 cs hcs

/-- C46 for left-aligned and justified paragraphs: every line starts at the left edge of its column, whatever its text and styles. -/
theorem C46_paragraph_left_partial (w : World) (base : StyleFull) (p : Paragraph) (ha : p.align = .left ∨ p.align = .justify) (r : Res) (t : Tape)
    (filled : List ColumnFill) (r' : Res) (h : (Block.paragraph p).intoColumns w r base t.view = (some filled, r')) :
    ∃ css, PutLines css t (t.fill filled) ∧ ∀ cs ∈ css, ∀ c ∈ cs, c.IsPlaced (w.env r').widths p.align := by
  obtain ⟨passages, st, lead, h1, -⟩ := C49_paragraph_lines p w r base t filled r' h
  obtain ⟨css, h2, h3⟩ := linesFill_put h1
  refine ⟨css, h2, fun cs hcs c hc => ?_⟩
  have e := (h3 cs hcs c hc).2
  rw [← e]
  exact chunk_placed_left _ (by rw [e]; exact ha)

/-- C46, baselines: the lines of a chunk of a paragraph are one leading apart, the first of them one leading below the place where the chunk is put; the leading is that
of the largest text of the paragraph. -/
theorem C46_paragraph_baselines (w : World) (base : StyleFull) (p : Paragraph) (r : Res) (t : Tape)
    (filled : List ColumnFill) (r' : Res) (h : (Block.paragraph p).intoColumns w r base t.view = (some filled, r')) :
    ∃ css lead, PutLines css t (t.fill filled) ∧
      (HasText (contentStrings base p.style p.content r') → IsLeading (contentStrings base p.style p.content r') lead) ∧
      ∀ cs ∈ css, ∀ c ∈ cs, ∀ (pos : ℚ × ℚ) (width : ℚ) (v : Viewer), ∃ ops b1 b2 ss, c.render pos width = .text ops ∧
        Viewer.textLines (w.env r').widths ops v = b1 :: b2 :: ss ∧ b1.glyphs = [] ∧ b2.glyphs = [] ∧ ss.length = c.lines.length ∧
        ∀ (k : Nat) (s : ShownLine), ss[k]? = some s → s.y = pos.2 - (k + 1) * lead := by
  obtain ⟨passages, st, lead, h1, e1, e2, e3⟩ := C49_paragraph_lines p w r base t filled r' h
  obtain ⟨css, h2, h3⟩ := linesFill_put h1
  refine ⟨css, lead, h2, ?_, fun cs hcs c hc pos width v => ?_⟩
  · have hc := contentStrings_passages (base.or p.style) p.style p.content r
    rw [contentStrings_or] at hc
    simp only [Block.intoColumns, Paragraph.intoColumns, Prod.mk.injEq] at h
    obtain ⟨-, rfl⟩ := h
    rw [hc, e3, e1, e2]
    exact maxLead_strings _ _
  · obtain ⟨ops, ss, j1, j2, j3⟩ := renderText_places (W := (w.env r').widths) pos c.preState width (c.lines.map TLine.toR) c.lead c.align v
    obtain ⟨k1, k2⟩ := j3.get
    refine ⟨ops, _, _, ss, j1, j2, rfl, rfl, by simpa using k1, ?_⟩
    intro k s hs
    rw [← (h3 cs hcs c hc).1]
    exact (k2 k s hs).1

/-- C46 for paragraphs set by first-fit, with positive font sizes: every line of every chunk that does not start with a word at whose end the style changes is where the alignment asks for. -/
theorem C46_paragraph_firstfit_partial (w : World) (hw : ∀ r, (w.env r).Ok) (base : StyleFull) (p : Paragraph) (hp : p.optimal = none) (r : Res) (t : Tape)
    (filled : List ColumnFill) (r' : Res) (h : (Block.paragraph p).intoColumns w r base t.view = (some filled, r'))
    (hne : ∀ e ∈ itemsStrings [p.style] p.content, e.1 ≠ []) (hb : 0 < (base.or p.style).size)
    (hsz : ∀ e ∈ contentStrings base p.style p.content r', 0 < e.2.size) :
    ∃ css, PutLines css t (t.fill filled) ∧ ∀ cs ∈ css, ∀ c ∈ cs, c.StartsQuiet → c.IsPlaced (w.env r').widths p.align := by
  obtain ⟨passages, st, lead, h1, h2, h3, h4, h5, h6⟩ := paragraph_lines p w r base t filled r' h hne
  rw [← h2] at hsz
  rw [← h2] at h6
  have hz : ∀ l ∈ groupsStyled (splitlines passages) st, NonZero l := by
    rw [h6]
    intro l hl e he
    exact contentLines_sizes (P := (· ≠ 0)) (fun e he => (hsz e he).ne') l hl e he
  obtain ⟨css, k1, -, k3⟩ := linesFill_firstfit (hw r') hp h1 (C27_tidy passages h3) hz
  exact ⟨css, k1, fun cs hcs c hc hq => k3 cs hcs c hc (splitlines_keeps passages (passages_keep passages st hsz)) (by rw [h4]; exact hb) hq⟩

/-- C48 for a single string that is not empty, first-fit or optimal. -/
theorem C48_string_partial (w : World) (hw : ∀ r, (w.env r).Ok) (base : StyleFull) (p : Paragraph) (s : List Char) (hs : s ≠ []) (hp : p.content = [.str s])
    (r : Res) (t : Tape) (filled : List ColumnFill) (r' : Res) (h : (Block.paragraph p).intoColumns w r base t.view = (some filled, r'))
    (hsz : 0 < (base.or p.style).size) (hls : 0 < (base.or p.style).lineSpacing)
    (hroom : p.optimal ≠ none → t.Roomy ((base.or p.style).size * (base.or p.style).lineSpacing)) :
    ∃ css, PutLines css t (t.fill filled) ∧
      List.Forall₂ (TextShown (w.env r').widths ((base.or p.style).size * (base.or p.style).lineSpacing)) css
        ((textLines s).map fun l => l.map fun c => (c, ((base.or p.style).asState r').1)) := by
  have hstr : contentStrings base p.style p.content r' = [(s, ((base.or p.style).asState r').1)] := by
    have hor : base.overlay [p.style] = base.or p.style := by
      have := overlay_snoc base [] p.style
      rw [overlay_nil] at this
      exact this
    simp [contentStrings, itemsStrings, Item.strings, hor, hp]
  have hl : contentLines (contentStrings base p.style p.content r') = (textLines s).map fun l => l.map fun c => (c, ((base.or p.style).asState r').1) := by
    have j : ∀ a : List (List (Char × State)), a ≠ [] → joinLines a [[]] = a := by
      intro a ha
      induction a with
      | nil => exact absurd rfl ha
      | cons x a ih =>
        cases a with
        | nil => simp [joinLines]
        | cons y a => rw [joinLines_cons _ _ _ (by simp), ih (by simp)]
    rw [hstr, contentLines, if_neg (by simp), stringsLines, stringsLines, j _ (by simpa using textLines_ne s)]
  have hht : HasText (contentStrings base p.style p.content r') := by
    rw [hstr]
    refine ⟨⟨_, List.mem_singleton_self _, hs⟩, ?_⟩
    intro e he _
    rw [List.mem_singleton] at he; subst he
    exact ⟨hsz, hls⟩
  have hlead : ∀ lead, IsLeading (contentStrings base p.style p.content r') lead → lead = (base.or p.style).size * (base.or p.style).lineSpacing := by
    intro lead hlead
    rw [hstr] at hlead
    obtain ⟨⟨e, he, -, h1⟩, -⟩ := hlead
    rw [List.mem_singleton] at he; subst he
    exact h1
  obtain ⟨css, lead, k1, k2, k3⟩ := C48_newlines_partial w hw base p r t filled r' h (by rw [hp]; simpa [itemsStrings, Item.strings] using hs)
    (by rw [hstr]; exact List.isChain_singleton _) (by rw [hstr]; intro e he; rw [List.mem_singleton] at he; subst he; exact hsz.ne')
    (fun ho => ⟨hht, fun lead hl' => by rw [hlead lead hl']; exact hroom ho⟩)
  rw [hlead lead (k1 hht), hl] at k3
  exact ⟨css, k2, k3⟩

/-! ### Counterexamples -/

/-- The paragraph `["a ", Span("b", Style(bold=True, size=20))]`. -/
def twoStyles (align : Align) : Paragraph :=
  ⟨[.str ['a', ' '], .span [.str ['b']] { bold := some true, size := some 20 }], Style.empty, align, 0, false, some .default⟩

/-- Empty columns, 100 wide and 500 high. -/
def blankTape (width : ℚ) : Tape := ⟨fun _ => .new ⟨(0, 0), width, 500⟩, 0⟩

/-- The words of that paragraph. -/
def twoWords : List WordLike :=
  [.withCmd (.word ⟨[.slug (Slug.new (demoWorld.env faceRes) ['a'] faceState none)], some (TrailingSpace.make (demoWorld.env faceRes) faceState (some 'a')), faceState⟩)
    (.setFont (.subset 1) 20),
   .word ⟨[.slug (Slug.new (demoWorld.env faceRes) ['b'] faceBold none)], none, faceBold⟩]

theorem twoWords_eq : intoWords (demoWorld.env faceRes) [⟨.noop, ['a', ' ']⟩, ⟨.setFont (.subset 1) 20, ['b']⟩] faceState = some (.noop, twoWords) := by
  have h3 : parse (demoWorld.env faceRes) [] faceBold ['b'] = some [.word ⟨[.slug (Slug.new (demoWorld.env faceRes) ['b'] faceBold none)], none, faceBold⟩] :=
    parse_one (by simp) (rest := []) (head := ['b']) (by rw [parseSimple, allWords_eq]; rfl) rfl
  have h4 : parseSimple (demoWorld.env faceRes) ['a', ' '] faceState none = some ([], .inr ⟨[.slug (Slug.new (demoWorld.env faceRes) ['a'] faceState none)],
      some (TrailingSpace.make (demoWorld.env faceRes) faceState (some 'a')), faceState⟩) := by
    have : allWords ['a', ' '] = ([['a', ' ']], []) := by
      rw [allWords_eq]
      have : nextWord ['a', ' '] = some (['a', ' '], []) := by decide +kernel
      rw [this]
      simp only
      rw [allWords_eq]
      rfl
    rw [parseSimple, this]
    rfl
  show (parse (demoWorld.env faceRes) [⟨.setFont (.subset 1) 20, ['b']⟩] faceState ['a', ' ']).map _ = _
  rw [parse.eq_def, if_neg (by simp), h4]
  dsimp only
  have e : (Command.setFont (.subset 1) 20).apply faceState = faceBold := rfl
  rw [e, h3]
  rfl

/-- A paragraph of one line of text and one chunk. -/
theorem paragraph_one {p : Paragraph} {w : World} {base : StyleFull} {r r2 : Res} {ps : List Passage} {todo : List Pending} {st : State} {cmd : Command}
    {words : List WordLike} {width : ℚ} {c : ShapedText}
    (hf : flattenSpan p.style (base.or p.style) [] p.content ((base.or p.style).asState r).2 = (ps, todo, r2))
    (hst : ((base.or p.style).asState r).1 = st) (hs : splitlines ps = [ps]) (hw : intoWords (w.env r2) ps st = some (cmd, words))
    (hc : p.shape (w.env r2) (fun _ => (width, 500)) (maxLead ps st) (indentFirst words p.indent) false = some [c]) :
    (Block.paragraph p).intoColumns w r base (blankTape width).view = (some [((blankTape width).view 0).add (.text c)], r2) := by
  simp only [Block.intoColumns, Paragraph.intoColumns]
  rw [hf, hst]
  simp only [hs]
  have h9 : fillParagraph p (w.env r2) ps (blankTape width).view st (maxLead ps st) =
      some ([((blankTape width).view 0).add (.text c)], chunksState [c] (cmd.apply st)) := by
    unfold fillParagraph
    rw [hw]
    have h8 : (fun i => (((blankTape width).view i).box.width, ((blankTape width).view i).heightFree)) = fun _ => (width, (500 : ℚ)) := rfl
    have hb : (!((blankTape width).view 0).blocks.isEmpty) = false := rfl
    simp only [h8, hb, hc]
    rfl
  rw [paragraphLoop]
  simp only [h9, List.getLast?_singleton, paragraphLoop, Option.map_some, List.dropLast_singleton, List.nil_append]
  rfl

theorem twoStyles_columns (align : Align) (c : ShapedText)
    (h : optimumShape (demoWorld.env faceRes) (fun _ => (100, 500)) 25 false align .default twoWords false = some [c]) :
    (Block.paragraph (twoStyles align)).intoColumns demoWorld Res.empty faceStyle (blankTape 100).view =
      (some [((blankTape 100).view 0).add (.text c)], faceRes) := by
  have h3 : maxLead [⟨.noop, ['a', ' ']⟩, ⟨.setFont (.subset 1) 20, ['b']⟩] faceState = 25 := by decide +kernel
  refine paragraph_one (p := twoStyles align) (ps := [⟨.noop, ['a', ' ']⟩, ⟨.setFont (.subset 1) 20, ['b']⟩])
    (todo := [.full faceStyle (faceStyle.or { bold := some true, size := some 20 }), .full faceStyle faceStyle]) (st := faceState)
    (words := twoWords) ?_ rfl ?_ twoWords_eq ?_
  · simp only [twoStyles, flattenSpan, flattenItems]
    rfl
  · rw [splitlines, splitFrom_none (by rfl)]
    simp only
    rw [splitFrom_none (by rfl)]
    rfl
  · rw [h3]; exact h

/-- What a viewer shows of a chunk at the origin: characters, and whether they are in the font they were made for. -/
def ShapedText.fonts (c : ShapedText) (W : FontRef → Char → ℚ) : List (List (Char × Bool)) :=
  match c.render (0, 0) 100 with
  | .text ops => (Viewer.textLines W ops ⟨none, ⟨0, 0, 0⟩, 0, 0, 0, 0⟩).map fun s => s.glyphs.map fun g => (g.char, decide (g.font.map (·.1) = some g.enc))
  | _ => []

theorem twoStyles_fonts : (optimumShape (demoWorld.env faceRes) (fun _ => (100, 500)) 25 false .left .default twoWords false).map
    (fun o => o.map fun c => c.fonts (demoWorld.env faceRes).widths) = some [[[], [], [('a', false), (' ', false), ('b', true)]]] := by
  decide +kernel

/-- The tape that one chunk is put on. -/
theorem putLines_one {c : ShapedText} {css : List (List ShapedText)} {width : ℚ} (hn : css.length = 1)
    (h : PutLines css (blankTape width) ((blankTape width).fill [((blankTape width).view 0).add (.text c)])) : css = [[c]] := by
  match css, hn with
  | [chunks], _ =>
    generalize ht : (blankTape width).fill [((blankTape width).view 0).add (.text c)] = t' at h
    cases h with
    | cons _ _ _ _ h1 h2 =>
      cases h2 with
      | nil =>
        rw [Tape.fill, if_neg (by simp), Tape.fill, if_neg (by simpa using h1)] at ht
        simp only [Tape.mk.injEq] at ht
        obtain ⟨h3, h4⟩ := ht
        simp only [List.length_singleton, List.length_mapIdx, blankTape] at h4
        have h5 : chunks.length = 1 := by
          have := List.length_pos_iff.2 h1
          omega
        match chunks, h5 with
        | [c'], _ =>
          have := congrFun h3 0
          simp [blankTape, ColumnFill.add] at this
          rw [this.1]

/-- C48 is false where the style changes at the end of the first word of a chunk: that word is shown in the style after it, here "a" in bold. -/
theorem C48_counterexample : ¬ C48_Statement := by
  intro h
  have hs := twoStyles_fonts
  rw [Option.map_eq_some_iff] at hs
  obtain ⟨out, h1, h2⟩ := hs
  obtain ⟨c, l, rfl, h3, h4⟩ := List.map_eq_cons_iff.1 h2
  rw [List.map_eq_nil_iff] at h4
  subst h4
  obtain ⟨css, lead, i1, i2⟩ := h demoWorld faceStyle (twoStyles .left) Res.empty (blankTape 100) _ _ demoWorld_ok (twoStyles_columns .left c h1)
  have hl : contentLines (contentStrings faceStyle (twoStyles .left).style (twoStyles .left).content faceRes) =
      [[('a', faceState), (' ', faceState), ('b', faceBold)]] := by
    decide +kernel
  rw [hl] at i2
  have := putLines_one (by simpa using i2.length_eq) i1
  subst this
  cases i2 with
  | cons j1 _ =>
    obtain ⟨ws, shown, j2, j3, j4⟩ := j1
    match shown, j3 with
    | [lines], .cons j3 .nil =>
      obtain ⟨ops, b1, b2, ss, k1, k2, -, -, k3⟩ := j3 (0, 0) 100 ⟨none, ⟨0, 0, 0⟩, 0, 0, 0, 0⟩
      simp only [ShapedText.fonts, k1, k2, List.map_cons, List.cons.injEq] at h3
      obtain ⟨-, -, h3⟩ := h3
      obtain ⟨s, ss', rfl, h5, h6⟩ := List.map_eq_cons_iff.1 h3
      rw [List.map_eq_nil_iff] at h6
      subst h6
      have hc := k3.count
      match lines, hc with
      | [line], _ =>
        have hline : line = [('a', faceState), (' ', faceState), ('b', faceBold)] := by
          simp only [List.flatten_cons, List.flatten_nil, List.append_nil] at j4
          generalize ht : [('a', faceState), (' ', faceState), ('b', faceBold)] = text at j4
          cases j4 with
          | cons _ piece rest _ m1 m2 m3 =>
            cases m3
            rw [List.append_nil] at ht
            rcases m1 ⟨ws, [], by simp, rfl⟩ with m1 | ⟨st, m1⟩
            · rw [m1]; simp
            · rw [← ht] at m1
              have := congrArg List.getLast? m1
              simp at this
        have := k3.looks 0 s line rfl rfl
        rw [hline] at this
        obtain ⟨g, gs, e1, e2, -⟩ := List.map_eq_cons_iff.1 h5
        rw [e1] at this
        simp only [List.map_cons, List.cons.injEq, Glyph.look, lookOf, Prod.mk.injEq] at this e2
        obtain ⟨⟨n1, n2, n3⟩, -⟩ := this
        have e3 := e2.2
        rw [n2, n3.1] at e3
        simp at e3

/-- Everything new in the columns is one of the chunks. -/
theorem putLines_blocks {css : List (List ShapedText)} {t t' : Tape} (h : PutLines css t t') : ∀ i, ∀ e ∈ (t'.cells i).blocks,
    e ∈ (t.cells i).blocks ∨ ∃ cs ∈ css, ∃ c ∈ cs, e.2 = .text c := by
  induction h with
  | nil t => exact fun i e he => Or.inl he
  | cons chunks rest t t' h1 h2 ih =>
    intro i e he
    rcases ih i e he with he | ⟨cs, hcs, c, hc, e1⟩
    · rw [Tape.fill, if_neg (by simpa using h1)] at he
      simp only at he
      split at he
      · rename_i hi
        rw [List.getElem?_mapIdx] at he
        cases hc : chunks[i - t.head]? with
        | none => rw [hc] at he; exact Or.inl (by simpa using he)
        | some c =>
          rw [hc] at he
          simp only [Option.map_some, Option.getD_some, ColumnFill.add, List.mem_append, List.mem_singleton, Tape.view] at he
          rcases he with he | rfl
          · left
            have : t.head + (i - t.head) = i := by omega
            rwa [this] at he
          · exact Or.inr ⟨chunks, by simp, c, List.mem_of_getElem? hc, rfl⟩
      · exact Or.inl he
    · exact Or.inr ⟨cs, List.mem_cons_of_mem _ hcs, c, hc, e1⟩

/-- The paragraph "a b", right-aligned. -/
def shortRight : Paragraph := ⟨[.str ['a', ' ', 'b']], Style.empty, .right, 0, false, some .default⟩

/-- The fonts used for it. -/
def shortRes : Res := (faceStyle.asState Res.empty).2

/-- Its words. -/
def shortWords : List WordLike :=
  [.word ⟨[.slug (Slug.new (demoWorld.env shortRes) ['a'] faceState none)], some (TrailingSpace.make (demoWorld.env shortRes) faceState (some 'a')), faceState⟩,
   .word ⟨[.slug (Slug.new (demoWorld.env shortRes) ['b'] faceState none)], none, faceState⟩]

theorem shortWords_eq : intoWords (demoWorld.env shortRes) [⟨.noop, ['a', ' ', 'b']⟩] faceState = some (.noop, shortWords) := by
  have h4 : parseSimple (demoWorld.env shortRes) ['a', ' ', 'b'] faceState none = some ([⟨[.slug (Slug.new (demoWorld.env shortRes) ['a'] faceState none)],
      some (TrailingSpace.make (demoWorld.env shortRes) faceState (some 'a')), faceState⟩], .inl ['b']) := by
    have : allWords ['a', ' ', 'b'] = ([['a', ' ']], ['b']) := by
      rw [allWords_eq]
      have : nextWord ['a', ' ', 'b'] = some (['a', ' '], ['b']) := by decide +kernel
      rw [this]
      simp only
      rw [allWords_eq]
      rfl
    rw [parseSimple, this]
    rfl
  show (parse (demoWorld.env shortRes) [] faceState ['a', ' ', 'b']).map _ = _
  rw [parse.eq_def, if_neg (by simp), h4]
  dsimp only
  have e : completeWord (demoWorld.env shortRes) [] ['b'] faceState none =
      some (⟨[.slug (Slug.new (demoWorld.env shortRes) ['b'] faceState none)], none, faceState⟩, none, []) := rfl
  split
  · rename_i e2; rw [e] at e2; simp at e2
  · rename_i e2; rw [e] at e2; simp only [Option.some.injEq, Prod.mk.injEq, true_and] at e2; obtain ⟨rfl, -⟩ := e2; rfl
  · rename_i e2; rw [e] at e2; simp at e2

/-- Where the lines of a chunk end that is put in a column 10 wide. -/
def ShapedText.rights (c : ShapedText) (W : FontRef → Char → ℚ) : List ℚ :=
  match c.render (0, 0) 10 with
  | .text ops => (Viewer.textLines W ops ⟨none, ⟨0, 0, 0⟩, 0, 0, 0, 0⟩).map ShownLine.right
  | _ => []

theorem shortRight_rights : (optimumShape (demoWorld.env shortRes) (fun _ => (10, 500)) 15 false .right .default shortWords false).map
    (fun o => o.map fun c => c.rights (demoWorld.env shortRes).widths) = some [[0, 0, 4, 10]] := by
  decide +kernel

/-- C46 is false for right-aligned paragraphs with optimal line breaking: "a b" in a column that is wide enough for one letter only. The first line ends
a space before the right edge of the column. -/
theorem C46_paragraph_counterexample : ¬ C46_paragraph_Statement := by
  intro h
  have hs := shortRight_rights
  rw [Option.map_eq_some_iff] at hs
  obtain ⟨out, h1, h2⟩ := hs
  obtain ⟨c, l, rfl, h3, h4⟩ := List.map_eq_cons_iff.1 h2
  rw [List.map_eq_nil_iff] at h4
  subst h4
  have h5 : maxLead [⟨.noop, ['a', ' ', 'b']⟩] faceState = 15 := by decide +kernel
  have hcol := paragraph_one (p := shortRight) (w := demoWorld) (base := faceStyle) (r := Res.empty) (ps := [⟨.noop, ['a', ' ', 'b']⟩])
    (todo := [.full faceStyle faceStyle]) (st := faceState) (r2 := shortRes)
    (words := shortWords) (width := 10) (c := c) (by simp only [shortRight, flattenSpan, flattenItems]; rfl) rfl
    (by rw [splitlines, splitFrom_none (by rfl)]; rfl) shortWords_eq (by rw [h5]; exact h1)
  obtain ⟨css, i1, i2⟩ := h demoWorld faceStyle shortRight Res.empty (blankTape 10) _ _ demoWorld_ok hcol
  have hmem := putLines_blocks i1 0 (((blankTape 10).view 0).cursor, .text c) (by
    rw [Tape.fill, if_neg (by simp)]
    simp [blankTape, ColumnFill.add, Tape.view, ColumnFill.new])
  rcases hmem with hmem | ⟨cs, hcs, c', hc', e⟩
  · simp [blankTape, ColumnFill.new] at hmem
  · cases e
    obtain ⟨ops, b1, b2, ss, k1, k2, -, -, k3⟩ := i2 cs hcs c hc' (0, 0) 10 ⟨none, ⟨0, 0, 0⟩, 0, 0, 0, 0⟩
    simp only [ShapedText.rights, k1, k2, List.map_cons, List.cons.injEq] at h3
    obtain ⟨-, -, h3⟩ := h3
    obtain ⟨s, ss', rfl, h6, -⟩ := List.map_eq_cons_iff.1 h3
    have := k3 s List.mem_cons_self
    simp only [shortRight, ShownLine.Placed] at this
    rw [h6] at this
    norm_num at this

/-! ### Examples -/

theorem blankTape_roomy (width : ℚ) {lead : ℚ} (h : lead ≤ 500) : (blankTape width).Roomy lead where
  free := fun i _ => by simp [blankTape, ColumnFill.new]
  empty := fun i _ _ => by simpa [blankTape, ColumnFill.new] using h
  after := fun i _ => by simp [blankTape, ColumnFill.new]

/-- C48 and C46 apply to "a b" in a narrow column, set with optimal line breaks: two lines, one below the other. -/
example : ∃ c, (Block.paragraph shortRight).intoColumns demoWorld Res.empty faceStyle (blankTape 10).view =
      (some [((blankTape 10).view 0).add (.text c)], shortRes) ∧ c.lines.length = 2 ∧
    ∃ css, PutLines css (blankTape 10) ((blankTape 10).fill [((blankTape 10).view 0).add (.text c)]) ∧
      List.Forall₂ (TextShown (demoWorld.env shortRes).widths (12 * (5 / 4))) css [[('a', faceState), (' ', faceState), ('b', faceState)]] := by
  have hs : (optimumShape (demoWorld.env shortRes) (fun _ => (10, 500)) 15 false .right .default shortWords false).map
    (fun o => o.map fun c => c.lines.length) = some [2] := by decide +kernel
  rw [Option.map_eq_some_iff] at hs
  obtain ⟨out, h1, h2⟩ := hs
  obtain ⟨c, l, rfl, h3, h4⟩ := List.map_eq_cons_iff.1 h2
  rw [List.map_eq_nil_iff] at h4
  subst h4
  have h5 : maxLead [⟨.noop, ['a', ' ', 'b']⟩] faceState = 15 := by decide +kernel
  have hcol := paragraph_one (p := shortRight) (w := demoWorld) (base := faceStyle) (r := Res.empty) (ps := [⟨.noop, ['a', ' ', 'b']⟩])
    (todo := [.full faceStyle faceStyle]) (st := faceState) (r2 := shortRes)
    (words := shortWords) (width := 10) (c := c) (by simp only [shortRight, flattenSpan, flattenItems]; rfl) rfl
    (by rw [splitlines, splitFrom_none (by rfl)]; rfl) shortWords_eq (by rw [h5]; exact h1)
  refine ⟨c, hcol, h3, ?_⟩
  exact C48_string_partial demoWorld demoWorld_ok faceStyle shortRight ['a', ' ', 'b'] (by simp) rfl Res.empty (blankTape 10) _ _ hcol
    (by decide +kernel) (by decide +kernel) (fun _ => blankTape_roomy 10 (by decide +kernel))

/-- A change of style after a newline is allowed. -/
example (r : Res) : ChangesAtNewlines (contentStrings faceStyle Style.empty
    [.str ['a', '\n'], .span [.str ['b', 'c']] { bold := some true, size := some 20 }] r) := by
  simp [ChangesAtNewlines, contentStrings, itemsStrings, Item.strings]

/-- C35 applies to "a b" set by first-fit in columns that are wide enough for one letter only. -/
example : ∃ filled r', (Block.paragraph { shortRight with optimal := none }).intoColumns demoWorld Res.empty faceStyle (blankTape 10).view = (some filled, r') :=
  C35_paragraph_partial demoWorld demoWorld_ok (fun r f => by
    cases f with
    | builtin i => simp [World.env, World.metrics, demoWorld, demoEnv]
    | subset i =>
      simp only [World.env, World.metrics, demoWorld, demoEnv]
      split <;> simp [FontFile.metrics]) faceStyle _ rfl Res.empty _ (fun j _ => by simp [blankTape, Tape.view, ColumnFill.new])
    (by simp [shortRight, itemsStrings, Item.strings]) ⟨by decide +kernel, by decide +kernel⟩
    (by
      intro r' e he
      simp only [shortRight, contentStrings, itemsStrings, Item.strings, List.append_nil, List.map_cons, List.map_nil, List.mem_singleton] at he
      subst he
      exact ⟨by show (0 : ℚ) < 12; norm_num, by show (0 : ℚ) < 5 / 4; norm_num⟩)

end Pdfje
