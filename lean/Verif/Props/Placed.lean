import Verif.Spec.Placed
import Verif.Proofs.Bare
import Verif.Props.Columns
import Verif.Props.Online
import Verif.Props.Written
/-
C100: where a line is placed does not change it.
-/

namespace Pdfje

variable {env : Env}

theorem linesFrom_unique {width : ℚ} : ∀ {lines lines' : List TLine} {q : Option (List WordLike)}, LinesFrom env width q lines none → LinesFrom env width q lines' none → lines = lines'
  | [], lines', q, h, h' => by
    cases h
    exact (h'.from_none.1).symm
  | l :: lines, lines', q, h, h' => by
    cases h with
    | cons ws q1 _ _ _ e h =>
      cases h' with
      | cons _ q2 l2 lines2 _ e' h' =>
        rw [e] at e'
        cases e'
        rw [linesFrom_unique h h']

/-- First-fit makes the same lines in all columns of one width. -/
theorem firstfit_placed {cols cols' : Cols} {width : ℚ} (hc : ∀ i, (cols i).1 = width) (hc' : ∀ i, (cols' i).1 = width) {lead lead' : ℚ} {avoid avoid' : Bool} {align : Align} {ws : List WordLike}
    {ae ae' : Bool} {out out' : List ShapedText} (h : firstfitShape env cols lead avoid align ws ae = some out) (h' : firstfitShape env cols' lead' avoid' align ws ae' = some out') :
    out.flatMap ShapedText.lines = out'.flatMap ShapedText.lines := by
  obtain ⟨raw, -, k, rfl⟩ := firstfit_chunks h
  obtain ⟨raw', -, k', rfl⟩ := firstfit_chunks h'
  have e : ∀ (lead : ℚ) (raw : List (List TLine)), ((raw.map fun ls => (⟨ls.map (setLine align), lead, align, ls.length * lead⟩ : ShapedText)).flatMap ShapedText.lines) =
      raw.flatten.map (setLine align) := by
    intro lead raw
    simp [List.flatMap_def, List.map_map, List.map_flatten, Function.comp_def]
  rw [e, e, linesFrom_unique (k.lines hc) (k'.lines hc')]

/-- And so does optimal line breaking. -/
theorem optimum_placed {cols cols' : Cols} {width : ℚ} (hc : ∀ i, (cols i).1 = width ∧ 0 ≤ (cols i).2) (hc' : ∀ i, (cols' i).1 = width ∧ 0 ≤ (cols' i).2) {lead lead' : ℚ} (hl : 0 < lead)
    (hl' : 0 < lead') {avoid avoid' : Bool} {align : Align} {p : OptParams} {ws : List WordLike} {ae ae' : Bool} {out out' : List ShapedText}
    (h : optimumShape env cols lead avoid align p ws ae = some out) (h' : optimumShape env cols' lead' avoid' align p ws ae' = some out') :
    out.flatMap ShapedText.lines = out'.flatMap ShapedText.lines := by
  by_cases hws : ws = []
  · subst hws
    rcases optimumShape_nil h with ⟨rfl, -⟩ | ⟨rfl, -⟩ <;> rcases optimumShape_nil h' with ⟨rfl, -⟩ | ⟨rfl, -⟩ <;> rfl
  · have key : ∀ {cols : Cols} {lead : ℚ} {avoid ae : Bool} {out : List ShapedText}, (∀ i, (cols i).1 = width ∧ 0 ≤ (cols i).2) → 0 < lead →
        optimumShape env cols lead avoid align p ws ae = some out →
        ∃ fbs, intoBoxes env ws (align = .justify) = some fbs ∧
          (findBreaks p (fbs.map (·.2)) (fun _ => width) (!decide (align = .justify))).map (fun brs => intoLines (align = .justify) brs (fbs.map (·.1))) = some (out.flatMap ShapedText.lines) := by
      intro cols lead avoid ae out hc hl h
      obtain ⟨fbs, chunks, h1, hne, ⟨s, q, lines, hq, hs, hb, rfl⟩, rfl⟩ := optimumShape_laid hl (fun i => (hc i).2) hws h
      refine ⟨fbs, h1, ?_⟩
      unfold breakLines at hb
      have hw : q.lineLength = fun _ => width := by
        funext i
        rw [ColQueue.lineLength, hq.width]
        exact (hc _).1
      rw [hw] at hb
      rw [hb]
      congr 1
      have hf := (groupLines_spec hq.full lines).1
      simp only [List.flatMap_def, List.map_map, Function.comp_def, List.map_id', List.flatten_append, hf]
      simp
    obtain ⟨fbs, h1, h2⟩ := key hc hl h
    obtain ⟨fbs', h1', h2'⟩ := key hc' hl' h'
    rw [h1] at h1'
    cases h1'
    rw [h2] at h2'
    exact Option.some.inj h2'

/-- The state after the chunks is that of the last word. -/
theorem chunksState_last : ∀ (chunks : List ShapedText) (st : State),
    chunksState chunks st = (((chunks.flatMap ShapedText.lines).flatMap TLine.words).getLast?.map WordLike.state).getD st
  | [], _ => rfl
  | c :: cs, st => by
    rw [chunksState, chunksState_last cs, List.flatMap_cons, List.flatMap_append, List.getLast?_append]
    simp only [ShapedText.endState]
    cases (((cs.flatMap ShapedText.lines).flatMap TLine.words).getLast?) with
    | some w => rfl
    | none => cases (c.lines.flatMap (·.words)).getLast? <;> rfl

/-- The lines on a tape up to the current column. -/
def Tape.lines (t : Tape) : List TLine := (List.range (t.head + 1)).flatMap fun i => (t.cells i).lines

theorem Tape.lines_fill {t : Tape} (ha : ∀ i, t.head < i → (t.cells i).blocks = []) {chunks : List ShapedText} (hne : chunks ≠ []) :
    (t.fill (chunks.mapIdx fun i c => (t.view i).add (.text c))).lines = t.lines ++ chunks.flatMap ShapedText.lines := by
  have hlen : 0 < chunks.length := List.length_pos_iff.2 hne
  unfold Tape.lines
  rw [Tape.fill, if_neg (by simpa using hne)]
  simp only [List.length_mapIdx, List.getElem?_mapIdx]
  obtain ⟨c, cs, rfl⟩ := List.exists_cons_of_ne_nil hne
  have e : t.head + (c :: cs).length - 1 + 1 = t.head + (1 + cs.length) := by simp only [List.length_cons]; omega
  rw [e, List.range_add, List.flatMap_append, List.range_add, List.map_append, List.flatMap_append, List.range_succ (n := t.head), List.flatMap_append]
  have h1 : (List.range t.head).flatMap (fun i => (if t.head ≤ i then (((c :: cs)[i - t.head]?).map fun x => (t.view (i - t.head)).add (.text x)).getD (t.cells i) else t.cells i).lines) =
      (List.range t.head).flatMap fun i => (t.cells i).lines := by
    refine List.flatMap_congr fun i hi => ?_
    rw [if_neg (by have := List.mem_range.1 hi; omega)]
  have h3 : cs.flatMap ShapedText.lines = (List.range cs.length).flatMap fun i => (cs[i]?.map ShapedText.lines).getD [] := by
    conv_lhs => rw [← List.map_id cs]
    rw [show List.map id cs = (List.range cs.length).map fun i => (cs[i]?).getD c from ?_]
    · rw [List.flatMap_map]
      refine List.flatMap_congr fun i hi => ?_
      rw [List.getElem?_eq_getElem (List.mem_range.1 hi)]; rfl
    · refine List.ext_getElem (by simp) fun i h1 h2 => ?_
      simp only [List.map_id, List.length_map] at h1
      simp [h1]
  rw [h1, List.append_assoc]
  congr 1
  rw [show (c :: cs).flatMap ShapedText.lines = c.lines ++ cs.flatMap ShapedText.lines from rfl, h3]
  simp only [List.map_map, List.flatMap_map, Function.comp_def, List.range_one, List.flatMap_cons, List.flatMap_nil, List.append_nil, Nat.add_zero, le_refl, if_true, Nat.sub_self,
    List.getElem?_cons_zero, Option.map_some, Option.getD_some, ColumnFill.lines_add, Shaped.lines, Tape.view, List.append_assoc]
  congr 2
  refine List.flatMap_congr fun i hi => ?_
  have hi := List.mem_range.1 hi
  have e1 : t.head + (1 + i) - t.head = i + 1 := by omega
  rw [if_pos (by omega), e1, List.getElem?_cons_succ, List.getElem?_eq_getElem hi]
  simp only [Option.map_some, Option.getD_some, ColumnFill.lines_add]
  rw [show t.head + (i + 1) = t.head + (1 + i) by omega]
  simp [ColumnFill.lines, ha (t.head + (1 + i)) (by omega), Shaped.lines]

theorem Tape.fill_box {t : Tape} {chunks : List ShapedText} (i : Nat) : ((t.fill (chunks.mapIdx fun i c => (t.view i).add (.text c))).cells i).box = (t.cells i).box := by
  unfold Tape.fill
  split
  · rfl
  · simp only
    split
    · rename_i hi
      rw [List.getElem?_mapIdx]
      cases chunks[i - t.head]? with
      | none => rfl
      | some c =>
        simp only [Option.map_some, Option.getD_some, ColumnFill.add, Tape.view]
        rw [show t.head + (i - t.head) = i by omega]
    · rfl

/-- The lines of a paragraph are added to both tapes. -/
theorem linesFill_placed {p : Paragraph} {avoid : Bool} {one : Prop} {lead height width : ℚ} (hl : 0 < lead) (h1 : one → p.optimal = none) (hh : ¬ one → lead ≤ height) {gs : List (List Passage)} {st : State} {t t' : Tape}
    (h : LinesFill p env lead gs st t t') : ∀ {u u' : Tape}, LinesFill { p with avoidOrphans := avoid } env lead gs st u u' → t.Fits one height → u.Fits one height →
      (∀ i, (t.cells i).box.width = width) → (∀ i, (u.cells i).box.width = width) →
      ∃ ls, t'.lines = t.lines ++ ls ∧ u'.lines = u.lines ++ ls := by
  induction h with
  | nil =>
    intro u u' hu _ _ _ _
    cases hu
    exact ⟨[], by simp, by simp⟩
  | cons line rest st t cmd words chunks t' g0 h2 h3 h4 ih =>
    intro u u' hu ft fu wt wu
    cases hu with
    | cons _ _ _ _ cmd2 words2 chunks2 _ k1 k2 k3 k4 =>
      rw [g0] at k1
      cases k1
      have free : ∀ {t : Tape} (o : OptParams), p.optimal = some o → t.Fits one height → ∀ i, 0 ≤ (t.cells i).heightFree := by
        intro t o ho ft i
        rcases ft.free i with k | ⟨k, -⟩
        · exact k
        · rw [h1 k] at ho; cases ho
      have e : chunks.flatMap ShapedText.lines = chunks2.flatMap ShapedText.lines := by
        unfold Paragraph.shape at h2 k2
        cases ho : p.optimal with
        | none =>
          simp only [ho] at h2 k2
          exact firstfit_placed (fun i => wt _) (fun i => wu _) h2 k2
        | some o =>
          simp only [ho] at h2 k2
          exact optimum_placed (fun i => ⟨wt _, free o ho ft _⟩) (fun i => ⟨wu _, free o ho fu _⟩) hl hl h2 k2
      have fits : ∀ {b : Bool} {t : Tape} {chunks : List ShapedText}, t.Fits one height → chunks ≠ [] →
          ({ p with avoidOrphans := b } : Paragraph).shape env (fun i => ((t.view i).box.width, (t.view i).heightFree)) lead (indentFirst words p.indent) (!(t.view 0).blocks.isEmpty) = some chunks →
          (t.fill (chunks.mapIdx fun i c => (t.view i).add (.text c))).Fits one height := by
        intro b t chunks ft hne hs
        refine ft.fill hl hh hne fun i c hi => ?_
        unfold Paragraph.shape at hs
        cases ho : p.optimal with
        | none =>
          simp only [ho] at hs
          exact C36_firstfit hl hs hi
        | some o =>
          simp only [ho] at hs
          exact C36_optimum_partial hl (fun i => free o ho ft _) hs hi
      have hst : chunksState chunks2 (cmd.apply st) = chunksState chunks (cmd.apply st) := by
        rw [chunksState_last, chunksState_last, e]
      rw [hst] at k4
      obtain ⟨ls, g1, g2⟩ := ih k4 (fits (b := p.avoidOrphans) ft h3 h2) (fits (b := avoid) fu k3 k2) (fun i => by rw [Tape.fill_box]; exact wt i) (fun i => by rw [Tape.fill_box]; exact wu i)
      rw [Tape.lines_fill ft.after h3] at g1
      rw [Tape.lines_fill fu.after k3] at g2
      exact ⟨chunks.flatMap ShapedText.lines ++ ls, by rw [g1, List.append_assoc], by rw [g2, e, List.append_assoc]⟩

/-- The boxes of the columns stay the same. -/
theorem linesFill_box {p : Paragraph} {lead : ℚ} {gs : List (List Passage)} {st : State} {t t' : Tape} (h : LinesFill p env lead gs st t t') : ∀ i, (t'.cells i).box = (t.cells i).box := by
  induction h with
  | nil => exact fun _ => rfl
  | cons line rest st t cmd words chunks t' _ _ _ _ ih => exact fun i => (ih i).trans (Tape.fill_box i)

/-- The loop over the blocks (`autoLoop_spec`), with the registry given to the first. -/
theorem autoLoop_first {pages : Nat → Page} (hpages : ∀ n, (pages n).columns ≠ []) (w : World) (s : StyleFull) (b : Block) (bs : List Block) (k : Nat) (doc : Nat → PageFill) (t : Tape) (r : Res)
    (h : PagesInv pages k doc t) (herr : (autoLoop w s (b :: bs) doc r).err = none) :
    ∃ filled r1 t', b.intoColumns w r s t.view = (some filled, r1) ∧ Fills w s bs (t.fill filled) t' ∧ ∃ P, (autoLoop w s (b :: bs) doc r).pages.length = P + 1 ∧
      offset pages (k + P) ≤ t'.head ∧ t'.head < offset pages (k + P + 1) ∧
      ∀ (j : Nat) (x : Written), (autoLoop w s (b :: bs) doc r).pages[j]? = some x → x.page = ⟨pages (k + j), t'.page pages (k + j)⟩ := by
  rw [autoLoop] at herr ⊢
  rw [h.view hpages] at herr ⊢
  cases hb : b.intoColumns w r s t.view with
  | mk o r1 =>
    rw [hb] at herr
    cases o with
    | none => cases herr
    | some filled =>
      simp only at herr ⊢
      obtain ⟨doc', completed, e1, e2, e3, e4⟩ := fillInto_spec hpages h filled
      rw [e1] at herr ⊢
      simp only at herr ⊢
      obtain ⟨h1, h2, h3⟩ := PagesRun.andThen_none herr
      rw [h3]
      have hp := writePages_pages w s _ r1 h1
      obtain ⟨t', f1, P, f2, f3, f4, f5⟩ := autoLoop_spec hpages w s bs (k + completed.length) doc' (t.fill filled) _ e4 h2
      have hlen : (writePages w s (completed.map fun p => ⟨p.base, p.done⟩) r1).pages.length = completed.length := by
        rw [← List.length_map (f := (·.page)), hp, List.length_map]
      refine ⟨filled, r1, t', rfl, f1, completed.length + P, ?_, ?_, ?_, ?_⟩
      · rw [List.length_append, hlen, f2]; omega
      · rw [← Nat.add_assoc]; exact f3
      · rw [← Nat.add_assoc]; exact f4
      · intro j x hx
        rw [List.getElem?_append, hlen] at hx
        split at hx
        · rename_i hj
          have hxp : ((writePages w s (completed.map fun p => ⟨p.base, p.done⟩) r1).pages.map (·.page))[j]? = some x.page := by
            rw [List.getElem?_map, hx]; rfl
          rw [hp, List.getElem?_map] at hxp
          cases hc : completed[j]? with
          | none => rw [List.getElem?_eq_none_iff] at hc; omega
          | some p =>
            rw [hc] at hxp
            simp only [Option.map_some, Option.some.injEq] at hxp
            rw [← hxp, e3 j p hc]
            have hbase : (completed.map (·.base))[j]? = some p.base := by rw [List.getElem?_map, hc]; rfl
            rw [e2, List.getElem?_map, List.getElem?_range hj] at hbase
            simp only [Option.map_some, Option.some.injEq] at hbase
            rw [hbase]
            congr 1
            refine Tape.page_congr fun i hi => (f1.before.2 i ?_).symm
            have := e4.lo
            have hm : offset pages (k + j + 1) ≤ offset pages (k + completed.length) := offset_mono (by omega)
            omega
        · rename_i hj
          rw [f5 _ x hx]
          have : k + completed.length + (j - completed.length) = k + j := by omega
          rw [this]


theorem flatMap_slices (f : Nat → ColumnFill) (pages : Nat → Page) : ∀ n, (List.range n).flatMap (fun j => slice f (offset pages j) (pages j).columns.length) = slice f 0 (offset pages n)
  | 0 => rfl
  | n + 1 => by
    have := slice_append f 0 (offset pages n) (pages n).columns.length
    rw [Nat.zero_add] at this
    rw [List.range_succ, List.flatMap_append, flatMap_slices f pages n, offset, ← this]
    simp

/-- The lines on the pages are those on the tape. -/
theorem pages_lines {pages : Nat → Page} {t : Tape} {height : ℚ} {one : Prop} (ht : t.Fits one height) {run : PagesRun} {P : Nat} (hlen : run.pages.length = P + 1) (hhi : t.head < offset pages (P + 1))
    (hx : ∀ (j : Nat) (x : Written), run.pages[j]? = some x → x.page = ⟨pages j, t.page pages j⟩) : run.lines = t.lines := by
  have e : run.pages.map (fun x => x.page.cols) = (List.range (P + 1)).map fun j => slice t.cells (offset pages j) (pages j).columns.length := by
    refine List.ext_getElem? fun j => ?_
    rw [List.getElem?_map, List.getElem?_map]
    by_cases hj : j < P + 1
    · rw [List.getElem?_range hj, List.getElem?_eq_getElem (by omega)]
      simp only [Option.map_some]
      rw [hx j _ (List.getElem?_eq_getElem (by omega))]
      rfl
    · rw [List.getElem?_eq_none (by omega), List.getElem?_eq_none (by simp; omega)]
      rfl
  have e2 : run.lines = (run.pages.flatMap fun x => x.page.cols).flatMap ColumnFill.lines := by
    rw [PagesRun.lines, List.flatMap_assoc]
  have e3 : (run.pages.flatMap fun x => x.page.cols) = slice t.cells 0 (offset pages (P + 1)) := by
    rw [List.flatMap_def, e, ← List.flatMap_def, flatMap_slices]
  rw [e2, e3]
  obtain ⟨m, hm⟩ : ∃ m, offset pages (P + 1) = (t.head + 1) + m := ⟨offset pages (P + 1) - (t.head + 1), by omega⟩
  rw [hm, slice, List.flatMap_map, List.range_add, List.flatMap_append, Tape.lines]
  simp only [Nat.zero_add]
  rw [List.append_right_eq_self]
  refine List.flatMap_eq_nil_iff.2 fun i hi => ?_
  obtain ⟨k, -, rfl⟩ := List.mem_map.1 hi
  simp [ColumnFill.lines, ht.after (t.head + 1 + k) (by omega)]

theorem new_lines {pages : Nat → Page} (hc : ∀ n, (pages n).columns ≠ []) {t0 : Tape} (h0 : t0.IsNew pages) : t0.lines = [] := by
  refine List.flatMap_eq_nil_iff.2 fun i _ => ?_
  obtain ⟨n, c, -, e⟩ := isNew_cells hc h0 i
  rw [e]; rfl

/-- What is needed of a paragraph to fill two tapes. -/
theorem paragraph_fills {w : World} {s : StyleFull} {r r1 r' : Res} (hr : r.bare = r'.bare) {p : Paragraph} {avoid : Bool} {one : Prop} {height width : ℚ}
    (hp : (Block.paragraph p).Lines s fun p l => (one → p.optimal = none) ∧ (¬ one → l ≤ height)) {t : Tape} {filled : List ColumnFill} (hx : (Block.paragraph p).intoColumns w r s t.view = (some filled, r1))
    {u : Tape} {filled' : List ColumnFill} {r2 : Res} (h' : (Block.paragraph { p with avoidOrphans := avoid }).intoColumns w r' s u.view = (some filled', r2))
    (ft : t.Fits one height) (fu : u.Fits one height) (wt : ∀ i, (t.cells i).box.width = width) (wu : ∀ i, (u.cells i).box.width = width) :
    ∃ ls, (t.fill filled).lines = t.lines ++ ls ∧ (u.fill filled').lines = u.lines ++ ls ∧ (t.fill filled).Fits one height ∧ (u.fill filled').Fits one height ∧ r1.bare = r2.bare ∧
      (∀ i, ((t.fill filled).cells i).box.width = width) ∧ ∀ i, ((u.fill filled').cells i).box.width = width := by
  obtain ⟨hr1, hr2⟩ := block_alike (w := w) hr (.paragraph { p with avoidOrphans := avoid }) s u.view
  rw [h'] at hr1 hr2
  obtain ⟨⟨o, r3⟩, h3⟩ : ∃ z, (Block.paragraph { p with avoidOrphans := avoid }).intoColumns w r s u.view = z := ⟨_, rfl⟩
  rw [h3] at hr1 hr2
  simp only at hr1 hr2
  subst hr1
  have hr3 : r1 = r3 := (congrArg Prod.snd hx).symm.trans (congrArg Prod.snd h3)
  rw [hr3]
  clear h'
  have h' := h3
  clear h3
  have h := hx
  obtain ⟨hne, hstr⟩ := hp
  have hc := contentStrings_passages (s.or p.style) p.style p.content r
  simp only [Block.intoColumns, Paragraph.intoColumns, Prod.mk.injEq] at h h'
  obtain ⟨h, -⟩ := h
  obtain ⟨h', -⟩ := h'
  rw [contentStrings_or] at hc
  generalize hps : (flattenSpan p.style (s.or p.style) [] p.content ((s.or p.style).asState r).2).1 = passages at *
  generalize hr : (flattenSpan p.style (s.or p.style) [] p.content ((s.or p.style).asState r).2).2.2 = r' at *
  generalize hst : ((s.or p.style).asState r).1 = st at *
  have hht : HasText (contentStrings s p.style p.content r') := by
    refine ⟨?_, fun e he _ => ?_⟩
    · obtain ⟨x, hx'⟩ := List.exists_mem_of_ne_nil _ hne
      exact ⟨_, List.mem_map_of_mem hx', (hstr x hx').1⟩
    · obtain ⟨x, hx', rfl⟩ := List.mem_map.1 he
      exact ⟨(hstr x hx').2.1, (hstr x hx').2.2.1⟩
  have hlead : IsLeading (contentStrings s p.style p.content r') (maxLead passages st) := by
    rw [hc]; exact maxLead_strings passages st (by rw [← hc]; exact hht)
  obtain ⟨⟨e, he, -, hel⟩, -⟩ := hlead
  obtain ⟨x, hx', rfl⟩ := List.mem_map.1 he
  replace hel : maxLead passages st = (s.overlay x.2).size * (s.overlay x.2).lineSpacing := hel
  obtain ⟨-, k1, k2, k3, k4⟩ := hstr x hx'
  have hl : 0 < maxLead passages st := by rw [hel]; exact mul_pos k1 k2
  have hh : ¬ one → maxLead passages st ≤ height := by rw [hel]; exact k4
  have j := (paragraphLoop_spec p _ _ _ t _ filled h).2
  have j' := (paragraphLoop_spec _ _ _ _ u _ filled' h').2
  obtain ⟨ls, g1, g2⟩ := linesFill_placed hl k3 hh j j' ft fu wt wu
  exact ⟨ls, g1, g2, linesFill_fits j hl k3 hh ft, linesFill_fits j' hl k3 hh fu, hr2, fun i => by rw [linesFill_box j]; exact wt i, fun i => by rw [linesFill_box j']; exact wu i⟩

/-- C100. A paragraph flows through pages, and again through pages that are different: with other templates, of other sizes, with more or fewer columns of other heights at other places, and with orphans
avoided or not. If all columns have the same width (and, with optimal line breaks, the height of a line) the lines are the same. -/
theorem C100_lines (w : World) (s : StyleFull) (r : Res) (p : Paragraph) (avoid : Bool) (template template' : Nat → Page) (n n' : Nat) {width height : ℚ} (hpos : 0 ≤ height)
    (hu : AutoPage.Uniform ⟨[.paragraph p], template⟩ width height) (hu' : AutoPage.Uniform ⟨[.paragraph { p with avoidOrphans := avoid }], template'⟩ width height)
    (hp : (Block.paragraph p).Lines s fun p l => p.optimal ≠ none → l ≤ height)
    (hok : (AutoPage.render ⟨[.paragraph p], template⟩ w s n r).err = none) (hok' : (AutoPage.render ⟨[.paragraph { p with avoidOrphans := avoid }], template'⟩ w s n' r).err = none) :
    (AutoPage.render ⟨[.paragraph p], template⟩ w s n r).lines = (AutoPage.render ⟨[.paragraph { p with avoidOrphans := avoid }], template'⟩ w s n' r).lines := by
  have hc : ∀ k, ((fun k => template (n + k)) k).columns ≠ [] := fun k => (hu _).1
  have hc' : ∀ k, ((fun k => template' (n' + k)) k).columns ≠ [] := fun k => (hu' _).1
  obtain ⟨t0, h0⟩ := exists_newTape hc
  obtain ⟨u0, h0'⟩ := exists_newTape hc'
  obtain ⟨filled, r1, t', a1, a2, P, a3, -, a4, a5⟩ := autoLoop_first hc w s _ [] 0 _ t0 r (PagesInv.ofNew hc t0 h0) hok
  obtain ⟨filled', r2, u', b1, b2, Q, b3, -, b4, b5⟩ := autoLoop_first hc' w s _ [] 0 _ u0 r (PagesInv.ofNew hc' u0 h0') hok'
  cases a2
  cases b2
  have wt : ∀ i, (t0.cells i).box.width = width := fun i => by
    obtain ⟨k, c, hm, e⟩ := isNew_cells hc h0 i
    rw [e]; exact ((hu _).2 c hm).1
  have wu : ∀ i, (u0.cells i).box.width = width := fun i => by
    obtain ⟨k, c, hm, e⟩ := isNew_cells hc' h0' i
    rw [e]; exact ((hu' _).2 c hm).1
  obtain ⟨ls, g1, g2, g3, g4, -⟩ := paragraph_fills (one := p.optimal = none) rfl ⟨hp.1, fun e he => ⟨(hp.2 e he).1, (hp.2 e he).2.1, (hp.2 e he).2.2.1, id, (hp.2 e he).2.2.2⟩⟩ a1 b1 (new_fits hc hpos (fun k c hm => ((hu _).2 c hm).2) h0) (new_fits hc' hpos (fun k c hm => ((hu' _).2 c hm).2) h0') wt wu
  simp only [Nat.zero_add] at a4 a5 b4 b5
  have x1 := pages_lines g3 a3 a4 a5
  have x2 := pages_lines g4 b3 b4 b5
  rw [new_lines hc h0, List.nil_append] at g1
  rw [new_lines hc' h0', List.nil_append] at g2
  exact (x1.trans g1).trans (x2.trans g2).symm

/-- The blocks are the same paragraphs, but orphans may be avoided in one and not in the other. -/
def SameParagraphs (a b : Block) : Prop := ∃ p avoid, a = .paragraph p ∧ b = .paragraph { p with avoidOrphans := avoid }

/-- Paragraphs, one after another. -/
theorem fills_placed {w : World} {s : StyleFull} {one : Prop} {height width : ℚ} {bs : List Block} {r : Res} {t t' : Tape} (h : FillsFrom w s bs r t t') :
    ∀ {bs' : List Block} {r' : Res} {u u' : Tape}, FillsFrom w s bs' r' u u' → r.bare = r'.bare → List.Forall₂ SameParagraphs bs bs' →
      (∀ b ∈ bs, b.Lines s fun p l => (one → p.optimal = none) ∧ (¬ one → l ≤ height)) → t.Fits one height → u.Fits one height →
      (∀ i, (t.cells i).box.width = width) → (∀ i, (u.cells i).box.width = width) →
      ∃ ls, t'.lines = t.lines ++ ls ∧ u'.lines = u.lines ++ ls ∧ t'.Fits one height ∧ u'.Fits one height := by
  induction h with
  | nil r t =>
    intro bs' r' u u' hu _ hb _ ft fu _ _
    cases hb
    cases hu
    exact ⟨[], by simp, by simp, ft, fu⟩
  | cons b bs t r r1 r2 filled t' h1 h2 h3 ih =>
    intro bs' r' u u' hu hr hb hl ft fu wt wu
    cases hb with
    | cons hb hbs =>
      obtain ⟨p, avoid, rfl, rfl⟩ := hb
      cases hu with
      | cons _ _ _ _ r1' r2' filled' _ k1 k2 k3 =>
        obtain ⟨ls, g1, g2, g3, g4, g5, g6, g7⟩ := paragraph_fills hr (hl _ (by simp)) h1 k1 ft fu wt wu
        obtain ⟨ms, m1, m2, m3, m4⟩ := ih k3 (h2.trans (g5.trans k2.symm)) hbs (fun b hb => hl b (List.mem_cons_of_mem _ hb)) g3 g4 g6 g7
        exact ⟨ls ++ ms, by rw [m1, g1, List.append_assoc], by rw [m2, g2, List.append_assoc], m3, m4⟩

/-- C100 for several paragraphs: they flow through pages, and again through other pages, if the templates draw no text. Either all paragraphs are broken by first-fit, or all columns have
the height of each line. -/
theorem C100_paragraphs (w : World) (s : StyleFull) (r : Res) {bs bs' : List Block} (hb : List.Forall₂ SameParagraphs bs bs') (template template' : Nat → Page) (n n' : Nat) {width height : ℚ}
    (hpos : 0 ≤ height) (hu : AutoPage.Uniform ⟨bs, template⟩ width height) (hu' : AutoPage.Uniform ⟨bs', template'⟩ width height)
    (hg : ∀ k, ∀ d ∈ (template k).content, d.Graphic) (hg' : ∀ k, ∀ d ∈ (template' k).content, d.Graphic)
    (hp : (∀ b ∈ bs, b.Lines s fun p _ => p.optimal = none) ∨ ∀ b ∈ bs, b.Lines s fun _ l => l ≤ height)
    (hok : (AutoPage.render ⟨bs, template⟩ w s n r).err = none) (hok' : (AutoPage.render ⟨bs', template'⟩ w s n' r).err = none) :
    (AutoPage.render ⟨bs, template⟩ w s n r).lines = (AutoPage.render ⟨bs', template'⟩ w s n' r).lines := by
  have hc : ∀ k, ((fun k => template (n + k)) k).columns ≠ [] := fun k => (hu _).1
  have hc' : ∀ k, ((fun k => template' (n' + k)) k).columns ≠ [] := fun k => (hu' _).1
  obtain ⟨t0, h0⟩ := exists_newTape hc
  obtain ⟨u0, h0'⟩ := exists_newTape hc'
  obtain ⟨t', a2, P, a3, -, a4, a5⟩ := autoLoop_from hc (fun k => hg _) w s _ 0 _ t0 r (PagesInv.ofNew hc t0 h0) hok
  obtain ⟨u', b2, Q, b3, -, b4, b5⟩ := autoLoop_from hc' (fun k => hg' _) w s _ 0 _ u0 r (PagesInv.ofNew hc' u0 h0') hok'
  have wt : ∀ i, (t0.cells i).box.width = width := fun i => by
    obtain ⟨k, c, hm, e⟩ := isNew_cells hc h0 i
    rw [e]; exact ((hu _).2 c hm).1
  have wu : ∀ i, (u0.cells i).box.width = width := fun i => by
    obtain ⟨k, c, hm, e⟩ := isNew_cells hc' h0' i
    rw [e]; exact ((hu' _).2 c hm).1
  obtain ⟨one, hone⟩ : ∃ one : Prop, ∀ b ∈ bs, b.Lines s fun p l => (one → p.optimal = none) ∧ (¬ one → l ≤ height) := by
    rcases hp with hp | hp
    · refine ⟨True, fun b hb => ?_⟩
      have := hp b hb
      cases b with
      | rule x => exact this
      | paragraph p => exact ⟨this.1, fun e he => ⟨(this.2 e he).1, (this.2 e he).2.1, (this.2 e he).2.2.1, fun _ => (this.2 e he).2.2.2, by simp⟩⟩
    · refine ⟨False, fun b hb => ?_⟩
      have := hp b hb
      cases b with
      | rule x => exact this
      | paragraph p => exact ⟨this.1, fun e he => ⟨(this.2 e he).1, (this.2 e he).2.1, (this.2 e he).2.2.1, by simp, fun _ => (this.2 e he).2.2.2⟩⟩
  obtain ⟨ls, g1, g2, g3, g4⟩ := fills_placed a2 b2 rfl hb hone (new_fits hc hpos (fun k c hm => ((hu _).2 c hm).2) h0) (new_fits hc' hpos (fun k c hm => ((hu' _).2 c hm).2) h0') wt wu
  simp only [Nat.zero_add] at a4 a5 b4 b5
  have x1 := pages_lines g3 a3 a4 a5
  have x2 := pages_lines g4 b3 b4 b5
  rw [new_lines hc h0, List.nil_append] at g1
  rw [new_lines hc' h0', List.nil_append] at g2
  exact (x1.trans g1).trans (x2.trans g2).symm

/-! ### A text on narrow pages with a low column, and on pages with two higher columns and a drawing -/

/-- The paragraph of the example of C65: text, bold text and a newline, justified. -/
def placedParagraph : Paragraph := ⟨[.str ['a', 'b', 'c', ' ', 'a'], .span [.str ['b', '\n']] ⟨none, some 20, some true, none, none, none, none⟩], Style.empty, .justify, 5, true, none⟩

def lowTemplate : Nat → Page := fun _ => ⟨[], (100, 100), 0, [⟨(0, 0), 40, 30⟩]⟩

def highTemplate : Nat → Page := fun n => ⟨[.rect (0, 0) n 10 none none], (300, 200), 90, [⟨(20, 20), 40, 100⟩, ⟨(80, 20), 40, 60 + n⟩]⟩

theorem placed_all {bs : List Block} (hbs : ∀ b ∈ bs, ∃ avoid, b = .paragraph { placedParagraph with avoidOrphans := avoid }) {template : Nat → Page} (ht : ∀ n, (template n).columns ≠ [] ∧ (∀ c ∈ (template n).columns, 0 ≤ c.height) ∧ ∀ d ∈ (template n).content, d.Drawable ∧ d.strings = [] ∧ d.Known)
    (n : Nat) : (AutoPage.render ⟨bs, template⟩ demoWorld demoStyle n Res.empty).err = none := by
  refine (item_written demoWorld_ok demoWorld_hyphen (s := demoStyle) (by show _ ∈ _; decide +kernel) (alphabet := ['a', 'b', 'c', ' ', '\n'])
    (it := .auto ⟨bs, template⟩) (A := fun _ => True) ⟨?_, fun n d hd => ((ht n).2.2 d hd).2.2⟩ ⟨fun n => ⟨(ht n).1, (ht n).2.1, ?_⟩, ?_⟩
    (fun _ _ => trivial) trivial n Res.empty Res.wf_empty).1
  · intro b hb
    obtain ⟨avoid, rfl⟩ := hbs b hb
    refine ⟨?_, by simp [Style.Known, Style.empty, placedParagraph]⟩
    intro i hi
    simp only [placedParagraph, List.mem_cons, List.not_mem_nil, or_false] at hi
    rcases hi with rfl | rfl
    · exact .str _
    · exact .span _ _ (by simp [Item.Known.str]) (by simp [Style.Known])
  · intro d hd
    obtain ⟨h1, h2, -⟩ := (ht n).2.2 d hd
    exact ⟨h1, by simp [h2]⟩
  · intro b hb
    obtain ⟨avoid, rfl⟩ := hbs b hb
    refine ⟨⟨rfl, (by decide +kernel : 0 < (demoStyle.or Style.empty).size), (by decide +kernel : 0 < (demoStyle.or Style.empty).lineSpacing), ?_⟩, ?_⟩
    · simp only [itemsStrings, Item.strings, placedParagraph]; decide +kernel
    · simp [Block.strings, itemsStrings, Item.strings, StringOver, placedParagraph]

theorem placed_ok (avoid : Bool) {template : Nat → Page} (ht : ∀ n, (template n).columns ≠ [] ∧ (∀ c ∈ (template n).columns, 0 ≤ c.height) ∧ ∀ d ∈ (template n).content, d.Drawable ∧ d.strings = [] ∧ d.Known)
    (n : Nat) : (AutoPage.render ⟨[.paragraph { placedParagraph with avoidOrphans := avoid }], template⟩ demoWorld demoStyle n Res.empty).err = none :=
  placed_all (by simp) ht n

theorem highTemplate_ok (n : Nat) : (highTemplate n).columns ≠ [] ∧ (∀ c ∈ (highTemplate n).columns, c.width = 40 ∧ 30 ≤ c.height) ∧ ∀ d ∈ (highTemplate n).content, d.Drawable ∧ d.strings = [] ∧ d.Known := by
  refine ⟨by simp [highTemplate], ?_, ?_⟩
  · intro c hc
    simp only [highTemplate, List.mem_cons, List.not_mem_nil, or_false] at hc
    have : (0 : ℚ) ≤ n := Nat.cast_nonneg n
    rcases hc with rfl | rfl
    · norm_num
    · refine ⟨rfl, ?_⟩
      show (30 : ℚ) ≤ 60 + n
      linarith
  · intro d hd
    simp only [highTemplate, List.mem_singleton] at hd
    subst hd
    exact ⟨trivial, rfl, trivial⟩

example : (AutoPage.render ⟨[.paragraph placedParagraph], lowTemplate⟩ demoWorld demoStyle 1 Res.empty).lines =
    (AutoPage.render ⟨[.paragraph { placedParagraph with avoidOrphans := false }], highTemplate⟩ demoWorld demoStyle 7 Res.empty).lines := by
  refine C100_lines demoWorld demoStyle Res.empty placedParagraph false lowTemplate highTemplate 1 7 (width := 40) (height := 30) (by norm_num) (fun n => ⟨by simp [lowTemplate], by simp [lowTemplate]⟩)
    (fun n => ⟨by simp [highTemplate], ?_⟩) ⟨by simp [placedParagraph, itemsStrings, Item.strings], ?_⟩
    (placed_ok true (template := lowTemplate) (fun n => ⟨by simp [lowTemplate], by simp [lowTemplate], by simp [lowTemplate]⟩) 1)
    (placed_ok false (template := highTemplate) (fun n => ⟨by simp [highTemplate], ?_, ?_⟩) 7)
  · intro c hc
    simp only [highTemplate, List.mem_cons, List.not_mem_nil, or_false] at hc
    rcases hc with rfl | rfl
    · norm_num
    · refine ⟨rfl, ?_⟩
      have : (0 : ℚ) ≤ n := Nat.cast_nonneg n
      show (30 : ℚ) ≤ 60 + n
      linarith
  · intro e he
    simp only [placedParagraph, itemsStrings, Item.strings, List.nil_append, List.append_nil, List.cons_append, List.mem_cons, List.not_mem_nil, or_false] at he
    rcases he with rfl | rfl <;> decide +kernel
  · intro c hc
    simp only [highTemplate, List.mem_cons, List.not_mem_nil, or_false] at hc
    rcases hc with rfl | rfl
    · norm_num
    · have : (0 : ℚ) ≤ n := Nat.cast_nonneg n
      show (0 : ℚ) ≤ 60 + n
      linarith
  · intro d hd
    simp only [highTemplate, List.mem_singleton] at hd
    subst hd
    exact ⟨trivial, rfl, trivial⟩

/-- Three paragraphs. -/
example : (AutoPage.render ⟨[.paragraph placedParagraph, .paragraph { placedParagraph with avoidOrphans := false }, .paragraph placedParagraph], lowTemplate⟩ demoWorld demoStyle 1 Res.empty).lines =
    (AutoPage.render ⟨[.paragraph { placedParagraph with avoidOrphans := false }, .paragraph placedParagraph, .paragraph placedParagraph], highTemplate⟩ demoWorld demoStyle 7 Res.empty).lines := by
  refine C100_paragraphs demoWorld demoStyle Res.empty (.cons ⟨placedParagraph, false, rfl, rfl⟩ (.cons ⟨{ placedParagraph with avoidOrphans := false }, true, rfl, rfl⟩
    (.cons ⟨placedParagraph, true, rfl, rfl⟩ .nil))) lowTemplate highTemplate 1 7 (width := 40) (height := 30) (by norm_num) (fun n => ⟨by simp [lowTemplate], by simp [lowTemplate]⟩)
    (fun n => ⟨(highTemplate_ok n).1, (highTemplate_ok n).2.1⟩) (fun n => by simp [lowTemplate]) (fun n => by simp [highTemplate, Drawing.Graphic]) (.inr ?_)
    (placed_all ?_ (template := lowTemplate) (fun n => ⟨by simp [lowTemplate], by simp [lowTemplate], by simp [lowTemplate]⟩) 1)
    (placed_all ?_ (template := highTemplate) (fun n => ⟨(highTemplate_ok n).1, fun c hc => le_trans (by norm_num) ((highTemplate_ok n).2.1 c hc).2, (highTemplate_ok n).2.2⟩) 7)
  · have key : ∀ avoid, (Block.paragraph { placedParagraph with avoidOrphans := avoid }).Lines demoStyle fun _ l => l ≤ 30 := by
      refine fun avoid => ⟨by simp [placedParagraph, itemsStrings, Item.strings], ?_⟩
      intro e he
      simp only [placedParagraph, itemsStrings, Item.strings, List.nil_append, List.append_nil, List.cons_append, List.mem_cons, List.not_mem_nil, or_false] at he
      rcases he with rfl | rfl <;> exact ⟨by decide +kernel, by decide +kernel, by decide +kernel, show (_ : ℚ) * _ ≤ 30 by simp [Style.empty, StyleFull.overlay]; decide +kernel⟩
    intro b hb
    simp only [List.mem_cons, List.not_mem_nil, or_false] at hb
    rcases hb with rfl | rfl | rfl
    · exact key true
    · exact key false
    · exact key true
  · intro b hb
    simp only [List.mem_cons, List.not_mem_nil, or_false] at hb
    rcases hb with rfl | rfl | rfl
    · exact ⟨true, rfl⟩
    · exact ⟨false, rfl⟩
    · exact ⟨true, rfl⟩
  · intro b hb
    simp only [List.mem_cons, List.not_mem_nil, or_false] at hb
    rcases hb with rfl | rfl | rfl
    · exact ⟨false, rfl⟩
    · exact ⟨true, rfl⟩
    · exact ⟨true, rfl⟩

end Pdfje
