import Verif.Spec.Newlines
import Verif.Proofs.IsolatedPages
import Verif.Proofs.Layout
import Verif.Proofs.Fixed
import Verif.Props.Wrapped
/-
Proofs for C96.
-/

namespace Pdfje
open PdfSpec

/-! ### Fonts that keep their numbers -/

section
variable {ν : Renaming} {P : FontRef → Prop}

theorem stateSelf (h : ∀ f, P f → ν.font f = f) {s : State} (hs : P s.font) : s.via ν.change = s := by
  simp only [State.via, Renaming.change, h _ hs, one_mul, id]

mutual
theorem commandSelf (h : ∀ f, P f → ν.font f = f) : ∀ (c : Command), c.Fonts P → c.via ν.change = c
  | .noop, _ => rfl
  | .setFont f z, hc => by
    have : P f := hc (.tf f z) (by simp [Command.ops])
    rw [setFont_via, h f this]
  | .setColor _, _ => rfl
  | .setLineSpacing _, _ => rfl
  | .setHyphens _, _ => rfl
  | .chain l, hc => by
    rw [Command.via, commandsSelf h l fun op hop => hc op (by rw [Command.ops]; exact hop)]
theorem commandsSelf (h : ∀ f, P f → ν.font f = f) : ∀ (l : List Command), (∀ op ∈ opsAll l, op.Fonts P) → commandsVia ν.change l = l
  | [], _ => rfl
  | c :: cs, hc => by
    rw [commandsVia, commandSelf h c fun op hop => hc op (by rw [opsAll]; simp [hop]), commandsSelf h cs fun op hop => hc op (by rw [opsAll]; simp [hop])]
end

theorem mapSelf {α} {f : α → α} {l : List α} (h : ∀ x ∈ l, f x = x) : l.map f = l := (List.map_congr_left h).trans (List.map_id' l)

theorem slugSelf (h : ∀ f, P f → ν.font f = f) {s : Slug} (hs : P s.state.font) : s.via ν.change = s := by
  simp only [Slug.via, stateSelf h hs]
  simp [Renaming.change]

theorem boxSelf (h : ∀ f, P f → ν.font f = f) {b : Box} (hb : b.Fonts P) : b.via ν.change = b := by
  cases b with
  | slug s => rw [Box.via, slugSelf h hb]
  | mixed segs st =>
    rw [Box.via, stateSelf h hb.2, mapSelf]
    intro e he
    rw [segVia, slugSelf h (hb.1 e he).1, commandSelf h _ (hb.1 e he).2]

theorem wordSelf (h : ∀ f, P f → ν.font f = f) {w : Word} (hw : w.Fonts P) : w.via ν.change = w := by
  simp only [Word.via, stateSelf h hw.2, mapSelf fun b hb => boxSelf h (hw.1 b hb)]
  have : w.tail.map (TrailingSpace.via ν.change) = w.tail := by
    cases w.tail with
    | none => rfl
    | some t => simp [TrailingSpace.via, Renaming.change]
  rw [this]

theorem wordLikeSelf (h : ∀ f, P f → ν.font f = f) : ∀ {w : WordLike}, w.Fonts P → w.via ν.change = w
  | .box b, hw => by rw [WordLike.via, boxSelf h hw]
  | .word w, hw => by rw [WordLike.via, wordSelf h hw]
  | .withCmd w c, hw => by rw [WordLike.via, wordLikeSelf h hw.1, commandSelf h c hw.2]

theorem shapedSelf (h : ∀ f, P f → ν.font f = f) {s : Shaped} (hs : s.Fonts P) : s.via ν.change = s := by
  cases s with
  | rule a b c d => simp [Shaped.via, Renaming.change, Rescale.pt]
  | text t =>
    rw [Shaped.via]
    congr 1
    have : t.lines.map (TLine.via ν.change) = t.lines := mapSelf fun l hl => by
      simp only [TLine.via]
      rw [mapSelf fun w hw => wordLikeSelf h (hs l hl w hw)]
      simp [Renaming.change]
    simp only [ShapedText.via, this]
    simp [Renaming.change]

theorem columnSelf (h : ∀ f, P f → ν.font f = f) {c : ColumnFill} (hc : c.Fonts P) : c.via ν.change = c := by
  have : (c.blocks.map fun e => (ν.change.pt e.1, e.2.via ν.change)) = c.blocks := mapSelf fun e he => by
    rw [shapedSelf h (hc e he)]
    simp [Renaming.change, Rescale.pt]
  simp only [ColumnFill.via, this]
  simp [Renaming.change, Column.via, Rescale.pt]

end

/-- Numbers of fonts stay when more fonts are registered. -/
theorem Renaming.Good.self {ν : Renaming} {r r' : Res} (hr : r'.WF) (hle : r.Le r') (h : ν.Good r r') : ∀ f, r.Knows f → ν.font f = f := by
  intro f hf
  cases f with
  | builtin b => exact h.standard b
  | subset i =>
    have hi : i < r.subKeys.length := by
      have : i < r.subsets.length := hf
      simpa [Res.subKeys] using this
    have hk : r.subKeys[i]? = some r.subKeys[i] := List.getElem?_eq_getElem hi
    obtain ⟨j, e, hj⟩ := h.embedded i _ hk
    rw [e, nodup_index hr.subKeys hj (subKeys_le hle hk)]

theorem pair_le {r r' : Res} (h : r.WF) (h' : r'.WF) (hle : r.Le r') : r.Pair r' := by
  refine ⟨h, h', fun k hk => ?_⟩
  obtain ⟨i, hi⟩ := List.mem_iff_getElem?.1 hk
  exact List.mem_of_getElem? (subKeys_le hle hi)

/-! ### One style -/

section
variable {env : Env} {s : State}

theorem raggedLines_same {frags : List Fragment} (h : ∀ f ∈ frags, f.Fixed s) : ∀ {brs : List KBreak} {prev : Nat}, ∀ l ∈ raggedLines frags prev brs, FixedAll s l.words
  | [], prev => by simp [raggedLines]
  | br :: brs, prev => by
    intro l hl
    rw [raggedLines] at hl
    rcases List.mem_cons.mp hl with rfl | hl
    · exact lineWords_fixed fun f hf => h f (List.mem_of_mem_take (List.mem_of_mem_drop hf))
    · exact raggedLines_same h l hl

theorem intoLines_same {justify : Bool} {brs : List KBreak} {frags : List Fragment} (h : ∀ f ∈ frags, f.Fixed s) : ∀ l ∈ intoLines justify brs frags, FixedAll s l.words := by
  unfold intoLines
  split
  · intro l hl
    obtain ⟨e, he, rfl⟩ := List.mem_map.mp hl
    have := raggedLines_same h (brs := brs) (prev := 0) e.2 (List.of_mem_zip he).2
    intro w hw
    obtain ⟨x, hx, rfl⟩ := List.mem_map.mp hw
    exact WordLike.stretchTail_fixed _ (this x hx)
  · exact fun l hl => raggedLines_same h l hl

theorem breakLines_same {p : OptParams} {justify : Bool} {fbs : List (Fragment × KBox)} {q : ColQueue} {ls : List TLine} (h : ∀ e ∈ fbs, e.1.Fixed s)
    (hb : breakLines p justify fbs q = some ls) : ∀ l ∈ ls, FixedAll s l.words := by
  unfold breakLines at hb
  simp only [Option.map_eq_some_iff] at hb
  obtain ⟨brs, -, rfl⟩ := hb
  apply intoLines_same
  intro f hf
  obtain ⟨e, he, rfl⟩ := List.mem_map.mp hf
  exact h e he

theorem groupLines_same {q : ColQueue} {ls : List TLine} (h : ∀ l ∈ ls, FixedAll s l.words) : ∀ g ∈ groupLines q ls, ∀ l ∈ g, FixedAll s l.words :=
  fun g hg l hl => h l (linesPerColumn_mem g hg l hl)

theorem orphanLoop_same {p : OptParams} {justify : Bool} {fbs : List (Fragment × KBox)} {q : ColQueue} {groups out : List (List TLine)}
    (hf : ∀ e ∈ fbs, e.1.Fixed s) (hg : ∀ g ∈ groups, ∀ l ∈ g, FixedAll s l.words) (h : orphanLoop p justify fbs q groups = some out) :
    ∀ g ∈ out, ∀ l ∈ g, FixedAll s l.words := by
  refine orphanLoop.partial_correctness p justify fbs (motive := fun q groups out => (∀ g ∈ groups, ∀ l ∈ g, FixedAll s (TLine.words l)) → ∀ g ∈ out, ∀ l ∈ g, FixedAll s (TLine.words l))
    ?_ q groups out h hg
  clear h hg q groups out
  intro rec ih q groups out h hg
  split at h
  · simp at h
  · simp only [Option.some.injEq] at h; subst h; exact hg
  · split at h
    · simp at h
    · rename_i lines hl
      split at h
      · simp at h
      · split at h
        · simp only [Option.some.injEq] at h; subst h; exact hg
        · exact ih _ _ _ h (groupLines_same (breakLines_same hf hl))

theorem placeLines_same {p : OptParams} {justify ao : Bool} {fbs : List (Fragment × KBox)} {q : ColQueue} {lines : List TLine} {out : List (List TLine)}
    (hf : ∀ e ∈ fbs, e.1.Fixed s) (hl : ∀ l ∈ lines, FixedAll s l.words) (h : placeLines p justify ao fbs q lines = some out) : ∀ g ∈ out, ∀ l ∈ g, FixedAll s l.words := by
  unfold placeLines at h
  split at h
  · exact orphanLoop_same hf (groupLines_same hl) h
  · simp only [Option.some.injEq] at h; subst h; exact groupLines_same hl

theorem cons_nil_same {out : List (List TLine)} (h : ∀ g ∈ out, ∀ l ∈ g, FixedAll s l.words) : ∀ g ∈ [] :: out, ∀ l ∈ g, FixedAll s l.words := by
  intro g hg
  rcases List.mem_cons.mp hg with rfl | hg
  · simp
  · exact h g hg

theorem shapeFrom_same {p : OptParams} {justify ao ae : Bool} {fbs : List (Fragment × KBox)} {q : ColQueue} {out : List (List TLine)}
    (hf : ∀ e ∈ fbs, e.1.Fixed s) (h : shapeFrom p justify ao ae fbs q = some out) : ∀ g ∈ out, ∀ l ∈ g, FixedAll s l.words := by
  unfold shapeFrom at h
  split at h
  · simp only [Option.some.injEq] at h; subst h; simp [FixedAll]
  · split at h
    · cases h
    · rename_i lines hl
      split at h
      · split at h
        · cases h
        · rename_i lines' hl'
          simp only [Option.map_eq_some_iff] at h
          obtain ⟨o, h, rfl⟩ := h
          exact cons_nil_same (placeLines_same hf (breakLines_same hf hl') h)
      · exact placeLines_same hf (breakLines_same hf hl) h

theorem optimumShape_same {cols : Cols} {lead : ℚ} {ao : Bool} {align : Align} {p : OptParams} {ws : List WordLike} {ae : Bool} {out : List ShapedText}
    (hw : FixedAll s ws) (h : optimumShape env cols lead ao align p ws ae = some out) : ∀ t ∈ out, ∀ l ∈ t.lines, FixedAll s l.words := by
  unfold optimumShape at h
  split at h
  · cases h
  · split at h
    · cases h
    · rename_i fbs hb
      have hf : ∀ e ∈ fbs, e.1.Fixed s := fragsLoop_fixed _ ws _ _ _ fbs hw hb
      simp only [Option.map_eq_some_iff] at h
      obtain ⟨chunks, hc, rfl⟩ := h
      have hk : ∀ ls ∈ chunks, ∀ l ∈ ls, FixedAll s l.words := by
        split at hc
        · simp only [Option.map_eq_some_iff] at hc
          obtain ⟨o, hc, rfl⟩ := hc
          exact cons_nil_same (shapeFrom_same hf hc)
        · exact shapeFrom_same hf hc
      intro t ht
      obtain ⟨ls, hls, rfl⟩ := List.mem_map.mp ht
      exact hk ls hls

end

/-- The style after a text in one style. -/
theorem fillParagraph_state {p : Paragraph} {env : Env} {t : List Char} {cs : Nat → ColumnFill} {st st' : State} {lead : ℚ} {done : List ColumnFill}
    (h : fillParagraph p env [⟨.noop, t⟩] cs st lead = some (done, st')) : st' = st := by
  have hw : ∀ cmd ws, intoWords env [⟨.noop, t⟩] st = some (cmd, ws) → cmd.apply st = st ∧ FixedAll st ws := by
    intro cmd ws hi
    by_cases h0 : t = []
    · subst h0
      simp only [intoWords, foldCommands, ne_eq, not_true_eq_false, if_false, List.nil_append, squash_one, Option.some.injEq, Prod.mk.injEq] at hi
      obtain ⟨rfl, rfl⟩ := hi
      exact ⟨rfl, by intro x hx; simp at hx⟩
    · simp only [intoWords, foldCommands, ne_eq, h0, not_false_eq_true, if_true, List.nil_append, squash_one, Option.map_eq_some_iff, Prod.mk.injEq] at hi
      obtain ⟨ws', hp, rfl, rfl⟩ := hi
      exact ⟨rfl, parse_fixed (s := st) _ _ _ _ (Nat.lt_succ_self _) (by simp) hp⟩
  unfold fillParagraph at h
  split at h
  · cases h
  · rename_i cmd ws hi
    obtain ⟨h1, h2⟩ := hw cmd ws hi
    simp only [Option.map_eq_some_iff, Prod.mk.injEq] at h
    obtain ⟨chunks, hc, -, rfl⟩ := h
    refine chunksState_fixed ?_ h1
    unfold Paragraph.shape at hc
    have h3 := indentFirst_fixed (s := st) p.indent h2
    split at hc
    · exact optimumShape_same h3 hc
    · exact firstfit_fixed hc h3

/-! ### Newlines -/

theorem nextNewline_line : ∀ {l : List Char}, '\n' ∉ l → nextNewline l = none
  | [], _ => rfl
  | c :: l, h => by
    have h1 : c ≠ '\n' := fun e => h (by simp [e])
    have h2 : '\n' ∉ l := fun e => h (by simp [e])
    rw [nextNewline.eq_def]
    split
    · rfl
    · rename_i heq; simp only [List.cons.injEq] at heq; exact absurd (by simp [heq.2]) h2
    · rename_i heq; simp only [List.cons.injEq] at heq; exact absurd heq.1 h1
    · rename_i heq
      simp only [List.cons.injEq] at heq
      obtain ⟨rfl, rfl⟩ := heq
      rw [nextNewline_line h2]; rfl

theorem nextNewline_join : ∀ {l : List Char} (t : List Char), IsLine l → nextNewline (l ++ '\n' :: t) = some (l, t)
  | [], t, _ => by rw [List.nil_append, nextNewline.eq_def]; simp
  | c :: l, t, h => by
    have h1 : c ≠ '\n' := fun e => h.1 (by simp [e])
    have h2 : '\n' ∉ l := fun e => h.1 (by simp [e])
    have h3 : l.getLast? ≠ some '\r' := by
      intro e
      apply h.2
      rw [List.getLast?_cons, e]; rfl
    rw [List.cons_append, nextNewline.eq_def]
    split
    · rename_i heq; cases heq
    · rename_i rest heq
      simp only [List.cons.injEq] at heq
      cases l with
      | nil => exact absurd (by rw [heq.1]; rfl) h.2
      | cons d l =>
        simp only [List.cons_append, List.cons.injEq] at heq
        exact absurd (by simp [heq.2.1]) h2
    · rename_i heq; simp only [List.cons.injEq] at heq; exact absurd heq.1 h1
    · rename_i heq
      simp only [List.cons.injEq] at heq
      obtain ⟨rfl, rfl⟩ := heq
      rw [nextNewline_join t ⟨h2, h3⟩]; rfl

theorem splitFrom_pos (t : List Char) : splitFrom .noop t true [] = splitFrom .noop t false [] := by
  cases h : nextNewline t with
  | none => rw [splitFrom_none h, splitFrom_none h]; simp
  | some x => obtain ⟨a, b⟩ := x; rw [splitFrom_some h, splitFrom_some h]; simp

theorem paragraphLoop_ofText (p : Paragraph) (t : List Char) (env : Env) (lead : ℚ) : ∀ (ls : List (List Passage)) (cs : Nat → ColumnFill) (st : State),
    paragraphLoop (p.ofText t) env lead ls cs st = paragraphLoop p env lead ls cs st := fun ls cs st => paragraphLoop_with p [.str t] p.style env lead ls cs st

/-- Columns filled with a text. -/
theorem ofText_columns (p : Paragraph) (w : World) (s : StyleFull) (r : Res) (cs : Nat → ColumnFill) (t : List Char) :
    (Block.paragraph (p.ofText t)).intoColumns w r s cs =
      (paragraphLoop p (w.env ((s.or p.style).asState r).2) ((s.or p.style).asState r).1.lead (splitFrom .noop t false []) cs ((s.or p.style).asState r).1, ((s.or p.style).asState r).2) := by
  have hst : (p.ofText t).style = p.style := rfl
  have hct : (p.ofText t).content = [.str t] := rfl
  have hf : ∀ r, flattenSpan p.style (s.or p.style) [] [.str t] r = ([⟨.noop, t⟩], [.full (s.or p.style) ((s.or p.style).or p.style)], r) := by
    intro r
    simp only [flattenSpan, flattenItems, List.nil_append, runTodo, run_idem, List.append_nil]
    rfl
  have hl : ∀ st : State, maxLead [⟨.noop, t⟩] st = st.lead := by
    intro st
    simp only [maxLead, maxLeadLoop, Command.apply]
    by_cases h0 : t = []
    · simp [h0]
    · simp only [ne_eq, h0, not_false_eq_true, if_true]
      split
      · rfl
      · rename_i h
        rcases max_choice 0 st.lead with e | e
        · exact absurd e h
        · exact e
  simp only [Block.intoColumns, Paragraph.intoColumns, hst, hct, hf, hl, splitlines]
  rw [paragraphLoop_ofText]

/-- Two texts. -/
theorem text_join (p : Paragraph) (w : World) (s : StyleFull) (r : Res) (cs : Nat → ColumnFill) {a b t : List Char} (hn : nextNewline t = some (a, b)) (ha : nextNewline a = none) :
    ((Block.paragraph (p.ofText a)).intoColumns w r s cs = (none, ((s.or p.style).asState r).2) ∧ (Block.paragraph (p.ofText t)).intoColumns w r s cs = (none, ((s.or p.style).asState r).2)) ∨
    ∃ done col, done.getLast? = some col ∧ (Block.paragraph (p.ofText a)).intoColumns w r s cs = (some done, ((s.or p.style).asState r).2) ∧
      (Block.paragraph (p.ofText t)).intoColumns w r s cs =
        (((Block.paragraph (p.ofText b)).intoColumns w ((s.or p.style).asState r).2 s (consStream col fun n => cs (n + done.length))).1.map (done.dropLast ++ ·), ((s.or p.style).asState r).2) := by
  have hm := (match_asState r (s.or p.style)).eq_asState
  simp only [ofText_columns, hm]
  rw [splitFrom_none ha, splitFrom_some hn]
  simp only [Bool.false_eq_true, if_false, paragraphLoop]
  cases hf : fillParagraph p (w.env ((s.or p.style).asState r).2) [⟨.noop, a⟩] cs ((s.or p.style).asState r).1 ((s.or p.style).asState r).1.lead with
  | none => exact .inl ⟨rfl, rfl⟩
  | some x =>
    obtain ⟨done, st'⟩ := x
    have hst := fillParagraph_state hf
    subst hst
    simp only
    cases hd : done.getLast? with
    | none => exact .inl ⟨rfl, rfl⟩
    | some col =>
      refine .inr ⟨done, col, hd, ?_, ?_⟩
      · simp only [Option.map_some, consStream]
        rw [List.dropLast_append_getLast? col hd]
      · simp only
        rw [splitFrom_pos]

/-- A text is laid out in the same way when more fonts are registered. -/
theorem text_later (w : World) {s : StyleFull} (hs : s.Known) {p : Paragraph} (hp : p.style.Known) {r r' : Res} (hr : r.WF) (hr' : r'.WF) (hle : r.Le r')
    (hfont : ((s.or p.style).asState r).2 = r) {cs : Nat → ColumnFill} (hf : ∀ n, (cs n).Fonts r.Knows) (t : List Char) :
    (Block.paragraph (p.ofText t)).intoColumns w r' s cs = (((Block.paragraph (p.ofText t)).intoColumns w r s cs).1, r') := by
  have hpair := pair_le hr hr' hle
  have hk : (Block.paragraph (p.ofText t)).Known := ⟨by simp [Paragraph.ofText, Item.Known.str], hp⟩
  have hm := match_asState r (s.or p.style)
  rw [hfont] at hm
  have e1 : ((Block.paragraph (p.ofText t)).intoColumns w r s cs).2 = r := by rw [ofText_columns, hfont]
  have e2 : ((Block.paragraph (p.ofText t)).intoColumns w r' s cs).2 = r' := by rw [ofText_columns, (hm.mono hle).eq_asState]
  obtain ⟨-, hsame⟩ := block_iso w hs hpair hk (cs := cs) (cs' := cs) (fun ν hν i => (columnSelf (hν.self hr' hle) (hf i)).symm) hf
  rw [e1, e2] at hsame
  obtain ⟨ν, hν, -⟩ := exists_good w hpair
  have h := hsame ν hν
  refine Prod.ext ?_ e2
  rw [h]
  obtain ⟨o, ho⟩ : ∃ o, (Block.paragraph (p.ofText t)).intoColumns w r s cs = o := ⟨_, rfl⟩
  obtain ⟨a, r1⟩ := o
  rw [ho] at e1 ⊢
  simp only at e1
  subst e1
  cases a with
  | none => rfl
  | some out =>
    have hfo := Block.intoColumns_fonts hr hk hs hf ho
    simp only [Option.map_some, colsRe]
    rw [mapSelf fun c hc => columnSelf (hν.self hr' hle) (hfo c hc)]

/-! ### Pages -/

section
variable {pages : Nat → Page} (hpages : ∀ n, (pages n).columns ≠ [])

theorem PagesInv.unique {k k' : Nat} {doc doc' : Nat → PageFill} {t : Tape} (h : PagesInv pages k doc t) (h' : PagesInv pages k' doc' t) : k = k' ∧ doc = doc' := by
  have hk : k = k' := by
    rcases Nat.lt_trichotomy k k' with hlt | heq | hlt
    · have := offset_mono (pages := pages) (show k + 1 ≤ k' by omega)
      have := h.hi; have := h'.lo; omega
    · exact heq
    · have := offset_mono (pages := pages) (show k' + 1 ≤ k by omega)
      have := h'.hi; have := h.lo; omega
  subst hk
  refine ⟨rfl, funext fun n => ?_⟩
  cases n with
  | zero =>
    have e1 : (doc 0).base = (doc' 0).base := by rw [h.base, h'.base]
    have e2 : (doc 0).todo = (doc' 0).todo := by rw [h.todo, h'.todo]
    have e3 : (doc 0).done = (doc' 0).done := by rw [h.done, h'.done]
    cases hd : doc 0; cases hd' : doc' 0
    rw [hd, hd'] at e1 e2 e3
    simp only at e1 e2 e3
    rw [e1, e2, e3]
  | succ n => rw [h.rest, h'.rest]

theorem completed_eq {k : Nat} {completed : List PageFill} {t : Tape} (h1 : completed.map (·.base) = (List.range completed.length).map fun j => pages (k + j))
    (h2 : ∀ j p, completed[j]? = some p → p.done = t.page pages (k + j)) :
    (completed.map fun p => (⟨p.base, p.done⟩ : Filled)) = (List.range completed.length).map fun j => ⟨pages (k + j), t.page pages (k + j)⟩ := by
  refine List.ext_getElem? fun j => ?_
  have hb := congrArg (fun l : List Page => l[j]?) h1
  simp only [List.getElem?_map] at hb ⊢
  cases hj : completed[j]? with
  | none =>
    rw [List.getElem?_eq_none_iff] at hj
    rw [List.getElem?_eq_none (by simpa using hj)]; rfl
  | some p =>
    have hlt : j < completed.length := (List.getElem?_eq_some_iff.1 hj).1
    rw [hj, List.getElem?_range hlt] at hb
    simp only [Option.map_some, Option.some.injEq] at hb
    rw [List.getElem?_range hlt]
    simp only [Option.map_some, h2 j p hj, hb]

include hpages in
/-- Filling columns in two steps. -/
theorem fillInto_twice {k : Nat} {doc : Nat → PageFill} {t : Tape} (h : PagesInv pages k doc t) {done filled : List ColumnFill} (h1 : done ≠ []) (h2 : filled ≠ [])
    {doc1 : Nat → PageFill} {c1 : List PageFill} (e1 : fillInto done doc = some (doc1, c1)) :
    ∃ doc2 c2 c3, fillInto filled doc1 = some (doc2, c2) ∧ fillInto (done.dropLast ++ filled) doc = some (doc2, c3) ∧
      (c3.map fun p => (⟨p.base, p.done⟩ : Filled)) = (c1.map fun p => ⟨p.base, p.done⟩) ++ c2.map fun p => ⟨p.base, p.done⟩ := by
  obtain ⟨d1, x1, f1, b1, p1, i1⟩ := fillInto_spec hpages h done
  rw [e1] at f1
  cases f1
  obtain ⟨d2, c2, f2, b2, p2, i2⟩ := fillInto_spec hpages i1 filled
  obtain ⟨d3, c3, f3, b3, p3, i3⟩ := fillInto_spec hpages h (done.dropLast ++ filled)
  rw [t.fill_fill h1 h2] at i2 p2
  obtain ⟨hk, rfl⟩ := i3.unique i2
  refine ⟨d3, c2, c3, f2, f3, ?_⟩
  rw [completed_eq b3 p3, completed_eq b1 p1, completed_eq b2 p2]
  have hlen : c3.length = c1.length + c2.length := by omega
  rw [hlen, List.range_add, List.map_append, List.map_map]
  congr 1
  · refine List.map_congr_left fun j hj => ?_
    have hj' : j < c1.length := List.mem_range.1 hj
    have : (t.fill (done.dropLast ++ filled)).page pages (k + j) = (t.fill done).page pages (k + j) := by
      unfold Tape.page slice
      refine List.map_congr_left fun i hi => ?_
      have hi' : i < (pages (k + j)).columns.length := List.mem_range.1 hi
      rw [← t.fill_fill h1 h2, Tape.fill_ne _ h2]
      refine Tape.write_before _ _ ?_
      have hm : offset pages (k + j + 1) ≤ offset pages (k + c1.length) := offset_mono (by omega)
      have := i1.lo
      rw [offset] at hm
      omega
    rw [this]
  · refine List.map_congr_left fun j _ => ?_
    simp only [Function.comp, Nat.add_assoc]

end

theorem writePages_append (w : World) (s : StyleFull) (a b : List Filled) : ∀ r, writePages w s (a ++ b) r = (writePages w s a r).andThen (writePages w s b) := by
  induction a with
  | nil => intro r; simp [writePages, PagesRun.andThen]
  | cons p a ih =>
    intro r
    rw [List.cons_append, writePages, writePages]
    rcases p.run w s r with ⟨_ | ⟨ops, bytes⟩, r1⟩
    · rfl
    · simp only [ih, PagesRun.andThen]
      cases (writePages w s a r1).err <;> rfl

/-- The same, unless both fail. -/
def PagesRun.SameOk (a b : PagesRun) : Prop := a.err = none ∨ b.err = none → a = b

theorem PagesRun.SameOk.andThen {a : PagesRun} {f g : Res → PagesRun} (h : a.err = none → (f a.res).SameOk (g a.res)) : (a.andThen f).SameOk (a.andThen g) := by
  intro he
  unfold PagesRun.andThen at he ⊢
  cases ha : a.err with
  | some e => rfl
  | none =>
    simp only [ha] at he ⊢
    rw [h ha he]

theorem PagesRun.andThen_assoc (a : PagesRun) (f g : Res → PagesRun) : (a.andThen f).andThen g = a.andThen fun r => (f r).andThen g := by
  unfold PagesRun.andThen
  cases ha : a.err with
  | some e => rfl
  | none =>
    simp only
    cases hf : (f a.res).err <;> simp

/-- A newline in a text, or two paragraphs. -/
theorem autoLoop_newline (w : World) {s : StyleFull} (hs : s.Known) {p : Paragraph} (hp : p.style.Known) {a b t : List Char} (hn : nextNewline t = some (a, b)) (ha : nextNewline a = none)
    {pages : Nat → Page} (hpages : ∀ n, (pages n).columns ≠ []) (bs2 : List Block) : ∀ (bs1 : List Block) (k : Nat) (doc : Nat → PageFill) (tp : Tape) (r : Res), r.WF →
      PagesInv pages k doc tp → (∀ n, (doc n).Ok r) → (∀ x ∈ bs1, x.Known) →
      (autoLoop w s (bs1 ++ .paragraph (p.ofText t) :: bs2) doc r).SameOk (autoLoop w s (bs1 ++ .paragraph (p.ofText a) :: .paragraph (p.ofText b) :: bs2) doc r)
  | x :: bs1, k, doc, tp, r, hr, hinv, ho, hk => by
    have hkx := hk x (by simp)
    have k1 := x.reach w s r (columnsLeft doc) hkx hs
    simp only [List.cons_append, autoLoop]
    obtain ⟨o, hx⟩ : ∃ o, x.intoColumns w r s (columnsLeft doc) = o := ⟨_, rfl⟩
    obtain ⟨c, r1⟩ := o
    rw [hx] at k1 ⊢
    simp only at k1
    obtain ⟨l1, w1⟩ := k1.wf hr
    cases c with
    | none => exact fun _ => rfl
    | some filled =>
      have h2 := Block.intoColumns_fonts hr hkx hs (columnsLeft_fonts ho) hx
      obtain ⟨d1, completed, hy, -, -, hinv'⟩ := fillInto_spec hpages hinv filled
      obtain ⟨c1, c2⟩ := fillInto_ok hy h2 fun n => (ho n).mono l1
      simp only [hy]
      have q1 : ∀ p ∈ completed.map (fun p => (⟨p.base, p.done⟩ : Filled)), p.Ok r1 := by
        intro p hp
        obtain ⟨q, hq, rfl⟩ := List.mem_map.1 hp
        exact ⟨(c1 q hq).known, (c1 q hq).done⟩
      have k2 := writePages_reach w s hs (completed.map fun p => ⟨p.base, p.done⟩) r1 fun p hp => (q1 p hp).known
      refine .andThen fun _ => ?_
      exact autoLoop_newline w hs hp hn ha hpages bs2 bs1 _ d1 _ _ (k2.wf w1).2 hinv' (fun n => (c2 n).mono (k2.wf w1).1) fun y hy => hk y (by simp [hy])
  | [], k, doc, tp, r, hr, hinv, ho, _ => by
    simp only [List.nil_append]
    rw [autoLoop, autoLoop]
    have hka : (Block.paragraph (p.ofText a)).Known := ⟨by simp [Paragraph.ofText, Item.Known.str], hp⟩
    have hkb : (Block.paragraph (p.ofText b)).Known := ⟨by simp [Paragraph.ofText, Item.Known.str], hp⟩
    have hm := (match_asState r (s.or p.style)).eq_asState
    rcases text_join p w s r (columnsLeft doc) hn ha with ⟨h1, h2⟩ | ⟨done, col, hd, h1, h2⟩
    · rw [h1, h2]
      intro _; rfl
    · have hne : done ≠ [] := by rintro rfl; cases hd
      have k1 := (Block.paragraph (p.ofText a)).reach w s r (columnsLeft doc) hka hs
      have f1 := Block.intoColumns_fonts hr hka hs (columnsLeft_fonts ho) h1
      rw [h1] at k1
      rw [h1, h2]
      simp only at k1
      generalize hR : ((s.or p.style).asState r).2 = r1 at *
      have hfont : ((s.or p.style).asState r1).2 = r1 := by rw [hm]
      obtain ⟨l1, w1⟩ := k1.wf hr
      obtain ⟨d1, completed, hy, -, -, hinv'⟩ := fillInto_spec hpages hinv done
      obtain ⟨c1, c2⟩ := fillInto_ok hy f1 fun n => (ho n).mono l1
      have q1 : ∀ p ∈ completed.map (fun p => (⟨p.base, p.done⟩ : Filled)), p.Ok r1 := by
        intro p hp
        obtain ⟨q, hq, rfl⟩ := List.mem_map.1 hp
        exact ⟨(c1 q hq).known, (c1 q hq).done⟩
      have k2 := writePages_reach w s hs (completed.map fun p => ⟨p.base, p.done⟩) r1 fun p hp => (q1 p hp).known
      obtain ⟨l2, w2⟩ := k2.wf w1
      have hview : columnsLeft d1 = consStream col fun n => columnsLeft doc (n + done.length) := by
        rw [hinv'.view hpages, hinv.view hpages, tp.view_fill hd]
      have hlater := text_later w hs hp w1 w2 l2 hfont (columnsLeft_fonts c2) b
      rw [← hview]
      simp only [hy, autoLoop]
      cases hb : ((Block.paragraph (p.ofText b)).intoColumns w r1 s (columnsLeft d1)).1 with
      | none =>
        simp only [Option.map_none]
        intro he
        simp only [reduceCtorEq, false_or] at he
        exfalso
        unfold PagesRun.andThen at he
        cases hw : (writePages w s (completed.map fun p => (⟨p.base, p.done⟩ : Filled)) r1).err with
        | some e => simp [hw] at he
        | none => simp [hw, hlater, hb] at he
      | some filled =>
        have hfne : filled ≠ [] := by
          rintro rfl
          rw [ofText_columns, hinv'.view hpages] at hb
          exact (paragraphLoop_spec _ _ _ _ _ _ _ hb).1 rfl
        obtain ⟨d2, x2, x3, g2, g3, g4⟩ := fillInto_twice hpages hinv hne hfne hy
        simp only [Option.map_some, g3, g4, writePages_append, PagesRun.andThen_assoc]
        refine .andThen fun he => ?_
        rw [hlater, hb]
        simp only [g2]
        exact fun _ => rfl

end Pdfje
