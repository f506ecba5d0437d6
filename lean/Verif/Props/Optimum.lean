import Verif.Proofs.Tame
import Verif.Props.FirstFit
import Verif.Props.KnuthPlass
/-
C36 and C42 to C45: layout with optimal line breaks (`optimal=True`, the default).
-/

namespace Pdfje

variable {env : Env}

/-! ### Words of a paragraph are plain -/

theorem WordLike.addCmd_plain (w : Word) (c : Command) : ((WordLike.word w).addCmd c).Plain := by
  unfold WordLike.addCmd
  split <;> trivial

theorem map_word_plain (ws : List Word) : ∀ w ∈ ws.map WordLike.word, w.Plain := by
  intro w hw
  obtain ⟨x, -, rfl⟩ := List.mem_map.1 hw
  trivial

theorem parse_plain : ∀ (n : Nat) (it : List Passage) (st : State) (txt : List Char) (ws : List WordLike), it.length < n →
    parse env it st txt = some ws → ∀ w ∈ ws, w.Plain
  | 0, _, _, _, _, hn, _ => by omega
  | n + 1, it, st, txt, ws, hn, h => by
    have two : ∀ (a : List Word) (x : WordLike) (b : List WordLike), x.Plain → (∀ w ∈ b, w.Plain) →
        ∀ w ∈ a.map WordLike.word ++ x :: b, w.Plain := by
      intro a x b hx hb w hw
      rcases List.mem_append.1 hw with hw | hw
      · exact map_word_plain _ w hw
      · rcases List.mem_cons.1 hw with rfl | hw
        · exact hx
        · exact hb w hw
    rw [parse] at h
    split at h
    · simp only [Option.some.injEq] at h; subst h; simp
    · split at h
      · simp at h
      · split at h
        · simp only [Option.some.injEq] at h; subst h
          exact two _ _ [] trivial (by simp)
        · rw [Option.map_eq_some_iff] at h
          obtain ⟨more, h1, rfl⟩ := h
          exact two _ _ more (WordLike.addCmd_plain _ _) (parse_plain n _ _ _ more (by simp at hn; omega) h1)
      · split at h
        · simp at h
        · simp only [Option.some.injEq] at h; subst h
          exact two _ _ [] trivial (by simp)
        · rename_i hc
          have hlt := completeWord_lt _ _ _ _ _ _ _ _ hc
          split at h
          · rw [Option.map_eq_some_iff] at h
            obtain ⟨more, h1, rfl⟩ := h
            exact two _ _ more trivial (parse_plain n _ _ _ more (by omega) h1)
          · split at h
            · simp only [Option.some.injEq] at h; subst h
              exact two _ _ [] trivial (by simp)
            · rw [Option.map_eq_some_iff] at h
              obtain ⟨more, h1, rfl⟩ := h
              exact two _ _ more (WordLike.addCmd_plain _ _) (parse_plain n _ _ _ more (by simp at hlt; omega) h1)

/-- The words of any text, indented or not, are words as the theorems below need them. -/
theorem paragraph_plain {ps : List Passage} {st : State} {cmd : Command} {ws : List WordLike}
    (h : intoWords env ps st = some (cmd, ws)) (a : ℚ) : ∀ w ∈ indentFirst ws a, w.Plain := by
  have hp : ∀ w ∈ ws, w.Plain := by
    unfold intoWords at h
    split at h
    · simp only [Option.some.injEq, Prod.mk.injEq] at h
      rw [← h.2]; simp
    · rw [Option.map_eq_some_iff] at h
      obtain ⟨ws', h1, h2⟩ := h
      simp only [Prod.mk.injEq] at h2
      rw [← h2.2]
      exact parse_plain _ _ _ _ _ (Nat.lt_succ_self _) h1
  have hi : ∀ w : WordLike, w.Plain → (w.indent a).Plain := by
    intro w hw
    cases w with
    | box b => exact hw.elim
    | word w => trivial
    | withCmd x c =>
      simp only [WordLike.indent]
      split
      · exact hw
      · cases x with
        | box b => exact hw.elim
        | word w => trivial
        | withCmd x c => exact hw.elim
  intro w hw
  cases ws with
  | nil => simp [indentFirst] at hw
  | cons x ws =>
    simp only [indentFirst, List.mem_cons] at hw
    rcases hw with rfl | hw
    · exact hi x (hp x (by simp))
    · exact hp w (by simp [hw])


/-! ### Lines of the result -/

/-- The line as it is set (optimum.py:214-238). -/
def optLine (justify : Bool) (fs : List Fragment) (a : Nat) (br : KBreak) : TLine :=
  if justify then (⟨lineWords ((fs.take br.pos).drop a), br.width, 0⟩ : TLine).stretch br.adjust
  else ⟨lineWords ((fs.take br.pos).drop a), br.width, 0⟩

theorem intoLines_get {justify : Bool} {brs : List KBreak} {fs : List Fragment} {k : Nat} {line : TLine}
    (h : (intoLines justify brs fs)[k]? = some line) :
    ∃ a br, (0 :: brs.map KBreak.pos)[k]? = some a ∧ brs[k]? = some br ∧ line = optLine justify fs a br := by
  unfold intoLines at h
  split at h
  · rw [List.getElem?_map, Option.map_eq_some_iff] at h
    obtain ⟨⟨br, l⟩, h1, rfl⟩ := h
    rw [List.getElem?_zip_eq_some] at h1
    obtain ⟨a, br', h2, h3, h4⟩ := raggedLines_get fs brs 0 k l h1.2
    have : br' = br := by have := h1.1; rw [h3] at this; simpa using this
    subst this
    exact ⟨a, br', h2, h3, by simp [optLine, *]⟩
  · obtain ⟨a, br, h2, h3, h4⟩ := raggedLines_get fs brs 0 k line h
    exact ⟨a, br, h2, h3, by simp [optLine, *]⟩

/-- What is known of a line of the result. -/
structure LineInfo (env : Env) (cols : Cols) (align : Align) (p : OptParams) (ws : List WordLike) (out : List ShapedText)
    (i k : Nat) (line : TLine) (fbs : List (Fragment × KBox)) (W : Nat → ℚ) (tol : Tol) (brs : List KBreak) (n a : Nat) (br : KBreak) :
    Prop where
  boxes : intoBoxes env ws (align = .justify) = some fbs
  ne : fbs ≠ []
  tried : FirstTol p.tolerance (fun x => optimumFit (p.fit (align ≠ .justify)) (fbs.map (·.2)) W x = .error .noFeasibleBreaks) tol
  fit : optimumFit (p.fit (align ≠ .justify)) (fbs.map (·.2)) W tol = .ok brs
  lines : out.flatMap ShapedText.lines = intoLines (align = .justify) brs (fbs.map (·.1))
  index : n = ((out.take i).flatMap ShapedText.lines).length + k
  width : W n = (cols i).1
  start : (0 :: brs.map KBreak.pos)[n]? = some a
  break_ : brs[n]? = some br
  set_ : line = optLine (align = .justify) (fbs.map (·.1)) a br
  bounds : a < br.pos ∧ br.pos ≤ fbs.length
  last : (i + 1 = out.length ∧ k + 1 = ((out[i]?.map ShapedText.lines).getD []).length) ↔ n + 1 = brs.length

theorem flatMap_lines (lead : ℚ) (align : Align) (chunks : List (List TLine)) :
    (chunks.map fun ls => (⟨ls, lead, align, ls.length * lead⟩ : ShapedText)).flatMap ShapedText.lines = chunks.flatten := by
  rw [List.flatMap_map]
  simp [List.flatMap_def]

theorem optimum_lines {cols : Cols} {lead : ℚ} {avoid : Bool} {align : Align} {p : OptParams} {ws : List WordLike} {ae : Bool}
    {out : List ShapedText} (hl : 0 < lead) (hc : ∀ i, 0 ≤ (cols i).2) (hws : ws ≠ [])
    (h : optimumShape env cols lead avoid align p ws ae = some out) :
    ∃ fbs W tol brs, (∃ (i : Nat) (chunk : ShapedText) (line : TLine), out[i]? = some chunk ∧ chunk.lines[0]? = some line) ∧
      (∀ j, ∃ i, W j = (cols i).1) ∧ ∀ (i k : Nat) (chunk : ShapedText) (line : TLine), out[i]? = some chunk → chunk.lines[k]? = some line →
      ∃ n a br, LineInfo env cols align p ws out i k line fbs W tol brs n a br := by
  obtain ⟨fbs, chunks, h1, hne, ⟨s, q, lines, hq, hs, hb, rfl⟩, rfl⟩ := optimumShape_laid hl hc hws h
  have hln := (breakLines_length hne hb).1
  obtain ⟨tol, ht, brs, hfit, rfl⟩ := breakLines_spec hb
  have hne' : fbs.map (·.2) ≠ [] := by simpa using hne
  obtain ⟨c1, c2, -, -⟩ := C38_partition hne' hfit
  refine ⟨fbs, q.lineLength, tol, brs, ?_, fun j => ⟨_, hq.width _⟩, ?_⟩
  · obtain ⟨g, gs, hgs⟩ := List.exists_cons_of_ne_nil (groupLines_ne hq.full hln)
    have hg : (groupLines q (intoLines (decide (align = .justify)) brs (fbs.map (·.1))))[0]? = some g := by rw [hgs]; rfl
    obtain ⟨l, ls, hl0⟩ := List.exists_cons_of_ne_nil (groupLines_length hq.full _ hg).1
    refine ⟨s, ⟨g, lead, align, g.length * lead⟩, l, ?_, ?_⟩
    · rw [List.getElem?_map, List.getElem?_append_right (by simp)]
      simp [hg]
    · rw [hl0]; rfl
  intro i k chunk line hi hk
  generalize hlines : intoLines (align = .justify) brs (fbs.map (·.1)) = lines at *
  have hspec := groupLines_spec hq.full lines
  rw [List.getElem?_map, Option.map_eq_some_iff] at hi
  obtain ⟨g, hg, rfl⟩ := hi
  simp only at hk
  have his : s ≤ i := by
    by_contra hcon
    rw [List.getElem?_append_left (by simpa using by omega), List.getElem?_replicate_of_lt (by omega)] at hg
    simp only [Option.some.injEq] at hg
    subst hg
    simp at hk
  obtain ⟨c, rfl⟩ : ∃ c, i = s + c := ⟨i - s, by omega⟩
  rw [List.getElem?_append_right (by simp)] at hg
  simp only [List.length_replicate, Nat.add_sub_cancel_left] at hg
  have hcl : c < (groupLines q lines).length := (List.getElem?_eq_some_iff.1 hg).1
  obtain ⟨d1, d2⟩ := groupLines_index hq.full lines hg hk
  rw [← hlines] at d1
  obtain ⟨a, br, e1, e2, e3⟩ := intoLines_get d1
  have hbp : (brs.map KBreak.pos)[q.before c + k]? = some br.pos := by rw [List.getElem?_map, e2]; rfl
  have hlast : (0 :: brs.map KBreak.pos).getLast? = some fbs.length := by
    cases hb' : brs.map KBreak.pos with
    | nil => rw [hb'] at c2; simp at c2
    | cons x l => rw [List.getLast?_cons_cons, ← hb']; simpa using c2
  have hbef : (((List.replicate s [] ++ groupLines q lines).map fun ls => (⟨ls, lead, align, ls.length * lead⟩ : ShapedText)).take (s + c)
      |>.flatMap ShapedText.lines).length = q.before c := by
    rw [← List.map_take, flatMap_lines, List.take_append, List.flatten_append]
    simp only [List.length_replicate, Nat.add_sub_cancel_left, List.length_append, groupLines_before hq.full lines hcl]
    rw [List.take_of_length_le (by simp)]
    simp
  have hlen : lines.length = brs.length := by rw [← hlines, intoLines_length]
  refine ⟨q.before c + k, a, br, h1, hne, by simpa using ht, by simpa using hfit, ?_, by rw [hbef], ?_, e1, e2, e3,
    breaks_bounds c1 hlast e1 hbp, ?_⟩
  · rw [flatMap_lines, List.flatten_append, hspec.1, hlines]; simp
  · rw [lineLength_spec hq.full (by omega) d2, hq.width]
  · rw [← hlen]
    have hge : (List.map (fun ls => (⟨ls, lead, align, ls.length * lead⟩ : ShapedText)) (List.replicate s [] ++ groupLines q lines))[s + c]? =
        some ⟨g, lead, align, g.length * lead⟩ := by
      rw [List.getElem?_map, List.getElem?_append_right (by simp)]
      simp [hg]
    rw [hge]
    simp only [List.length_map, List.length_append, List.length_replicate, Option.map_some, Option.getD_some]
    obtain ⟨hgs, hgl⟩ := hspec.2 c g hg
    have hgn := (groupLines_length hq.full lines hg).2.2
    have hkl : k < g.length := (List.getElem?_eq_some_iff.1 hk).1
    constructor
    · rintro ⟨x1, x2⟩
      have hfl := hspec.1
      have hcut : groupLines q lines = (groupLines q lines).take c ++ [g] := by
        conv_lhs => rw [← List.take_append_drop c (groupLines q lines)]
        rw [List.drop_eq_getElem_cons hcl, (List.getElem?_eq_some_iff.1 hg).2, List.drop_of_length_le (by omega)]
      rw [hcut, List.flatten_append] at hfl
      have := congrArg List.length hfl
      rw [List.length_append, groupLines_before hq.full lines hcl] at this
      simp at this
      omega
    · intro x
      constructor
      · by_contra hcon
        have hcl' : c + 1 < (groupLines q lines).length := by omega
        obtain ⟨-, y⟩ := hspec.2 (c + 1) _ (List.getElem?_eq_getElem hcl')
        omega
      · omega


theorem optimum_line {cols : Cols} {lead : ℚ} {avoid : Bool} {align : Align} {p : OptParams} {ws : List WordLike} {ae : Bool}
    {out : List ShapedText} (hl : 0 < lead) (hc : ∀ i, 0 ≤ (cols i).2) (hws : ws ≠ [])
    (h : optimumShape env cols lead avoid align p ws ae = some out)
    {i k : Nat} {chunk : ShapedText} {line : TLine} (hi : out[i]? = some chunk) (hk : chunk.lines[k]? = some line) :
    ∃ fbs W tol brs n a br, LineInfo env cols align p ws out i k line fbs W tol brs n a br := by
  obtain ⟨fbs, W, tol, brs, -, -, h1⟩ := optimum_lines hl hc hws h
  obtain ⟨n, a, br, h2⟩ := h1 i k chunk line hi hk
  exact ⟨fbs, W, tol, brs, n, a, br, h2⟩

theorem TLine.stretch_wf {l : TLine} {s t : State} (a : ℚ) (h : WordsWF env l.words s t) : WordsWF env (l.stretch a).words s t :=
  WordsWF.map_same (fun _ hw => WordLike.stretchTail_same _ hw) h

theorem TLine.stretch_styled {l : TLine} {s t : State} (a : ℚ) (h : WordsWF env l.words s t) : (l.stretch a).styled = l.styled := by
  simp only [TLine.styled, TLine.stretch, List.flatMap_def]
  congr 1
  rw [List.map_map]
  apply List.map_congr_left
  intro w hw
  exact (WordLike.stretchTail_same _ (h.mem w hw)).styled

theorem optLine_wf {ws : List WordLike} {fs : List Fragment} (hs : FragSeq env ws fs) {s t : State} (hw : WordsWF env (fs.map Fragment.word) s t)
    {a : Nat} {br : KBreak} (h : a < br.pos) (hb : br.pos ≤ fs.length) (justify : Bool) :
    ∃ s' t', WordsWF env (optLine justify fs a br).words s' t' ∧
      (optLine justify fs a br).styled = (lineWords ((fs.take br.pos).drop a)).flatMap WordLike.styled ∧
      WordsWF env (lineWords ((fs.take br.pos).drop a)) s' t' := by
  obtain ⟨s', t', h1⟩ := seg_wf hs hw h hb
  refine ⟨s', t', ?_⟩
  unfold optLine
  split
  · exact ⟨TLine.stretch_wf _ h1, TLine.stretch_styled _ h1, h1⟩
  · exact ⟨h1, rfl, h1⟩

theorem intoBoxes_ok (henv : env.Ok) {ws : List WordLike} (hw : ParagraphWords env ws) (hp : ∀ w ∈ ws, w.Plain) {justify : Bool}
    {fbs : List (Fragment × KBox)} (h : intoBoxes env ws justify = some fbs) :
    ∃ pre fin, FragsOk env justify ws pre fin 0 (initStretch env justify ws) 0 fbs := by
  obtain ⟨⟨pre, fin, hwf⟩, -⟩ := hw.wf henv
  exact ⟨pre, fin, fragsLoop_spec justify ws pre fin _ _ _ fbs hwf hp h⟩

theorem FragsOk.wf' {justify : Bool} {ws : List WordLike} {pre fin : State} {a b c : ℚ} {fbs : List (Fragment × KBox)}
    (h : FragsOk env justify ws pre fin a b c fbs) : WordsWF env ((fbs.map (·.1)).map Fragment.word) pre fin := by
  have := h.wf
  rw [List.map_map]; exact this

theorem intoLines_styled {ws : List WordLike} {fs : List Fragment} (hs : FragSeq env ws fs) {s t : State} (hw : WordsWF env (fs.map Fragment.word) s t)
    {brs : List KBreak} (h1 : (0 :: brs.map KBreak.pos).Pairwise (· < ·)) (h2 : (0 :: brs.map KBreak.pos).getLast? = some fs.length)
    (justify : Bool) : (intoLines justify brs fs).map TLine.styled = (raggedLines fs 0 brs).map TLine.styled := by
  unfold intoLines
  split
  · rw [List.map_map]
    have : ∀ e ∈ brs.zip (raggedLines fs 0 brs), (TLine.styled ∘ fun e : KBreak × TLine => e.2.stretch e.1.adjust) e = (TLine.styled ∘ Prod.snd) e := by
      intro e he
      obtain ⟨k, hk, e0⟩ := List.mem_iff_getElem.1 he
      have he2 := List.getElem?_eq_some_iff.2 ⟨hk, e0⟩
      rw [List.getElem?_zip_eq_some] at he2
      obtain ⟨a, br, g1, g2, g3⟩ := raggedLines_get fs brs 0 k e.2 he2.2
      have hbp : (brs.map KBreak.pos)[k]? = some br.pos := by rw [List.getElem?_map, g2]; rfl
      obtain ⟨b1, b2⟩ := breaks_bounds h1 h2 g1 hbp
      obtain ⟨s', t', hwf⟩ := seg_wf hs hw b1 b2
      simp only [Function.comp]
      exact TLine.stretch_styled (l := e.2) (s := s') (t := t') _ (by rw [g3]; exact hwf)
    rw [List.map_congr_left this, ← List.map_map, List.map_snd_zip]
    rw [raggedLines_length]
  · rfl

/-! ### C43 -/

/-- C43: however the words of a paragraph are laid out over columns, the lines show its text. -/
def C43_Statement : Prop := ∀ (env : Env) (cols : Cols) (lead : ℚ) (avoid : Bool) (align : Align) (p : OptParams) (ws : List WordLike)
  (ae : Bool) (out : List ShapedText), env.Ok → ParagraphWords env ws → (∀ w ∈ ws, w.Plain) → 0 < lead →
  optimumShape env cols lead avoid align p ws ae = some out →
  LinesShow ws ((out.flatMap ShapedText.lines).map TLine.styled) (ws.flatMap WordLike.styled)

theorem LinesShow.length {ws : List WordLike} {lines : List (List (Char × State))} {txt : List (Char × State)} (h : LinesShow ws lines txt) :
    txt.length ≤ (lines.map fun l => l.length + 1).sum := by
  induction h with
  | nil => simp
  | cons line piece rest lines h1 h2 _ ih =>
    have : piece.length ≤ line.length + 1 := by
      by_cases hb : Boundary ws rest.length
      · rcases h1 hb with rfl | ⟨st, rfl⟩ <;> simp
      · obtain ⟨st, rfl⟩ := h2 hb; simp; omega
    simp only [List.length_append, List.map_cons, List.sum_cons]; omega

theorem demoWords_plain : ∀ w ∈ demoWords, w.Plain := by
  intro w hw
  have : w = .word demoWord := by simpa [demoWords] using hw
  subst this; trivial

/-- C43 is false if the first column is over-full already, which happens when it is lower than one line: its number of
lines is -1, and the last line is lost. -/
theorem C43_counterexample : ¬ C43_Statement := by
  intro h
  have hs : ((optimumShape demoEnv (fun i => (50, if i = 0 then -1 else 10)) 10 false .left .default demoWords true).map fun o =>
      (o.flatMap ShapedText.lines).map fun l => l.styled.length) = some [9] := by decide +kernel
  rw [Option.map_eq_some_iff] at hs
  obtain ⟨out, h1, h2⟩ := hs
  have := (h demoEnv _ 10 false .left .default demoWords true out demoEnv_ok demoWords_ok demoWords_plain (by norm_num) h1).length
  have e : (demoWords.flatMap WordLike.styled).length = 15 := by decide +kernel
  rw [e, List.map_map] at this
  have e2 : ((out.flatMap ShapedText.lines).map ((fun l => l.length + 1) ∘ TLine.styled)).sum = 10 := by
    have : (fun l : List (Char × State) => l.length + 1) ∘ TLine.styled = (· + 1) ∘ fun l : TLine => l.styled.length := rfl
    rw [this, ← List.map_map, h2]; rfl
  omega

theorem optimumShape_nil {cols : Cols} {lead : ℚ} {avoid : Bool} {align : Align} {p : OptParams} {ae : Bool} {out : List ShapedText}
    (h : optimumShape env cols lead avoid align p [] ae = some out) :
    out = [⟨[⟨[], 0, 0⟩], lead, align, lead⟩] ∧ (ColQueue.new cols lead ae).count 0 ≠ 0 ∨
    out = [⟨[], lead, align, 0⟩, ⟨[⟨[], 0, 0⟩], lead, align, lead⟩] ∧ (ColQueue.new cols lead ae).count 0 = 0 := by
  unfold optimumShape at h
  split at h
  · simp at h
  · simp only [intoBoxes, fragsLoop] at h
    split at h
    · rename_i h0
      right
      simp [shapeFrom] at h
      exact ⟨h.symm, h0⟩
    · rename_i h0
      left
      simp [shapeFrom] at h
      exact ⟨h.symm, h0⟩

/-- C43 for columns whose free height is not negative. -/
theorem C43_text_partial (henv : env.Ok) {ws : List WordLike} (hw : ParagraphWords env ws) (hp : ∀ w ∈ ws, w.Plain) {cols : Cols} {lead : ℚ}
    (hl : 0 < lead) (hc : ∀ i, 0 ≤ (cols i).2) {avoid : Bool} {align : Align} {p : OptParams} {ae : Bool} {out : List ShapedText}
    (h : optimumShape env cols lead avoid align p ws ae = some out) :
    LinesShow ws ((out.flatMap ShapedText.lines).map TLine.styled) (ws.flatMap WordLike.styled) := by
  by_cases hws : ws = []
  · subst hws
    have key : LinesShow [] [[]] [] := by
      have := LinesShow.cons (ws := []) [] [] [] [] (fun _ => Or.inl rfl) (fun hb => absurd ⟨[], [], rfl, rfl⟩ hb) .nil
      simpa using this
    rcases optimumShape_nil h with ⟨rfl, -⟩ | ⟨rfl, -⟩ <;> simpa [TLine.styled] using key
  · obtain ⟨fbs, chunks, h1, hne, ⟨s, q, lines, hq, hs, hb, rfl⟩, rfl⟩ := optimumShape_laid hl hc hws h
    obtain ⟨tol, ht, brs, hfit, rfl⟩ := breakLines_spec hb
    have hne' : fbs.map (·.2) ≠ [] := by simpa using hne
    obtain ⟨c1, c2, -, -⟩ := C38_partition hne' hfit
    obtain ⟨pre, fin, hok⟩ := intoBoxes_ok henv hw hp h1
    have hlast : (0 :: brs.map KBreak.pos).getLast? = some (fbs.map (·.1)).length := by
      cases hb' : brs.map KBreak.pos with
      | nil => rw [hb'] at c2; simp at c2
      | cons x l => rw [List.getLast?_cons_cons, ← hb']; simpa using c2
    rw [flatMap_lines, List.flatten_append, (groupLines_spec hq.full _).1]
    simp only [List.flatten_replicate_nil, List.nil_append]
    rw [intoLines_styled hok.seq hok.wf' c1 hlast, ← hok.text]
    have := raggedLines_text hok.seq brs 0 c1 hlast
    simpa using this

/-- C43 for a paragraph: the lines show the text of the passages. -/
theorem C43_paragraph_partial (henv : env.Ok) (ps : List Passage) (hps : Tidy ps) (st : State) (cmd : Command) (ws : List WordLike)
    (hi : intoWords env ps st = some (cmd, ws)) (indent : ℚ) (hz : NonZero (styled ps st)) {cols : Cols} {lead : ℚ}
    (hl : 0 < lead) (hc : ∀ i, 0 ≤ (cols i).2) {avoid : Bool} {align : Align} {p : OptParams} {ae : Bool} {out : List ShapedText}
    (h : optimumShape env cols lead avoid align p (indentFirst ws indent) ae = some out) :
    LinesShow (indentFirst ws indent) ((out.flatMap ShapedText.lines).map TLine.styled) (styled ps st) := by
  obtain ⟨h1, h2⟩ := paragraph_words henv ps hps st cmd ws hi indent hz
  rw [← h2]
  exact C43_text_partial henv h1 (paragraph_plain hi indent) hl hc h

theorem optimum_line_wf (henv : env.Ok) {ws : List WordLike} (hw : ParagraphWords env ws) (hp : ∀ w ∈ ws, w.Plain) {cols : Cols} {lead : ℚ}
    (hl : 0 < lead) (hc : ∀ i, 0 ≤ (cols i).2) {avoid : Bool} {align : Align} {p : OptParams} {ae : Bool} {out : List ShapedText}
    (h : optimumShape env cols lead avoid align p ws ae = some out)
    {i k : Nat} {chunk : ShapedText} {line : TLine} (hi : out[i]? = some chunk) (hk : chunk.lines[k]? = some line) :
    ∃ s t, WordsWF env line.words s t := by
  by_cases hws : ws = []
  · subst hws
    have : line = ⟨[], 0, 0⟩ := by
      rcases optimumShape_nil h with ⟨rfl, -⟩ | ⟨rfl, -⟩
      · match i with
        | 0 =>
          simp at hi; subst hi
          match k with
          | 0 => simpa using hk.symm
          | k + 1 => simp at hk
        | i + 1 => simp at hi
      · match i with
        | 0 => simp at hi; subst hi; simp at hk
        | 1 =>
          simp at hi; subst hi
          match k with
          | 0 => simpa using hk.symm
          | k + 1 => simp at hk
        | i + 2 => simp at hi
    subst this
    exact ⟨demoState 1, demoState 1, rfl⟩
  · obtain ⟨fbs, W, tol, brs, n, a, br, hi'⟩ := optimum_line hl hc hws h hi hk
    obtain ⟨pre, fin, hok⟩ := intoBoxes_ok henv hw hp hi'.boxes
    obtain ⟨s, t, h1, -⟩ := optLine_wf hok.seq hok.wf' hi'.bounds.1 (by simpa using hi'.bounds.2) (decide (align = .justify))
    rw [hi'.set_]
    exact ⟨s, t, h1⟩

/-- C43: a viewer shows a line as its characters, each in its own style, if it starts in the style of the first. -/
theorem C43_shown_partial (henv : env.Ok) {ws : List WordLike} (hw : ParagraphWords env ws) (hp : ∀ w ∈ ws, w.Plain) {cols : Cols} {lead : ℚ}
    (hl : 0 < lead) (hc : ∀ i, 0 ≤ (cols i).2) {avoid : Bool} {align : Align} {p : OptParams} {ae : Bool} {out : List ShapedText}
    (h : optimumShape env cols lead avoid align p ws ae = some out)
    {i k : Nat} {chunk : ShapedText} {line : TLine} (hi : out[i]? = some chunk) (hk : chunk.lines[k]? = some line)
    (v : Viewer) (hv : ∀ w ∈ line.words.head?, v.In w.preState) :
    (Viewer.run env.widths (encodeWords line.words []) v).1.map Glyph.look = line.styled.map (lookOf v.lineY) := by
  obtain ⟨s, t, h2⟩ := optimum_line_wf henv hw hp hl hc h hi hk
  cases e : line.words with
  | nil => simp [TLine.styled, e, encodeWords, Viewer.run, Viewer.step, Viewer.show]
  | cons w l =>
    rw [e] at h2
    have hv' := hv w (by simp [e])
    obtain ⟨g, v', h3, h4⟩ := encodeWords_shown (w :: l) s t h2 [] v [] v rfl (by rw [← h2.2.1]; exact hv')
    rw [h3]
    simpa [TLine.styled, e] using h4.looks


/-! ### C36 -/

/-- C36, with optimal line breaks. -/
def C36_Statement : Prop := ∀ (env : Env) (cols : Cols) (lead : ℚ) (avoid : Bool) (align : Align) (p : OptParams) (ws : List WordLike)
  (ae : Bool) (out : List ShapedText), env.Ok → ParagraphWords env ws → (∀ w ∈ ws, w.Plain) → 0 < lead →
  optimumShape env cols lead avoid align p ws ae = some out → ∀ (i : Nat) chunk, out[i]? = some chunk →
    chunk.height ≤ (cols i).2 ∨ chunk.lines = [] ∨ (chunk.lines.length = 1 ∧ (cols i).2 < lead ∧ (ae = false ∨ 1 ≤ i))

/-- C36 is false for optimal line breaks if the first column is over-full already: here two more lines are put in it. -/
theorem C36_counterexample : ¬ C36_Statement := by
  intro h
  have hs : ((optimumShape demoEnv (fun i => (30, if i = 0 then -1 else 10)) 10 false .left .default demoWords true).map fun o =>
      o.map fun c => (c.lines.length, c.height)) = some [(2, 20)] := by decide +kernel
  rw [Option.map_eq_some_iff] at hs
  obtain ⟨out, h1, h2⟩ := hs
  obtain ⟨chunk, rfl, h3⟩ := List.map_eq_singleton_iff.1 h2
  simp only [Prod.mk.injEq] at h3
  have := h demoEnv _ 10 false .left .default demoWords true _ demoEnv_ok demoWords_ok demoWords_plain (by norm_num) h1 0 chunk rfl
  rw [h3.2, ← List.length_eq_zero_iff, h3.1] at this
  norm_num at this

/-- C36 (optimal line breaks) for columns whose free height is not negative. The lines put in a column take at most its
free height; except that one line is put in a column lower than one line, unless this is the first and it is not empty. -/
theorem C36_optimum_partial {ws : List WordLike} {cols : Cols} {lead : ℚ}
    (hl : 0 < lead) (hc : ∀ i, 0 ≤ (cols i).2) {avoid : Bool} {align : Align} {p : OptParams} {ae : Bool} {out : List ShapedText}
    (h : optimumShape env cols lead avoid align p ws ae = some out) {i : Nat} {chunk : ShapedText} (hi : out[i]? = some chunk) :
    chunk.height = chunk.lines.length * lead ∧
    (chunk.height ≤ (cols i).2 ∨ chunk.lines = [] ∨ (chunk.lines.length = 1 ∧ (cols i).2 < lead ∧ (ae = false ∨ 1 ≤ i))) := by
  by_cases hws : ws = []
  · subst hws
    rcases optimumShape_nil h with ⟨rfl, h0⟩ | ⟨rfl, h0⟩
    · match i with
      | 0 =>
        simp at hi; subst hi
        refine ⟨by simp, ?_⟩
        have hq := (SetFrom.new hl hc h0)
        rcases hq.cap 0 with ⟨-, h2, h3⟩ | h2
        · exact Or.inr (Or.inr ⟨rfl, h2, h3⟩)
        · left
          have h1 := hq.full 0
          have : (1 : ℚ) ≤ (ColQueue.new cols lead ae).cap 0 := by exact_mod_cast h1
          simp only [Nat.add_zero] at h2
          simp only
          nlinarith
      | i + 1 => simp at hi
    · match i with
      | 0 => simp at hi; subst hi; simp
      | 1 =>
        simp at hi; subst hi
        refine ⟨by simp, ?_⟩
        by_cases hlt : (cols 1).2 < lead
        · exact Or.inr (Or.inr ⟨rfl, hlt, Or.inr le_rfl⟩)
        · left; simpa using hlt
      | i + 2 => simp at hi
  · obtain ⟨fbs, chunks, h1, hne, ⟨s, q, lines, hq, hs, hb, rfl⟩, rfl⟩ := optimumShape_laid hl hc hws h
    rw [List.getElem?_map, Option.map_eq_some_iff] at hi
    obtain ⟨g, hg, rfl⟩ := hi
    refine ⟨rfl, ?_⟩
    simp only
    rcases Nat.lt_or_ge i s with his | his
    · rw [List.getElem?_append_left (by simpa using his), List.getElem?_replicate_of_lt his] at hg
      simp only [Option.some.injEq] at hg
      subst hg; exact Or.inr (Or.inl rfl)
    · obtain ⟨c, rfl⟩ : ∃ c, i = s + c := ⟨i - s, by omega⟩
      rw [List.getElem?_append_right (by simp)] at hg
      simp only [List.length_replicate, Nat.add_sub_cancel_left] at hg
      obtain ⟨g1, g2, -⟩ := groupLines_length hq.full lines hg
      have g3 := List.length_pos_iff.2 g1
      have g4 := hq.full c
      rcases hq.cap c with ⟨k1, k2, k3⟩ | k1
      · exact Or.inr (Or.inr ⟨by omega, k2, k3⟩)
      · left
        have : (g.length : ℤ) ≤ q.cap c := by omega
        have : (g.length : ℚ) ≤ q.cap c := by exact_mod_cast this
        nlinarith

/-! ### C45 -/

/-- The penalties that the user gave, by name. -/
def penalties (p : OptParams) (ragged : Bool) : FitParams where
  hyphenPenalty := p.hyphenPenalty
  consecutiveHyphenPenalty := p.consecutiveHyphenPenalty
  fitDiffPenalty := p.fitnessDiffPenalty
  ragged := ragged

/-- C45: in every column are at most as many lines as fit (one if not even that fits); and there are breaks of the
paragraph that are optimal for the first of the tolerances tried (the given one, 2, 3, 5, 8 times that, any) for which any are found, and for lines of some widths, such that the lines of all columns
are the lines between these breaks and each was set for the width of the column that it is in. -/
def C45_Statement : Prop := ∀ (env : Env) (cols : Cols) (lead : ℚ) (avoid : Bool) (align : Align) (p : OptParams) (ws : List WordLike)
  (ae : Bool) (out : List ShapedText), env.Ok → ParagraphWords env ws → (∀ w ∈ ws, w.Plain) → 0 < lead → ws ≠ [] →
  optimumShape env cols lead avoid align p ws ae = some out →
  ∃ fbs W tol brs, intoBoxes env ws (align = .justify) = some fbs ∧
    FirstTol p.tolerance (fun x => optimumFit (penalties p (align ≠ .justify)) (fbs.map (·.2)) W x = .error .noFeasibleBreaks) tol ∧
    optimumFit (penalties p (align ≠ .justify)) (fbs.map (·.2)) W tol = .ok brs ∧
    out.flatMap ShapedText.lines = intoLines (align = .justify) brs (fbs.map (·.1)) ∧
    ∀ (i k : Nat) chunk, out[i]? = some chunk → k < chunk.lines.length →
      W (((out.take i).flatMap ShapedText.lines).length + k) = (cols i).1 ∧
      (chunk.lines.length * lead ≤ (cols i).2 ∨ (chunk.lines.length = 1 ∧ (cols i).2 < lead))

/-- C45 is false for the same reason as C43: here two lines are put in a column without room. -/
theorem C45_counterexample : ¬ C45_Statement := by
  intro h
  have hs : ((optimumShape demoEnv (fun i => (30, if i = 0 then -1 else 10)) 10 false .left .default demoWords true).map fun o =>
      o.map fun c => c.lines.length) = some [2] := by decide +kernel
  rw [Option.map_eq_some_iff] at hs
  obtain ⟨out, h1, h2⟩ := hs
  obtain ⟨fbs, W, tol, brs, g1, g2, g3, g4, g5⟩ := h demoEnv _ 10 false .left .default demoWords true out demoEnv_ok demoWords_ok
    demoWords_plain (by norm_num) (by simp [demoWords]) h1
  obtain ⟨chunk, rfl, h3⟩ : ∃ chunk, out = [chunk] ∧ chunk.lines.length = 2 := by
    obtain ⟨chunk, e1, e2⟩ := List.map_eq_singleton_iff.1 h2
    exact ⟨chunk, e1, e2⟩
  obtain ⟨-, h4⟩ := g5 0 0 chunk rfl (by omega)
  rw [h3] at h4
  norm_num at h4

/-- C45 for columns whose free height is not negative. -/
theorem C45_columns_partial {ws : List WordLike} (hws : ws ≠ []) {cols : Cols} {lead : ℚ}
    (hl : 0 < lead) (hc : ∀ i, 0 ≤ (cols i).2) {avoid : Bool} {align : Align} {p : OptParams} {ae : Bool} {out : List ShapedText}
    (h : optimumShape env cols lead avoid align p ws ae = some out) :
    ∃ fbs W tol brs, intoBoxes env ws (align = .justify) = some fbs ∧
      FirstTol p.tolerance (fun x => optimumFit (penalties p (align ≠ .justify)) (fbs.map (·.2)) W x = .error .noFeasibleBreaks) tol ∧
      optimumFit (penalties p (align ≠ .justify)) (fbs.map (·.2)) W tol = .ok brs ∧
      out.flatMap ShapedText.lines = intoLines (align = .justify) brs (fbs.map (·.1)) ∧
      ∀ (i k : Nat) chunk, out[i]? = some chunk → k < chunk.lines.length →
        W (((out.take i).flatMap ShapedText.lines).length + k) = (cols i).1 ∧
        (chunk.lines.length * lead ≤ (cols i).2 ∨ (chunk.lines.length = 1 ∧ (cols i).2 < lead)) := by
  obtain ⟨fbs, W, tol, brs, ⟨i, chunk, line, h1, h2⟩, -, h3⟩ := optimum_lines hl hc hws h
  obtain ⟨n, a, br, h4⟩ := h3 i 0 chunk line h1 h2
  refine ⟨fbs, W, tol, brs, h4.boxes, h4.tried, h4.fit, h4.lines, ?_⟩
  intro i k chunk hi hk
  obtain ⟨n, a, br, h5⟩ := h3 i k chunk _ hi (List.getElem?_eq_getElem hk)
  refine ⟨by rw [← h5.index]; exact h5.width, ?_⟩
  obtain ⟨e, h6 | h6 | ⟨h6, h7, -⟩⟩ := C36_optimum_partial hl hc h hi
  · left; rw [← e]; exact h6
  · rw [h6] at hk; simp at hk
  · exact Or.inr ⟨h6, h7⟩

/-- C45 with the default settings (those of `optimal=True`), as documented: tolerance 1, and 1000 for each of the penalties. -/
theorem C45_default_partial {ws : List WordLike} (hws : ws ≠ []) {cols : Cols} {lead : ℚ}
    (hl : 0 < lead) (hc : ∀ i, 0 ≤ (cols i).2) {avoid : Bool} {align : Align} {ae : Bool} {out : List ShapedText}
    (h : optimumShape env cols lead avoid align .default ws ae = some out) :
    ∃ fbs W tol brs, intoBoxes env ws (align = .justify) = some fbs ∧
      FirstTol 1 (fun x => optimumFit ⟨1000, 1000, 1000, align ≠ .justify⟩ (fbs.map (·.2)) W x = .error .noFeasibleBreaks) tol ∧
      optimumFit ⟨1000, 1000, 1000, align ≠ .justify⟩ (fbs.map (·.2)) W tol = .ok brs ∧
      out.flatMap ShapedText.lines = intoLines (align = .justify) brs (fbs.map (·.1)) := by
  obtain ⟨fbs, W, tol, brs, h1, h2, h3, h4, -⟩ := C45_columns_partial hws hl hc h
  exact ⟨fbs, W, tol, brs, h1, h2, h3, h4⟩

/-! ### C44 -/

theorem WordLike.stretchTail_tail (a : ℚ) : ∀ w : WordLike, (w.stretchTail a).tail.isSome = w.tail.isSome
  | .box b => rfl
  | .word ⟨bs, none, st⟩ => rfl
  | .word ⟨bs, some t, st⟩ => by simp only [WordLike.stretchTail, WordLike.tail, Word.stretchTail]; split <;> rfl
  | .withCmd w c => by
    simp only [WordLike.stretchTail]
    split
    · exact WordLike.stretchTail_tail a w
    · rfl

/-- The space of a word is a space character in its style. -/
theorem WordLike.spaceWidth_eq : ∀ {w : WordLike}, w.WF env → ∀ st, w.tailState = some st →
    w.spaceWidth = (env.metrics st.font).charwidth ' ' / 1000 * st.size
  | .box b, _, st, h => by simp [WordLike.tailState] at h
  | .word ⟨bs, none, s⟩, _, st, h => by simp [WordLike.tailState] at h
  | .word ⟨bs, some t, s⟩, hw, st, h => by
    simp only [WordLike.tailState, Option.map_some, Option.some.injEq] at h
    subst h
    have hw' : Word.WF env ⟨bs, some t, s⟩ := hw
    exact (hw'.tail t (by simp)).1
  | .withCmd w c, hw, st, h => WordLike.spaceWidth_eq (w := w) hw st h

theorem WordLike.spaceWidth_none {w : WordLike} (h : w.tail.isSome = false) : w.spaceWidth = 0 := by
  unfold WordLike.spaceWidth
  have e : w.tail = none := by simpa using h
  rw [e]

/-- The text of a paragraph is in fonts whose space has a width, and in sizes that are not zero. -/
structure Spacious (env : Env) (ws : List WordLike) : Prop where
  space : ∀ w ∈ ws, ∀ e ∈ w.styled, 0 < (env.metrics e.2.font).charwidth ' '
  size : ∀ w ∈ ws, ∀ e ∈ w.styled, 0 < e.2.size

/-- The words of a line, before it is stretched. -/
structure LineWords (env : Env) (ws ls : List WordLike) : Prop where
  wf : ∀ w ∈ ls, w.WF env
  tail : ∀ w ∈ ls, ∀ st ∈ w.tailState, ∃ v ∈ ws, (' ', st) ∈ v.styled

theorem lineWords_ok {ws : List WordLike} {fs : List Fragment} (hs : FragSeq env ws fs) {s t : State} (hw : WordsWF env (fs.map Fragment.word) s t)
    (ht : fragText fs = ws.flatMap WordLike.styled) {a b : Nat} (h : a < b) (hb : b ≤ fs.length) :
    LineWords env ws (lineWords ((fs.take b).drop a)) := by
  obtain ⟨s', t', h1⟩ := seg_wf hs hw h hb
  refine ⟨h1.mem, ?_⟩
  intro w hw' st hst
  obtain ⟨f, hf, e⟩ := seg_concat fs h hb
  obtain ⟨inner, hk, -⟩ := seg_kind hs (by omega) hf
  rw [e] at hw'
  rcases lineWords_tailState _ f hk w hw' with h2 | ⟨g, hg, h2⟩
  · rw [h2] at hst; simp at hst
  · rw [h2] at hst
    have hm := WordLike.tailState_mem hst
    have hg' : g ∈ fs := List.mem_of_mem_take (List.mem_of_mem_drop hg)
    have : (' ', st) ∈ fragText fs := List.mem_flatMap.2 ⟨g, hg', hm⟩
    rw [ht] at this
    exact List.mem_flatMap.1 this

theorem LineWords.spaces {ws ls : List WordLike} (hs : Spacious env ws) (h : LineWords env ws ls) :
    (∀ w ∈ ls, ∀ st ∈ w.tailState, st.size ≠ 0) ∧ 0 ≤ totalSpace ls ∧ ((∃ w ∈ ls, w.tail.isSome) → 0 < totalSpace ls) := by
  have hsz : ∀ w ∈ ls, ∀ st ∈ w.tailState, 0 < st.size := by
    intro w hw st hst
    obtain ⟨v, hv, hm⟩ := h.tail w hw st hst
    exact hs.size v hv _ hm
  have hsw : ∀ w ∈ ls, 0 ≤ w.spaceWidth ∧ (w.tail.isSome → 0 < w.spaceWidth) := by
    intro w hw
    cases ht : w.tail.isSome with
    | false => rw [WordLike.spaceWidth_none ht]; simp
    | true =>
      rw [← WordLike.tailState_isSome, Option.isSome_iff_exists] at ht
      obtain ⟨st, hst⟩ := ht
      rw [WordLike.spaceWidth_eq (h.wf w hw) st hst]
      have h1 := hsz w hw st hst
      obtain ⟨v, hv, hm⟩ := h.tail w hw st hst
      have h2 := hs.space v hv _ hm
      have : 0 < (env.metrics st.font).charwidth ' ' / 1000 * st.size := by positivity
      exact ⟨this.le, fun _ => this⟩
  refine ⟨fun w hw st hst => (hsz w hw st hst).ne', List.sum_nonneg (by
    intro x hx
    obtain ⟨w, hw, rfl⟩ := List.mem_map.1 hx
    exact (hsw w hw).1), ?_⟩
  rintro ⟨w, hw, ht⟩
  have : w.spaceWidth ≤ totalSpace ls := by
    apply List.single_le_sum
    · intro x hx
      obtain ⟨y, hy, rfl⟩ := List.mem_map.1 hx
      exact (hsw y hy).1
    · exact List.mem_map_of_mem hw
  exact lt_of_lt_of_le ((hsw w hw).2 ht) this

/-- The displayed width of a stretched line. -/
theorem justified_width {tw ts W : ℚ} (hts : 0 < ts) {ρ : ℚ}
    (hρ : ρ = justifiedRatio tw (ts * (1/2)) (ts * (1/3)) W * (if 0 < justifiedRatio tw (ts * (1/2)) (ts * (1/3)) W then 1/2 else 1/3)) :
    (ρ ≠ 1 ∧ tw + ρ * ts = W) ∨ (ρ = 1 ∧ tw + ts = W) := by
  have key : ρ * ts = W - tw := by
    unfold justifiedRatio at hρ
    split at hρ
    · rename_i e; rw [hρ, e]; simp
    · split at hρ
      · rename_i hlt
        rw [if_neg (by positivity)] at hρ
        have : 0 < (W - tw) / (ts * (1/2)) := div_pos (by linarith) (by positivity)
        rw [if_pos this] at hρ
        rw [hρ]; field_simp
      · rename_i hne hlt
        rw [if_neg (by positivity)] at hρ
        have hlt' : W < tw := lt_of_le_of_ne (not_lt.1 hlt) (Ne.symm hne)
        have : ¬ 0 < (W - tw) / (ts * (1/3)) := not_lt.2 (div_nonpos_of_nonpos_of_nonneg (by linarith) (by positivity))
        rw [if_neg this] at hρ
        rw [hρ]; field_simp
  by_cases h1 : ρ = 1
  · right; rw [h1, one_mul] at key; exact ⟨h1, by linarith⟩
  · left; exact ⟨h1, by linarith⟩

/-- C44: every line but the last that has a word space is displayed exactly as wide as its column. -/
def C44_Statement : Prop := ∀ (env : Env) (cols : Cols) (lead : ℚ) (avoid : Bool) (p : OptParams) (ws : List WordLike)
  (ae : Bool) (out : List ShapedText), env.Ok → ParagraphWords env ws → (∀ w ∈ ws, w.Plain) → Spacious env ws → 0 < lead →
  (∀ i, 0 ≤ (cols i).2) → optimumShape env cols lead avoid .justify p ws ae = some out →
  ∀ (i k : Nat) (chunk : ShapedText) (line : TLine), out[i]? = some chunk → chunk.lines[k]? = some line →
    ¬ (i + 1 = out.length ∧ k + 1 = chunk.lines.length) → (∃ w ∈ line.words, w.tail.isSome) →
    ∀ v : Viewer, (∀ w ∈ line.words.head?, v.In w.preState) →
      (Viewer.run env.widths (encodeWords line.words []) v).2.x = v.x + (cols i).1

theorem shown_width {line : TLine} {s t : State} (h : WordsWF env line.words s t) (v : Viewer) (hv : ∀ w ∈ line.words.head?, v.In w.preState) :
    (Viewer.run env.widths (encodeWords line.words []) v).2.x = v.x + totalWidth line.words := by
  cases e : line.words with
  | nil => simp [encodeWords, Viewer.run, Viewer.step, Viewer.show, totalWidth]
  | cons w l =>
    rw [e] at h
    have hv' := hv w (by simp [e])
    obtain ⟨g, v', h3, h4⟩ := encodeWords_shown (w :: l) s t h [] v [] v rfl (by rw [← h.2.1]; exact hv')
    rw [h3]
    exact h4.x

/-- C44, as far as it is true: every line but the last that has a word space is displayed exactly as wide as its
column, unless its spaces would have to be twice as wide; then they are not stretched at all, and the line is too short
by the sum of its spaces. -/
theorem C44_fill_partial (henv : env.Ok) {ws : List WordLike} (hw : ParagraphWords env ws) (hp : ∀ w ∈ ws, w.Plain) (hsp : Spacious env ws)
    {cols : Cols} {lead : ℚ} (hl : 0 < lead) (hc : ∀ i, 0 ≤ (cols i).2) {avoid : Bool} {p : OptParams} {ae : Bool}
    {out : List ShapedText} (h : optimumShape env cols lead avoid .justify p ws ae = some out)
    {i k : Nat} {chunk : ShapedText} {line : TLine} (hi : out[i]? = some chunk) (hk : chunk.lines[k]? = some line)
    (hlast : ¬ (i + 1 = out.length ∧ k + 1 = chunk.lines.length)) (hex : ∃ w ∈ line.words, w.tail.isSome)
    (v : Viewer) (hv : ∀ w ∈ line.words.head?, v.In w.preState) :
    (Viewer.run env.widths (encodeWords line.words []) v).2.x = v.x + (cols i).1 ∨
    (Viewer.run env.widths (encodeWords line.words []) v).2.x = v.x + (cols i).1 - totalSpace line.words := by
  obtain ⟨s', t', hwf⟩ := optimum_line_wf henv hw hp hl hc h hi hk
  rw [shown_width hwf v hv]
  suffices totalWidth line.words = (cols i).1 ∨ totalWidth line.words = (cols i).1 - totalSpace line.words by
    rcases this with e | e
    · left; rw [e]
    · right; rw [e]; ring
  by_cases hws : ws = []
  · subst hws
    exfalso
    rcases optimumShape_nil h with ⟨rfl, -⟩ | ⟨rfl, -⟩
    · match i with
      | 0 =>
        simp at hi; subst hi
        match k with
        | 0 => exact hlast ⟨rfl, rfl⟩
        | k + 1 => simp at hk
      | i + 1 => simp at hi
    · match i with
      | 0 => simp at hi; subst hi; simp at hk
      | 1 =>
        simp at hi; subst hi
        match k with
        | 0 => exact hlast ⟨rfl, rfl⟩
        | k + 1 => simp at hk
      | i + 2 => simp at hi
  obtain ⟨fbs, W, tol, brs, n, a, br, hI⟩ := optimum_line hl hc hws h hi hk
  obtain ⟨pre, fin, hok⟩ := intoBoxes_ok henv hw hp hI.boxes
  have hne' : fbs.map (·.2) ≠ [] := by simpa using hI.ne
  have hbl : br.pos ≤ (fbs.map (·.1)).length := by simpa using hI.bounds.2
  have hlw := lineWords_ok hok.seq hok.wf' hok.text hI.bounds.1 hbl
  obtain ⟨l1, l2, l3⟩ := hlw.spaces hsp
  obtain ⟨x, m1, m2, m3⟩ := line_metrics hok.metrics hok.seq hI.bounds.1 hI.bounds.2
  obtain ⟨m4, m5⟩ := m3 (by simp) (by simp [initStretch])
  have hn : n + 1 < brs.length := by
    have h1 : n < brs.length := (List.getElem?_eq_some_iff.1 hI.break_).1
    have h2 : n + 1 ≠ brs.length := by rw [ne_eq, ← hI.last, hi]; exact hlast
    omega
  obtain ⟨a', k1, k2, -⟩ := C39_tolerance hne' hI.fit hI.break_
  have ha : a' = a := by have := hI.start; rw [k1] at this; simpa using this
  subst ha
  obtain ⟨k3, k4, -⟩ := k2 hn
  have hline : line.words = (lineWords (((fbs.map (·.1)).take br.pos).drop a')).map
      (WordLike.stretchTail (br.adjust * (if 0 < br.adjust then 1/2 else 1/3))) := by
    rw [hI.set_]; simp [optLine, TLine.stretch]
  generalize hL : lineWords (((fbs.map (·.1)).take br.pos).drop a') = L at *
  have hr : br.adjust = justifiedRatio (totalWidth L) (totalSpace L * (1/2)) (totalSpace L * (1/3)) (cols i).1 := by
    rw [k3]
    simp only [lineRatio, m1, OptParams.fit]
    simp only [ne_eq, not_true_eq_false, decide_false, Bool.false_eq_true, if_false]
    rw [m2, m4, m5, hI.width]
  have hexL : ∃ w ∈ L, w.tail.isSome := by
    obtain ⟨w, hw1, hw2⟩ := hex
    rw [hline] at hw1
    obtain ⟨w', hw3, rfl⟩ := List.mem_map.1 hw1
    exact ⟨w', hw3, by rw [← WordLike.stretchTail_tail]; exact hw2⟩
  have hts := l3 hexL
  have hsw := stretch_widths L (br.adjust * (if 0 < br.adjust then 1/2 else 1/3)) hlw.wf l1
  rw [← hline] at hsw
  rcases justified_width hts (ρ := br.adjust * (if 0 < br.adjust then 1/2 else 1/3)) (by rw [← hr]) with ⟨e1, e2⟩ | ⟨e1, e2⟩
  · left
    rw [hsw, if_neg e1]; exact e2
  · right
    have same : line.words = L := by
      rw [hline, e1]
      have : ∀ w : WordLike, w.stretchTail 1 = w := by
        intro w
        induction w with
        | box b => rfl
        | word w => simp only [WordLike.stretchTail, Word.stretchTail]; split <;> simp
        | withCmd w c ih => simp [WordLike.stretchTail, ih]
      rw [show (WordLike.stretchTail 1) = id from funext this, List.map_id]
    rw [same]; linarith

theorem demoWords_spacious : Spacious demoEnv demoWords where
  space := by intro _ _ e _; simp only [demoEnv]; rw [if_neg (by decide)]; norm_num
  size := by
    intro w hw e he
    have : w = .word demoWord := by simpa [demoWords] using hw
    subst this
    have : ∀ e ∈ (WordLike.word demoWord).styled, 0 < e.2.size := by decide +kernel
    exact this e he

/-- C44 is false: in columns of width 48 the space between the two words should be 10 wide, but stays 5 wide. -/
theorem C44_counterexample : ¬ C44_Statement := by
  intro h
  have hs : ((optimumShape demoEnv (fun _ => (48, 20)) 10 false .justify .default demoWords false).map fun o =>
      o.map fun c => c.lines.map fun l => (totalWidth l.words, decide (∃ w ∈ l.words, w.tail.isSome))) = some [[(43, true), (19, false)]] := by
    decide +kernel
  rw [Option.map_eq_some_iff] at hs
  obtain ⟨out, h1, h2⟩ := hs
  obtain ⟨chunk, rfl, h3⟩ := List.map_eq_singleton_iff.1 h2
  obtain ⟨line, ls, h4, h5, h6⟩ := List.map_eq_cons_iff.1 h3
  simp only [Prod.mk.injEq, decide_eq_true_eq] at h5
  have hk : chunk.lines[0]? = some line := by rw [h4]; rfl
  obtain ⟨s, t, hwf⟩ := optimum_line_wf demoEnv_ok demoWords_ok demoWords_plain (by norm_num) (by norm_num) h1 (i := 0) rfl hk
  have hl2 : 2 = chunk.lines.length := by have := congrArg List.length h3; simpa using this.symm
  obtain ⟨w, l, hwl⟩ : ∃ w l, line.words = w :: l := by
    obtain ⟨w, hw, -⟩ := h5.2
    exact List.exists_cons_of_ne_nil (List.ne_nil_of_mem hw)
  let v : Viewer := ⟨some (w.preState.font, w.preState.size), w.preState.color, 0, 0, 0, 0⟩
  have hv : ∀ x ∈ line.words.head?, v.In x.preState := by
    rw [hwl]; intro x hx; simp at hx; subst hx; exact ⟨rfl, rfl⟩
  have := h demoEnv _ 10 false .default demoWords false _ demoEnv_ok demoWords_ok demoWords_plain demoWords_spacious (by norm_num)
    (by norm_num) h1 0 0 chunk line rfl hk (by simp; omega) h5.2 v hv
  rw [shown_width hwf v hv, h5.1] at this
  norm_num at this


/-! ### C45, widths -/

/-- C45: in left-aligned, right-aligned and centred text no line is wider than its column; in justified text no line
with a word space is. -/
theorem C45_fits_partial (henv : env.Ok) {ws : List WordLike} (hw : ParagraphWords env ws) (hp : ∀ w ∈ ws, w.Plain) (hsp : Spacious env ws)
    (hws : ws ≠ []) {cols : Cols} {lead : ℚ} (hl : 0 < lead) (hc : ∀ i, 0 ≤ (cols i).2) {avoid : Bool} {align : Align} {p : OptParams} {ae : Bool}
    {out : List ShapedText} (h : optimumShape env cols lead avoid align p ws ae = some out)
    {i k : Nat} {chunk : ShapedText} {line : TLine} (hi : out[i]? = some chunk) (hk : chunk.lines[k]? = some line)
    (hor : align ≠ .justify ∨ ∃ w ∈ line.words, w.tail.isSome) : totalWidth line.words ≤ (cols i).1 := by
  obtain ⟨fbs, W, tol, brs, n, a, br, hI⟩ := optimum_line hl hc hws h hi hk
  obtain ⟨pre, fin, hok⟩ := intoBoxes_ok henv hw hp hI.boxes
  have hne' : fbs.map (·.2) ≠ [] := by simpa using hI.ne
  have hbl : br.pos ≤ (fbs.map (·.1)).length := by simpa using hI.bounds.2
  have hlw := lineWords_ok hok.seq hok.wf' hok.text hI.bounds.1 hbl
  obtain ⟨l1, l2, l3⟩ := hlw.spaces hsp
  obtain ⟨x, m1, m2, m3⟩ := line_metrics hok.metrics hok.seq hI.bounds.1 hI.bounds.2
  obtain ⟨a', k1, k2, k3⟩ := C39_tolerance hne' hI.fit hI.break_
  have ha : a' = a := by have := hI.start; rw [k1] at this; simpa using this
  subst ha
  have hn : n + 1 < brs.length ∨ n + 1 = brs.length := by
    have h1 : n < brs.length := (List.getElem?_eq_some_iff.1 hI.break_).1
    omega
  have hr : br.adjust = lineRatio (p.fit (align ≠ .justify)).ragged (fbs.map (·.2)) W n a' br.pos ∨
      br.adjust = min (lineRatio (p.fit (align ≠ .justify)).ragged (fbs.map (·.2)) W n a' br.pos) 0 := by
    rcases hn with hn | hn
    · exact Or.inl (k2 hn).1
    · exact Or.inr (k3 hn).1
  have hlo : -1 ≤ br.adjust := by
    rcases hn with hn | hn
    · exact (k2 hn).2.1
    · exact (k3 hn).2.le
  by_cases hal : align = .justify
  · subst hal
    rcases hor with hor | hex
    · exact absurd rfl hor
    obtain ⟨m4, m5⟩ := m3 (by simp) (by simp [initStretch])
    have hline : line.words = (lineWords (((fbs.map (·.1)).take br.pos).drop a')).map
        (WordLike.stretchTail (br.adjust * (if 0 < br.adjust then 1/2 else 1/3))) := by
      rw [hI.set_]; simp [optLine, TLine.stretch]
    generalize hL : lineWords (((fbs.map (·.1)).take br.pos).drop a') = L at *
    have hrr : lineRatio (p.fit (decide (Align.justify ≠ .justify))).ragged (fbs.map (·.2)) W n a' br.pos =
        justifiedRatio (totalWidth L) (totalSpace L * (1/2)) (totalSpace L * (1/3)) (cols i).1 := by
      simp only [lineRatio, m1, OptParams.fit]
      simp only [ne_eq, not_true_eq_false, decide_false, Bool.false_eq_true, if_false]
      rw [m2, m4, m5, hI.width]
    have hexL : ∃ w ∈ L, w.tail.isSome := by
      obtain ⟨w, hw1, hw2⟩ := hex
      rw [hline] at hw1
      obtain ⟨w', hw3, rfl⟩ := List.mem_map.1 hw1
      exact ⟨w', hw3, by rw [← WordLike.stretchTail_tail]; exact hw2⟩
    have hts := l3 hexL
    have hsw := stretch_widths L (br.adjust * (if 0 < br.adjust then 1/2 else 1/3)) hlw.wf l1
    rw [← hline] at hsw
    have main : br.adjust = justifiedRatio (totalWidth L) (totalSpace L * (1/2)) (totalSpace L * (1/3)) (cols i).1 →
        totalWidth line.words ≤ (cols i).1 := by
      intro hr'
      rcases justified_width hts (ρ := br.adjust * (if 0 < br.adjust then 1/2 else 1/3)) (by rw [← hr']) with ⟨e1, e2⟩ | ⟨e1, e2⟩
      · rw [hsw, if_neg e1]; exact e2.le
      · rw [hsw, if_pos e1]; linarith
    rcases hr with hr | hr
    · exact main (hr.trans hrr)
    · rcases le_total (lineRatio (p.fit (decide (Align.justify ≠ .justify))).ragged (fbs.map (·.2)) W n a' br.pos) 0 with h0 | h0
      · rw [min_eq_left h0] at hr
        exact main (hr.trans hrr)
      · rw [min_eq_right h0] at hr
        rw [hsw, hr]
        simp only [zero_mul, zero_ne_one, if_false, add_zero]
        rw [hrr] at h0
        by_contra hcon
        rw [not_le] at hcon
        unfold justifiedRatio at h0
        rw [if_neg hcon.ne', if_neg (not_lt.2 hcon.le), if_neg (by positivity)] at h0
        have : ((cols i).1 - totalWidth L) / (totalSpace L * (1/3)) < 0 := div_neg_of_neg_of_pos (by linarith) (by positivity)
        linarith
  · have hline : line.words = lineWords (((fbs.map (·.1)).take br.pos).drop a') := by
      rw [hI.set_]; simp [optLine, hal]
    rw [hline]
    have hrr : lineRatio (p.fit (align ≠ .justify)).ragged (fbs.map (·.2)) W n a' br.pos =
        raggedRatio (totalWidth (lineWords (((fbs.map (·.1)).take br.pos).drop a'))) x.stretch (cols i).1 := by
      simp only [lineRatio, m1, OptParams.fit]
      simp only [ne_eq, hal, not_false_eq_true, decide_true, if_true]
      rw [m2, hI.width]
    by_contra hcon
    have h2 : raggedRatio (totalWidth (lineWords (((fbs.map (·.1)).take br.pos).drop a'))) x.stretch (cols i).1 = -2 := by
      unfold raggedRatio; rw [if_neg hcon]
    rw [hrr, h2] at hr
    rcases hr with hr | hr <;> rw [hr] at hlo <;> norm_num at hlo

/-! ### C42 -/

theorem tryTolerances_isSome {p : FitParams} {bs : List KBox} (hne : bs ≠ []) {width : Nat → ℚ} (hz : NoZero p bs width) {tol : Tol}
    (hq : ∃ qs, Feasible p bs width tol 0 0 qs ∧ Unbroken p bs width 0 0 qs) : ∀ {ts : List Tol}, tol ∈ ts →
    ∃ brs, tryTolerances p bs width ts = some brs
  | t :: ts, ht => by
    simp only [tryTolerances]
    split
    · exact ⟨_, rfl⟩
    · rename_i e
      rcases List.mem_cons.1 ht with rfl | ht
      · obtain ⟨brs, h⟩ := (C41_unbroken_partial hne hz).1.1 hq
        rw [e] at h; cases h
      · exact tryTolerances_isSome hne hz hq ht
    · rename_i e
      exact absurd e ((optimumFit_spec hne).2.2 hz)

/-- Breaks after every box. -/
theorem feasible_all {p : FitParams} {bs : List KBox} {width : Nat → ℚ} (hb : ∀ b ∈ bs, b.noBreak = false)
    (hr : ∀ j a, a < bs.length → -1 < lineRatio p.ragged bs width j a (a + 1)) : ∀ (m j a : Nat), a + m + 1 = bs.length →
    Feasible p bs width .inf j a (List.range' (a + 1) (m + 1)) ∧ Unbroken p bs width j a (List.range' (a + 1) (m + 1))
  | 0, j, a, h => by
    refine ⟨⟨by omega, by omega, hr j a (by omega)⟩, ?_⟩
    simp only [List.range', Unbroken, and_true]
    intro c h1 h2; omega
  | m + 1, j, a, h => by
    obtain ⟨i1, i2⟩ := feasible_all hb hr m (j + 1) (a + 1) (by omega)
    rw [List.range'_succ]
    refine ⟨?_, ⟨fun c h1 h2 => by omega, i2⟩⟩
    rw [List.range'_succ] at i1 ⊢
    refine ⟨by omega, ⟨by omega, by omega, ?_⟩, (hr j a (by omega)).le, trivial, i1⟩
    intro x hx
    exact hb x (List.mem_of_getElem? hx)

theorem optimumShape_isSome {cols : Cols} {lead : ℚ} (hl : 0 < lead) (hc : ∀ i, 0 ≤ (cols i).2) (avoid : Bool) (align : Align) (p : OptParams)
    {ws : List WordLike} (ae : Bool) {fbs : List (Fragment × KBox)} (hf : intoBoxes env ws (align = .justify) = some fbs)
    (hb : fbs ≠ [] → ∀ q : ColQueue, (∀ c, ∃ i, q.width c = (cols i).1) → ∃ lines, breakLines p (align = .justify) fbs q = some lines) :
    ∃ out, optimumShape env cols lead avoid align p ws ae = some out := by
  have place : ∀ (q : ColQueue) (lines : List TLine), fbs ≠ [] → q.Full → (∀ c, ∃ i, q.width c = (cols i).1) →
      breakLines p (align = .justify) fbs q = some lines → ∃ r, placeLines p (align = .justify) avoid fbs q lines = some r := by
    intro q lines hne hfull hw hbl
    unfold placeLines
    split
    · exact orphanLoop_isSome hne (fun q' h1 _ => hb hne q' (by rw [h1]; exact hw)) _ q lines le_rfl rfl hfull hbl
    · exact ⟨_, rfl⟩
  have shape : ∀ (q : ColQueue), q.Full → (∀ c, ∃ i, q.width c = (cols i).1) →
      ∃ r, shapeFrom p (align = .justify) avoid ae fbs q = some r := by
    intro q hfull hw
    unfold shapeFrom
    split
    · exact ⟨_, rfl⟩
    · rename_i hne
      obtain ⟨lines, h1⟩ := hb hne q hw
      simp only [h1]
      split
      · have hw' : ∀ c, ∃ i, q.removeFirst.width c = (cols i).1 := fun c => hw (c + 1)
        obtain ⟨lines', h2⟩ := hb hne q.removeFirst hw'
        simp only [h2]
        obtain ⟨r, h3⟩ := place q.removeFirst lines' hne (fun c => hfull (c + 1)) hw' h2
        exact ⟨_, by rw [h3]; rfl⟩
      · exact place q lines hne hfull hw h1
  unfold optimumShape
  rw [if_neg hl.ne', hf]
  simp only
  split
  · have hq : SetFrom (fun i => cols (i + 1)) lead false 0 (ColQueue.new (fun i => cols (i + 1)) lead false) := by
      apply SetFrom.new hl (fun i => hc (i + 1))
      rcases lineCap_spec hl (hc 1) 1 with ⟨h, -⟩ | ⟨h, -⟩ <;> simp [ColQueue.count, ColQueue.new] <;> omega
    obtain ⟨r, hr⟩ := shape _ hq.full (fun c => ⟨c + 1, rfl⟩)
    rw [hr]; exact ⟨_, rfl⟩
  · rename_i h0
    obtain ⟨r, hr⟩ := shape _ (SetFrom.new hl hc h0).full (fun c => ⟨c, rfl⟩)
    rw [hr]; exact ⟨_, rfl⟩

/-- C42: laying out a paragraph with the default settings never fails. -/
def C42_Statement : Prop := ∀ (env : Env) (cols : Cols) (lead : ℚ) (avoid : Bool) (align : Align) (ws : List WordLike) (ae : Bool),
  env.Ok → ParagraphWords env ws → (∀ w ∈ ws, w.Plain) → Spacious env ws → 0 < lead → (∀ i, 0 ≤ (cols i).2) → (∀ i, 0 < (cols i).1) →
  ∃ out, optimumShape env cols lead avoid align .default ws ae = some out

/-- C42 is false: left-aligned text with a syllable that is wider than the column gives an error. -/
theorem C42_counterexample : ¬ C42_Statement := by
  intro h
  obtain ⟨out, ho⟩ := h demoEnv (fun _ => (10, 20)) 10 false .left demoWords false demoEnv_ok demoWords_ok demoWords_plain demoWords_spacious
    (by norm_num) (by norm_num) (by norm_num)
  have : (optimumShape demoEnv (fun _ => (10, 20)) 10 false .left .default demoWords false).isNone := by decide +kernel
  rw [ho] at this
  simp at this

theorem single_line {justify : Bool} {ws : List WordLike} {fbs : List (Fragment × KBox)} {s : ℚ} (hm : FragMetrics justify fbs 0 s 0)
    (hs : FragSeq env ws (fbs.map (·.1))) {a : Nat} (ha : a < fbs.length) :
    ∃ x, (fbs.map (·.2))[a]? = some x ∧ x.inclHyphen - startWidth (fbs.map (·.2)) a = fbs[a].1.breakWidth ∧
      (justify = true → s = 0 → x.stretch - startStretch (fbs.map (·.2)) a = 0 ∧ x.shrink - startShrink (fbs.map (·.2)) a = 0) := by
  obtain ⟨x, m1, m2, m3⟩ := line_metrics hm hs (Nat.lt_succ_self a) ha
  rw [Nat.succ_eq_add_one, Nat.add_sub_cancel] at m1
  have e : ((fbs.map (·.1)).take (a + 1)).drop a = [] ++ [fbs[a].1] := by
    obtain ⟨f, hf, e⟩ := seg_concat (fbs.map (·.1)) (Nat.lt_succ_self a) (by simpa using Nat.succ_le_of_lt ha)
    rw [Nat.succ_eq_add_one, Nat.add_sub_cancel] at hf e
    rw [e]
    have : f = fbs[a].1 := by
      rw [List.getElem?_map, List.getElem?_eq_getElem ha] at hf; simpa using hf.symm
    rw [this, List.drop_of_length_le (by simp)]
  obtain ⟨inner, hk, -⟩ := seg_kind hs (b := a + 1) (f := fbs[a].1) (by omega) (by simp [ha])
  rw [Nat.succ_eq_add_one, e, lineWords_width] at m2
  rw [Nat.succ_eq_add_one, e, lineWords_space _ _ hk] at m3
  exact ⟨x, m1, by simpa using m2, fun h1 h2 => by simpa using m3 h1 h2⟩

/-- C42 for justified text: layout never fails, if the width of no piece of a word is negative (a negative indent can
make the first one so). -/
theorem C42_justified_partial (henv : env.Ok) {ws : List WordLike} (hw : ParagraphWords env ws) (hp : ∀ w ∈ ws, w.Plain)
    (hpw : ∀ w ∈ ws, ∀ x ∈ w.pieceWidths env, 0 ≤ x) {cols : Cols} {lead : ℚ}
    (hl : 0 < lead) (hc : ∀ i, 0 ≤ (cols i).2) (hcw : ∀ i, 0 < (cols i).1) (avoid : Bool) {p : OptParams} (ht : 0 < p.tolerance) (ae : Bool) :
    ∃ out, optimumShape env cols lead avoid .justify p ws ae = some out := by
  obtain ⟨fbs, hf⟩ := fragsLoop_isSome (env := env) true ws 0 (initStretch env true ws) 0 hp (hw.wf henv).2
  have hf' : intoBoxes env ws (decide (Align.justify = .justify)) = some fbs := hf
  obtain ⟨pre, fin, hok⟩ := intoBoxes_ok henv hw hp hf
  refine optimumShape_isSome hl hc avoid .justify p ae hf' ?_
  intro hne q hq
  have hne' : fbs.map (·.2) ≠ [] := by simpa using hne
  have hpos : ∀ j, 0 < q.lineLength j := by
    intro j
    obtain ⟨i, e⟩ := hq (q.find j (j + 2 + (q.cap 0).natAbs) 0 0)
    rw [ColQueue.lineLength, e]; exact hcw i
  have hz : NoZero (p.fit false) (fbs.map (·.2)) q.lineLength := ⟨fun j => (hpos j).ne', by simp [OptParams.fit]⟩
  have hr : ∀ j a, a < (fbs.map (·.2)).length → -1 < lineRatio (p.fit false).ragged (fbs.map (·.2)) q.lineLength j a (a + 1) := by
    intro j a ha
    have ha' : a < fbs.length := by simpa using ha
    obtain ⟨x, m1, m2, m3⟩ := single_line hok.metrics hok.seq ha'
    obtain ⟨m4, m5⟩ := m3 rfl (by simp [initStretch])
    simp only [lineRatio, Nat.add_sub_cancel, m1, OptParams.fit, Bool.false_eq_true, if_false]
    rw [m2, m4, m5]
    have hb : 0 ≤ fbs[a].1.breakWidth := by
      rcases fragsLoop_pieces hf fbs[a] (List.getElem_mem ha') with h0 | ⟨w, h1, h2⟩
      · rw [h0]
      · exact hpw w h1 _ h2
    have : 0 ≤ fbs[a].1.breakWidth / q.lineLength j := div_nonneg hb (hpos j).le
    unfold justifiedRatio
    repeat' split
    all_goals first | norm_num; done | linarith
  have hnb : ∀ b ∈ fbs.map (·.2), b.noBreak = false := by
    intro b hb
    obtain ⟨e, he, rfl⟩ := List.mem_map.1 hb
    obtain ⟨k, hk, e0⟩ := List.mem_iff_getElem.1 he
    exact (hok.metrics.get k e.1 e.2 (List.getElem?_eq_some_iff.2 ⟨hk, e0⟩)).2.2.2.2
  obtain ⟨m, hm⟩ : ∃ m, 0 + m + 1 = (fbs.map (·.2)).length := ⟨(fbs.map (·.2)).length - 1, by
    have := List.length_pos_iff.2 hne'; omega⟩
  obtain ⟨f1, f2⟩ := feasible_all hnb hr m 0 0 hm
  obtain ⟨brs, hbrs⟩ := tryTolerances_isSome hne' hz (ts := tolerances p.tolerance) ⟨_, f1, f2⟩ (by simp [tolerances, ht])
  exact ⟨_, by unfold breakLines findBreaks; rw [show (!decide (Align.justify = .justify)) = false by rfl, hbrs]; rfl⟩

/-- C42 for other text: layout never fails, if every syllable (with a hyphen) fits in every column. -/
theorem C42_ragged_partial (henv : env.Ok) {ws : List WordLike} (hw : ParagraphWords env ws) (hp : ∀ w ∈ ws, w.Plain)
    (hst : ∀ w ∈ ws, 0 < w.state.size ∧ 0 < (env.metrics w.state.font).charwidth ' ') {cols : Cols} (hpw : ∀ w ∈ ws, ∀ x ∈ w.pieceWidths env, ∀ i, x ≤ (cols i).1)
    {lead : ℚ} (hl : 0 < lead) (hc : ∀ i, 0 ≤ (cols i).2) (hcw : ∀ i, 0 < (cols i).1) (avoid : Bool) {align : Align} (hal : align ≠ .justify)
    {p : OptParams} (ht : 0 < p.tolerance) (ae : Bool) :
    ∃ out, optimumShape env cols lead avoid align p ws ae = some out := by
  obtain ⟨fbs, hf⟩ := fragsLoop_isSome (env := env) false ws 0 (initStretch env false ws) 0 hp (hw.wf henv).2
  have hd : decide (align = .justify) = false := by simp [hal]
  have hf' : intoBoxes env ws (decide (align = .justify)) = some fbs := by rw [hd]; exact hf
  obtain ⟨pre, fin, hok⟩ := intoBoxes_ok henv hw hp (justify := false) hf
  refine optimumShape_isSome hl hc avoid align p ae hf' ?_
  intro hne q hq
  have hne' : fbs.map (·.2) ≠ [] := by simpa using hne
  have hlen : ∀ j, ∃ i, q.lineLength j = (cols i).1 := fun j => hq (q.find j (j + 2 + (q.cap 0).natAbs) 0 0)
  have hs0 : 0 < initStretch env false ws := by
    cases ws with
    | nil => simp only [fragsLoop, Option.some.injEq] at hf; exact absurd hf.symm hne
    | cons w ws =>
      obtain ⟨h1, h2⟩ := hst w (by simp)
      simp only [initStretch, Bool.false_eq_true, if_false]
      positivity
  have hstr : ∀ b ∈ fbs.map (·.2), b.stretch = initStretch env false ws ∧ b.noBreak = false := by
    intro b hb
    obtain ⟨e, he, rfl⟩ := List.mem_map.1 hb
    obtain ⟨k, hk, e0⟩ := List.mem_iff_getElem.1 he
    have := hok.metrics.get k e.1 e.2 (List.getElem?_eq_some_iff.2 ⟨hk, e0⟩)
    exact ⟨by simpa using this.2.2.1, this.2.2.2.2⟩
  have hz : NoZero (p.fit true) (fbs.map (·.2)) q.lineLength := by
    refine ⟨fun j => ?_, fun _ b hb => by rw [(hstr b hb).1]; exact hs0.ne'⟩
    obtain ⟨i, e⟩ := hlen j
    rw [e]; exact (hcw i).ne'
  have hr : ∀ j a, a < (fbs.map (·.2)).length → -1 < lineRatio (p.fit true).ragged (fbs.map (·.2)) q.lineLength j a (a + 1) := by
    intro j a ha
    have ha' : a < fbs.length := by simpa using ha
    obtain ⟨x, m1, m2, -⟩ := single_line hok.metrics hok.seq ha'
    simp only [lineRatio, Nat.add_sub_cancel, m1, OptParams.fit, if_true]
    rw [m2, (hstr x (List.mem_of_getElem? m1)).1]
    have hb : fbs[a].1.breakWidth ≤ q.lineLength j := by
      obtain ⟨i, e⟩ := hlen j
      rw [e]
      rcases fragsLoop_pieces hf fbs[a] (List.getElem_mem ha') with h0 | ⟨w, h1, h2⟩
      · rw [h0]; exact (hcw i).le
      · exact hpw w h1 _ h2 i
    unfold raggedRatio
    rw [if_pos hb]
    have : 0 ≤ (q.lineLength j - fbs[a].1.breakWidth) / initStretch env false ws := div_nonneg (by linarith) hs0.le
    linarith
  obtain ⟨m, hm⟩ : ∃ m, 0 + m + 1 = (fbs.map (·.2)).length := ⟨(fbs.map (·.2)).length - 1, by
    have := List.length_pos_iff.2 hne'; omega⟩
  obtain ⟨f1, f2⟩ := feasible_all (fun b hb => (hstr b hb).2) hr m 0 0 hm
  obtain ⟨brs, hbrs⟩ := tryTolerances_isSome hne' hz (ts := tolerances p.tolerance) ⟨_, f1, f2⟩ (by simp [tolerances, ht])
  exact ⟨_, by unfold breakLines findBreaks; rw [hd, show (!false) = true by rfl, hbrs]; rfl⟩

/-! ### C40 and C41 for paragraphs -/

/-- Lines of a paragraph's boxes that are too long stay too long, if its words have usual measures. -/
theorem paragraph_monotone (henv : env.Ok) {ws : List WordLike} (hw : ParagraphWords env ws) (hp : ∀ w ∈ ws, w.Plain) (ht : Tame env ws)
    (hst : ∀ w ∈ ws, 0 < w.state.size ∧ 0 < (env.metrics w.state.font).charwidth ' ') (justify : Bool) {fbs : List (Fragment × KBox)}
    (hf : intoBoxes env ws justify = some fbs) (p : OptParams) {width : Nat → ℚ} (hwd : ∀ j, 0 < width j) :
    Monotone' (p.fit (!justify)) (fbs.map (·.2)) width ∧ NoZero (p.fit (!justify)) (fbs.map (·.2)) width := by
  obtain ⟨pre, fin, hok⟩ := intoBoxes_ok henv hw hp hf
  have hs0 : fbs ≠ [] → justify = false → 0 < initStretch env justify ws := by
    intro hne hj
    subst hj
    cases ws with
    | nil => simp only [intoBoxes, fragsLoop, Option.some.injEq] at hf; exact absurd hf.symm hne
    | cons w ws =>
      obtain ⟨h1, h2⟩ := hst w (by simp)
      simp only [initStretch, Bool.false_eq_true, if_false]
      positivity
  have hs1 : 0 ≤ initStretch env justify ws := by
    cases justify with
    | true => simp [initStretch]
    | false =>
      cases ws with
      | nil => simp [initStretch]
      | cons w ws =>
        obtain ⟨h1, h2⟩ := hst w (by simp)
        simp only [initStretch, Bool.false_eq_true, if_false]
        positivity
  have hr : (p.fit (!justify)).ragged = true → ∀ b ∈ fbs.map (·.2), 0 < b.stretch ∧ b.shrink = 0 := by
    intro hj b hb
    have hj : justify = false := by simpa [OptParams.fit] using hj
    obtain ⟨e, he, rfl⟩ := List.mem_map.1 hb
    obtain ⟨k, hk, e0⟩ := List.mem_iff_getElem.1 he
    have := hok.metrics.get k e.1 e.2 (List.getElem?_eq_some_iff.2 ⟨hk, e0⟩)
    have h0 := hs0 (List.ne_nil_of_mem he) hj
    subst hj
    refine ⟨?_, by simpa using this.2.2.2.1⟩
    rw [this.2.2.1]; simpa using h0
  exact ⟨(growing ht hs1 hf hok.metrics).monotone hwd hr, fun j => (hwd j).ne', fun h b hb => (hr h b hb).1.ne'⟩

/-- C40 for the boxes of paragraphs whose words have usual measures (`Tame`), in lines of any widths: no feasible
breaks have less demerits than the result. -/
theorem C40_paragraph_partial (henv : env.Ok) {ws : List WordLike} (hw : ParagraphWords env ws) (hp : ∀ w ∈ ws, w.Plain) (ht : Tame env ws)
    (hst : ∀ w ∈ ws, 0 < w.state.size ∧ 0 < (env.metrics w.state.font).charwidth ' ') (justify : Bool) {fbs : List (Fragment × KBox)}
    (hf : intoBoxes env ws justify = some fbs) (hne : fbs ≠ []) (p : OptParams) {width : Nat → ℚ} (hwd : ∀ j, 0 < width j) {tol : Tol}
    {brs : List KBreak} (h : optimumFit (penalties p (!justify)) (fbs.map (·.2)) width tol = .ok brs) :
    Feasible (penalties p (!justify)) (fbs.map (·.2)) width tol 0 0 (brs.map KBreak.pos) ∧
    ∀ qs, Feasible (penalties p (!justify)) (fbs.map (·.2)) width tol 0 0 qs →
      totalDemerits (penalties p (!justify)) (fbs.map (·.2)) width 0 0 1 (brs.map KBreak.pos) ≤ totalDemerits (penalties p (!justify)) (fbs.map (·.2)) width 0 0 1 qs :=
  C40_optimal_partial (by simpa using hne) (paragraph_monotone henv hw hp ht hst justify hf p hwd).1 h

/-- C41 for the boxes of paragraphs whose words have usual measures: breaking fails exactly if there are no feasible
breaks. -/
theorem C41_paragraph_partial (henv : env.Ok) {ws : List WordLike} (hw : ParagraphWords env ws) (hp : ∀ w ∈ ws, w.Plain) (ht : Tame env ws)
    (hst : ∀ w ∈ ws, 0 < w.state.size ∧ 0 < (env.metrics w.state.font).charwidth ' ') (justify : Bool) {fbs : List (Fragment × KBox)}
    (hf : intoBoxes env ws justify = some fbs) (hne : fbs ≠ []) (p : OptParams) {width : Nat → ℚ} (hwd : ∀ j, 0 < width j) {tol : Tol} :
    optimumFit (penalties p (!justify)) (fbs.map (·.2)) width tol = .error .noFeasibleBreaks ↔
      ¬ ∃ qs, Feasible (penalties p (!justify)) (fbs.map (·.2)) width tol 0 0 qs := by
  obtain ⟨h1, h2⟩ := paragraph_monotone henv hw hp ht hst justify hf p hwd
  exact C41_feasible_partial (by simpa using hne) h1 h2

/-- C39, C40, C41 and C45 together, for paragraphs whose words have usual measures, in columns of positive widths that are not over-full: the lines of all columns are the lines
between breaks that are feasible for a tolerance, and of all such breaks none have less demerits; it is the given tolerance, unless for this no breaks are feasible, and
otherwise 2, 3, 5 or 8 times that, or any ratio, the first of these for which some breaks are feasible. Each line was set for the width of its column. -/
theorem C45_best_partial (henv : env.Ok) {ws : List WordLike} (hws : ws ≠ []) (hw : ParagraphWords env ws) (hp : ∀ w ∈ ws, w.Plain) (ht : Tame env ws)
    (hst : ∀ w ∈ ws, 0 < w.state.size ∧ 0 < (env.metrics w.state.font).charwidth ' ') {cols : Cols} {lead : ℚ}
    (hl : 0 < lead) (hc : ∀ i, 0 ≤ (cols i).2) (hcw : ∀ i, 0 < (cols i).1) {avoid : Bool} {align : Align} {p : OptParams} {ae : Bool} {out : List ShapedText}
    (h : optimumShape env cols lead avoid align p ws ae = some out) :
    ∃ fbs W tol brs, intoBoxes env ws (align = .justify) = some fbs ∧
      FirstTol p.tolerance (fun x => ¬ ∃ qs, Feasible (penalties p (align ≠ .justify)) (fbs.map (·.2)) W x 0 0 qs) tol ∧
      Feasible (penalties p (align ≠ .justify)) (fbs.map (·.2)) W tol 0 0 (brs.map KBreak.pos) ∧
      (∀ qs, Feasible (penalties p (align ≠ .justify)) (fbs.map (·.2)) W tol 0 0 qs →
        totalDemerits (penalties p (align ≠ .justify)) (fbs.map (·.2)) W 0 0 1 (brs.map KBreak.pos) ≤ totalDemerits (penalties p (align ≠ .justify)) (fbs.map (·.2)) W 0 0 1 qs) ∧
      out.flatMap ShapedText.lines = intoLines (align = .justify) brs (fbs.map (·.1)) ∧
      ∀ (i k : Nat) chunk, out[i]? = some chunk → k < chunk.lines.length →
        W (((out.take i).flatMap ShapedText.lines).length + k) = (cols i).1 := by
  obtain ⟨fbs, W, tol, brs, ⟨i, chunk, line, h1, h2⟩, hW, h3⟩ := optimum_lines hl hc hws h
  obtain ⟨n, a, br, h4⟩ := h3 i 0 chunk line h1 h2
  have hwd : ∀ j, 0 < W j := fun j => by obtain ⟨i, e⟩ := hW j; rw [e]; exact hcw i
  have hfit := h4.fit
  have htried := h4.tried
  have ed : decide (align ≠ .justify) = !decide (align = .justify) := by simp
  rw [ed] at hfit htried ⊢
  obtain ⟨k1, k2⟩ := C40_paragraph_partial henv hw hp ht hst _ h4.boxes h4.ne p hwd hfit
  refine ⟨fbs, W, tol, brs, h4.boxes, ?_, k1, k2, h4.lines, fun i k chunk hi hk => ?_⟩
  · obtain ⟨pre, post, e1, e2⟩ := htried
    exact ⟨pre, post, e1, fun x hx => (C41_paragraph_partial henv hw hp ht hst _ h4.boxes h4.ne p hwd).1 (e2 x hx)⟩
  · obtain ⟨n, a, br, h5⟩ := h3 i k chunk _ hi (List.getElem?_eq_getElem hk)
    rw [← h5.index]; exact h5.width

/-- The demo words have usual measures: two syllables and a space. -/
theorem demoWords_tame : Tame demoEnv demoWords := by
  have hw : ∀ w ∈ demoWords, w = .word demoWord := by intro w hw; simpa [demoWords] using hw
  have h1 : ∀ x ∈ (WordLike.word demoWord).pieceWidths demoEnv, 0 ≤ x := by decide +kernel
  have h2 : (WordLike.word demoWord).boxes.length = 2 ∧ ∀ b ∈ (WordLike.word demoWord).boxes, ∀ b' ∈ (WordLike.word demoWord).boxes,
      (b.withHyphen demoEnv).width ≤ b.width + b'.width := by decide +kernel
  have h3 : ∀ t ∈ (WordLike.word demoWord).tail, 0 ≤ t.widthExclKern ∧ t.widthExclKern * (1/3) ≤ t.width := by decide +kernel
  refine ⟨fun w h => by rw [hw w h]; exact h1, fun w h pre b b' post e => ?_, fun w h => by rw [hw w h]; exact h3⟩
  rw [hw w h] at e
  have hl := congrArg List.length e
  rw [h2.1] at hl
  simp at hl
  have : post = [] := List.length_eq_zero_iff.1 (by omega)
  rw [if_pos this]
  exact h2.2 b (by rw [e]; simp) b' (by rw [e]; simp)

/-- The hypotheses of the theorems of this file can be met: three words, laid out justified in columns of 50 by 20, give two
lines in the first column. -/
example : ∃ out, optimumShape demoEnv (fun _ => (50, 20)) 10 true .justify .default demoWords false = some out ∧
    LinesShow demoWords ((out.flatMap ShapedText.lines).map TLine.styled) (demoWords.flatMap WordLike.styled) := by
  obtain ⟨out, h⟩ := C42_justified_partial demoEnv_ok demoWords_ok demoWords_plain
    (by
      intro w hw
      have : w = .word demoWord := by simpa [demoWords] using hw
      subst this
      have : ∀ x ∈ (WordLike.word demoWord).pieceWidths demoEnv, 0 ≤ x := by decide +kernel
      exact this)
    (cols := fun _ => (50, 20)) (lead := 10) (by norm_num) (by norm_num) (by norm_num) true (p := .default) (by decide +kernel) false
  exact ⟨out, h, C43_text_partial demoEnv_ok demoWords_ok demoWords_plain (by norm_num) (by norm_num) h⟩

/-- Likewise for left-aligned text. -/
example : ∃ out, optimumShape demoEnv (fun _ => (50, 20)) 10 true .left .default demoWords false = some out := by
  refine C42_ragged_partial demoEnv_ok demoWords_ok demoWords_plain ?_ (cols := fun _ => (50, 20)) ?_ (lead := 10)
    (by norm_num) (by norm_num) (by norm_num) true (by decide) (p := .default) (by decide +kernel) false
  · intro w hw
    have : w = .word demoWord := by simpa [demoWords] using hw
    subst this
    decide +kernel
  · intro w hw x hx i
    have : w = .word demoWord := by simpa [demoWords] using hw
    subst this
    have : ∀ x ∈ (WordLike.word demoWord).pieceWidths demoEnv, x ≤ 50 := by decide +kernel
    exact this x hx

/-- The hypotheses of C45_best_partial are met. -/
example (p : OptParams) (out : List ShapedText) (h : optimumShape demoEnv (fun _ => (50, 20)) 10 true .left p demoWords false = some out) :
    ∃ (fbs : List (Fragment × KBox)) (W : Nat → ℚ) (tol : Tol) (brs : List KBreak), intoBoxes demoEnv demoWords false = some fbs ∧ FirstTol p.tolerance (fun x => ¬ ∃ qs, Feasible (penalties p true) (fbs.map (·.2)) W x 0 0 qs) tol ∧
      Feasible (penalties p true) (fbs.map (·.2)) W tol 0 0 (brs.map KBreak.pos) := by
  obtain ⟨fbs, W, tol, brs, h1, h2, h3, -⟩ := C45_best_partial demoEnv_ok (by simp [demoWords]) demoWords_ok demoWords_plain demoWords_tame
    (by
      intro w hw
      have : w = .word demoWord := by simpa [demoWords] using hw
      subst this
      decide +kernel) (by norm_num) (by norm_num) (by norm_num) h
  exact ⟨fbs, W, tol, brs, h1, h2, h3⟩

/-- A line with a word space, as in C44 and C45. -/
example : ((optimumShape demoEnv (fun _ => (50, 20)) 10 false .justify .default demoWords false).map fun o =>
    o.map fun c => c.lines.map fun l => (totalWidth l.words, decide (∃ w ∈ l.words, w.tail.isSome))) =
    some [[(50, true), (19, false)]] := by decide +kernel

end Pdfje
