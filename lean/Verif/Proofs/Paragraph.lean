import Verif.Proofs.Sizes
import Verif.Proofs.Layout
import Verif.Spec.Paragraph
/-
What is shown of a paragraph.
-/

namespace Pdfje

variable {env : Env}

/-! ### Chunks -/

theorem rlines_wf : ∀ {lines : List TLine} {pre fin : State}, WordsWF env (lines.flatMap TLine.words) pre fin →
    RLinesWF env (lines.map TLine.toR) pre
  | [], _, _, _ => trivial
  | l :: lines, pre, fin, h => by
    rw [List.flatMap_cons] at h
    obtain ⟨m, h1, h2⟩ := h.split
    exact ⟨m, by simpa [TLine.toR, Command.apply] using h1, rlines_wf h2⟩

/-- A chunk that starts with a word that ends in the style in which it starts. -/
theorem chunk_shown {c : ShapedText} {pre fin : State} (hw : WordsWF env (c.lines.flatMap TLine.words) pre fin) (hq : c.StartsQuiet)
    (pos : ℚ × ℚ) (width : ℚ) (v : Viewer) : ∃ ops ss, c.render pos width = .text ops ∧
      Viewer.textLines env.widths ops v = ⟨[], 0, 0, 0⟩ :: ⟨[], pos.2, pos.1, pos.1⟩ :: ss ∧
      ShowsLines env c.lead (fun l => pos.1 + alignShift c.align width l.width) (c.lines.map TLine.toR) pos.2 ss := by
  refine renderText_shown pos c.preState width (c.lines.map TLine.toR) c.lead c.align v ?_ ?_
  · intro s hs
    simp only [ShapedText.preState, Option.mem_def, Option.map_eq_some_iff] at hs
    obtain ⟨w, hw1, rfl⟩ := hs
    rw [hq w hw1]
    have : w.preState = pre := by
      cases e : c.lines.flatMap TLine.words with
      | nil =>
        change (c.lines.flatMap TLine.words).head? = some w at hw1
        rw [e] at hw1; simp at hw1
      | cons x l =>
        change (c.lines.flatMap TLine.words).head? = some w at hw1
        rw [e] at hw1 hw
        simp at hw1; subst hw1
        exact hw.2.1
    rw [this]
    exact rlines_wf hw
  · intro hn l hl
    simp only [ShapedText.preState, Option.map_eq_none_iff, List.head?_eq_none_iff] at hn
    obtain ⟨l', hl', rfl⟩ := List.mem_map.1 hl
    exact ⟨(List.flatMap_eq_nil_iff.1 hn) l' hl', rfl⟩

theorem chunk_shows {c : ShapedText} {pre fin : State} (hw : WordsWF env (c.lines.flatMap TLine.words) pre fin) (hq : c.StartsQuiet) :
    c.Shows env.widths c.lead (c.lines.map TLine.styled) := by
  intro pos width v
  obtain ⟨ops, ss, h1, h2, h3⟩ := chunk_shown hw hq pos width v
  refine ⟨ops, _, _, ss, h1, h2, rfl, rfl, ?_⟩
  have := h3.showsBelow pos.1
  rw [List.map_map] at this
  exact this

theorem chunk_placed {c : ShapedText} {pre fin : State} (hw : WordsWF env (c.lines.flatMap TLine.words) pre fin) (hq : c.StartsQuiet)
    (hwd : ∀ l ∈ c.lines, l.width = totalWidth l.words) : c.IsPlaced env.widths c.align := by
  intro pos width v
  obtain ⟨ops, ss, h1, h2, h3⟩ := chunk_shown hw hq pos width v
  refine ⟨ops, _, _, ss, h1, h2, rfl, rfl, ?_⟩
  intro s hs
  obtain ⟨k, hk, rfl⟩ := List.mem_iff_getElem.1 hs
  obtain ⟨l, hl, j1, j2⟩ := h3.get (List.getElem?_eq_getElem hk)
  rw [List.getElem?_map, Option.map_eq_some_iff] at hl
  obtain ⟨l', hl', rfl⟩ := hl
  exact placed_of_width j1 j2 (fun _ => hwd l' (List.mem_of_getElem? hl'))

/-- Left-aligned and justified chunks are where they should be, whatever is on them. -/
theorem chunk_placed_left (W : FontRef → Char → ℚ) {c : ShapedText} (ha : c.align = .left ∨ c.align = .justify) : c.IsPlaced W c.align := by
  intro pos width v
  obtain ⟨ops, ss, h1, h2, h3⟩ := renderText_places (W := W) pos c.preState width (c.lines.map TLine.toR) c.lead c.align v
  refine ⟨ops, _, _, ss, h1, h2, rfl, rfl, ?_⟩
  intro s hs
  obtain ⟨k, hk, rfl⟩ := List.mem_iff_getElem.1 hs
  obtain ⟨-, l, -, i2⟩ := h3.get.2 k _ (List.getElem?_eq_getElem hk)
  rcases ha with e | e <;> rw [e] at i2 ⊢ <;> simpa [ShownLine.Placed, alignShift] using i2

/-! ### Words in one state -/

theorem fixed_wf {s : State} : ∀ {ws : List WordLike}, FixedAll s ws → (∀ w ∈ ws, w.WF env) → WordsWF env ws s s
  | [], _, _ => rfl
  | w :: ws, h, hw => ⟨hw w (by simp), (h w (by simp)).pre, by
      rw [(h w (by simp)).post]
      exact fixed_wf (fun x hx => h x (by simp [hx])) (fun x hx => hw x (by simp [hx]))⟩

theorem fixed_quiet {s : State} {c : ShapedText} (h : ∀ l ∈ c.lines, FixedAll s l.words) : c.StartsQuiet := by
  intro w hw
  have := List.mem_of_mem_head? hw
  obtain ⟨l, hl, hw'⟩ := List.mem_flatMap.1 this
  rw [(h l hl w hw').pre, (h l hl w hw').post]

theorem chunksState_fixed {s : State} : ∀ {chunks : List ShapedText} {st : State}, (∀ c ∈ chunks, ∀ l ∈ c.lines, FixedAll s l.words) → st = s →
    chunksState chunks st = s
  | [], _, _, h => h
  | c :: cs, st, h, hs => by
    rw [chunksState]
    refine chunksState_fixed (fun x hx => h x (by simp [hx])) ?_
    unfold ShapedText.endState
    cases e : (c.lines.flatMap (·.words)).getLast? with
    | none => exact hs
    | some w =>
      obtain ⟨l, hl, hw'⟩ := List.mem_flatMap.1 (List.mem_of_getLast? e)
      exact (h c (by simp) l hl w hw').post

theorem getLast?_flatMap_append {α} (a b : List α) : (a ++ b).getLast? = b.getLast?.or a.getLast? := by
  rw [List.getLast?_append]

/-- The state after chunks is that of the last word. -/
theorem chunksState_wf : ∀ {chunks : List ShapedText} {pre fin : State}, WordsWF env ((chunks.flatMap ShapedText.lines).flatMap TLine.words) pre fin →
    chunksState chunks pre = fin
  | [], _, _, h => h
  | c :: cs, pre, fin, h => by
    rw [List.flatMap_cons, List.flatMap_append] at h
    obtain ⟨m, h1, h2⟩ := h.split
    rw [chunksState]
    have : (match c.endState with | some s => s | none => pre) = m := by
      unfold ShapedText.endState
      cases e : (c.lines.flatMap (·.words)).getLast? with
      | none =>
        rw [List.getLast?_eq_none_iff] at e
        change c.lines.flatMap TLine.words = [] at e
        rw [e] at h1
        exact h1
      | some w => exact h1.last_state w e
    exact (congrArg (chunksState cs) this).trans (chunksState_wf h2)

/-! ### Styles that change at newlines only -/

/-- Groups in which the style changes only at the beginning. -/
def SteadyGroups : List (List Passage) → State → Prop
  | [], _ => True
  | g :: gs, st => SteadyGroup g st ∧ SteadyGroups gs (endState g st)

abbrev NewlineRel (a b : List Char × State) : Prop := a.1.getLast? ≠ some '\n' → a.2 = b.2

theorem nextNewline_none_last {txt : List Char} (h : nextNewline txt = none) : txt.getLast? ≠ some '\n' := by
  intro e
  have := List.mem_of_getLast? e
  clear e
  induction txt with
  | nil => simp at this
  | cons c s ih =>
    rw [nextNewline.eq_def] at h
    split at h <;> simp_all
    exact absurd this.symm ‹_›

theorem nextNewline_suffix : ∀ {txt a b : List Char}, nextNewline txt = some (a, b) → ∃ x, txt = x ++ b
  | [], a, b, h => by simp [nextNewline] at h
  | c :: rest, a, b, h => by
    unfold nextNewline at h
    split at h
    · cases h
    · simp only [Option.some.injEq, Prod.mk.injEq] at h
      obtain ⟨-, rfl⟩ := h
      rename_i rest' heq
      exact ⟨['\r', '\n'], heq⟩
    · simp only [Option.some.injEq, Prod.mk.injEq] at h
      obtain ⟨-, rfl⟩ := h
      rename_i rest' heq
      exact ⟨['\n'], heq⟩
    · rename_i c' rest' _ _ heq
      simp only [List.cons.injEq] at heq
      obtain ⟨rfl, rfl⟩ := heq
      simp only [Option.map_eq_some_iff, Prod.mk.injEq, Prod.exists] at h
      obtain ⟨a', b', h, _, rfl⟩ := h
      obtain ⟨x, hx⟩ := nextNewline_suffix h
      exact ⟨c :: x, by rw [hx]; rfl⟩

theorem nextNewline_last' {txt a b : List Char} (h : nextNewline txt = some (a, b)) (hb : b ≠ []) (hl : txt.getLast? = some '\n') :
    b.getLast? = some '\n' := by
  obtain ⟨x, rfl⟩ := nextNewline_suffix h
  rw [List.getLast?_append] at hl
  cases e : b.getLast? with
  | none => exact absurd (List.getLast?_eq_none_iff.1 e) hb
  | some c => rw [e] at hl; exact hl

theorem splitFrom_steady (cmd : Command) (txt : List Char) (pos : Bool) (it : List Passage) (st : State)
    (hit : ∀ p ∈ it, p.txt ≠ []) (htxt : txt = [] → pos = true)
    (hch : List.IsChain NewlineRel (passageStrings it ((if pos then Command.noop else cmd).apply st)))
    (hn : txt ≠ [] → txt.getLast? ≠ some '\n' → ∀ p ∈ it.head?,
      p.cmd.apply ((if pos then Command.noop else cmd).apply st) = (if pos then Command.noop else cmd).apply st) :
    SteadyGroups (splitFrom cmd txt pos it) st ∧
    (txt ≠ [] → (if pos then Command.noop else cmd).apply st = st → ∀ g ∈ (splitFrom cmd txt pos it).head?, ∀ q ∈ g, q.cmd.apply st = st) := by
  induction cmd, txt, pos, it using splitFrom.induct generalizing st with
  | case1 cmd txt pos it a b hnl ih =>
    rw [splitFrom_some hnl]
    have hrec := ih ((if pos then Command.noop else cmd).apply st) hit (fun _ => rfl) (by simpa [Command.apply] using hch)
      (fun hb hl p hp => by
        have hlast : txt.getLast? ≠ some '\n' := by
          intro e
          exact hl (nextNewline_last' hnl hb e)
        have := hn (by rintro rfl; simp [nextNewline] at hnl) hlast p hp
        simpa [Command.apply] using this)
    refine ⟨⟨?_, by simpa [endState] using hrec.1⟩, ?_⟩
    · simp only [SteadyGroup]; split <;> simp
    · intro _ hc g hg q hq
      simp at hg; subst hg
      simp at hq; subst hq
      exact hc
  | case2 cmd txt pos hnl =>
    rw [splitFrom_none hnl]
    refine ⟨⟨by simp only [SteadyGroup]; split <;> simp, trivial⟩, ?_⟩
    intro _ hc g hg q hq
    simp at hg; subst hg
    simp at hq; subst hq
    exact hc
  | case3 cmd txt pos hnl p ps he ih => exact absurd he (splitFrom_ne _ _ _ _)
  | case4 cmd txt pos hnl p ps g gs he ih =>
    rw [splitFrom_none hnl]
    simp only [he]
    set st1 := (if pos then Command.noop else cmd).apply st with hst1
    have hch' : List.IsChain NewlineRel (passageStrings ps (p.cmd.apply st1)) := by
      rw [passageStrings] at hch; exact hch.tail
    have hrec := ih st1 (fun q hq => hit q (List.mem_cons_of_mem _ hq)) (fun h => absurd h (hit p List.mem_cons_self))
      (by simpa using hch') (fun _ hl q hq => by
        cases ps with
        | nil => simp at hq
        | cons p' ps' =>
          simp only [List.head?_cons, Option.mem_some_iff] at hq
          subst hq
          simp only [passageStrings] at hch
          exact ((List.isChain_cons_cons.1 hch).1 hl).symm)
    rw [he] at hrec
    have hg : txt ≠ [] → ∀ q ∈ g, q.cmd.apply st1 = st1 := fun h0 =>
      hrec.2 (hit p List.mem_cons_self) (by simpa using hn h0 (nextNewline_none_last hnl) p (by simp)) g (by simp)
    refine ⟨⟨?_, ?_⟩, ?_⟩
    · simp only [SteadyGroup]
      split
      · exact hrec.1.1
      · rename_i h0; exact hg h0
    · have := hrec.1.2
      simpa [endState] using this
    · intro h0 hc g' hg' q hq
      simp only [List.head?_cons, Option.mem_some_iff] at hg'
      subst hg'
      rcases List.mem_cons.1 hq with rfl | hq
      · exact hc
      · have := hg h0 q hq
        rwa [hc] at this

theorem splitlines_steady (ps : List Passage) (st : State) (hps : ∀ p ∈ ps, p.txt ≠ []) (h : ChangesAtNewlines (passageStrings ps st)) :
    SteadyGroups (splitlines ps) st := by
  cases ps with
  | nil => trivial
  | cons p ps =>
    rw [splitlines]
    rw [passageStrings] at h
    refine (splitFrom_steady p.cmd p.txt false ps st (fun q hq => hps q (List.mem_cons_of_mem _ hq)) (fun e => absurd e (hps p List.mem_cons_self))
      (by simpa using h.tail) ?_).1
    intro _ hl q hq
    cases ps with
    | nil => simp at hq
    | cons p' ps' =>
      simp only [List.head?_cons, Option.mem_some_iff] at hq
      subst hq
      simp only [passageStrings] at h
      simpa using ((List.isChain_cons_cons.1 h).1 hl).symm

/-! ### Chunks of a line -/

theorem forall₂_map_right {α β} {R : α → β → Prop} {f : α → β} : ∀ {l : List α}, (∀ a ∈ l, R a (f a)) → List.Forall₂ R l (l.map f)
  | [], _ => .nil
  | a :: l, h => .cons (h a (by simp)) (forall₂_map_right fun b hb => h b (by simp [hb]))

theorem flatten_shown (chunks : List ShapedText) :
    (chunks.map fun c => c.lines.map TLine.styled).flatten = (chunks.flatMap ShapedText.lines).map TLine.styled := by
  induction chunks with
  | nil => rfl
  | cons c cs ih => simp [ih]

theorem firstfit_lead {cols : Cols} {lead : ℚ} {avoid : Bool} {align : Align} {ws : List WordLike} {ae : Bool} {out : List ShapedText}
    (h : firstfitShape env cols lead avoid align ws ae = some out) : ∀ c ∈ out, c.lead = lead ∧ c.align = align := by
  obtain ⟨raw, -, -, rfl⟩ := firstfit_chunks h
  intro c hc
  obtain ⟨ls, -, rfl⟩ := List.mem_map.1 hc
  exact ⟨rfl, rfl⟩

theorem optimum_lead {cols : Cols} {lead : ℚ} {avoid : Bool} {align : Align} {p : OptParams} {ws : List WordLike} {ae : Bool} {out : List ShapedText}
    (h : optimumShape env cols lead avoid align p ws ae = some out) : ∀ c ∈ out, c.lead = lead ∧ c.align = align := by
  unfold optimumShape at h
  split at h
  · simp at h
  · split at h
    · simp at h
    · rw [Option.map_eq_some_iff] at h
      obtain ⟨raw, -, rfl⟩ := h
      intro c hc
      obtain ⟨ls, -, rfl⟩ := List.mem_map.1 hc
      exact ⟨rfl, rfl⟩

theorem shape_lead {p : Paragraph} {cols : Cols} {lead : ℚ} {ws : List WordLike} {ae : Bool} {out : List ShapedText}
    (h : p.shape env cols lead ws ae = some out) : ∀ c ∈ out, c.lead = lead ∧ c.align = p.align := by
  unfold Paragraph.shape at h
  split at h
  · exact optimum_lead h
  · exact firstfit_lead h

/-- The words of the lines of first-fit follow each other. -/
theorem firstfit_wf (henv : env.Ok) {ws : List WordLike} (hw : ParagraphWords env ws) {pre fin : State} (hwf : WordsWF env ws pre fin) {cols : Cols} {lead : ℚ} {avoid : Bool}
    {align : Align} {ae : Bool} {out : List ShapedText} (h : firstfitShape env cols lead avoid align ws ae = some out) :
    WordsWF env ((out.flatMap ShapedText.lines).flatMap TLine.words) pre fin := by
  obtain ⟨raw, -, hc, rfl⟩ := firstfit_chunks h
  have := (hc.text pre fin hwf (hw.wf henv).2 (SameBounds.refl ws)).1
  have e : (raw.map fun ls => (⟨ls.map (setLine align), lead, align, ls.length * lead⟩ : ShapedText)).flatMap ShapedText.lines =
      raw.flatten.map (setLine align) := by
    rw [List.flatMap_map, List.map_flatten]; rfl
  rw [e]
  exact (wf_lines (f := setLine align) (fun l s t hl => ⟨setLine_wf hl, setLine_styled hl⟩) this).1

theorem WordLike.indent_states (a : ℚ) : ∀ w : WordLike, (w.indent a).preState = w.preState ∧ (w.indent a).state = w.state
  | .box b => Box.indent_states b a
  | .word w => ⟨Word.indent_preState w a, by
      simp only [WordLike.indent, WordLike.state, Word.indent]
      repeat' split
      all_goals rfl⟩
  | .withCmd w c => by
    have ih := WordLike.indent_states a w
    simp only [WordLike.indent]
    split
    · exact ⟨rfl, rfl⟩
    · exact ⟨ih.1, congrArg c.apply ih.2⟩

theorem indentFirst_wf (henv : env.Ok) {ws : List WordLike} {pre fin : State} (h : WordsWF env ws pre fin) (a : ℚ)
    (hb : ParagraphWords env (indentFirst ws a)) : WordsWF env (indentFirst ws a) pre fin := by
  cases ws with
  | nil => exact h
  | cons w ws =>
    obtain ⟨h1, h2, h3⟩ := h
    obtain ⟨j1, j2⟩ := w.indent_states a
    exact ⟨(hb.built (w.indent a) List.mem_cons_self).wf henv, by rw [j1]; exact h2, by rw [j2]; exact h3⟩

/-- The words of a line of text in one style. -/
theorem steady_words (henv : env.Ok) {g : List Passage} {st : State} (hg : Tidy g) (hs : SteadyGroup g st) {cmd : Command} {ws : List WordLike}
    (h : intoWords env g st = some (cmd, ws)) : FixedAll (cmd.apply st) ws ∧ endState g st = cmd.apply st := by
  obtain ⟨s, hf⟩ := intoWords_fixed hs h
  obtain ⟨cmd', ws', h1, -, h3⟩ := intoWords_spec henv g st
  rw [h] at h1
  simp only [Option.some.injEq, Prod.mk.injEq] at h1
  obtain ⟨rfl, rfl⟩ := h1
  obtain ⟨h4, -⟩ := h3 hg
  cases ws with
  | nil => exact ⟨by intro x hx; simp at hx, h4.symm⟩
  | cons w ws =>
    have e : s = cmd.apply st := by rw [← h4.2.1]; exact ((hf w (by simp)).pre).symm
    refine ⟨e ▸ hf, ?_⟩
    have hne : (w :: ws).getLast? = some ((w :: ws).getLast (by simp)) := List.getLast?_eq_some_getLast _
    have := h4.last_state _ hne
    rw [← this, (hf _ (List.getLast_mem _)).post, e]

theorem optimum_chunk_wf (henv : env.Ok) {ws : List WordLike} (hw : ParagraphWords env ws) (hp : ∀ w ∈ ws, w.Plain) {s : State} (hf : FixedAll s ws)
    {cols : Cols} {lead : ℚ} (hl : 0 < lead) (hc : ∀ i, 0 ≤ (cols i).2) {avoid : Bool} {align : Align} {p : OptParams} {ae : Bool}
    {out : List ShapedText} (h : optimumShape env cols lead avoid align p ws ae = some out) {c : ShapedText} (hm : c ∈ out) :
    WordsWF env (c.lines.flatMap TLine.words) s s ∧ c.StartsQuiet := by
  have hfix := optimum_fixed hl hc h hf c hm
  obtain ⟨i, hi⟩ := List.mem_iff_getElem?.1 hm
  refine ⟨fixed_wf ?_ ?_, fixed_quiet hfix⟩
  · intro w hw'
    obtain ⟨l, hl', hw'⟩ := List.mem_flatMap.1 hw'
    exact hfix l hl' w hw'
  · intro w hw'
    obtain ⟨l, hl', hw'⟩ := List.mem_flatMap.1 hw'
    obtain ⟨k, hk⟩ := List.mem_iff_getElem?.1 hl'
    obtain ⟨_, _, h5⟩ := optimum_line_wf henv hw hp hl hc h hi hk
    exact h5.mem w hw'

theorem optimum_chunk (henv : env.Ok) {ws : List WordLike} (hw : ParagraphWords env ws) (hp : ∀ w ∈ ws, w.Plain) {s : State} (hf : FixedAll s ws)
    {cols : Cols} {lead : ℚ} (hl : 0 < lead) (hc : ∀ i, 0 ≤ (cols i).2) {avoid : Bool} {align : Align} {p : OptParams} {ae : Bool}
    {out : List ShapedText} (h : optimumShape env cols lead avoid align p ws ae = some out) {c : ShapedText} (hm : c ∈ out) :
    c.Shows env.widths lead (c.lines.map TLine.styled) := by
  obtain ⟨hwf, hq⟩ := optimum_chunk_wf henv hw hp hf hl hc h hm
  rw [← (optimum_lead h c hm).1]
  exact chunk_shows hwf hq

theorem firstfit_chunk (henv : env.Ok) {ws : List WordLike} (hw : ParagraphWords env ws)
    {cols : Cols} {lead : ℚ} {avoid : Bool} {align : Align} {ae : Bool}
    {out : List ShapedText} (h : firstfitShape env cols lead avoid align ws ae = some out) {c : ShapedText} (hm : c ∈ out) :
    ∃ pre fin, WordsWF env (c.lines.flatMap TLine.words) pre fin := by
  obtain ⟨⟨pre, fin, hwf⟩, -⟩ := hw.wf henv
  have := firstfit_wf henv hw hwf h
  obtain ⟨a, b, e⟩ := List.append_of_mem hm
  rw [e, List.flatMap_append, List.flatMap_cons, List.flatMap_append, List.flatMap_append] at this
  obtain ⟨m1, -, h2⟩ := this.split
  obtain ⟨m2, h3, -⟩ := h2.split
  exact ⟨m1, m2, h3⟩

theorem Tape.Roomy.fill {t : Tape} {lead : ℚ} (h : t.Roomy lead) {chunks : List ShapedText} (hne : chunks ≠ [])
    (hc : ∀ i c, chunks[i]? = some c → c.height ≤ (t.view i).heightFree) :
    (t.fill (chunks.mapIdx fun i c => (t.view i).add (.text c))).Roomy lead := by
  rw [Tape.fill, if_neg (by simpa using hne)]
  have hlen : 0 < chunks.length := List.length_pos_iff.2 hne
  constructor
  · intro i hi
    simp only [List.length_mapIdx] at hi
    simp only
    rw [if_pos (by omega), List.getElem?_mapIdx]
    cases e : chunks[i - t.head]? with
    | none => simpa [e] using h.free i (by omega)
    | some c =>
      have := hc _ c e
      simp only [Option.map_some, Option.getD_some, ColumnFill.add, Shaped.height]
      linarith
  · intro i hi
    simp only [List.length_mapIdx] at hi
    simp only
    rw [if_pos (by omega), List.getElem?_mapIdx]
    cases e : chunks[i - t.head]? with
    | none => simpa [e] using h.empty i (by omega)
    | some c => simp [ColumnFill.add]
  · intro i hi
    simp only [List.length_mapIdx] at hi
    simp only
    rw [if_pos (by omega), List.getElem?_mapIdx, List.getElem?_eq_none (by omega)]
    simpa using h.after i (by omega)

/-- A paragraph in which the style changes at newlines only. -/
theorem linesFill_shown (henv : env.Ok) {p : Paragraph} {lead : ℚ} {gs : List (List Passage)} {st : State} {t t' : Tape}
    (h : LinesFill p env lead gs st t t') (hg : ∀ g ∈ gs, Tidy g) (hs : SteadyGroups gs st) (hz : ∀ l ∈ groupsStyled gs st, NonZero l)
    (hroom : p.optimal ≠ none → 0 < lead ∧ t.Roomy lead) :
    ∃ css, PutLines css t t' ∧ List.Forall₂ (TextShown env.widths lead) css (groupsStyled gs st) ∧ ∀ cs ∈ css, ∀ c ∈ cs, c.align = p.align := by
  induction h with
  | nil st t => exact ⟨[], .nil t, .nil, by simp⟩
  | cons line rest st t cmd words chunks t' h1 h2 h3 h4 ih =>
    have htidy := hg line List.mem_cons_self
    obtain ⟨hf, hend⟩ := steady_words henv htidy hs.1 h1
    have hnz : NonZero (styled line st) := hz _ (by simp [groupsStyled])
    obtain ⟨hpw, hst⟩ := paragraph_words henv line htidy st cmd words h1 p.indent hnz
    have hff := indentFirst_fixed p.indent hf
    have hlead := shape_lead h2
    have key : (∀ c ∈ chunks, c.Shows env.widths lead (c.lines.map TLine.styled)) ∧
        (∀ c ∈ chunks, ∀ l ∈ c.lines, FixedAll (cmd.apply st) l.words) ∧
        LinesShow (indentFirst words p.indent) ((chunks.flatMap ShapedText.lines).map TLine.styled) (styled line st) ∧
        (p.optimal ≠ none → 0 < lead ∧ (t.fill (chunks.mapIdx fun i c => (t.view i).add (.text c))).Roomy lead) := by
      unfold Paragraph.shape at h2
      cases ho : p.optimal with
      | none =>
        simp only [ho] at h2
        have hfix := firstfit_fixed h2 hff
        refine ⟨?_, hfix, C32_paragraph henv line htidy st cmd words h1 p.indent hnz h2, by simp⟩
        intro c hc
        obtain ⟨pre, fin, hwf⟩ := firstfit_chunk henv hpw h2 hc
        rw [← (hlead c hc).1]
        exact chunk_shows hwf (fixed_quiet (hfix c hc))
      | some o =>
        simp only [ho] at h2
        obtain ⟨hl, hr⟩ := hroom (by simp [ho])
        have hcol : ∀ i, 0 ≤ (t.view i).heightFree := fun i => hr.free _ (by omega)
        refine ⟨fun c hc => optimum_chunk henv hpw (paragraph_plain h1 p.indent) hff hl hcol h2 hc, optimum_fixed hl hcol h2 hff,
          C43_paragraph_partial henv line htidy st cmd words h1 p.indent hnz hl hcol h2, fun _ => ⟨hl, hr.fill h3 ?_⟩⟩
        intro i c hi
        obtain ⟨e1, e2⟩ := C36_optimum_partial hl hcol h2 hi
        rcases e2 with e2 | e2 | ⟨-, e3, e4⟩
        · exact e2
        · rw [e1, e2]; simpa using hcol i
        · have : (t.view i).blocks = [] := by
            rcases e4 with e4 | e4
            · cases i with
              | zero => simpa using e4
              | succ i => exact hr.after _ (by omega)
            · exact hr.after _ (by omega)
          have := hr.empty (t.head + i) (by omega) this
          simp only [Tape.view] at e3
          linarith
    obtain ⟨k1, k2, k3, k4⟩ := key
    have hstate : chunksState chunks (cmd.apply st) = endState line st := by
      rw [hend]; exact chunksState_fixed k2 rfl
    rw [hstate] at ih
    obtain ⟨css, i1, i2, i3⟩ := ih (fun g hg' => hg g (List.mem_cons_of_mem _ hg')) hs.2 (fun l hl => hz l (by simp [groupsStyled, hl])) k4
    refine ⟨chunks :: css, .cons _ _ _ _ h3 i1, .cons ⟨indentFirst words p.indent, chunks.map fun c => c.lines.map TLine.styled, hst, ?_, ?_⟩ i2, ?_⟩
    · exact forall₂_map_right k1
    · rw [flatten_shown]; exact k3
    · intro cs hcs c hc
      rcases List.mem_cons.1 hcs with rfl | hcs
      · exact (hlead c hc).2
      · exact i3 cs hcs c hc

/-- A paragraph set by first-fit. -/
theorem linesFill_firstfit (henv : env.Ok) {p : Paragraph} (hp : p.optimal = none) {lead : ℚ} {gs : List (List Passage)} {st : State} {t t' : Tape}
    (h : LinesFill p env lead gs st t t') (hg : ∀ g ∈ gs, Tidy g) (hz : ∀ l ∈ groupsStyled gs st, NonZero l) :
    ∃ css, PutLines css t t' ∧ List.Forall₂ (TextShownIf ShapedText.StartsQuiet env.widths lead) css (groupsStyled gs st) ∧
      ∀ cs ∈ css, ∀ c ∈ cs, ((∀ g ∈ gs, ∀ p ∈ g, p.cmd.Keeps) → 0 < st.size → c.StartsQuiet → c.IsPlaced env.widths p.align) := by
  induction h with
  | nil st t => exact ⟨[], .nil t, .nil, by simp⟩
  | cons line rest st t cmd words chunks t' h1 h2 h3 h4 ih =>
    have htidy := hg line List.mem_cons_self
    have hnz : NonZero (styled line st) := hz _ (by simp [groupsStyled])
    obtain ⟨hpw, hst⟩ := paragraph_words henv line htidy st cmd words h1 p.indent hnz
    have hlead := shape_lead h2
    obtain ⟨cmd', ws', g1, -, g3⟩ := intoWords_spec henv line st
    rw [h1] at g1
    simp only [Option.some.injEq, Prod.mk.injEq] at g1
    obtain ⟨rfl, rfl⟩ := g1
    have hwf := indentFirst_wf henv (g3 htidy).1 p.indent hpw
    simp only [Paragraph.shape, hp] at h2
    have hall := firstfit_wf henv hpw hwf h2
    have hstate : chunksState chunks (cmd.apply st) = endState line st := chunksState_wf hall
    rw [hstate] at ih
    obtain ⟨css, i1, i2, i3⟩ := ih (fun g hg' => hg g (List.mem_cons_of_mem _ hg')) (fun l hl => hz l (by simp [groupsStyled, hl]))
    refine ⟨chunks :: css, .cons _ _ _ _ h3 i1, .cons ⟨indentFirst words p.indent, chunks.map fun c => c.lines.map TLine.styled, hst, ?_, ?_⟩ i2, ?_⟩
    · refine forall₂_map_right fun c hc hq => ?_
      obtain ⟨pre, fin, hw⟩ := firstfit_chunk henv hpw h2 hc
      rw [← (hlead c hc).1]
      exact chunk_shows hw hq
    · rw [flatten_shown]; exact C32_paragraph henv line htidy st cmd words h1 p.indent hnz h2
    · intro cs hcs c hc hk hst0 hq
      have hkl := hk line List.mem_cons_self
      rcases List.mem_cons.1 hcs with rfl | hcs
      · obtain ⟨pre, fin, hw⟩ := firstfit_chunk henv hpw h2 hc
        rw [← (hlead c hc).2]
        refine chunk_placed hw hq ?_
        intro l hl
        obtain ⟨i, hi⟩ := List.mem_iff_getElem?.1 hc
        obtain ⟨k, hk'⟩ := List.mem_iff_getElem?.1 hl
        refine (C33_fits henv hpw ?_ h2 hi hk').1
        intro w hw'
        refine ⟨?_, fun e he => (styled_sizes line st hkl hst0 e ?_).ne'⟩
        · have hall := intoWords_sizes hkl hst0 h1
          cases words with
          | nil => simp [indentFirst] at hw'
          | cons x xs =>
            rcases List.mem_cons.1 hw' with rfl | hw'
            · rw [(x.indent_states p.indent).2]; exact (hall x List.mem_cons_self).1
            · exact (hall w (List.mem_cons_of_mem _ hw')).1
        · rw [← hst]; exact List.mem_flatMap.2 ⟨w, hw', he⟩
      · exact i3 cs hcs c hc (fun g hg' => hk g (List.mem_cons_of_mem _ hg')) (endState_size line st hkl hst0) hq

end Pdfje
