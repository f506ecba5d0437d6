import Verif.Proofs.TightLines
/-
Paragraphs in which the style changes anywhere.
-/

namespace Pdfje

variable {env : Env}

/-- The words of a line lead from state to state, as those of its fragments do; unless the line is blank. -/
theorem lineWords_wf_ne (init : List Fragment) (f : Fragment) {inner : Bool} (hf : FragKind env f inner) {s t : State}
    (h : WordsWF env ((init ++ [f]).map Fragment.word) s t) (hne : lineWords (init ++ [f]) ≠ []) : WordsWF env (lineWords (init ++ [f])) s t := by
  rw [List.map_append] at h
  obtain ⟨m, h1, h2⟩ := h.split
  have hm : f.txt.preState = m := by
    have := h2.2.1
    rw [← this]
    simp only [Fragment.word]
    cases f.cmd <;> rfl
  have ht : f.cmd.apply f.txt.state = t := by
    have := h2.2.2
    rw [← this]
    simp only [Fragment.word]
    cases f.cmd <;> rfl
  rcases lineWords_cases init f with ⟨x, e1, e2⟩ | ⟨e1, h0, e2⟩ | ⟨e1, init', g, h0, e2⟩
  · rw [e2]
    have key : x.WF env ∧ x.preState = f.txt.preState ∧ x.state = f.txt.state := by
      cases hf with
      | inner b hb => cases e1; exact ⟨Box.withHyphen_wf hb, Box.withHyphen_preState hb, Box.withHyphen_state b⟩
      | spaced b t' st c hb hs ht => cases e1; exact ⟨hb, rfl, hs⟩
      | space t' st c ht => simp at e1
      | plain b c hb => cases e1; exact ⟨hb, rfl, rfl⟩
    refine h1.append' ?_
    rw [← hm, ← ht, ← key.2.1, ← key.2.2]
    exact WordLike.addCmd_wordsWF key.1 f.cmd
  · exact absurd e2 hne
  · rw [e2]
    subst h0
    rw [List.map_append] at h1
    obtain ⟨m', h3, h4⟩ := h1.split
    refine h3.append' ?_
    have hp : g.word.preState = m' := h4.2.1
    have hs : g.word.state = m := h4.2.2
    have hst : f.txt.state = f.txt.preState := by
      cases hf with
      | space t' st c ht => rfl
      | _ => simp at e1
    rw [← hp, ← ht, hst, hm, ← hs]
    exact WordLike.addCmd_wordsWF h4.1 f.cmd

theorem raggedLines_wf {ws : List WordLike} {fs : List Fragment} (hs : FragSeq env ws fs) : ∀ (brs : List KBreak) (prev : Nat),
    (prev :: brs.map KBreak.pos).Pairwise (· < ·) → (prev :: brs.map KBreak.pos).getLast? = some fs.length →
    (∀ l ∈ raggedLines fs prev brs, l.words ≠ []) → ∀ {s t : State}, WordsWF env ((fs.drop prev).map Fragment.word) s t →
    WordsWF env ((raggedLines fs prev brs).flatMap TLine.words) s t
  | [], prev, _, hl, _, s, t, h => by
    simp only [List.map_nil, List.getLast?_singleton, Option.some.injEq] at hl
    subst hl
    simpa [raggedLines] using h
  | br :: brs, prev, hp, hl, hne, s, t, h => by
    have hle := last_ge hp hl br.pos (by simp)
    have hlt : prev < br.pos := (List.pairwise_cons.1 hp).1 br.pos (by simp)
    rw [List.map_cons, List.getLast?_cons_cons] at hl
    rw [← drop_take_append_drop fs prev br.pos hlt.le, List.map_append] at h
    obtain ⟨m, h1, h2⟩ := h.split
    have ih := raggedLines_wf hs brs br.pos (by simpa using (List.pairwise_cons.1 hp).2) hl (fun l hl' => hne l (by simp [raggedLines, hl'])) h2
    simp only [raggedLines, List.flatMap_cons]
    refine WordsWF.append' ?_ ih
    obtain ⟨f, hf, e⟩ := seg_concat fs hlt hle
    obtain ⟨inner, hk, -⟩ := seg_kind hs (by omega) hf
    have hn := hne ⟨lineWords ((fs.take br.pos).drop prev), br.width, 0⟩ (by simp [raggedLines])
    rw [e] at h1
    simp only [e] at hn ⊢
    exact lineWords_wf_ne _ f hk h1 hn

theorem stretch_nil (l : TLine) (a : ℚ) : (l.stretch a).words = [] ↔ l.words = [] := by simp [TLine.stretch]

theorem zip_stretch_wf : ∀ {brs : List KBreak} {ls : List TLine} {s t : State}, brs.length = ls.length → (∀ l ∈ ls, ∃ s t, WordsWF env l.words s t) →
    WordsWF env (ls.flatMap TLine.words) s t →
    WordsWF env (((brs.zip ls).map fun e => e.2.stretch e.1.adjust).flatMap TLine.words) s t
  | [], [], _, _, _, _, h => h
  | [], _ :: _, _, _, hl, _, _ => by simp at hl
  | _ :: _, [], _, _, hl, _, _ => by simp at hl
  | br :: brs, l :: ls, s, t, hl, hw, h => by
    rw [List.flatMap_cons] at h
    obtain ⟨m, h1, h2⟩ := h.split
    simp only [List.zip_cons_cons, List.map_cons, List.flatMap_cons]
    exact WordsWF.append' (TLine.stretch_wf _ h1) (zip_stretch_wf (by simpa using hl) (fun x hx => hw x (List.mem_cons_of_mem _ hx)) h2)

theorem zip_stretch_ne {brs : List KBreak} {ls : List TLine} (hl : brs.length = ls.length) (h : ∀ l ∈ (brs.zip ls).map fun e => e.2.stretch e.1.adjust, l.words ≠ []) :
    ∀ l ∈ ls, l.words ≠ [] := by
  intro l hl' e
  obtain ⟨k, hk⟩ := List.mem_iff_getElem?.1 hl'
  have hlt : k < ls.length := by
    by_contra hc
    rw [List.getElem?_eq_none (by omega)] at hk
    simp at hk
  obtain ⟨br, hb⟩ : ∃ br, brs[k]? = some br := ⟨_, List.getElem?_eq_getElem (by omega)⟩
  refine h (l.stretch br.adjust) (List.mem_map.2 ⟨(br, l), List.mem_iff_getElem?.2 ⟨k, ?_⟩, rfl⟩) ((stretch_nil l _).2 e)
  rw [List.getElem?_zip_eq_some]
  exact ⟨hb, hk⟩

/-- The words of all lines lead from state to state, if no line is blank. -/
theorem optimum_wf {ws : List WordLike} (hp : ∀ w ∈ ws, w.Plain) {pre fin : State} (hwf : WordsWF env ws pre fin) {cols : Cols} {lead : ℚ}
    (hl : 0 < lead) (hc : ∀ i, 0 ≤ (cols i).2) {avoid : Bool} {align : Align} {p : OptParams} {ae : Bool} {out : List ShapedText}
    (h : optimumShape env cols lead avoid align p ws ae = some out) (hne : ws ≠ [] → ∀ c ∈ out, ∀ l ∈ c.lines, l.words ≠ []) :
    WordsWF env ((out.flatMap ShapedText.lines).flatMap TLine.words) pre fin := by
  by_cases hws : ws = []
  · subst hws
    rcases optimumShape_nil h with ⟨rfl, -⟩ | ⟨rfl, -⟩ <;> simpa using hwf
  · have hne := hne hws
    obtain ⟨fbs, chunks, h1, hne2, ⟨s, q, lines, hq, hs, hb, rfl⟩, rfl⟩ := optimumShape_laid hl hc hws h
    obtain ⟨tol, ht, brs, hfit, rfl⟩ := breakLines_spec hb
    have hne' : fbs.map (·.2) ≠ [] := by simpa using hne2
    obtain ⟨c1, c2, -, -⟩ := C38_partition hne' hfit
    have hok := fragsLoop_spec (align = .justify) ws pre fin _ _ _ fbs hwf hp h1
    have hlast : (0 :: brs.map KBreak.pos).getLast? = some (fbs.map (·.1)).length := by
      cases hb' : brs.map KBreak.pos with
      | nil => rw [hb'] at c2; simp at c2
      | cons x l => rw [List.getLast?_cons_cons, ← hb']; simpa using c2
    have hlines : ((List.replicate s [] ++ groupLines q (intoLines (decide (align = Align.justify)) brs (fbs.map fun e : Fragment × KBox => e.1))).map
        fun ls => (⟨ls, lead, align, ls.length * lead⟩ : ShapedText)).flatMap ShapedText.lines = intoLines (decide (align = .justify)) brs (fbs.map (·.1)) := by
      rw [flatMap_lines, List.flatten_append, (groupLines_spec hq.full _).1]
      simp
    have hall : ∀ l ∈ intoLines (decide (align = .justify)) brs (fbs.map (·.1)), l.words ≠ [] := by
      intro l hl'
      rw [← hlines] at hl'
      obtain ⟨c, hc', hl'⟩ := List.mem_flatMap.1 hl'
      exact hne c hc' l hl'
    rw [hlines]
    clear hne hlines
    unfold intoLines at hall ⊢
    have hwf' : WordsWF env (((fbs.map (·.1)).drop 0).map Fragment.word) pre fin := hok.wf'
    split at hall
    · rename_i hj
      rw [if_pos hj]
      have hlen : brs.length = (raggedLines (fbs.map (·.1)) 0 brs).length := by rw [raggedLines_length]
      have hr := raggedLines_wf hok.seq brs 0 c1 hlast (zip_stretch_ne hlen hall) hwf'
      refine zip_stretch_wf hlen ?_ hr
      intro l hl'
      obtain ⟨k, hk⟩ := List.mem_iff_getElem?.1 hl'
      obtain ⟨a, br, e1, e2, rfl⟩ := raggedLines_get _ brs 0 k l hk
      obtain ⟨b1, b2⟩ := breaks_bounds c1 hlast e1 (by rw [List.getElem?_map, e2]; rfl)
      exact seg_wf hok.seq hok.wf' b1 b2
    · rename_i hj
      rw [if_neg hj]
      exact raggedLines_wf hok.seq brs 0 c1 hlast hall hwf'

/-- Columns stay roomy. -/
theorem roomy_step {p : Paragraph} {o : OptParams} (ho : p.optimal = some o) {lead : ℚ} (hl : 0 < lead) {t : Tape} (hr : t.Roomy lead) {ws : List WordLike} {ae : Bool}
    {chunks : List ShapedText} (hae : ae = !(t.view 0).blocks.isEmpty) (hne : chunks ≠ [])
    (h : p.shape env (fun i => ((t.view i).box.width, (t.view i).heightFree)) lead ws ae = some chunks) :
    (t.fill (chunks.mapIdx fun i c => (t.view i).add (.text c))).Roomy lead := by
  have hcol : ∀ i, 0 ≤ (t.view i).heightFree := fun i => hr.free _ (by omega)
  simp only [Paragraph.shape, ho] at h
  subst hae
  refine hr.fill hne ?_
  intro i c hi
  obtain ⟨e1, e2⟩ := C36_optimum_partial hl hcol h hi
  rcases e2 with e2 | e2 | ⟨-, e3, e4⟩
  · exact e2
  · rw [e1, e2]; simpa using hcol i
  · have : (t.view i).blocks = [] := by
      rcases e4 with e4 | e4
      · cases i with
        | zero => simpa using e4
        | succ i => exact hr.after _ (by omega)
      · exact hr.after _ (by omega)
    have := hr.empty (t.head + i) (by omega) this
    simp only [Tape.view] at e3
    linarith

/-- What is known of the chunks of the lines of a paragraph: where they come from, that they can be shown, and what they show. -/
inductive GroupsSet (env : Env) (p : Paragraph) (lead : ℚ) : List (List Passage) → State → Tape → List (List ShapedText) → Prop
  | nil (st t) : GroupsSet env p lead [] st t []
  | cons (line rest st t cmd words chunks css) : Tidy line → NonZero (styled line st) → intoWords env line st = some (cmd, words) →
      p.shape env (fun i => ((t.view i).box.width, (t.view i).heightFree)) lead (indentFirst words p.indent) (!(t.view 0).blocks.isEmpty) = some chunks →
      (p.optimal ≠ none → 0 < lead ∧ t.Roomy lead) →
      (∀ c ∈ chunks, ∃ pre fin, WordsWF env (c.lines.flatMap TLine.words) pre fin) →
      LinesShow (indentFirst words p.indent) ((chunks.flatMap ShapedText.lines).map TLine.styled) (styled line st) →
      LinesOf env (p.optimal = none) (p.align = .justify) (gapsOf (indentFirst words p.indent)) chunks →
      GroupsSet env p lead rest (endState line st) (t.fill (chunks.mapIdx fun i c => (t.view i).add (.text c))) css →
      GroupsSet env p lead (line :: rest) st t (chunks :: css)

/-- A paragraph in which the style changes anywhere. -/
theorem linesFill_groups (henv : env.Ok) {p : Paragraph} {lead : ℚ} {gs : List (List Passage)} {st : State} {t t' : Tape}
    (h : LinesFill p env lead gs st t t') (hg : ∀ g ∈ gs, Tidy g) (hroom : p.optimal ≠ none → 0 < lead ∧ t.Roomy lead) :
    ∃ css, PutLines css t t' ∧ css.length = gs.length ∧ ((∀ l ∈ groupsStyled gs st, NonZero l) →
      (p.optimal ≠ none → List.Forall₂ NoBlankLines css (groupsStyled gs st) ∨ SteadyGroups gs st) → GroupsSet env p lead gs st t css) := by
  induction h with
  | nil st t => exact ⟨[], .nil t, rfl, fun _ _ => .nil st t⟩
  | cons line rest st t cmd words chunks t' h1 h2 h3 h4 ih =>
    have htidy := hg line List.mem_cons_self
    obtain ⟨css, i1, i0, i2⟩ := ih (fun g hg' => hg g (List.mem_cons_of_mem _ hg')) (fun ho => by
      obtain ⟨o, ho'⟩ := Option.ne_none_iff_exists'.1 ho
      obtain ⟨hl, hr⟩ := hroom ho
      exact ⟨hl, roomy_step ho' hl hr rfl h3 h2⟩)
    refine ⟨chunks :: css, .cons _ _ _ _ h3 i1, by simp [i0], fun hz hb => ?_⟩
    have hnz : NonZero (styled line st) := hz _ (by simp [groupsStyled])
    obtain ⟨hpw, hst⟩ := paragraph_words henv line htidy st cmd words h1 p.indent hnz
    obtain ⟨cmd', ws', g1, -, g3⟩ := intoWords_spec henv line st
    rw [h1] at g1
    simp only [Option.some.injEq, Prod.mk.injEq] at g1
    obtain ⟨rfl, rfl⟩ := g1
    have hwf := indentFirst_wf henv (g3 htidy).1 p.indent hpw
    obtain ⟨k1, k2⟩ := words_gapsOk henv htidy h1 p.indent
    have h2' := h2
    have whole : WordsWF env ((chunks.flatMap ShapedText.lines).flatMap TLine.words) (cmd.apply st) (endState line st) →
        ∀ c ∈ chunks, ∃ pre fin, WordsWF env (c.lines.flatMap TLine.words) pre fin := by
      intro j1 c hc
      obtain ⟨a, b, rfl⟩ := List.append_of_mem hc
      rw [List.flatMap_append, List.flatMap_cons, List.flatMap_append, List.flatMap_append] at j1
      obtain ⟨m1, -, m2⟩ := j1.split
      obtain ⟨m3, m4, -⟩ := m2.split
      exact ⟨_, _, m4⟩
    have key : (∀ c ∈ chunks, ∃ pre fin, WordsWF env (c.lines.flatMap TLine.words) pre fin) ∧ chunksState chunks (cmd.apply st) = endState line st ∧
        LinesShow (indentFirst words p.indent) ((chunks.flatMap ShapedText.lines).map TLine.styled) (styled line st) ∧
        LinesOf env (p.optimal = none) (p.align = .justify) (gapsOf (indentFirst words p.indent)) chunks := by
      unfold Paragraph.shape at h2
      cases ho : p.optimal with
      | none =>
        simp only [ho] at h2
        have j1 := firstfit_wf henv hpw hwf h2
        exact ⟨whole j1, chunksState_wf j1, C32_paragraph henv line htidy st cmd words h1 p.indent hnz h2, by simpa using firstfit_linesOf k1 h2⟩
      | some o =>
        simp only [ho] at h2
        obtain ⟨hl, hr⟩ := hroom (by simp [ho])
        have hcol : ∀ i, 0 ≤ (t.view i).heightFree := fun i => hr.free _ (by omega)
        have hpl := paragraph_plain h1 p.indent
        refine and_assoc.1 ⟨?_, C43_paragraph_partial henv line htidy st cmd words h1 p.indent hnz hl hcol h2,
          by simpa using optimum_linesOf hl hcol (fun w hw => (k1 w hw).1) hpl hwf h2⟩
        rcases hb (by simp [ho]) with hb | hs
        · have hb1 : NoBlankLines chunks (styled line st) := by
            simp only [groupsStyled] at hb
            cases hb with
            | cons h _ => exact h
          have j1 := optimum_wf hpl hwf hl hcol h2 (by
            intro hne c hc l hl' e
            refine hb1 ?_ c hc l hl' (by rw [TLine.styled, e]; rfl)
            intro e0
            rw [e0] at hst
            obtain ⟨w, ws, ew⟩ := List.exists_cons_of_ne_nil hne
            have := (k1 w (by rw [ew]; simp)).2.2
            apply this
            have hs0 : w.styled = [] := by
              rw [ew, List.flatMap_cons] at hst
              exact (List.append_eq_nil_iff.1 hst).1
            rw [← w.gaps_styled, List.map_eq_nil_iff] at hs0
            exact hs0)
          exact ⟨whole j1, chunksState_wf j1⟩
        · obtain ⟨hf, hend⟩ := steady_words henv htidy hs.1 h1
          have hff := indentFirst_fixed p.indent hf
          refine ⟨fun c hc => ⟨_, _, (optimum_chunk_wf henv hpw hpl hff hl hcol h2 hc).1⟩, ?_⟩
          rw [hend]
          exact chunksState_fixed (optimum_fixed hl hcol h2 hff) rfl
    obtain ⟨j1, hstate, j2, j3⟩ := key
    rw [hstate] at i2
    refine .cons _ _ _ _ _ _ _ _ htidy hnz h1 h2' hroom j1 j2 j3 (i2 (fun l hl => hz l (by simp [groupsStyled, hl])) fun ho => ?_)
    rcases hb ho with hb | hs
    · left
      simp only [groupsStyled] at hb
      cases hb with
      | cons _ h => exact h
    · exact .inr hs.2

/-- What the chunks show. -/
theorem GroupsSet.shown (henv : env.Ok) {p : Paragraph} {lead : ℚ} {gs : List (List Passage)} {st : State} {t : Tape} {css : List (List ShapedText)}
    (h : GroupsSet env p lead gs st t css) :
    List.Forall₂ (TextShownIf ShapedText.StartsQuiet env.widths lead) css (groupsStyled gs st) ∧
      List.Forall₂ (fun cs g => (∀ c ∈ cs, c.StartsQuiet) → Tight env (p.optimal = none) (p.align = .justify) (g.length = 1) cs) css gs := by
  induction h with
  | nil st t => exact ⟨.nil, .nil⟩
  | cons line rest st t cmd words chunks css htidy hnz h1 h2 hroom hchunk j2 j3 _ ih =>
    obtain ⟨hpw, hst⟩ := paragraph_words henv line htidy st cmd words h1 p.indent hnz
    have hlead := shape_lead h2
    obtain ⟨k1, k2⟩ := words_gapsOk henv htidy h1 p.indent
    refine ⟨.cons ⟨indentFirst words p.indent, chunks.map fun c => c.lines.map TLine.styled, hst, ?_, ?_⟩ ih.1, .cons (fun hq => j3.isTight k2 hchunk hq) ih.2⟩
    · refine forall₂_map_right fun c hc hq => ?_
      obtain ⟨pre, fin, hw⟩ := hchunk c hc
      rw [← (hlead c hc).1]
      exact chunk_shows hw hq
    · rw [flatten_shown]; exact j2

end Pdfje
