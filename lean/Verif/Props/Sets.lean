import Verif.Props.Written
import Verif.Props.Columns
import Verif.Props.Flow
import Verif.Proofs.Measured
/-
C73: documents of paragraphs set with the default line breaking are written.
-/

namespace Pdfje

/-! ### Paragraphs can be set -/

/-- All columns are at least this wide. -/
def Tape.Wide (t : Tape) (width : ℚ) : Prop := ∀ i, width ≤ (t.cells i).box.width

theorem Tape.Wide.grows {t t' : Tape} {width : ℚ} (h : t.Wide width) (hg : t.Grows t') : t'.Wide width := by
  intro i
  rw [← (hg.cells i).1]
  exact h i

theorem words_short {env : Env} {g : List Passage} {st : State} {ws : List WordLike} (hb : Breaks ws) (hw : ws.flatMap WordLike.styled = styled g st) {n : Nat}
    (hn : ShortWords n (g.flatMap Passage.txt)) : ∀ w ∈ ws, w.styled.length ≤ n := by
  intro w hwm
  obtain ⟨a, b, rfl⟩ := List.append_of_mem hwm
  have e : g.flatMap Passage.txt = (a.flatMap WordLike.styled).map (·.1) ++ w.text ++ (b.flatMap WordLike.styled).map (·.1) := by
    rw [← styled_chars g st, ← hw]
    simp [WordLike.text]
  have hone : OneWord w.text := by
    intro a c d b e hc
    refine hb.solid w hwm a c d b e ?_
    have : c = ' ' ∨ c = '-' ∨ c = zwsp ∨ c = emDash := hc
    simpa [isBreak, or_assoc] using this
  have := hn _ _ _ e hone
  simpa [WordLike.text] using this

theorem State.Proper.bound {env : Env} {M S : ℚ} {st : State} (h : st.Proper env M S) : 0 ≤ M / 1000 * S := by
  have h1 := h.1.char ' '
  have h2 := h.2
  exact mul_nonneg (div_nonneg (by linarith) (by norm_num)) (by linarith)

/-- Every line of a paragraph is set, and leaves room for the next one. -/
theorem paragraphLoop_sets {env : Env} (henv : env.Ok) (hh : HyphenOk env) (p : Paragraph) {lead height width M S : ℚ} (hl : 0 < lead) (hlh : lead ≤ height) (hwd : 0 < width) (n : Nat)
    (htol : ∀ o, p.optimal = some o → 0 < o.tolerance) (hj : p.optimal ≠ none → p.align = .justify → 0 ≤ p.indent)
    (hr : p.optimal ≠ none → p.align ≠ .justify → (n + 1) * (M / 1000 * S) + max 0 p.indent ≤ width) :
    ∀ (gs : List (List Passage)) (st : State) (t : Tape), (∀ g ∈ gs, Tidy g) → (∀ g ∈ gs, ∀ q ∈ g, q.cmd.Keeps) → (∀ g ∈ gs, ∀ q ∈ g, q.cmd.Leaves (State.Proper env M S)) →
      (p.optimal ≠ none → p.align ≠ .justify → ∀ g ∈ gs, ShortWords n (g.flatMap Passage.txt)) → st.Proper env M S → t.Roomy height → t.Wide width →
      ∃ filled, paragraphLoop p env lead gs t.view st = some filled
  | [], st, t, _, _, _, _, _, _, _ => ⟨_, rfl⟩
  | g :: gs, st, t, ht, hk, hv, hn, hs, hroom, hwide => by
    obtain ⟨cmd, ws, h1, hbr, h3⟩ := intoWords_spec henv g st
    have htg := ht g List.mem_cons_self
    have hkg := hk g List.mem_cons_self
    have hvg := hv g List.mem_cons_self
    have hpos : 0 < st.size := hs.2.1
    obtain ⟨hpw, hst⟩ := paragraph_words henv g htg st cmd ws h1 p.indent (fun e he => (styled_sizes g st hkg hpos e he).ne')
    have hfresh := intoWords_fresh hvg hs h1
    have hplain := paragraph_plain h1 p.indent
    have hcs : (cmd.apply st).Proper env M S := command_in htg hvg hs h1
    have hfree : ∀ i, 0 ≤ (t.view i).heightFree := fun i => hroom.free _ (by omega)
    have hcw : ∀ i, 0 < (t.view i).box.width := fun i => lt_of_lt_of_le hwd (hwide _)
    have hin := indentFirst_in p.indent fun w hw => (hfresh w hw).states
    obtain ⟨out, ho, hne, hstate⟩ : ∃ out, p.shape env (fun i => ((t.view i).box.width, (t.view i).heightFree)) lead (indentFirst ws p.indent) (!(t.view 0).blocks.isEmpty) = some out ∧
        out ≠ [] ∧ (chunksState out (cmd.apply st)).Proper env M S := by
      cases hp : p.optimal with
      | none =>
        obtain ⟨out, ho, -⟩ := C35_terminates_partial hh (indentFirst_sized p.indent (intoWords_sizes hkg hpos h1))
          (cols := fun i => ((t.view i).box.width, (t.view i).heightFree)) (fun j _ => hfree j) hl p.avoidOrphans p.align (!(t.view 0).blocks.isEmpty)
        have hne : out ≠ [] := by
          obtain ⟨raw, -, hch, rfl⟩ := firstfit_chunks ho
          cases hch <;> simp
        refine ⟨out, by simp only [Paragraph.shape, hp]; exact ho, hne, ?_⟩
        rw [chunksState_wf (firstfit_wf henv hpw (indentFirst_wf henv (h3 htg).1 p.indent hpw) ho)]
        have key : ∀ (g : List Passage) (st : State), (∀ q ∈ g, q.cmd.Leaves (State.Proper env M S)) → st.Proper env M S → (endState g st).Proper env M S := by
          intro g
          induction g with
          | nil => exact fun _ _ h => h
          | cons q g ih => exact fun st hq h => ih _ (fun x hx => hq x (by simp [hx])) (hq q (by simp) st h)
        exact key g st hvg hs
      | some o =>
        have ht0 := htol o hp
        have hsome : ∃ out, optimumShape env (fun i => ((t.view i).box.width, (t.view i).heightFree)) lead p.avoidOrphans p.align o (indentFirst ws p.indent)
            (!(t.view 0).blocks.isEmpty) = some out := by
          by_cases hal : p.align = .justify
          · have hi := hj (by rw [hp]; simp) hal
            obtain ⟨N, hN⟩ : ∃ N, ∀ w ∈ ws, w.styled.length ≤ N := ⟨(ws.map fun w => w.styled.length).sum, fun w hw => List.single_le_sum (by simp) _ (List.mem_map_of_mem hw)⟩
            rw [hal]
            refine C42_justified_partial henv hpw hplain ?_ hl hfree hcw p.avoidOrphans ht0 _
            intro w hw x hx
            have := (pieces_bounds hfresh hN hs.bound p.indent w hw x hx).1
            rwa [min_eq_left hi] at this
          · have hfit := hr (by rw [hp]; simp) hal
            have hN := words_short (env := env) hbr (h3 htg).2 (hn (by rw [hp]; simp) hal g List.mem_cons_self)
            refine C42_ragged_partial henv hpw hplain ?_ ?_ hl hfree hcw p.avoidOrphans hal ht0 _
            · intro w hw
              have := (hin w hw).post
              exact ⟨this.2.1, this.1.space⟩
            · intro w hw x hx i
              exact le_trans (pieces_bounds hfresh hN hs.bound p.indent w hw x hx).2 (le_trans hfit (hwide _))
        obtain ⟨out, ho⟩ := hsome
        refine ⟨out, by simp only [Paragraph.shape, hp]; exact ho, ?_, ?_⟩
        · by_cases hws : indentFirst ws p.indent = []
          · rw [hws] at ho
            rcases optimumShape_nil ho with ⟨rfl, -⟩ | ⟨rfl, -⟩ <;> simp
          · obtain ⟨_, _, _, _, ⟨i, chunk, line, hi, -⟩, -⟩ := optimum_lines hl hfree hws ho
            rintro rfl
            simp at hi
        · exact chunksState_in (optimum_in hl hfree ho hin) hcs
    have hfill : fillParagraph p env g t.view st lead = some (addChunks out t.view, chunksState out (cmd.apply st)) := by
      unfold fillParagraph
      simp only [h1, ho, Option.map_some]
    have hne' : addChunks out t.view ≠ [] := by
      cases out with
      | nil => exact absurd rfl hne
      | cons c out => simp [addChunks]
    have hone : LinesFill p env lead [g] st t (t.fill (addChunks out t.view)) := by
      refine .cons g [] st t cmd ws out _ h1 ho hne ?_
      rw [addChunks_eq]
      exact .nil _ _
    obtain ⟨col, hcol⟩ : ∃ col, (addChunks out t.view).getLast? = some col := ⟨_, List.getLast?_eq_some_getLast hne'⟩
    obtain ⟨filled, hf⟩ := paragraphLoop_sets henv hh p hl hlh hwd n htol hj hr gs (chunksState out (cmd.apply st)) (t.fill (addChunks out t.view))
      (fun g' hg' => ht g' (List.mem_cons_of_mem _ hg')) (fun g' hg' => hk g' (List.mem_cons_of_mem _ hg')) (fun g' hg' => hv g' (List.mem_cons_of_mem _ hg'))
      (fun h h' g' hg' => hn h h' g' (List.mem_cons_of_mem _ hg')) hstate (linesFill_roomy hone hl hlh hroom) (hwide.grows hone.grows)
    rw [Tape.view_fill t hcol] at hf
    exact ⟨(addChunks out t.view).dropLast ++ filled, by rw [paragraphLoop]; simp only [hfill, hcol, hf, Option.map_some]⟩

theorem World.Proper.hyphen {w : World} {M : ℚ} (h : w.Proper M) (r : Res) : HyphenOk (w.env r) := by
  intro f
  have key : ∀ m : Metrics, m.Proper M → 0 ≤ m.charwidth '-' ∧ ∀ c, 0 ≤ m.charwidth '-' + m.kerning (c, '-') := fun m hm => ⟨(hm.char _).1, fun c => (hm.pair c _).1⟩
  cases f with
  | builtin n => exact key _ (h.1 n)
  | subset i =>
    show 0 ≤ (World.metrics w r (.subset i)).charwidth '-' ∧ ∀ c, 0 ≤ (World.metrics w r (.subset i)).charwidth '-' + (World.metrics w r (.subset i)).kerning (c, '-')
    rw [World.metrics]
    split
    · exact key _ (h.2 _)
    · simp

theorem World.Proper.knows {w : World} {M : ℚ} (h : w.Proper M) {r : Res} {f : FontRef} (hf : r.Knows f) : ((w.env r).metrics f).Proper M := by
  cases f with
  | builtin n => exact h.1 n
  | subset i =>
    have hi : i < r.subsets.length := hf
    show (World.metrics w r (.subset i)).Proper M
    rw [World.metrics, List.getElem?_eq_getElem hi]
    exact h.2 _

theorem passageStrings_fonts {P : FontRef → Prop} : ∀ (ps : List Passage) (st : State), (∀ p ∈ ps, p.cmd.Fonts P) → P st.font → ∀ e ∈ passageStrings ps st, P e.2.font
  | [], _, _, _ => by simp [passageStrings]
  | p :: ps, st, h, hs => by
    have h1 := Command.fonts_apply p.cmd st (h p (by simp)) hs
    intro e he
    simp only [passageStrings, List.mem_cons] at he
    rcases he with rfl | he
    · exact h1
    · exact passageStrings_fonts ps _ (fun q hq => h q (by simp [hq])) h1 e he

theorem maxLeadLoop_le {height : ℚ} : ∀ (ps : List Passage) (st : State) (lead : ℚ), lead ≤ height → st.lead ≤ height → (∀ e ∈ passageStrings ps st, e.2.lead ≤ height) →
    (maxLeadLoop ps st lead).1.lead ≤ height ∧ (maxLeadLoop ps st lead).2 ≤ height
  | [], _, _, h1, h2, _ => ⟨h2, h1⟩
  | p :: ps, st, lead, h1, h2, h => by
    simp only [passageStrings, List.mem_cons, forall_eq_or_imp] at h
    refine maxLeadLoop_le ps _ _ ?_ h.1 h.2
    split
    · exact max_le h1 h.1
    · exact h1

theorem maxLead_le {height : ℚ} {ps : List Passage} {st : State} (h0 : 0 ≤ height) (hs : st.lead ≤ height) (h : ∀ e ∈ passageStrings ps st, e.2.lead ≤ height) :
    maxLead ps st ≤ height := by
  obtain ⟨h1, h2⟩ := maxLeadLoop_le ps st 0 h0 hs h
  simp only [maxLead]
  split
  · exact h1
  · exact h2

theorem exists_bound : ∀ l : List ℚ, ∃ S, ∀ x ∈ l, x ≤ S
  | [] => ⟨0, by simp⟩
  | x :: l => by
    obtain ⟨S, h⟩ := exists_bound l
    exact ⟨max x S, by
      intro y hy
      rcases List.mem_cons.1 hy with rfl | hy
      · exact le_max_left _ _
      · exact le_trans (h y hy) (le_max_right _ _)⟩

theorem splitlines_chars {passages : List Passage} {st : State} {lines : List (List (Char × State))} (h : groupsStyled (splitlines passages) st = lines) {P : List Char → Prop}
    (hl : ∀ l ∈ lines, P (l.map (·.1))) : ∀ g ∈ splitlines passages, P (g.flatMap Passage.txt) := by
  have key : ∀ (gs : List (List Passage)) (st : State), (∀ l ∈ groupsStyled gs st, P (l.map (·.1))) → ∀ g ∈ gs, P (g.flatMap Passage.txt) := by
    intro gs
    induction gs with
    | nil => simp
    | cons g gs ih =>
      intro st h x hx
      simp only [groupsStyled, List.mem_cons, forall_eq_or_imp] at h
      rcases List.mem_cons.1 hx with rfl | hx
      · rw [← styled_chars x st]; exact h.1
      · exact ih _ h.2 x hx
  subst h
  exact key _ _ hl

/-- A paragraph that has room can be set, and leaves room. -/
theorem paragraph_sets {w : World} (hw : ∀ r, (w.env r).Ok) {M : ℚ} (hm : w.Proper M) {base : StyleFull} (hs : base.Known) {p : Paragraph} (hk : (Block.paragraph p).Known)
    {width height : ℚ} (hwd : 0 < width) (hp : p.Sets base width height M) (hne : ∀ e ∈ itemsStrings [p.style] p.content, e.1 ≠ []) {r : Res} (hr : r.WF) {t : Tape}
    (hroom : t.Roomy height) (hwide : t.Wide width) : ∃ filled r', (Block.paragraph p).intoColumns w r base t.view = (some filled, r') := by
  obtain ⟨⟨hb1, hb2, hb3⟩, hsz, hopt⟩ := hp
  have hcs := contentStrings_passages (base.or p.style) p.style p.content r
  obtain ⟨h1, -⟩ := C24_spans (base.or p.style) p.style p.content r
  rw [contentStrings_or] at hcs
  have hs' : (base.or p.style).Known := StyleFull.known_or hs hk.2
  have g1 := asState_reach _ hs' r
  have hwf := (g1.wf hr).2
  have g2 := (flattenSpan_reach p.style (base.or p.style) [] p.content ((base.or p.style).asState r).2 hk.1 hk.2 hs' (by simp)).1
  have g3 := flattenSpan_fonts p.style (base.or p.style) [] p.content ((base.or p.style).asState r).2 hwf hk.1 hk.2 hs' (by simp)
  have g4 := g2.knows hwf ((base.or p.style).asState r).1.font (r.knows_font _ _ _)
  simp only [Block.intoColumns, Paragraph.intoColumns]
  set out := flattenSpan p.style (base.or p.style) [] p.content ((base.or p.style).asState r).2 with hout
  set st := ((base.or p.style).asState r).1 with hst
  have hsz' : ∀ e ∈ contentStrings base p.style p.content out.2.2, 0 < e.2.size ∧ 0 < e.2.lineSpacing ∧ e.2.size * e.2.lineSpacing ≤ height := by
    intro e he
    obtain ⟨x, hx, rfl⟩ := List.mem_map.1 he
    exact hsz x hx
  have hfonts := passageStrings_fonts out.1 st g3 g4
  rw [hcs] at hsz'
  have hne' : ∀ q ∈ out.1, q.txt ≠ [] := by
    intro q hq
    have := List.mem_map_of_mem (f := Passage.txt) hq
    rw [h1, List.mem_map] at this
    obtain ⟨e, he, e'⟩ := this
    rw [← e']; exact hne e he
  obtain ⟨n, S, hS0, hS, hfit⟩ : ∃ (n : Nat) (S : ℚ), (base.or p.style).size ≤ S ∧ (∀ e ∈ itemsStrings [p.style] p.content, (base.overlay e.2).size ≤ S) ∧
      (p.optimal ≠ none → p.align ≠ .justify → (n + 1) * (M / 1000 * S) + max 0 p.indent ≤ width ∧
        ∀ r, ∀ l ∈ contentLines (contentStrings base p.style p.content r), ShortWords n (l.map (·.1))) := by
    by_cases hx : p.optimal ≠ none ∧ p.align ≠ .justify
    · obtain ⟨o, ho⟩ := Option.ne_none_iff_exists'.1 hx.1
      have := (hopt o ho).2
      rw [if_neg hx.2] at this
      obtain ⟨n, S, k1, k2, k3⟩ := this
      exact ⟨n, S, k1, k2, fun _ _ => k3⟩
    · obtain ⟨S, hS⟩ := exists_bound ((base.or p.style).size :: (itemsStrings [p.style] p.content).map fun e => (base.overlay e.2).size)
      exact ⟨0, S, hS _ (by simp), fun e he => hS _ (List.mem_cons_of_mem _ (List.mem_map_of_mem (f := fun e : List Char × List Style => (base.overlay e.2).size) he)), fun h h' => absurd ⟨h, h'⟩ hx⟩
  have hprop : ∀ e ∈ passageStrings out.1 st, ((w.env out.2.2).metrics e.2.font).Proper M ∧ 0 < e.2.size ∧ e.2.size ≤ S := by
    intro e he
    refine ⟨hm.knows (hfonts e he), (hsz' e he).1, ?_⟩
    rw [← hcs] at he
    obtain ⟨x, hx, rfl⟩ := List.mem_map.1 he
    exact hS x hx
  have hlines : groupsStyled (splitlines out.1) st = contentLines (contentStrings base p.style p.content out.2.2) := by
    rw [hcs]
    cases e : out.1 with
    | nil => rfl
    | cons q qs => rw [(C26_newlines (q :: qs) _ (by simp)).1, styledLines_strings, contentLines, if_neg (by simp [passageStrings])]
  obtain ⟨filled, hf⟩ := paragraphLoop_sets (hw out.2.2) (hm.hyphen out.2.2) p (M := M) (S := S) (lead := maxLead out.1 st) (height := height) (width := width)
    (maxLead_pos (mul_pos hb1 hb2) (fun e he => mul_pos (hsz' e he).1 (hsz' e he).2.1))
    (maxLead_le (le_trans (mul_pos hb1 hb2).le hb3) hb3 fun e he => (hsz' e he).2.2) hwd n (fun o ho => (hopt o ho).1)
    (fun h hj => by
      obtain ⟨o, ho⟩ := Option.ne_none_iff_exists'.1 h
      have := (hopt o ho).2
      rwa [if_pos hj] at this)
    (fun h h' => (hfit h h').1) (splitlines out.1) st t (C27_tidy _ hne')
    (splitlines_keeps _ (passages_keep out.1 st fun e he => (hsz' e he).1))
    (splitlines_leaves _ (passages_leave (R := fun f z => ((w.env out.2.2).metrics f).Proper M ∧ 0 < z ∧ z ≤ S) out.1 st hprop))
    (fun h h' => splitlines_chars hlines ((hfit h h').2 _)) ⟨hm.knows g4, hb1, hS0⟩ hroom hwide
  exact ⟨filled, out.2.2, by rw [hf]⟩

theorem paragraph_roomy {w : World} {base : StyleFull} {p : Paragraph} {width height M : ℚ} (hp : p.Sets base width height M) (hne : ∀ e ∈ itemsStrings [p.style] p.content, e.1 ≠ [])
    {r r' : Res} {t : Tape} {filled : List ColumnFill} (h : (Block.paragraph p).intoColumns w r base t.view = (some filled, r')) :
    (t.Roomy height → (t.fill filled).Roomy height) ∧ (t.Wide width → (t.fill filled).Wide width) := by
  obtain ⟨⟨hb1, hb2, hb3⟩, hsz, -⟩ := hp
  obtain ⟨passages, st, lead, h1, h2, h3, h4, h5, -⟩ := paragraph_lines p w r base t filled r' h hne
  have hsz' : ∀ e ∈ passageStrings passages st, 0 < e.2.size ∧ 0 < e.2.lineSpacing ∧ e.2.size * e.2.lineSpacing ≤ height := by
    rw [h2]
    intro e he
    obtain ⟨x, hx, rfl⟩ := List.mem_map.1 he
    exact hsz x hx
  refine ⟨fun hr => linesFill_roomy h1 ?_ ?_ hr, fun hw => hw.grows h1.grows⟩
  · rw [h5]
    exact maxLead_pos (by rw [h4]; exact mul_pos hb1 hb2) (fun e he => mul_pos (hsz' e he).1 (hsz' e he).2.1)
  · rw [h5]
    exact maxLead_le (le_trans (mul_pos hb1 hb2).le hb3) (by rw [h4]; exact hb3) fun e he => (hsz' e he).2.2

/-- A rule that takes no height is put in the current column. -/
theorem rule_fits {x : Rule} (hz : x.margin.top + x.margin.bottom ≤ 0) {t : Tape} {height : ℚ} (ht : t.Roomy height) :
    x.intoColumns t.view = [(t.view 0).add (x.shaped (t.view 0))] ∧ t.Grows (t.fill (x.intoColumns t.view)) := by
  have h0 : 0 ≤ (t.view 0).heightFree := ht.free _ (by omega)
  have e : x.intoColumns t.view = [(t.view 0).add (x.shaped (t.view 0))] := by rw [Rule.intoColumns, if_neg (by linarith)]
  refine ⟨e, ?_⟩
  rw [e]
  refine Tape.grows_fill t _ ?_
  intro i c hc
  cases i with
  | zero =>
    simp only [List.getElem?_cons_zero, Option.some.injEq] at hc
    subst hc
    exact ⟨rfl, _, rfl⟩
  | succ i => simp at hc

theorem rule_roomy {x : Rule} (hz : x.margin.top + x.margin.bottom ≤ 0) {t : Tape} {height : ℚ} (ht : t.Roomy height) : (t.fill (x.intoColumns t.view)).Roomy height := by
  rw [(rule_fits hz ht).1]
  have h0 : 0 ≤ (t.cells t.head).heightFree := ht.free _ le_rfl
  have hd : (t.fill [(t.view 0).add (x.shaped (t.view 0))]).head = t.head := by simp [Tape.fill]
  have hc : ∀ i, t.head ≤ i → (t.fill [(t.view 0).add (x.shaped (t.view 0))]).cells i = if i = t.head then (t.view 0).add (x.shaped (t.view 0)) else t.cells i := by
    intro i hi
    simp only [Tape.fill, List.cons_ne_nil, if_false, if_pos hi]
    by_cases e : i = t.head
    · subst e; simp
    · rw [List.getElem?_eq_none (by simp; omega), if_neg e]; rfl
  refine ⟨fun i hi => ?_, fun i hi he => ?_, fun i hi => ?_⟩
  · rw [hd] at hi
    rw [hc i hi]
    split
    · show 0 ≤ (t.cells t.head).heightFree - (x.margin.top + x.margin.bottom)
      linarith
    · exact ht.free i hi
  · rw [hd] at hi
    rw [hc i hi] at he ⊢
    split
    · rename_i e
      rw [if_pos e] at he
      simp [ColumnFill.add] at he
    · rename_i e
      rw [if_neg e] at he
      exact ht.empty i hi he
  · rw [hd] at hi
    rw [hc i (by omega), if_neg (by omega)]
    exact ht.after i hi

theorem block_sets {w : World} (hw : ∀ r, (w.env r).Ok) {M : ℚ} (hm : w.Proper M) {base : StyleFull} (hs : base.Known) {b : Block} (hk : b.Known)
    {width height : ℚ} (hwd : 0 < width) (hb : b.Sets False base width height M) (hne : ∀ x ∈ b.strings, x ≠ []) :
    Lays w base (fun t => t.Roomy height ∧ t.Wide width) b := by
  cases b with
  | rule x =>
    intro r t _ ht
    have hz : x.margin.top + x.margin.bottom ≤ 0 := hb.resolve_right id
    exact ⟨_, _, rfl, rule_roomy hz ht.1, ht.2.grows (rule_fits hz ht.1).2⟩
  | paragraph p =>
    intro r t hr ht
    have hne' : ∀ e ∈ itemsStrings [p.style] p.content, e.1 ≠ [] := fun e he => hne e.1 (List.mem_map_of_mem he)
    obtain ⟨filled, r', h⟩ := paragraph_sets hw hm hs hk hwd hb hne' hr ht.1 ht.2
    obtain ⟨k1, k2⟩ := paragraph_roomy hb hne' h
    exact ⟨filled, r', h, k1 ht.1, k2 ht.2⟩

/-! ### Characters -/

section
variable {A : Char → Prop}

theorem linesFill_chars_roomy {env : Env} {p : Paragraph} {lead height : ℚ} {gs : List (List Passage)} {st : State} {t t' : Tape} (h : LinesFill p env lead gs st t t') (hy : A '-')
    (henv : env.Ok) (hl : 0 < lead) (hlh : lead ≤ height) :
    (∀ g ∈ gs, Tidy g) → (∀ g ∈ gs, ∀ q ∈ g, q.cmd.Keeps) → 0 < st.size → (∀ g ∈ gs, ∀ c ∈ g.flatMap Passage.txt, A c) → t.Roomy height → CellsIn A t → CellsIn A t' := by
  induction h with
  | nil => exact fun _ _ _ _ _ h => h
  | cons line rest st t cmd words chunks t' h1 h2 h3 h4 ih =>
    intro ht hk hs hc hroom hin
    have htg := ht line (by simp)
    have hkg := hk line (by simp)
    have hz : NonZero (styled line st) := fun e he => (styled_sizes line st hkg hs e he).ne'
    have hone : LinesFill p env lead [line] st t (t.fill (chunks.mapIdx fun i c => (t.view i).add (.text c))) := .cons line [] st t cmd words chunks _ h1 h2 h3 (.nil _ _)
    have hfree : ∀ i, 0 ≤ (t.view i).heightFree := fun i => hroom.free _ (by omega)
    obtain ⟨hshow, hsize⟩ : LinesShow (indentFirst words p.indent) ((chunks.flatMap ShapedText.lines).map TLine.styled) (styled line st) ∧ 0 < (chunksState chunks (cmd.apply st)).size := by
      cases hp : p.optimal with
      | none =>
        obtain ⟨hpw, hst⟩ := paragraph_words henv line htg st cmd words h1 p.indent hz
        obtain ⟨cmd', ws', g1, -, g3⟩ := intoWords_spec henv line st
        rw [h1] at g1
        simp only [Option.some.injEq, Prod.mk.injEq] at g1
        obtain ⟨rfl, rfl⟩ := g1
        simp only [Paragraph.shape, hp] at h2
        have hstate : chunksState chunks (cmd.apply st) = endState line st := chunksState_wf (firstfit_wf henv hpw (indentFirst_wf henv (g3 htg).1 p.indent hpw) h2)
        exact ⟨C32_paragraph henv line htg st cmd words h1 p.indent hz h2, by rw [hstate]; exact endState_size line st hkg hs⟩
      | some o =>
        simp only [Paragraph.shape, hp] at h2
        refine ⟨C43_paragraph_partial henv line htg st cmd words h1 p.indent hz hl hfree h2, ?_⟩
        have hfr := intoWords_fresh (Q := fun st => 0 < st.size) hkg hs h1
        exact chunksState_in (Q := fun st => 0 < st.size) (optimum_in hl hfree h2 (indentFirst_in p.indent fun w hw => (hfr w hw).states)) (command_in htg hkg hs h1)
    refine ih (fun g hg => ht g (by simp [hg])) (fun g hg => hk g (by simp [hg])) hsize (fun g hg => hc g (by simp [hg])) (linesFill_roomy hone hl hlh hroom) ?_
    refine hin.fill ?_
    intro c hcm
    obtain ⟨i, hi⟩ := List.mem_iff_getElem?.1 hcm
    rw [List.getElem?_mapIdx, Option.map_eq_some_iff] at hi
    obtain ⟨x, hx, rfl⟩ := hi
    refine add_chars (hin _) ?_
    intro op hop
    simp only [Shaped.render, List.mem_singleton] at hop
    subst hop
    refine shapedText_chars ?_ _ _
    intro l hl
    refine linesShow_chars hshow hy ?_ l.styled ?_
    · intro e he
      refine hc line (by simp) _ ?_
      rw [← styled_chars line st]
      exact List.mem_map_of_mem he
    · exact List.mem_map_of_mem (List.mem_flatMap.2 ⟨x, List.mem_of_getElem? hx, hl⟩)

theorem block_chars_roomy {w : World} (hw : ∀ r, (w.env r).Ok) {base : StyleFull} {width height M : ℚ} {b : Block} (hb : b.Sets False base width height M)
    (hstr : ∀ x ∈ b.strings, x ≠ [] ∧ ∀ c ∈ x, A c) (hy : A '-') {r r' : Res} {t : Tape} {filled : List ColumnFill} (h : b.intoColumns w r base t.view = (some filled, r'))
    (hroom : t.Roomy height) (hin : CellsIn A t) : (t.fill filled).Roomy height ∧ CellsIn A (t.fill filled) := by
  cases b with
  | rule x =>
    simp only [Block.intoColumns, Prod.mk.injEq, Option.some.injEq] at h
    obtain ⟨rfl, -⟩ := h
    have hz : x.margin.top + x.margin.bottom ≤ 0 := hb.resolve_right id
    refine ⟨rule_roomy hz hroom, ?_⟩
    exact block_chars (b := .rule x) (w := w) (base := base) (r := r) hw trivial hstr hy rfl hin
  | paragraph p =>
    have hne : ∀ e ∈ itemsStrings [p.style] p.content, e.1 ≠ [] := fun e he => (hstr e.1 (List.mem_map_of_mem he)).1
    refine ⟨(paragraph_roomy hb hne h).1 hroom, ?_⟩
    obtain ⟨⟨hb1, hb2, hb3⟩, hsz, -⟩ := hb
    obtain ⟨passages, st, lead, h1, h2, h3, h4, h5, h6⟩ := paragraph_lines p w r base t filled r' h hne
    have hsz' : ∀ e ∈ passageStrings passages st, 0 < e.2.size ∧ 0 < e.2.lineSpacing ∧ e.2.size * e.2.lineSpacing ≤ height := by
      rw [h2]
      intro e he
      obtain ⟨x, hx, rfl⟩ := List.mem_map.1 he
      exact hsz x hx
    refine linesFill_chars_roomy h1 hy (hw r') ?_ ?_ (C27_tidy _ h3) (splitlines_keeps _ (passages_keep passages st fun e he => (hsz' e he).1)) (by rw [h4]; exact hb1)
      (groups_chars (st := st) ?_) hroom hin
    · rw [h5]
      exact maxLead_pos (by rw [h4]; exact mul_pos hb1 hb2) (fun e he => mul_pos (hsz' e he).1 (hsz' e he).2.1)
    · rw [h5]
      exact maxLead_le (le_trans (mul_pos hb1 hb2).le hb3) (by rw [h4]; exact hb3) fun e he => (hsz' e he).2.2
    · rw [h6]
      refine contentLines_chars ?_
      intro x hx
      obtain ⟨y, hy, rfl⟩ := List.mem_map.1 hx
      exact (hstr y.1 (List.mem_map_of_mem hy)).2

theorem fills_chars_roomy {w : World} (hw : ∀ r, (w.env r).Ok) {base : StyleFull} {width height M : ℚ} {bs : List Block} {t t' : Tape} (h : Fills w base bs t t') (hy : A '-') :
    (∀ b ∈ bs, b.Sets False base width height M ∧ ∀ x ∈ b.strings, x ≠ [] ∧ ∀ c ∈ x, A c) → t.Roomy height → CellsIn A t → CellsIn A t' := by
  induction h with
  | nil => exact fun _ _ h => h
  | cons b bs t r r' filled t' hb hrest ih =>
    intro hbs hroom hin
    obtain ⟨h1, h2⟩ := block_chars_roomy hw (hbs b (by simp)).1 (hbs b (by simp)).2 hy hb hroom hin
    exact ih (fun x hx => hbs x (by simp [hx])) h1 h2

theorem item_sets {w : World} (hw : ∀ r, (w.env r).Ok) {M : ℚ} (hm : w.Proper M) {s : StyleFull} (hs : s.Known) {alphabet : List Char} {it : DocItem} (hk : it.Known)
    (hp : it.Sets False s alphabet M) (hA : ∀ c ∈ alphabet, A c) (hy : A '-') : it.Renders w s A := by
  refine item_renders hw hs hk hA ?_ ?_
  · rintro p rfl
    exact hp
  · rintro a rfl
    obtain ⟨width, height, hwd, hht, ht, hb⟩ := hp
    refine ⟨fun t => t.Roomy height ∧ t.Wide width, fun n => ⟨(ht n).1, (ht n).2.2⟩,
      fun b hbm => block_sets hw hm hs (hk.1 b hbm) hwd (hb b hbm).1 fun x hx => ((hb b hbm).2 x hx).1, fun pnum t0 h0 => ?_⟩
    have hroom := new_roomy (fun n => (ht (pnum + n)).1) hht (fun n c hc => ((ht (pnum + n)).2.1 c hc).2) h0
    refine ⟨⟨hroom, ?_⟩, ?_⟩
    · intro i
      obtain ⟨n, c, hm, e⟩ := isNew_cells (fun n => (ht (pnum + n)).1) h0 i
      rw [e]; exact ((ht _).2.1 c hm).1
    · intro t h1
      exact fills_chars_roomy hw h1 hy (fun b hbm => ⟨(hb b hbm).1, fun x hx => ⟨((hb b hbm).2 x hx).1, fun c hc => hA c (((hb b hbm).2 x hx).2 c hc)⟩⟩) hroom
        (new_cellsIn (fun n => (ht _).1) h0)

end

/-- C73, proved part: every document is written whose automatic pages have paragraphs with room for every word and line, in fonts with usual metrics, and no rules. (Pages with
rules and paragraphs set by first-fit may be mixed in, as in C65.) -/
theorem C73_written_partial (compress : Bytes → Bytes) (w : World) (hw : ∀ r, (w.env r).Ok) (M : ℚ) (hm : w.Proper M) (s : StyleFull) (hs : s.Known) (alphabet : List Char)
    (hal : alphabet.length < 65534) (items : List DocItem) (hne : items ≠ []) (hk : ∀ it ∈ items, it.Known) (hp : ∀ it ∈ items, it.Plain s alphabet ∨ it.Sets False s alphabet M) (id : Bytes) :
    ∃ chunks, docWrite compress w.files (DocItem.render w s) id items = (chunks, true) := by
  refine written_of compress w s hs alphabet hal items hne hk (fun it hit => ?_) id
  rcases hp it hit with h | h
  · exact item_written hw (fun r => hm.hyphen r) hs (hk it hit) h (fun c hc => List.mem_cons_of_mem _ hc) (by simp)
  · exact item_sets hw hm hs (hk it hit) h (fun c hc => List.mem_cons_of_mem _ hc) (by simp)

/-! ### The property as stated -/

/-- C73, as stated: the same with rules. -/
def C73_Statement : Prop :=
  ∀ (compress : Bytes → Bytes) (w : World), (∀ r, (w.env r).Ok) → ∀ (M : ℚ), w.Proper M → ∀ (s : StyleFull), s.Known → ∀ (alphabet : List Char),
    alphabet.length < 65534 → ∀ (items : List DocItem), items ≠ [] → (∀ it ∈ items, it.Known) → (∀ it ∈ items, it.Sets True s alphabet M) → ∀ (id : Bytes),
    ∃ chunks, docWrite compress w.files (DocItem.render w s) id items = (chunks, true)

/-- In an over-full column, a single line raises an error (if orphans are to be avoided). -/
theorem overfull_one {env : Env} {cols : Cols} {lead : ℚ} (hl : lead ≠ 0) {align : Align} {p : OptParams} {ws : List WordLike} {ae : Bool} {x : Fragment × KBox}
    (hx : intoBoxes env ws (align = .justify) = some [x]) (hc : (ColQueue.new cols lead ae).count 0 < 0) : optimumShape env cols lead true align p ws ae = none := by
  have hg : ∀ lines, breakLines p (decide (align = .justify)) [x] (ColQueue.new cols lead ae) = some lines → groupLines (ColQueue.new cols lead ae) lines = [] := by
    intro lines h
    obtain ⟨h1, h2⟩ := breakLines_length (by simp) h
    obtain ⟨l, rfl⟩ : ∃ l, lines = [l] := by
      cases lines with
      | nil => exact absurd rfl h1
      | cons l ls =>
        cases ls with
        | nil => exact ⟨l, rfl⟩
        | cons m ms => simp at h2
    have e : sliceIndex 1 ((ColQueue.new cols lead ae).count 0) = 0 := by
      unfold sliceIndex
      rw [if_pos hc]
      omega
    simp only [groupLines, linesPerColumn, pySlice, List.length_singleton, e, List.take_zero, List.drop_nil, if_true]
  unfold optimumShape
  rw [if_neg hl, hx]
  simp only
  rw [if_neg hc.ne]
  unfold shapeFrom
  rw [if_neg (by simp)]
  cases hb : breakLines p (decide (align = .justify)) [x] (ColQueue.new cols lead ae) with
  | none => rfl
  | some lines =>
    simp only
    rw [if_neg (by rintro ⟨-, -, h, -⟩; omega), placeLines, if_pos rfl, hg lines hb, orphanLoop]
    rfl

/-- A column that is 20 high, a rule with margins of 24 in all, and a paragraph of one letter. -/
def crampedParagraph : Paragraph := ⟨[.str ['b']], Style.empty, .left, 0, true, some .default⟩
@[inherit_doc crampedParagraph] def crampedRule : Rule := ⟨⟨0, 0, 0⟩, ⟨12, 0, 12, 0⟩⟩
@[inherit_doc crampedParagraph] def crampedPage : Page := ⟨[], (100, 20), 0, [⟨(0, 0), 100, 20⟩]⟩
@[inherit_doc crampedParagraph] def crampedItem : DocItem := .auto ⟨[.rule crampedRule, .paragraph crampedParagraph], fun _ => crampedPage⟩

theorem cramped_words (r : Res) (f : FontRef) : intoWords (demoWorld.env r) [⟨.noop, ['b']⟩] ⟨f, 12, ⟨0, 0, 0⟩, 5 / 4, 0⟩ =
    some (.noop, [.word ⟨[.slug (Slug.new (demoWorld.env r) ['b'] ⟨f, 12, ⟨0, 0, 0⟩, 5 / 4, 0⟩ none)], none, ⟨f, 12, ⟨0, 0, 0⟩, 5 / 4, 0⟩⟩]) := by
  show (parse (demoWorld.env r) [] ⟨f, 12, ⟨0, 0, 0⟩, 5 / 4, 0⟩ ['b']).map _ = _
  rw [parse_one (w := ⟨[.slug (Slug.new (demoWorld.env r) ['b'] ⟨f, 12, ⟨0, 0, 0⟩, 5 / 4, 0⟩ none)], none, ⟨f, 12, ⟨0, 0, 0⟩, 5 / 4, 0⟩⟩) (head := ['b']) (rest := []) (by simp)
    (by rw [parseSimple, allWords_eq]; rfl) rfl]
  rfl

theorem cramped_passages (r : Res) : (flattenSpan Style.empty (faceStyle.or Style.empty) [] [.str ['b']] r).1 = [⟨.noop, ['b']⟩] := by
  simp only [flattenSpan, flattenItems]
  rfl

/-- The paragraph cannot be set in a column that is over-full by 4. -/
theorem cramped_none (r : Res) (cs : Nat → ColumnFill) (h : (cs 0).heightFree = -4) : ((Block.paragraph crampedParagraph).intoColumns demoWorld r faceStyle cs).1 = none := by
  simp only [Block.intoColumns, Paragraph.intoColumns, crampedParagraph, cramped_passages]
  set r2 := (flattenSpan Style.empty (faceStyle.or Style.empty) [] [.str ['b']] ((faceStyle.or Style.empty).asState r).2).2.2
  obtain ⟨f, hf⟩ : ∃ f, ((faceStyle.or Style.empty).asState r).1 = ⟨f, 12, ⟨0, 0, 0⟩, 5 / 4, 0⟩ := ⟨_, rfl⟩
  rw [hf]
  have hsp : splitlines [⟨.noop, ['b']⟩] = [[⟨.noop, ['b']⟩]] := by rw [splitlines, splitFrom_none (by rfl)]; rfl
  have hl : maxLead [⟨.noop, ['b']⟩] ⟨f, 12, ⟨0, 0, 0⟩, 5 / 4, 0⟩ = 15 := by
    simp [maxLead, maxLeadLoop, State.lead, Command.apply]
    norm_num
  rw [hsp, hl, paragraphLoop, fillParagraph, cramped_words]
  simp only [Paragraph.shape]
  rw [overfull_one (x := _) (by norm_num) rfl]
  · rfl
  · show lineCap (cs 0).heightFree 15 _ < 0
    have e : ⌊((-4 : ℚ)) / 15⌋ = -1 := by rw [Int.floor_eq_iff]; norm_num
    rw [h, lineCap, e]
    norm_num

theorem demoWorld_proper : demoWorld.Proper 500 := by
  have key : ∀ m : Metrics, (∀ c, m.charwidth c = if c = '-' then 300 else 500) → (∀ a c, c ≠ 'V' → m.kerning (a, c) = 0) → (∀ a, -50 ≤ m.kerning (a, 'V') ∧ m.kerning (a, 'V') ≤ 0) →
      m.Proper 500 := by
    intro m h1 h2 h3
    refine ⟨by rw [h1, if_neg (by decide)]; norm_num, fun c => ?_, fun a c => ?_⟩
    · rw [h1]; split <;> norm_num
    · by_cases hc : c = 'V'
      · subst hc
        have := h3 a
        rw [h1, if_neg (by decide)]
        constructor <;> linarith
      · rw [h1, h2 a c hc]; split <;> norm_num
  refine ⟨fun f => key _ (fun _ => rfl) ?_ ?_, fun p => key _ (fun _ => rfl) (fun _ _ _ => rfl) (fun _ => ?_)⟩
  · intro a c hc
    show (if (a, c) = ('A', 'V') then (-50 : ℚ) else 0) = 0
    rw [if_neg (by simp [hc])]
  · intro a
    show -50 ≤ (if (a, 'V') = ('A', 'V') then (-50 : ℚ) else 0) ∧ (if (a, 'V') = ('A', 'V') then (-50 : ℚ) else 0) ≤ 0
    split <;> norm_num
  · show -50 ≤ (0 : ℚ) ∧ (0 : ℚ) ≤ 0
    norm_num

theorem cramped_strings : itemsStrings [Style.empty] [.str ['b']] = [(['b'], [Style.empty])] := by
  simp only [itemsStrings, Item.strings, List.append_nil]

theorem short_b (l : List Char) (hl : l = ['b']) : ShortWords 1 l := by
  subst hl
  intro a word b e _
  have := congrArg List.length e
  simp at this
  omega

theorem crampedItem_sets : crampedItem.Sets True faceStyle ['b'] 500 := by
  refine ⟨100, 20, by norm_num, by norm_num, ?_, ?_⟩
  · intro n
    refine ⟨by simp [crampedPage], by simp [crampedPage], by simp [crampedPage]⟩
  · intro b hb
    simp only [List.mem_cons, List.not_mem_nil, or_false] at hb
    rcases hb with rfl | rfl
    · exact ⟨.inr trivial, by simp [Block.strings]⟩
    · refine ⟨⟨?_, ?_, ?_⟩, ?_⟩
      · show (0 : ℚ) < 12 ∧ (0 : ℚ) < 5 / 4 ∧ (12 : ℚ) * (5 / 4) ≤ 20
        norm_num
      · intro e he
        simp only [crampedParagraph, cramped_strings, List.mem_singleton] at he
        subst he
        show (0 : ℚ) < 12 ∧ (0 : ℚ) < 5 / 4 ∧ (12 : ℚ) * (5 / 4) ≤ 20
        norm_num
      · intro o ho
        simp only [crampedParagraph, Option.some.injEq] at ho
        subst ho
        refine ⟨by show (0 : ℚ) < _; norm_num [OptParams.default], ?_⟩
        rw [if_neg (by simp [crampedParagraph])]
        refine ⟨1, 12, ?_, ?_, ?_, ?_⟩
        · show (12 : ℚ) ≤ 12
          norm_num
        · intro e he
          simp only [crampedParagraph, cramped_strings, List.mem_singleton] at he
          subst he
          show (12 : ℚ) ≤ 12
          norm_num
        · show ((1 : ℕ) + 1) * ((500 : ℚ) / 1000 * 12) + max 0 0 ≤ 100
          norm_num
        · intro r l hl
          simp only [crampedParagraph, contentStrings, cramped_strings, List.map_cons, List.map_nil, contentLines] at hl
          rw [if_neg (by simp)] at hl
          refine short_b _ ?_
          simp [stringsLines, textLines, joinLines] at hl
          subst hl
          rfl
      · intro x hx
        simp only [Block.strings, crampedParagraph, cramped_strings, List.map_cons, List.map_nil, List.mem_singleton] at hx
        subst hx
        exact ⟨by simp, by simp⟩

/-- C73 is false as stated: the rule, which does not fit, makes the column over-full, and then the paragraph raises an error. -/
theorem C73_counterexample : ¬ C73_Statement := by
  intro hall
  obtain ⟨chunks, hd⟩ := hall id demoWorld demoWorld_ok 500 demoWorld_proper faceStyle trivial ['b'] (by simp) [crampedItem] (by simp) (by
    intro it hit
    simp only [List.mem_singleton] at hit
    subst hit
    refine ⟨?_, by simp [crampedPage, Page.Known]⟩
    intro b hb
    simp only [List.mem_cons, List.not_mem_nil, or_false] at hb
    rcases hb with rfl | rfl
    · trivial
    · exact ⟨by simp [crampedParagraph, Item.Known.str], by simp [crampedParagraph, Style.Known, Style.empty]⟩) (by
    intro it hit
    simp only [List.mem_singleton] at hit
    subst hit
    exact crampedItem_sets) []
  have herr : (docRun demoWorld faceStyle [crampedItem] 0 Res.empty).err = none := by
    cases ho : docObjects id demoWorld.files (DocItem.render demoWorld faceStyle) [crampedItem] with
    | mk objs ok =>
    cases ok with
    | false => simp [docWrite, ho] at hd
    | true =>
    obtain ⟨he, -⟩ := docObjects_done id demoWorld.files (DocItem.render demoWorld faceStyle) [crampedItem] objs ho
    rw [docPages_docRun] at he
    exact he
  have hrun : (DocItem.run demoWorld faceStyle crampedItem 1 Res.empty).err = none := by
    rw [docRun, PagesRun.andThen] at herr
    cases he : (DocItem.run demoWorld faceStyle crampedItem (0 + 1) Res.empty).err with
    | none => rfl
    | some x => simp only [he] at herr; cases herr
  obtain ⟨t0, t, h0, h1, -⟩ := C49_pages demoWorld faceStyle _ 1 Res.empty (fun n => by simp [crampedPage]) hrun
  cases h1 with
  | cons b bs t r r' filled t' hb hrest =>
    cases hrest with
    | cons b bs t r r' filled' t' hb' hrest =>
      have hcell : t0.view 0 = ColumnFill.new ⟨(0, 0), 100, 20⟩ := by
        obtain ⟨n, c, hm, e⟩ := isNew_cells (fun n => by simp [crampedPage]) h0 (t0.head + 0)
        simp only [crampedPage, List.mem_singleton] at hm
        subst hm
        exact e
      have hfill : filled = [t0.view 0, (t0.view 0).add (crampedRule.shaped (t0.view 0))] := by
        simp only [Block.intoColumns, Prod.mk.injEq, Option.some.injEq] at hb
        rw [← hb.1, Rule.intoColumns, if_pos (by rw [hcell]; simp [crampedRule, ColumnFill.new]; norm_num)]
      have := cramped_none r (t0.fill filled).view (by
        have e := Tape.view_fill t0 (done := filled) (col := (t0.view 0).add (crampedRule.shaped (t0.view 0))) (by rw [hfill]; rfl)
        rw [e]
        show ((t0.view 0).add (crampedRule.shaped (t0.view 0))).heightFree = -4
        rw [hcell]
        decide +kernel)
      rw [hb'] at this
      cases this

end Pdfje
