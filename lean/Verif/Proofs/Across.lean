import Verif.Proofs.Mixed
import Verif.Spec.Across
/-
How far lines reach across their column.
-/

namespace Pdfje

variable {env : Env}

/-! ### Where the glyphs of a line end -/

theorem line_spaced {l : TLine} (hs : ∀ w ∈ l.words, w.Strict) {v : Viewer} (h : Showable env [l.toR] v) :
    Spaced env.widths v.x l.gaps (Viewer.run env.widths l.toR.ops v).1 (v.x + totalWidth l.words) := by
  rcases h with ⟨st, ⟨mid, h1, -⟩, h2⟩ | h
  · obtain ⟨g2, v2, k1, k2⟩ := encodeWords_placed l.words _ _ h1 hs [] v [] v rfl h2
    have e : l.toR.ops = encodeWords l.words [] := rfl
    rw [e, k1]
    have := k2.2
    rw [k2.1.x] at this
    exact this
  · obtain ⟨h1, -⟩ := h l.toR (by simp)
    have h1 : l.words = [] := h1
    have e : l.toR.ops = encodeWords [] [] := by
      show ([] : List TextOp) ++ encodeWords l.words [] = _
      rw [h1]; rfl
    have hg : l.gaps = [] := by rw [TLine.gaps, h1]; rfl
    have h0 : v.x + totalWidth [] = v.x := by simp [totalWidth]
    rw [e, hg, h1, h0]
    exact .nil _

theorem forall₂_get_right {α β : Type} {R : α → β → Prop} {a : List α} {b : List β} (h : List.Forall₂ R a b) : ∀ {k : Nat} {y : β}, b[k]? = some y →
    ∃ x, a[k]? = some x ∧ R x y := by
  induction h with
  | nil => intro k y h; simp at h
  | cons h _ ih =>
    intro k y hk
    cases k with
    | zero => simp at hk; subst hk; exact ⟨_, rfl, h⟩
    | succ k => simpa using ih (by simpa using hk)

theorem chunk_line {c : ShapedText} {pre fin : State} (hw : WordsWF env (c.lines.flatMap TLine.words) pre fin) (hq : c.StartsQuiet)
    (hs : ∀ l ∈ c.lines, ∀ w ∈ l.words, w.Strict) (pos : ℚ × ℚ) (width : ℚ) (v : Viewer) {k : Nat} {s : ShownLine} {l : TLine}
    (h : (c.shownAt env.widths pos width v)[k]? = some s) (hl : c.lines[k]? = some l) :
    s.left = pos.1 + alignShift c.align width l.width ∧ s.right = s.left + totalWidth l.words ∧ Spaced env.widths s.left l.gaps s.glyphs s.right := by
  obtain ⟨ops, ss, h1, h2, h3⟩ := chunk_shown hw hq pos width v
  have e : c.shownAt env.widths pos width v = ss := by
    simp only [ShapedText.shownAt, h1, h2]
    rfl
  rw [e] at h
  obtain ⟨l', k1, k2, k3⟩ := h3.get h
  rw [List.getElem?_map, hl] at k1
  simp only [Option.map_some, Option.some.injEq] at k1
  subst k1
  obtain ⟨l'', k4, v', k5, k6, k7⟩ := forall₂_get_right h3.run h
  rw [List.getElem?_map, hl] at k4
  simp only [Option.map_some, Option.some.injEq] at k4
  subst k4
  have k8 := line_spaced (hs l (List.mem_of_getElem? hl)) k5
  rw [← k7, k6] at k8
  refine ⟨k2, by rw [k2]; exact k3, ?_⟩
  rw [k3, ← k2]
  exact k8

/-! ### Without the space at the end -/

theorem Spaced.snoc {x x' k : ℚ} {c : Char} {st : State} : ∀ {l : List Gap} {gs : List Glyph}, Spaced env.widths x (l ++ [(k, c, st)]) gs x' →
    ∃ u g y, gs = u ++ [g] ∧ g.char = c ∧ g.font = some (st.font, st.size) ∧ Spaced env.widths x l u y ∧ g.x = y + k / 1000 * st.size ∧
      x' = g.x + (env.metrics st.font).charwidth c / 1000 * st.size := by
  intro l
  induction l generalizing x with
  | nil =>
    intro gs h
    cases h with
    | cons _ _ _ _ _ g gs _ e1 e2 e3 e4 =>
      cases e4
      exact ⟨[], g, x, rfl, e1, e2, .nil x, e3, rfl⟩
  | cons a l ih =>
    intro gs h
    cases h with
    | cons _ k' c' st' _ g gs _ e1 e2 e3 e4 =>
      obtain ⟨u, g', y, rfl, h1, h2, h3, h4⟩ := ih e4
      exact ⟨g :: u, g', y, rfl, h1, h2, .cons _ _ _ _ _ _ _ _ e1 e2 e3 h3, h4⟩

theorem Spaced.last_ends {x x' : ℚ} {l : List Gap} {gs : List Glyph} (h : Spaced env.widths x l gs x') : ∀ g ∈ gs.getLast?, g.EndsAt env.widths x' := by
  intro g hg
  rcases List.eq_nil_or_concat l with rfl | ⟨l, ⟨k, c, st⟩, rfl⟩
  · cases h; simp at hg
  · rw [List.concat_eq_append] at h
    obtain ⟨u, g', y, rfl, h1, h2, -, -, h5⟩ := h.snoc
    simp at hg
    subst hg
    exact ⟨_, _, h2, by rw [h1]; exact h5⟩

theorem WordLike.gaps_tail : ∀ {w : WordLike}, w.WF env → (w.prunedWidth = w.width) ∨
    ∃ a k st, w.gaps = a ++ [(k, ' ', st)] ∧ w.width = w.prunedWidth + ((env.metrics st.font).charwidth ' ' / 1000 * st.size + k / 1000 * st.size)
  | .box b, _ => .inl rfl
  | .word ⟨bs, none, st⟩, _ => .inl (by simp [WordLike.prunedWidth, WordLike.width, Word.width, Word.prunableSpace])
  | .word ⟨bs, some t, st⟩, h => by
    right
    obtain ⟨h1, h2⟩ := h.tail t rfl
    refine ⟨_, t.kern, st, rfl, ?_⟩
    simp only [WordLike.prunedWidth, WordLike.width, Word.width, Word.prunableSpace, TrailingSpace.width, h1, h2]
    ring
  | .withCmd w c, h => WordLike.gaps_tail (w := w) h

theorem line_narrow {l : TLine} {width : ℚ} (hw : ∀ w ∈ l.words, w.WF env)
    (h : totalWidth l.words ≤ width ∨ ∃ init w, l.words = init ++ [w] ∧ totalWidth init + w.prunedWidth ≤ width)
    {s : ShownLine} (h1 : s.right = s.left + totalWidth l.words) (h2 : Spaced env.widths s.left l.gaps s.glyphs s.right) : s.Narrow env.widths width := by
  rcases h with h | ⟨init, w, e, h⟩
  · exact .inl (by rw [h1]; linarith)
  · have hsum : totalWidth l.words = totalWidth init + w.width := by simp [e, totalWidth]
    rcases w.gaps_tail (hw w (by simp [e])) with h3 | ⟨a, k, st, h3, h4⟩
    · exact .inl (by rw [h1, hsum, ← h3]; linarith)
    · right
      have hg : l.gaps = (init.flatMap WordLike.gaps ++ a) ++ [(k, ' ', st)] := by simp [TLine.gaps, gapsOf, e, h3]
      rw [hg] at h2
      obtain ⟨u, g, y, k1, k2, k3, k4, k5, k6⟩ := h2.snoc
      refine ⟨u, g, k1, k2, fun g' hg' => ⟨y, k4.last_ends g' hg', ?_⟩⟩
      have : s.right = y + (k / 1000 * st.size + (env.metrics st.font).charwidth ' ' / 1000 * st.size) := by rw [k6, k5]; ring
      rw [h1, hsum, h4] at this
      linarith

theorem glyphs_chars {l : TLine} {s : ShownLine} {x y : ℚ} (h : Spaced env.widths x l.gaps s.glyphs y) : s.glyphs.map Glyph.char = l.styled.map (·.1) := by
  have h1 : l.gaps.map (·.2) = l.styled := gapsOf_styled l.words
  rw [← h1, List.map_map]
  have := h.chars
  clear h h1
  generalize s.glyphs = gs at *
  generalize l.gaps = es at *
  induction this with
  | nil => rfl
  | cons h _ ih => simp only [List.map_cons, ih, h.1, Function.comp]

/-! ### First-fit -/

/-- The text of the word can be broken nowhere, a hyphen at its end aside. -/
def OnePart (cs : List Char) : Prop := ∃ t, Solid t ∧ (cs = t ∨ cs = t ++ ['-'])

theorem Solid.left {a b : List Char} (h : Solid (a ++ b)) : Solid a := by
  intro x c d y e hc
  exact h x c d (y ++ b) (by rw [e]; simp) hc

theorem Solid.right {a b : List Char} (h : Solid (a ++ b)) : Solid b := by
  intro x c d y e hc
  exact h (a ++ x) c d y (by rw [e]; simp) hc

theorem SplitAs.solid {w a b : WordLike} (h : SplitAs env w a b) (hs : Solid w.text) : OnePart a.text ∧ Solid b.text := by
  obtain ⟨l, st, s1, s2, -, -⟩ := h.styled
  simp only [WordLike.text, s1, s2, List.map_append] at hs ⊢
  exact ⟨⟨_, hs.left, .inr (by simp)⟩, hs.right⟩

theorem Ending.pieces {ws : List WordLike} {width : ℚ} {r : Option (List WordLike)} {line : TLine} {pre fin : State}
    (h : Ending env ws width r line) (hw : WordsWF env ws pre fin) (hs : ∀ w ∈ ws, Solid w.text) :
    (∀ w ∈ line.words, OnePart w.text) ∧ ∀ b, r = some b → ∀ w ∈ b, Solid w.text := by
  have whole : ∀ w ∈ ws, OnePart w.text := fun w hw' => ⟨_, hs w hw', .inl rfl⟩
  cases h with
  | all h1 h2 => rw [h2]; exact ⟨whole, by simp [h1]⟩
  | cut content rest w a b k h1 h2 h3 h4 h5 h6 =>
    subst h1 h2
    obtain ⟨m, hc, hw1, -, -⟩ := hw.split
    obtain ⟨g1, g2⟩ := (WordLike.hyphenate_some hw1 h5).solid (hs w (by simp))
    rw [h3]
    constructor
    · intro x hx
      rcases List.mem_append.1 hx with hx | hx
      · exact whole x (by simp [hx])
      · rw [List.mem_singleton.1 hx]; exact g1
    · intro b' e x hx
      cases e
      rcases List.mem_cons.1 hx with rfl | hx
      · exact g2
      · exact hs x (by simp [hx])
  | word content rest l w b h1 h2 h3 h4 h5 h6 h7 =>
    subst h1 h2
    obtain ⟨m, hc, hl1, hl2, hw⟩ := hw.split
    have sm := WordLike.hyphenate_none hw.1 h6
    constructor
    · rcases h3 with h3 | ⟨h3, -⟩
      · rw [h3]
        intro x hx
        rcases List.mem_append.1 hx with hx | hx
        · exact whole x (by simp [hx])
        · rw [List.mem_singleton.1 hx]
          have := hs l (by simp)
          rcases WordLike.pruned_styled l with h | ⟨st, h⟩
          · exact ⟨_, by rwa [WordLike.text, h] at this, .inl rfl⟩
          · simp only [WordLike.text, h, List.map_append] at this
            exact ⟨_, this.left, .inl rfl⟩
      · rw [h3]
        intro x hx
        refine whole x ?_
        rcases List.mem_append.1 hx with hx | hx
        · simp [hx]
        · rw [List.mem_singleton.1 hx]; simp
    · intro b' e x hx
      cases e
      rcases List.mem_cons.1 hx with rfl | hx
      · have := hs w (by simp)
        rwa [WordLike.text, sm.styled]
      · exact hs x (by simp [hx])
  | forced rest w d a h1 h2 h3 h4 h5 h6 =>
    subst h1
    have sm := WordLike.hyphenate_none hw.1 h4
    have hd : Solid d.text := by rw [WordLike.text, sm.styled]; exact hs w (by simp)
    rw [h2]
    rcases h6 with ⟨h6, h7⟩ | ⟨b, h6, h7⟩
    · obtain ⟨sn, -⟩ := WordLike.minimalBox_none (w := d) (w' := a) sm.wf (Prod.ext h5 h6)
      constructor
      · intro x hx
        rw [List.mem_singleton.1 hx, WordLike.text, sn.styled]
        exact ⟨_, hd, .inl rfl⟩
      · intro b' e x hx
        rcases h7 with ⟨rfl, -⟩ | ⟨rfl, rfl⟩
        · cases e; exact hs x (by simp [hx])
        · simp at e
    · subst h7
      obtain ⟨g1, g2⟩ := (WordLike.minimalBox_some (w := d) (a := a) (b := b) sm.wf (Prod.ext h5 h6)).solid hd
      constructor
      · intro x hx
        rw [List.mem_singleton.1 hx]; exact g1
      · intro b' e x hx
        cases e
        rcases List.mem_cons.1 hx with rfl | hx
        · exact g2
        · exact hs x (by simp [hx])

theorem Left.solid {ws a : List WordLike} {pre fin : State} (h : Left env ws a) (hw : WordsWF env ws pre fin) (hs : ∀ w ∈ ws, Solid w.text) :
    ∀ w ∈ a, Solid w.text := by
  induction h with
  | refl => exact hs
  | step h ht ih =>
    obtain ⟨mid, hm⟩ := h.wf hw
    exact ((takeLine_ending ht).1.pieces hm ih).2 _ rfl

/-- How wide a line is that first-fit breaking makes. -/
theorem firstfit_across (henv : env.Ok) {ws : List WordLike} (hw : ParagraphWords env ws) (hs : ∀ w ∈ ws, Solid w.text)
    (hz : ∀ w ∈ ws, 0 < w.state.size ∧ NonZero w.styled) {cols : Cols} {lead : ℚ} {avoid : Bool}
    {align : Align} {ae : Bool} {out : List ShapedText} (h : firstfitShape env cols lead avoid align ws ae = some out)
    {i k : Nat} {chunk : ShapedText} {line : TLine} (hi : out[i]? = some chunk) (hk : chunk.lines[k]? = some line) :
    (totalWidth line.words ≤ (cols i).1 ∨ ∃ init w, line.words = init ++ [w] ∧ totalWidth init + w.prunedWidth ≤ (cols i).1) ∨
      line.OneSyllable ∧ OnePart (line.styled.map (·.1)) := by
  have hpiece : ∀ w, line.words = [w] → OnePart (line.styled.map (·.1)) := by
    obtain ⟨raw, -, hc, rfl⟩ := firstfit_chunks h
    obtain ⟨⟨pre, fin, hwf⟩, hne⟩ := hw.wf henv
    obtain ⟨l0, a, r, rfl, hl, ht, hr⟩ := firstfit_line hc hi hk
    obtain ⟨mid, hm⟩ := hl.wf hwf
    have he := (takeLine_ending ht).1
    obtain ⟨m, piece, h1, -⟩ := (he.lineOk hm).ok
    intro w ew
    rw [setLine_styled h1]
    have hlen : l0.words.length = 1 := by
      have : (setLine align l0).words.length = l0.words.length := by
        unfold setLine TLine.justify
        split
        · split
          · rfl
          · simp
        · rfl
      rw [← this, ew]; rfl
    obtain ⟨x, ex⟩ := List.length_eq_one_iff.1 hlen
    have := (he.pieces hm (hl.solid hwf hs)).1 x (by simp [ex])
    rw [TLine.styled, ex]
    simpa [WordLike.text] using this
  have conv : (∃ w, line.words = [w] ∧ w.boxes.length ≤ 1) → line.OneSyllable ∧ OnePart (line.styled.map (·.1)) := by
    rintro ⟨w, e, hb⟩
    exact ⟨⟨by simp [e], by simpa [e] using hb⟩, hpiece w e⟩
  obtain ⟨h1, h2⟩ := C33_fits henv hw hz h hi hk
  by_cases hlast : i + 1 = out.length ∧ k + 1 = chunk.lines.length
  · rcases List.eq_nil_or_concat line.words with e | ⟨init, l, e⟩
    · right
      exact ⟨⟨by simp [e], by simp [e]⟩, [], fun a c d b e' => by simp at e', .inl (by simp [TLine.styled, e])⟩
    · rw [List.concat_eq_append] at e
      have key : totalWidth init + l.prunedWidth ≤ (cols i).1 ∨ init = [] ∧ l.boxes.length ≤ 1 := by
        by_cases hal : align = .justify
        · subst hal
          obtain ⟨out0, chunk0, line0, g1, g2, g3, g4, -⟩ := (C37_justified henv hw hz h hi hk).2 (.inl hlast)
          have hlast0 : i + 1 = out0.length ∧ k + 1 = chunk0.lines.length := by
            obtain ⟨raw, q1, -, rfl⟩ := firstfit_chunks h
            obtain ⟨raw0, q2, -, rfl⟩ := firstfit_chunks g1
            rw [q1] at q2
            cases q2
            rw [List.getElem?_map, Option.map_eq_some_iff] at hi g2
            obtain ⟨ls, q3, rfl⟩ := hi
            obtain ⟨ls0, q4, rfl⟩ := g2
            rw [q3] at q4
            cases q4
            simpa using hlast
          exact C33_last henv hw (by simp) g1 g2 g3 hlast0 init l (by rw [← g4]; exact e)
        · exact C33_last henv hw hal h hi hk hlast init l e
      rcases key with key | ⟨rfl, key⟩
      · exact .inl (.inr ⟨init, l, e, key⟩)
      · exact .inr (conv ⟨l, by simpa using e, key⟩)
  · rcases h2 hlast with h3 | h3
    · exact .inl (.inl (by rw [← h1]; exact h3))
    · exact .inr (conv h3)

/-! ### Paragraphs -/

/-- The words of a line of the paragraph. -/
theorem words_sizes (henv : env.Ok) {line : List Passage} (htidy : Tidy line) {st : State} {cmd : Command} {words : List WordLike} (h : intoWords env line st = some (cmd, words))
    {indent : ℚ} (hnz : NonZero (styled line st)) (hk : ∀ p ∈ line, p.cmd.Keeps) (hst : 0 < st.size) :
    (∀ w ∈ indentFirst words indent, 0 < w.state.size ∧ NonZero w.styled) ∧ ∀ w ∈ indentFirst words indent, Solid w.text := by
  obtain ⟨hpw, hs⟩ := paragraph_words henv line htidy st cmd words h indent hnz
  obtain ⟨cmd', ws', g1, g2, g3⟩ := intoWords_spec henv line st
  rw [h] at g1
  simp only [Option.some.injEq, Prod.mk.injEq] at g1
  obtain ⟨rfl, rfl⟩ := g1
  constructor
  · intro w hw'
    refine ⟨?_, fun e he => (styled_sizes line st hk hst e ?_).ne'⟩
    · have hall := intoWords_sizes hk hst h
      cases words with
      | nil => simp [indentFirst] at hw'
      | cons x xs =>
        rcases List.mem_cons.1 hw' with rfl | hw'
        · rw [(x.indent_states indent).2]; exact (hall x List.mem_cons_self).1
        · exact (hall w (List.mem_cons_of_mem _ hw')).1
    · rw [← hs]; exact List.mem_flatMap.2 ⟨w, hw', he⟩
  · intro w hw'
    cases words with
    | nil => simp [indentFirst] at hw'
    | cons x xs =>
      rcases List.mem_cons.1 hw' with rfl | hw'
      · have hx := (g3 htidy).1
        have hxs := (g3 htidy).2
        rw [WordLike.text, (WordLike.indent_same indent hx.1 (fun e he => hnz e (by rw [← hxs]; exact List.mem_flatMap.2 ⟨x, by simp, he⟩))).styled]
        exact g2.solid x (by simp)
      · exact g2.solid w (List.mem_cons_of_mem _ hw')

theorem firstfit_fitAcross (henv : env.Ok) {ws : List WordLike} (hw : ParagraphWords env ws) (hs : ∀ w ∈ ws, Solid w.text)
    (hz : ∀ w ∈ ws, 0 < w.state.size ∧ NonZero w.styled) {cols : Cols} {lead : ℚ} {avoid : Bool}
    {align : Align} {ae : Bool} {out : List ShapedText} (h : firstfitShape env cols lead avoid align ws ae = some out)
    (hwf : ∀ c ∈ out, ∃ pre fin, WordsWF env (c.lines.flatMap TLine.words) pre fin) (hst : ∀ c ∈ out, ∀ l ∈ c.lines, ∀ w ∈ l.words, w.Strict) :
    FitAcross env.widths (fun s l => s.OnePiece ∧ l.OneSyllable) (fun i => (cols i).1) out := by
  intro i c hi hq pos v k s l hk hl
  obtain ⟨pre, fin, hc⟩ := hwf c (List.mem_of_getElem? hi)
  obtain ⟨-, h2, h3⟩ := chunk_line hc hq (hst c (List.mem_of_getElem? hi)) pos _ v hk hl
  rcases firstfit_across henv hw hs hz h hi hl with h4 | ⟨h4, t, h5, h6⟩
  · exact .inl (line_narrow (fun w hw' => hc.mem w (List.mem_flatMap.2 ⟨l, List.mem_of_getElem? hl, hw'⟩)) h4 h2 h3)
  · right
    rw [← glyphs_chars h3] at h6
    exact ⟨⟨t, h5, h6⟩, h4⟩

theorem firstfit_fillAcross (henv : env.Ok) {ws : List WordLike} (hw : ParagraphWords env ws)
    (hz : ∀ w ∈ ws, 0 < w.state.size ∧ NonZero w.styled) {cols : Cols} {lead : ℚ} {avoid : Bool}
    {ae : Bool} {out : List ShapedText} (h : firstfitShape env cols lead avoid .justify ws ae = some out)
    (hwf : ∀ c ∈ out, ∃ pre fin, WordsWF env (c.lines.flatMap TLine.words) pre fin) (hst : ∀ c ∈ out, ∀ l ∈ c.lines, ∀ w ∈ l.words, w.Strict)
    (hal : ∀ c ∈ out, c.align = .justify) :
    FillAcross env.widths (fun i => (cols i).1) out := by
  intro i c hi hq pos v k s l hk hl hlast hsp
  obtain ⟨pre, fin, hc⟩ := hwf c (List.mem_of_getElem? hi)
  obtain ⟨h1, h2, h3⟩ := chunk_line hc hq (hst c (List.mem_of_getElem? hi)) pos _ v hk hl
  have hex : ∃ w ∈ l.words, w.tail.isSome := by
    by_contra hcon
    refine hsp fun w hw' => ?_
    by_contra hn
    exact hcon ⟨w, hw', by simpa [Option.isSome_iff_ne_none] using hn⟩
  have hline : ∃ s' t', WordsWF env l.words s' t' := by
    obtain ⟨a, b, e⟩ := List.append_of_mem (List.mem_of_getElem? hl)
    rw [e, List.flatMap_append, List.flatMap_cons] at hc
    obtain ⟨m1, -, m2⟩ := hc.split
    obtain ⟨m3, m4, -⟩ := m2.split
    exact ⟨_, _, m4⟩
  obtain ⟨s', t', hline⟩ := hline
  have hv : ∀ w ∈ l.words.head?, (⟨some (w.preState.font, w.preState.size), w.preState.color, 0, 0, 0, 0⟩ : Viewer).In w.preState := fun w _ => ⟨rfl, rfl⟩
  obtain ⟨w, ew⟩ : ∃ w, l.words.head? = some w := by
    cases e : l.words with
    | nil => rw [e] at hex; simp at hex
    | cons w _ => exact ⟨w, rfl⟩
  have h5 := (C37_justified henv hw hz h hi hl).1 hlast hex ⟨some (w.preState.font, w.preState.size), w.preState.color, 0, 0, 0, 0⟩
    (fun w' hw' => by rw [ew] at hw'; cases hw'; exact ⟨rfl, rfl⟩)
  rw [shown_width hline _ (fun w' hw' => by rw [ew] at hw'; cases hw'; exact ⟨rfl, rfl⟩)] at h5
  have h6 : totalWidth l.words = (cols i).1 := by simpa using h5
  rw [hal c (List.mem_of_getElem? hi)] at h1
  have h7 : s.left = pos.1 := by rw [h1]; simp [alignShift]
  exact ⟨h7, by rw [h2, h7, h6]⟩

theorem optimum_fitAcross (henv : env.Ok) {ws : List WordLike} (hw : ParagraphWords env ws) (hp : ∀ w ∈ ws, w.Plain) (hsp : Spacious env ws)
    {cols : Cols} {lead : ℚ} (hl : 0 < lead) (hc : ∀ i, 0 ≤ (cols i).2) {avoid : Bool} {align : Align} {p : OptParams} {ae : Bool} {out : List ShapedText}
    (h : optimumShape env cols lead avoid align p ws ae = some out)
    (hwf : ∀ c ∈ out, ∃ pre fin, WordsWF env (c.lines.flatMap TLine.words) pre fin) (hst : ∀ c ∈ out, ∀ l ∈ c.lines, ∀ w ∈ l.words, w.Strict) :
    FitAcross env.widths (fun s l => s.glyphs = [] ∨ align = .justify ∧ l.Unspaced) (fun i => (cols i).1) out := by
  intro i c hi hq pos v k s l hk hl'
  obtain ⟨pre, fin, hc'⟩ := hwf c (List.mem_of_getElem? hi)
  obtain ⟨-, h2, h3⟩ := chunk_line hc' hq (hst c (List.mem_of_getElem? hi)) pos _ v hk hl'
  by_cases hws : ws = []
  · subst hws
    right; left
    have : l = ⟨[], 0, 0⟩ := by
      have hm : l ∈ out.flatMap ShapedText.lines := List.mem_flatMap.2 ⟨c, List.mem_of_getElem? hi, List.mem_of_getElem? hl'⟩
      rcases optimumShape_nil h with ⟨rfl, -⟩ | ⟨rfl, -⟩ <;> simpa using hm
    subst this
    have := glyphs_chars h3
    simpa [TLine.styled] using this
  · by_cases hor : align ≠ .justify ∨ ∃ w ∈ l.words, w.tail.isSome
    · exact .inl (.inl (by have := C45_fits_partial henv hw hp hsp hws hl hc h hi hl' hor; rw [h2]; simpa using this))
    · right; right
      push Not at hor
      refine ⟨hor.1, fun w hw' => ?_⟩
      have := hor.2 w hw'
      simpa using this

theorem optimum_fillAcross (henv : env.Ok) {ws : List WordLike} (hw : ParagraphWords env ws) (hp : ∀ w ∈ ws, w.Plain) (hspc : Spacious env ws)
    {cols : Cols} {lead : ℚ} (hlead : 0 < lead) (hcol : ∀ i, 0 ≤ (cols i).2) {avoid : Bool} {p : OptParams}
    {ae : Bool} {out : List ShapedText} (h : optimumShape env cols lead avoid .justify p ws ae = some out)
    (hwf : ∀ c ∈ out, ∃ pre fin, WordsWF env (c.lines.flatMap TLine.words) pre fin) (hst : ∀ c ∈ out, ∀ l ∈ c.lines, ∀ w ∈ l.words, w.Strict)
    (hal : ∀ c ∈ out, c.align = .justify) :
    FillAcrossOr env.widths (fun i => (cols i).1) out := by
  intro i c hi hq pos v k s l hk hl hlast hsp
  obtain ⟨pre, fin, hc⟩ := hwf c (List.mem_of_getElem? hi)
  obtain ⟨h1, h2, h3⟩ := chunk_line hc hq (hst c (List.mem_of_getElem? hi)) pos _ v hk hl
  have hex : ∃ w ∈ l.words, w.tail.isSome := by
    by_contra hcon
    refine hsp fun w hw' => ?_
    by_contra hn
    exact hcon ⟨w, hw', by simpa [Option.isSome_iff_ne_none] using hn⟩
  have hline : ∃ s' t', WordsWF env l.words s' t' := by
    obtain ⟨a, b, e⟩ := List.append_of_mem (List.mem_of_getElem? hl)
    rw [e, List.flatMap_append, List.flatMap_cons] at hc
    obtain ⟨m1, -, m2⟩ := hc.split
    obtain ⟨m3, m4, -⟩ := m2.split
    exact ⟨_, _, m4⟩
  obtain ⟨s', t', hline⟩ := hline
  have hv : ∀ w ∈ l.words.head?, (⟨some (w.preState.font, w.preState.size), w.preState.color, 0, 0, 0, 0⟩ : Viewer).In w.preState := fun w _ => ⟨rfl, rfl⟩
  obtain ⟨w, ew⟩ : ∃ w, l.words.head? = some w := by
    cases e : l.words with
    | nil => rw [e] at hex; simp at hex
    | cons w _ => exact ⟨w, rfl⟩
  have h5 := C44_fill_partial henv hw hp hspc hlead hcol h hi hl hlast hex ⟨some (w.preState.font, w.preState.size), w.preState.color, 0, 0, 0, 0⟩
    (fun w' hw' => by rw [ew] at hw'; cases hw'; exact ⟨rfl, rfl⟩)
  rw [shown_width hline _ (fun w' hw' => by rw [ew] at hw'; cases hw'; exact ⟨rfl, rfl⟩)] at h5
  simp only [zero_add] at h5
  rw [hal c (List.mem_of_getElem? hi)] at h1
  have h7 : s.left = pos.1 := by rw [h1]; simp [alignShift]
  refine ⟨h7, h5.imp (fun h6 => by rw [h2, h7, h6]) fun h6 => by rw [h2, h7, h6]; ring⟩

/-- How the lines of a paragraph reach across the columns. -/
structure Across (env : Env) (p : Paragraph) (widths : Nat → ℚ) (cs : List ShapedText) : Prop where
  firstfit : p.optimal = none → FitAcross env.widths (fun s l => s.OnePiece ∧ l.OneSyllable) widths cs
  optimal : p.optimal ≠ none → FitAcross env.widths (fun s l => s.glyphs = [] ∨ p.align = .justify ∧ l.Unspaced) widths cs
  fill : p.optimal = none → p.align = .justify → FillAcross env.widths widths cs
  fillOr : p.optimal ≠ none → p.align = .justify → FillAcrossOr env.widths widths cs
  placed : p.optimal = none ∨ p.align = .left ∨ p.align = .justify → ∀ c ∈ cs, c.StartsQuiet → c.IsPlaced env.widths p.align

theorem GroupsSet.across (henv : env.Ok) {p : Paragraph} {lead : ℚ} {gs : List (List Passage)} {st : State} {t : Tape} {css : List (List ShapedText)}
    (h : GroupsSet env p lead gs st t css) (hk : ∀ g ∈ gs, ∀ q ∈ g, q.cmd.Keeps) (hst : 0 < st.size)
    (hsp : p.optimal ≠ none → ∀ l ∈ groupsStyled gs st, ∀ e ∈ l, 0 < (env.metrics e.2.font).charwidth ' ' ) : PutWith (Across env p) css t := by
  induction h with
  | nil st t => exact .nil t
  | cons line rest st t cmd words chunks css htidy hnz h1 h2 hroom hchunk j2 j3 _ ih =>
    obtain ⟨hpw, hstyled⟩ := paragraph_words henv line htidy st cmd words h1 p.indent hnz
    have hkl := hk line List.mem_cons_self
    obtain ⟨hz, hsol⟩ := words_sizes henv htidy h1 (indent := p.indent) hnz hkl hst
    have hlead := shape_lead h2
    refine .cons _ _ _ ?_ (ih (fun g hg => hk g (List.mem_cons_of_mem _ hg)) (endState_size line st hkl hst) (fun ho l hl => hsp ho l (by simp [groupsStyled, hl])))
    unfold Paragraph.shape at h2
    constructor
    · intro ho
      simp only [ho] at h2
      exact firstfit_fitAcross henv hpw hsol hz h2 hchunk j3.strict
    · intro ho
      obtain ⟨o, ho'⟩ := Option.ne_none_iff_exists'.1 ho
      obtain ⟨hl, hr⟩ := hroom ho
      have hcol : ∀ i, 0 ≤ (t.view i).heightFree := fun i => hr.free _ (by omega)
      simp only [ho'] at h2
      refine optimum_fitAcross henv hpw (paragraph_plain h1 p.indent) ⟨?_, ?_⟩ hl hcol h2 hchunk j3.strict
      · intro w hw e he
        refine hsp ho (styled line st) (by simp [groupsStyled]) e ?_
        rw [← hstyled]; exact List.mem_flatMap.2 ⟨w, hw, he⟩
      · intro w hw e he
        refine styled_sizes line st hkl hst e ?_
        rw [← hstyled]; exact List.mem_flatMap.2 ⟨w, hw, he⟩
    · intro ho hj
      simp only [ho, hj] at h2
      exact firstfit_fillAcross henv hpw hz h2 hchunk j3.strict (fun c hc => (hlead c hc).2.trans hj)
    · intro ho hj
      obtain ⟨o, ho'⟩ := Option.ne_none_iff_exists'.1 ho
      obtain ⟨hl, hr⟩ := hroom ho
      have hcol : ∀ i, 0 ≤ (t.view i).heightFree := fun i => hr.free _ (by omega)
      simp only [ho', hj] at h2
      refine optimum_fillAcross henv hpw (paragraph_plain h1 p.indent) ⟨?_, ?_⟩ hl hcol h2 hchunk j3.strict (fun c hc => (hlead c hc).2.trans hj)
      · intro w hw e he
        refine hsp ho (styled line st) (by simp [groupsStyled]) e ?_
        rw [← hstyled]; exact List.mem_flatMap.2 ⟨w, hw, he⟩
      · intro w hw e he
        refine styled_sizes line st hkl hst e ?_
        rw [← hstyled]; exact List.mem_flatMap.2 ⟨w, hw, he⟩
    · intro hor c hc hq
      obtain ⟨pre, fin, hw⟩ := hchunk c hc
      rw [← (hlead c hc).2]
      rcases hor with ho | hal
      · simp only [ho] at h2
        refine chunk_placed hw hq ?_
        intro l hl
        obtain ⟨i, hi⟩ := List.mem_iff_getElem?.1 hc
        obtain ⟨k, hk'⟩ := List.mem_iff_getElem?.1 hl
        exact (C33_fits henv hpw hz h2 hi hk').1
      · exact chunk_placed_left _ (by rw [(hlead c hc).2]; exact hal)

end Pdfje
