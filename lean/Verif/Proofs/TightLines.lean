import Verif.Proofs.TightShown
import Verif.Proofs.Paragraph
/-
Where the glyphs of the lines of a paragraph are.
-/

namespace Pdfje

variable {env : Env}

theorem forall₂_split {α β : Type} {R : α → β → Prop} : ∀ {pre : List β} {a : List α} {b : List β}, List.Forall₂ R a (pre ++ b) →
    ∃ pre' a', a = pre' ++ a' ∧ List.Forall₂ R pre' pre ∧ List.Forall₂ R a' b
  | [], a, b, h => ⟨[], a, rfl, .nil, h⟩
  | x :: pre, a, b, h => by
    cases h with
    | cons h1 h2 =>
      obtain ⟨pre', a', rfl, h3, h4⟩ := forall₂_split h2
      exact ⟨_ :: pre', a', rfl, .cons h1 h3, h4⟩

theorem forall₂_seek {α β : Type} {R : α → β → Prop} {a : List α} {b : List β} (h : List.Forall₂ R a b) : ∀ y ∈ b, ∃ x ∈ a, R x y := by
  induction h with
  | nil => simp
  | cons h _ ih =>
    intro y hy
    rcases List.mem_cons.1 hy with rfl | hy
    · exact ⟨_, by simp, h⟩
    · obtain ⟨x, hx, hr⟩ := ih y hy
      exact ⟨x, List.mem_cons_of_mem _ hx, hr⟩

theorem of_last : ∀ {gs : List Glyph} {l : List Gap}, List.Forall₂ Of gs l → ∀ x ∈ l.getLast?, ∃ g ∈ gs.getLast?, g.char = x.2.1
  | [], _, h, x, hx => by cases h; simp at hx
  | [g], _, h, x, hx => by
    cases h with
    | cons h1 h2 =>
      cases h2
      simp only [List.getLast?_singleton, Option.mem_def, Option.some.injEq] at hx ⊢
      exact ⟨g, rfl, by rw [h1.1, hx]⟩
  | g :: g' :: gs, _, h, x, hx => by
    cases h with
    | cons h1 h2 =>
      cases h2 with
      | cons h3 h4 =>
        rw [List.getLast?_cons_cons] at hx ⊢
        exact of_last (.cons h3 h4) x hx

theorem of_dropLast : ∀ {gs : List Glyph} {l : List Gap}, List.Forall₂ Of gs l → List.Forall₂ Of gs.dropLast l.dropLast
  | [], _, h => by cases h; exact .nil
  | [g], _, h => by
    cases h with
    | cons h1 h2 => cases h2; exact .nil
  | g :: g' :: gs, _, h => by
    cases h with
    | cons h1 h2 =>
      cases h2 with
      | cons h3 h4 =>
        rw [List.dropLast_cons_cons, List.dropLast_cons_cons]
        exact .cons h1 (of_dropLast (.cons h3 h4))

theorem Before.ends {ff : Bool} {l : List Gap} {c : Char} (h : Before ff l c) {s : ShownLine} (hs : List.Forall₂ Of s.glyphs l) : EndsWith (!ff) s c := by
  rcases h with ⟨x, hx, rfl⟩ | ⟨rfl, h⟩
  · exact .inl (of_last hs x hx)
  · refine .inr ⟨rfl, ?_⟩
    rcases h with h | ⟨⟨x, hx, e⟩, y, hy, rfl⟩
    · exact .inl h
    · refine .inr ⟨?_, of_last (of_dropLast hs) y hy⟩
      obtain ⟨g, hg, e'⟩ := of_last hs x hx
      exact ⟨g, hg, e'.trans e⟩

theorem shown_inWords {j : Bool} {ls : List (List Gap)} {ss : List ShownLine} (h : List.Forall₂ (ShowsStretched env j) ls ss) (hl : ∀ l ∈ ls, l.IsChain (Loose env)) :
    KernedInWords env.metrics j ss := by
  intro s hs a g k b e hj
  obtain ⟨l, hl', h1⟩ := forall₂_seek h s hs
  obtain ⟨a', X, Y, b', rfl, k1, k2, -, k4⟩ := h1.pair e hj
  exact pair_loose k1 k2 k4 (chain_pair (hl _ hl'))

theorem shown_starts {ff j : Bool} {ls : List (List Gap)} {ss : List ShownLine} (h : List.Forall₂ (ShowsStretched env j) ls ss) (hl : StartsGiven env ff ls) :
    KernedStarts env.metrics (!ff) j ss := by
  rintro pre s s' post rfl g hg hj
  obtain ⟨pre', ls', rfl, -, h2⟩ := forall₂_split h
  cases h2 with
  | cons h3 h4 =>
    cases h4 with
    | cons h5 h6 =>
      obtain ⟨Y, hY, k1, k2⟩ := h5.first hg hj
      rcases hl _ _ _ _ rfl Y hY with h0 | ⟨c, hb, h0⟩
      · left; rw [k2, h0]; ring
      · right
        refine ⟨c, hb.ends h3.chars, Y.2.2.font, Y.2.2.size, k1.2, ?_⟩
        rw [k2, h0, Env.kernOf, k1.1]

theorem shown_toLast {j : Bool} {ls : List (List Gap)} {ss : List ShownLine} (h : List.Forall₂ (ShowsStretched env j) ls ss) (hl : KernedBut env ls) :
    KernedToLast env.metrics j ss := by
  rintro pre s post rfl a g k b e hj
  obtain ⟨pre', ls', rfl, -, h2⟩ := forall₂_split h
  cases h2 with
  | cons h3 h4 =>
    obtain ⟨a', X, Y, b', rfl, k1, k2, k3, k4⟩ := h3.pair e hj
    rcases hl _ _ _ rfl _ _ _ _ rfl with hf | ⟨h0, hb, hw, hp⟩
    · exact .inl (pair_kerned k1 k2 k4 hf)
    · refine .inr ⟨by rw [k1.1]; exact hb, pair_unkerned k1 k4 h0, noBreakInside_of (.cons k2 k3) hw, ?_⟩
      intro s' hs'
      obtain ⟨l, hl', h5⟩ := forall₂_seek h4 s' hs'
      exact noBreakInside_of h5.chars (hp l hl')

/-- What is known of the gaps of the text of a line. -/
structure GapsOk (env : Env) (single : Bool) (q : List Gap) : Prop where
  loose : q.IsChain (Loose env)
  parts : single = true → q.IsChain (Fits env) ∨ ∃ a b, q = a ++ b ∧ Parts env a b

theorem LinesOf.tight {ff j single : Bool} {q : List Gap} {cs : List ShapedText} (h : LinesOf env ff j q cs) (hg : GapsOk env single q) {ss : List ShownLine} (hs : ShownFor env.widths cs ss)
    (hw : ∀ c ∈ cs, ∃ pre fin, WordsWF env (c.lines.flatMap TLine.words) pre fin) (hq : ∀ c ∈ cs, c.StartsQuiet) :
    KernedInWords env.metrics j ss ∧ KernedStarts env.metrics (!ff) j ss ∧ (single = true → KernedToLast env.metrics j ss) := by
  obtain ⟨ls, h1, h2⟩ := h.shown hs hw hq
  refine ⟨shown_inWords h2 (h1.chain loose_blind loose_hyphens hg.loose), shown_starts h2 (h1.startsGiven (hg.loose.imp fun _ _ h => h.1)), fun hsi => shown_toLast h2 ?_⟩
  rcases hg.parts hsi with h3 | ⟨a, b, e, h3⟩
  · exact kernedBut_chain (h1.chain fits_blind fits_hyphens h3)
  · exact h1.kernedBut a b e h3

theorem Reheaded.parts {a b : List Gap} (h : Reheaded a b) {u v : List Gap} (e : a = u ++ v) (hp : Parts env u v) : b.IsChain (Fits env) ∨ ∃ a' b', b = a' ++ b' ∧ Parts env a' b' := by
  obtain ⟨k, c, st, l, k', rfl, rfl⟩ := h
  cases u with
  | nil =>
    left
    refine Reheaded.chain fits_blind ⟨k, c, st, l, k', rfl, rfl⟩ ?_
    rw [e]; exact hp.right
  | cons x u =>
    right
    simp only [List.cons_append, List.cons.injEq] at e
    obtain ⟨rfl, rfl⟩ := e
    refine ⟨(k', c, st) :: u, v, rfl, ⟨?_, hp.right, hp.ub, hp.zero, ?_⟩⟩
    · exact Reheaded.chain fits_blind ⟨k, c, st, u, k', rfl, rfl⟩ hp.left
    · intro x hx
      have := hp.brk
      cases u with
      | nil =>
        simp only [List.getLast?_singleton, Option.mem_def, Option.some.injEq] at hx
        subst hx
        exact this (k, c, st) (by simp)
      | cons y u =>
        rw [List.getLast?_cons_cons] at hx this
        exact this x hx

/-- The words of a line of text. -/
theorem words_gapsOk (henv : env.Ok) {line : List Passage} (ht : Tidy line) {st : State} {cmd : Command} {ws : List WordLike} (h : intoWords env line st = some (cmd, ws)) (a : ℚ) :
    Sound (indentFirst ws a) ∧ GapsOk env (line.length = 1) (gapsOf (indentFirst ws a)) := by
  obtain ⟨h1, h2⟩ := intoWords_gaps henv ht h
  obtain ⟨h3, h4⟩ := indentFirst_gaps a h1 (intoWords_fresh (Q := fun _ => True) (fun _ _ _ _ => trivial) trivial h) h2.zero
  refine ⟨h3, ?_⟩
  have hsingle : line.length = 1 → ∃ u v, gapsOf ws = u ++ v ∧ Parts env u v := by
    intro hl
    obtain ⟨p, rfl⟩ := List.length_eq_one_iff.1 hl
    obtain ⟨a, b, -, e2, e3, e4⟩ := intoWords_string henv h
    exact ⟨_, _, e4, string_parts e2 e3⟩
  rcases h4 with ⟨-, h4⟩ | h4
  · rw [h4]; exact ⟨.nil, fun _ => .inl .nil⟩
  · refine ⟨h4.chain loose_blind h2.chain, fun hl => ?_⟩
    obtain ⟨u, v, e, hp⟩ := hsingle (by simpa using hl)
    exact h4.parts e hp

/-- The glyphs of the chunks of a line of text are where they should be, wherever the chunks are put. -/
structure Tight (env : Env) (ff j single : Bool) (cs : List ShapedText) : Prop where
  words : ∀ ss, ShownFor env.widths cs ss → KernedInWords env.metrics j ss
  starts : ∀ ss, ShownFor env.widths cs ss → KernedStarts env.metrics (!ff) j ss
  last : single = true → ∀ ss, ShownFor env.widths cs ss → KernedToLast env.metrics j ss

theorem LinesOf.isTight {ff j single : Bool} {q : List Gap} {cs : List ShapedText} (h : LinesOf env ff j q cs) (hg : GapsOk env single q)
    (hw : ∀ c ∈ cs, ∃ pre fin, WordsWF env (c.lines.flatMap TLine.words) pre fin) (hq : ∀ c ∈ cs, c.StartsQuiet) : Tight env ff j single cs :=
  ⟨fun _ hs => (h.tight hg hs hw hq).1, fun _ hs => (h.tight hg hs hw hq).2.1, fun e _ hs => (h.tight hg hs hw hq).2.2 e⟩

/-- A paragraph set by first-fit. -/
theorem linesFill_tight_firstfit (henv : env.Ok) {p : Paragraph} (hp : p.optimal = none) {lead : ℚ} {gs : List (List Passage)} {st : State} {t t' : Tape}
    (h : LinesFill p env lead gs st t t') (hg : ∀ g ∈ gs, Tidy g) (hz : ∀ l ∈ groupsStyled gs st, NonZero l) :
    ∃ css, PutLines css t t' ∧ List.Forall₂ (fun cs g => (∀ c ∈ cs, c.StartsQuiet) → Tight env true (p.align = .justify) (g.length = 1) cs) css gs := by
  induction h with
  | nil st t => exact ⟨[], .nil t, .nil⟩
  | cons line rest st t cmd words chunks t' h1 h2 h3 h4 ih =>
    have htidy := hg line List.mem_cons_self
    have hnz : NonZero (styled line st) := hz _ (by simp [groupsStyled])
    obtain ⟨hpw, -⟩ := paragraph_words henv line htidy st cmd words h1 p.indent hnz
    obtain ⟨cmd', ws', g1, -, g3⟩ := intoWords_spec henv line st
    rw [h1] at g1
    simp only [Option.some.injEq, Prod.mk.injEq] at g1
    obtain ⟨rfl, rfl⟩ := g1
    have hwf := indentFirst_wf henv (g3 htidy).1 p.indent hpw
    simp only [Paragraph.shape, hp] at h2
    have hall := firstfit_wf henv hpw hwf h2
    have hstate : chunksState chunks (cmd.apply st) = endState line st := chunksState_wf hall
    rw [hstate] at ih
    obtain ⟨css, i1, i2⟩ := ih (fun g hg' => hg g (List.mem_cons_of_mem _ hg')) (fun l hl => hz l (by simp [groupsStyled, hl]))
    obtain ⟨k1, k2⟩ := words_gapsOk henv htidy h1 p.indent
    exact ⟨chunks :: css, .cons _ _ _ _ h3 i1, .cons (fun hq => (firstfit_linesOf k1 h2).isTight k2 (fun c hc => firstfit_chunk henv hpw h2 hc) hq) i2⟩

/-- A paragraph in which the style changes at newlines only. -/
theorem linesFill_tight (henv : env.Ok) {p : Paragraph} {lead : ℚ} {gs : List (List Passage)} {st : State} {t t' : Tape}
    (h : LinesFill p env lead gs st t t') (hg : ∀ g ∈ gs, Tidy g) (hs : SteadyGroups gs st) (hz : ∀ l ∈ groupsStyled gs st, NonZero l)
    (hroom : p.optimal ≠ none → 0 < lead ∧ t.Roomy lead) :
    ∃ css, PutLines css t t' ∧ List.Forall₂ (fun cs g => Tight env (p.optimal = none) (p.align = .justify) (g.length = 1) cs) css gs := by
  induction h with
  | nil st t => exact ⟨[], .nil t, .nil⟩
  | cons line rest st t cmd words chunks t' h1 h2 h3 h4 ih =>
    have htidy := hg line List.mem_cons_self
    obtain ⟨hf, hend⟩ := steady_words henv htidy hs.1 h1
    have hnz : NonZero (styled line st) := hz _ (by simp [groupsStyled])
    obtain ⟨hpw, hst⟩ := paragraph_words henv line htidy st cmd words h1 p.indent hnz
    have hff := indentFirst_fixed p.indent hf
    obtain ⟨k1, k2⟩ := words_gapsOk henv htidy h1 p.indent
    have key : (∀ c ∈ chunks, ∀ l ∈ c.lines, FixedAll (cmd.apply st) l.words) ∧
        Tight env (p.optimal = none) (p.align = .justify) (line.length = 1) chunks ∧
        (p.optimal ≠ none → 0 < lead ∧ (t.fill (chunks.mapIdx fun i c => (t.view i).add (.text c))).Roomy lead) := by
      unfold Paragraph.shape at h2
      cases ho : p.optimal with
      | none =>
        simp only [ho] at h2
        have hfix := firstfit_fixed h2 hff
        exact ⟨hfix, by simpa using (firstfit_linesOf k1 h2).isTight k2 (fun c hc => firstfit_chunk henv hpw h2 hc) (fun c hc => fixed_quiet (hfix c hc)), by simp⟩
      | some o =>
        simp only [ho] at h2
        obtain ⟨hl, hr⟩ := hroom (by simp [ho])
        have hcol : ∀ i, 0 ≤ (t.view i).heightFree := fun i => hr.free _ (by omega)
        have hpl := paragraph_plain h1 p.indent
        obtain ⟨⟨pre, fin, hwf⟩, -⟩ := hpw.wf henv
        have hch : ∀ c ∈ chunks, _ := fun c hc => optimum_chunk_wf henv hpw hpl hff hl hcol h2 hc
        have ht := (optimum_linesOf hl hcol (fun w hw => (k1 w hw).1) hpl hwf h2).isTight k2 (fun c hc => ⟨_, _, (hch c hc).1⟩) (fun c hc => (hch c hc).2)
        refine ⟨optimum_fixed hl hcol h2 hff, by simpa using ht, fun _ => ⟨hl, hr.fill h3 ?_⟩⟩
        intro i c hi
        obtain ⟨e1, e2⟩ := C36_optimum_partial hl hcol h2 hi
        rcases e2 with e2 | e2 | ⟨-, e3, e4⟩
        · exact e2
        · rw [e1, e2]; simpa using hcol i
        · have : (t.view i).blocks = [] := by
            rcases e4 with e4 | e4
            · cases i with
              | zero => simpa using e4
              | succ i => exact hr.after _ (by omega)
            · exact hr.after _ (by omega)
          have := hr.empty (t.head + i) (by omega) this
          simp only [Tape.view] at e3
          linarith
    obtain ⟨k3, k4, k5⟩ := key
    have hstate : chunksState chunks (cmd.apply st) = endState line st := by
      rw [hend]; exact chunksState_fixed k3 rfl
    rw [hstate] at ih
    obtain ⟨css, i1, i2⟩ := ih (fun g hg' => hg g (List.mem_cons_of_mem _ hg')) hs.2 (fun l hl => hz l (by simp [groupsStyled, hl])) k5
    exact ⟨chunks :: css, .cons _ _ _ _ h3 i1, .cons k4 i2⟩

end Pdfje
