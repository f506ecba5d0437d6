import Verif.Proofs.FirstLine
import Verif.Spec.Indent
/-
The first line of a paragraph starts at its indent.
-/

namespace Pdfje

variable {env : Env}

theorem WordLike.prunedWidth_boxes : ∀ w : WordLike, w.prunedWidth = (w.boxes.map Box.width).sum
  | .box b => by simp [WordLike.prunedWidth, WordLike.boxes]
  | .word w => rfl
  | .withCmd w c => w.prunedWidth_boxes

theorem Slug.Starts.without {a : ℚ} {s : Slug} (h : s.Starts a) : s.withoutInitKern.Starts 0 ∧ s.withoutInitKern.width = s.width - a ∧
    s.withoutInitKern.txt = s.txt ∧ s.withoutInitKern.state = s.state := by
  obtain ⟨txt, k, w, st⟩ := s
  obtain ⟨h1, h2, h3⟩ := h
  have nz : ∀ k : List (Nat × ℚ), (∀ e ∈ k, e.1 ≠ 0) → (⟨txt, k, w, st⟩ : Slug).start = 0 := by
    intro k hk
    cases k with
    | nil => rfl
    | cons e k =>
      obtain ⟨i, x⟩ := e
      cases i with
      | zero => exact absurd rfl (hk (0, x) (by simp))
      | succ i => rfl
  cases k with
  | nil =>
    have : a = 0 := by simpa [Slug.start] using h2.symm
    subst this
    exact ⟨⟨h1, rfl, h3⟩, by simp [Slug.withoutInitKern], rfl, rfl⟩
  | cons e k =>
    obtain ⟨i, x⟩ := e
    simp only [List.tail_cons] at h3
    cases i with
    | zero =>
      refine ⟨⟨h1, nz _ h3, fun e he => h3 e (List.mem_of_mem_tail he)⟩, ?_, rfl, rfl⟩
      simp only [Slug.start] at h2
      simp only [Slug.withoutInitKern, ← h2]; ring
    | succ i =>
      have : a = 0 := by simpa [Slug.start] using h2.symm
      subst this
      exact ⟨⟨h1, rfl, h3⟩, by simp [Slug.withoutInitKern], rfl, rfl⟩

theorem Box.without_starts {a : ℚ} {b : Box} (h : ∃ s ∈ b.first, s.Starts a) : (∃ s ∈ b.withoutInitKern.first, s.Starts 0) ∧
    b.withoutInitKern.width = b.width - a ∧ (b.withoutInitKern.withHyphen env).width = (b.withHyphen env).width - a := by
  obtain ⟨s, hs, h⟩ := h
  obtain ⟨h1, h2, h3, h4⟩ := h.without
  cases b with
  | slug x =>
    simp only [Box.first, Option.mem_def, Option.some.injEq] at hs
    subst hs
    refine ⟨⟨_, rfl, h1⟩, h2, ?_⟩
    simp only [Box.withoutInitKern, Box.withHyphen, Box.width, Slug.withHyphen, Slug.hyphenKern, Slug.last, h2, h3, h4]
    ring
  | mixed segs st =>
    cases segs with
    | nil => simp [Box.first] at hs
    | cons e l =>
      obtain ⟨x, c⟩ := e
      simp only [Box.first, List.head?_cons, Option.map_some, Option.mem_def, Option.some.injEq] at hs
      subst hs
      refine ⟨⟨_, rfl, h1⟩, ?_, ?_⟩
      · simp only [Box.withoutInitKern, Box.width, List.map_cons, List.sum_cons, h2]; ring
      · have hl : Box.last (.mixed ((x.withoutInitKern, c) :: l) st) = Box.last (.mixed ((x, c) :: l) st) := by
          cases l with
          | nil => simp [Box.last, Slug.last, h3]
          | cons y l => simp [Box.last, List.getLast?_cons_cons]
        simp only [Box.withoutInitKern, Box.withHyphen, Box.width, hl, List.map_append, List.map_cons, List.sum_append, List.sum_cons, h2]
        ring

theorem Box.start_zero {a : ℚ} {b : Box} (h : ∃ s ∈ b.first, s.Starts a) (hi : b.hasInitKern = false) : a = 0 := by
  obtain ⟨s, hs, h⟩ := h
  have key : s.hasInitKern = false → a = 0 := by
    intro hi
    obtain ⟨txt, k, w, st⟩ := s
    rw [← h.start]
    rcases k with _ | ⟨⟨_ | i, x⟩, k⟩
    · rfl
    · simp [Slug.hasInitKern] at hi
    · rfl
  cases b with
  | slug x =>
    simp only [Box.first, Option.mem_def, Option.some.injEq] at hs
    subst hs; exact key hi
  | mixed segs st =>
    cases segs with
    | nil => simp [Box.first] at hs
    | cons e l =>
      obtain ⟨x, c⟩ := e
      simp only [Box.first, List.head?_cons, Option.map_some, Option.mem_def, Option.some.injEq] at hs
      subst hs; exact key hi

/-- A word whose first piece does not fit, and what is left of it: it starts where it did, or without the shift. -/
theorem WordLike.hyphenate_none_starts {a space : ℚ} : ∀ {w d : WordLike}, w.hyphenate env space = some (none, d) → space < w.prunedWidth → w.Starts a →
    d.Starts a ∨ (d.Starts 0 ∧ (d.minimalBox env).1.Starts 0 ∧ space < a + ((d.minimalBox env).1).prunedWidth)
  | .box b, d, h, hlt, hw => by
    simp only [WordLike.hyphenate, Option.some.injEq, Prod.mk.injEq, true_and] at h
    subst h; exact .inl hw
  | .word w, d, h, hlt, hw => by
    simp only [WordLike.hyphenate, Option.map_eq_some_iff, Prod.exists, Prod.mk.injEq, Option.map_eq_none_iff] at h
    obtain ⟨o, d', h, rfl, rfl⟩ := h
    obtain ⟨bs, t, st⟩ := w
    obtain ⟨b, hb, hs⟩ := hw
    obtain ⟨rest, rfl⟩ : ∃ rest, bs = b :: rest := List.head?_eq_some_iff.1 hb
    have hd : d' = Word.withoutInitKern ⟨b :: rest, t, st⟩ ∧ (rest ≠ [] → space < (b.withHyphen env).width) := by
      simp only [Word.hyphenate] at h
      split at h
      · rename_i hlt
        simp only [Option.some.injEq, Prod.mk.injEq, true_and] at h
        exact ⟨h.symm, fun _ => hlt⟩
      · simp at h
    obtain ⟨rfl, hlt2⟩ := hd
    simp only [Word.withoutInitKern]
    split
    · right
      obtain ⟨k1, k2, k3⟩ := Box.without_starts (env := env) hs
      refine ⟨⟨_, rfl, k1⟩, ?_⟩
      cases rest with
      | nil =>
        refine ⟨⟨_, rfl, k1⟩, ?_⟩
        simp only [WordLike.prunedWidth, Word.prunedWidth, WordLike.minimalBox, Word.minimalBox, List.map_cons, List.map_nil, List.sum_cons, List.sum_nil] at hlt ⊢
        rw [k2]; linarith
      | cons b2 rest =>
        obtain ⟨s, hs1, hs2⟩ := k1
        refine ⟨⟨_, rfl, Box.first_withHyphen hs1 hs2⟩, ?_⟩
        have := hlt2 (by simp)
        simp only [WordLike.prunedWidth, Word.prunedWidth, WordLike.minimalBox, Word.minimalBox, List.map_cons, List.map_nil, List.sum_cons, List.sum_nil]
        rw [k3]; linarith
    · rename_i hi
      exact .inl ⟨b, rfl, hs⟩
  | .withCmd w c, d, h, hlt, hw => by
    simp only [WordLike.hyphenate, Option.map_eq_some_iff, Prod.exists, Prod.mk.injEq] at h
    obtain ⟨o, d', h, rfl, rfl⟩ := h
    rcases WordLike.hyphenate_none_starts h hlt hw with k | ⟨k1, k2, k3⟩
    · exact .inl (k.of_boxes (by simp))
    · right
      refine ⟨k1.of_boxes (by simp), ?_⟩
      have e : ((d'.addCmd c).minimalBox env).1.boxes = (d'.minimalBox env).1.boxes := by
        cases c with
        | noop => rfl
        | _ =>
          simp only [WordLike.addCmd, WordLike.minimalBox]
          split
          · rename_i e; rw [e]; rfl
          · rename_i e; rw [e]
      exact ⟨k2.of_boxes (by rw [e]), by rw [WordLike.prunedWidth_boxes, e, ← WordLike.prunedWidth_boxes]; exact k3⟩

theorem WordLike.minimalBox_starts {a : ℚ} : ∀ {w : WordLike}, w.Starts a → (w.minimalBox env).1.Starts a
  | .box b, h => h
  | .word w, h => by
    obtain ⟨bs, t, st⟩ := w
    obtain ⟨b, hb, s, hs, h⟩ := h
    obtain ⟨rest, rfl⟩ : ∃ rest, bs = b :: rest := List.head?_eq_some_iff.1 hb
    cases rest with
    | nil => exact ⟨b, rfl, s, hs, h⟩
    | cons b2 rest => exact ⟨_, rfl, Box.first_withHyphen hs h⟩
  | .withCmd w c, h => by
    have ih := WordLike.minimalBox_starts (w := w) h
    simp only [WordLike.minimalBox]
    split
    · rename_i e
      rw [e] at ih
      exact ih.of_boxes (by simp)
    · rename_i e
      rw [e] at ih
      exact ih

/-- What can be said about the first line: it starts `a` to the right; or it is one piece, not shifted, too wide for the column if it were shifted. -/
def LineStarts (a width : ℚ) (ws : List WordLike) : Prop :=
  ∃ x xs, ws = x :: xs ∧ (x.Starts a ∨ x.Starts 0 ∧ xs = [] ∧ width < a + x.prunedWidth)

theorem takeLine_starts {a width : ℚ} {w : WordLike} {rest : List WordLike} {q : Option (List WordLike)} {line : TLine}
    (h : takeLine env (w :: rest) width = some (q, line)) (hw : w.Starts a) : LineStarts a width line.words := by
  cases (takeLine_ending h).1 with
  | all h1 h2 => exact ⟨w, rest, h2, .inl hw⟩
  | cut content r x y z k h1 h2 h3 h4 h5 h6 =>
    cases content with
    | nil =>
      simp only [List.nil_append, List.cons.injEq] at h1
      obtain ⟨rfl, rfl⟩ := h1
      exact ⟨y, [], h3, .inl (WordLike.hyphenate_starts h5 hw)⟩
    | cons c content =>
      simp only [List.cons_append, List.cons.injEq] at h1
      obtain ⟨rfl, -⟩ := h1
      exact ⟨w, content ++ [y], h3, .inl hw⟩
  | word content r l x b h1 h2 h3 =>
    cases content with
    | nil =>
      simp only [List.nil_append, List.cons.injEq] at h1
      obtain ⟨rfl, -⟩ := h1
      rcases h3 with h3 | ⟨h3, -⟩
      · exact ⟨_, [], h3, .inl (hw.of_boxes (by rw [WordLike.pruned_boxes]))⟩
      · exact ⟨_, [], h3, .inl hw⟩
    | cons c content =>
      simp only [List.cons_append, List.cons.injEq] at h1
      obtain ⟨rfl, -⟩ := h1
      rcases h3 with h3 | ⟨h3, -⟩
      · exact ⟨w, _, h3, .inl hw⟩
      · exact ⟨w, _, h3, .inl hw⟩
  | forced r x d y h1 h2 h3 h4 h5 h6 =>
    simp only [List.cons.injEq] at h1
    obtain ⟨rfl, rfl⟩ := h1
    refine ⟨y, [], h2, ?_⟩
    rcases WordLike.hyphenate_none_starts h4 h3 hw with k | ⟨-, k2, k3⟩
    · exact .inl (h5 ▸ WordLike.minimalBox_starts k)
    · exact .inr ⟨h5 ▸ k2, rfl, h5 ▸ k3⟩

theorem setLine_starts {a width : ℚ} {align : Align} {l : TLine} (h : LineStarts a width l.words) : LineStarts a width (setLine align l).words := by
  obtain ⟨x, xs, e, h⟩ := h
  unfold setLine TLine.justify
  split
  · split
    · exact ⟨x, xs, e, h⟩
    · simp only [e, List.map_cons]
      refine ⟨_, _, rfl, ?_⟩
      rcases h with h | ⟨h1, h2, h3⟩
      · exact .inl (h.of_boxes (by rw [WordLike.extendTail_boxes]))
      · refine .inr ⟨h1.of_boxes (by rw [WordLike.extendTail_boxes]), by rw [h2]; rfl, ?_⟩
        rw [WordLike.prunedWidth_boxes, WordLike.extendTail_boxes, ← WordLike.prunedWidth_boxes]
        exact h3
  · exact ⟨x, xs, e, h⟩

/-- The first line of text in some chunks. -/
theorem Chunks.first {cols : Cols} {lead : ℚ} {i : Nat} {ae : Bool} {ws : List WordLike} {raw : List (List TLine)} (h : Chunks env cols lead i ae ws raw) :
    ∃ pre line ls post q, raw = pre ++ (line :: ls) :: post ∧ (∀ x ∈ pre, x = []) ∧ takeLine env ws (cols (i + pre.length)).1 = some (q, line) := by
  induction h with
  | last i ae ws lines h1 h2 =>
    cases h1 with
    | cons _ q ln lines _ k1 k2 => exact ⟨[], ln, lines, [], q, rfl, by simp, k1⟩
  | more i ae ws lines ws' rest h1 h2 h3 h4 ih =>
    cases h1 with
    | nil =>
      obtain ⟨pre, line, ls, post, q, rfl, k2, k3⟩ := ih
      refine ⟨[] :: pre, line, ls, post, q, rfl, ?_, ?_⟩
      · intro x hx
        rcases List.mem_cons.1 hx with rfl | hx
        · rfl
        · exact k2 x hx
      · rw [List.length_cons, show i + (pre.length + 1) = i + 1 + pre.length by omega]; exact k3
    | cons _ q ln lines _ k1 k2 => exact ⟨[], ln, lines, rest, q, rfl, by simp, k1⟩

/-- The first line of text in chunks for columns of these widths: its number and its words. -/
def ChunksStart (a : ℚ) (widths : Nat → ℚ) (cs : List ShapedText) : Prop :=
  ∃ pre c post l ls, cs = pre ++ c :: post ∧ (∀ x ∈ pre, x.lines = []) ∧ c.lines = l :: ls ∧ LineStarts a (widths pre.length) l.words

theorem firstfit_starts {a : ℚ} {cols : Cols} {lead : ℚ} {avoid : Bool} {align : Align} {w : WordLike} {ws : List WordLike} {ae : Bool} {out : List ShapedText}
    (h : firstfitShape env cols lead avoid align (w :: ws) ae = some out) (hw : w.Starts a) : ChunksStart a (fun i => (cols i).1) out := by
  obtain ⟨raw, -, hc, rfl⟩ := firstfit_chunks h
  obtain ⟨pre, line, ls, post, q, rfl, k2, k3⟩ := hc.first
  rw [Nat.zero_add] at k3
  refine ⟨pre.map _, _, post.map _, setLine align line, ls.map (setLine align), by rw [List.map_append, List.map_cons], ?_, rfl, ?_⟩
  · intro x hx
    obtain ⟨l, hl, rfl⟩ := List.mem_map.1 hx
    rw [k2 l hl]; rfl
  · rw [List.length_map]
    exact setLine_starts (takeLine_starts k3 hw)

/-! ### Optimal line breaking -/

theorem fragsLoop_starts {a : ℚ} {justify : Bool} {w : WordLike} {ws : List WordLike} {width stretch shrink : ℚ} {fbs : List (Fragment × KBox)}
    (h : fragsLoop env justify (w :: ws) width stretch shrink = some fbs) (hw : w.Starts a) :
    ∃ f more, fbs = f :: more ∧ f.1.txt.Starts a ∧ ∃ t, f.1.onBreak = some t ∧ t.Starts a := by
  simp only [fragsLoop] at h
  split at h
  · simp at h
  · rename_i f width' stretch' shrink' he
    rw [Option.map_eq_some_iff] at h
    obtain ⟨more, -, rfl⟩ := h
    have hb : w.stripCmd.1.boxes = w.boxes := by cases w <;> rfl
    rw [hb] at he ⊢
    obtain ⟨b, hb1, s, hs, hst⟩ := hw
    obtain ⟨rest, e⟩ : ∃ rest, w.boxes = b :: rest := List.head?_eq_some_iff.1 hb1
    rw [e] at he ⊢
    cases rest with
    | nil =>
      refine ⟨f, more, rfl, ?_⟩
      simp only [endFrag] at he
      split at he
      · simp only [Option.some.injEq, Prod.mk.injEq] at he
        obtain ⟨rfl, -⟩ := he
        exact ⟨⟨b, rfl, s, hs, hst⟩, _, rfl, ⟨b, rfl, s, hs, hst⟩⟩
      · simp only [List.getLast?_singleton, Option.some.injEq, Prod.mk.injEq] at he
        obtain ⟨rfl, -⟩ := he
        exact ⟨⟨b, rfl, s, hs, hst⟩, _, rfl, ⟨b, rfl, s, hs, hst⟩⟩
    | cons b2 rest =>
      rw [List.dropLast_cons_cons]
      refine ⟨_, _, rfl, ⟨b, rfl, s, hs, hst⟩, _, rfl, ⟨_, rfl, Box.first_withHyphen hs hst⟩⟩

theorem lineWords_starts {a : ℚ} {f : Fragment} {fs : List Fragment} (h : f.txt.Starts a) (ht : ∃ t, f.onBreak = some t ∧ t.Starts a) :
    ∃ x xs, lineWords (f :: fs) = x :: xs ∧ x.Starts a := by
  obtain ⟨t, ht1, ht2⟩ := ht
  have hword : f.word.Starts a := h.of_boxes (by simp [Fragment.word])
  rcases List.eq_nil_or_concat fs with rfl | ⟨init, g, rfl⟩
  · refine ⟨t.addCmd f.cmd, [], ?_, ht2.of_boxes (by simp)⟩
    simp [lineWords, ht1]
  · rw [List.concat_eq_append, ← List.cons_append]
    rcases lineWords_cases (f :: init) g with ⟨t, e1, e2⟩ | ⟨e1, h0, e2⟩ | ⟨e1, init', g', h0, e2⟩
    · exact ⟨_, _, by rw [e2, List.map_cons, List.cons_append], hword⟩
    · simp at h0
    · cases init' with
      | nil =>
        simp only [List.nil_append, List.cons.injEq] at h0
        obtain ⟨rfl, -⟩ := h0
        exact ⟨_, _, e2, hword.of_boxes (by simp)⟩
      | cons f' init' =>
        simp only [List.cons_append, List.cons.injEq] at h0
        obtain ⟨rfl, -⟩ := h0
        exact ⟨_, _, by rw [e2, List.map_cons, List.cons_append], hword⟩

theorem breakLines_starts {a : ℚ} {p : OptParams} {justify : Bool} {fbs : List (Fragment × KBox)} {q : ColQueue} {lines : List TLine}
    (h : breakLines p justify fbs q = some lines)
    (hf : ∃ f more, fbs = f :: more ∧ f.1.txt.Starts a ∧ ∃ t, f.1.onBreak = some t ∧ t.Starts a) :
    ∃ l ls x xs, lines = l :: ls ∧ l.words = x :: xs ∧ x.Starts a := by
  obtain ⟨f, more, rfl, hf1, hf2⟩ := hf
  obtain ⟨tol, -, brs, h1, rfl⟩ := breakLines_spec h
  obtain ⟨ps, h2, -, rfl, -⟩ := (optimumFit_spec (by simp)).1 brs h1
  obtain ⟨i1, i2⟩ := Feasible.increasing ps 0 0 h2
  have hp := lineBreaks_pos (p := p.fit !justify) (bs := (f :: more).map (·.2)) (width := q.lineLength) ps 0 0 1
  generalize lineBreaks (p.fit !justify) ((f :: more).map (·.2)) q.lineLength 0 0 1 ps = brs at hp
  cases brs with
  | nil =>
    simp only [List.map_nil] at hp
    subst hp; simp at i2
  | cons br brs =>
    have hpos : 0 < br.pos := by
      rw [← hp] at i1
      exact (List.pairwise_cons.1 i1).1 br.pos (by simp)
    obtain ⟨n, hn⟩ : ∃ n, br.pos = n + 1 := ⟨br.pos - 1, by omega⟩
    have key : ∃ x xs, lineWords ((((f :: more).map (·.1)).take br.pos).drop 0) = x :: xs ∧ x.Starts a := by
      rw [hn, List.drop_zero, List.map_cons, List.take_succ_cons]
      exact lineWords_starts hf1 hf2
    obtain ⟨x, xs, e, hx⟩ := key
    unfold intoLines
    split
    · simp only [raggedLines, List.zip_cons_cons, List.map_cons, TLine.stretch]
      refine ⟨_, _, _, _, rfl, congrArg (List.map _) e, ?_⟩
      exact hx.of_boxes (by rw [WordLike.stretchTail_boxes])
    · simp only [raggedLines]
      exact ⟨_, _, x, xs, rfl, e, hx⟩

theorem optimum_starts {a : ℚ} {cols : Cols} {lead : ℚ} (hl : 0 < lead) (hc : ∀ i, 0 ≤ (cols i).2) {avoid : Bool} {align : Align} {p : OptParams} {w : WordLike}
    {ws : List WordLike} {ae : Bool} {out : List ShapedText} (h : optimumShape env cols lead avoid align p (w :: ws) ae = some out) (hw : w.Starts a) :
    ∃ pre c post l ls x xs, out = pre ++ c :: post ∧ (∀ x ∈ pre, x.lines = []) ∧ c.lines = l :: ls ∧ l.words = x :: xs ∧ x.Starts a := by
  obtain ⟨fbs, chunks, h1, h2, ⟨s, q, lines, h3, -, h5, rfl⟩, rfl⟩ := optimumShape_laid hl hc (by simp) h
  obtain ⟨l, ls, x, xs, rfl, e, hx⟩ := breakLines_starts h5 (fragsLoop_starts h1 hw)
  have hg := (groupLines_spec h3.full (l :: ls)).1
  cases e2 : groupLines q (l :: ls) with
  | nil => rw [e2] at hg; simp at hg
  | cons g gs =>
    have hne := (groupLines_length h3.full (l :: ls) (c := 0) (g := g) (by rw [e2]; rfl)).1
    obtain ⟨l', g', rfl⟩ := List.exists_cons_of_ne_nil hne
    rw [e2, List.flatten_cons, List.cons_append, List.cons.injEq] at hg
    obtain ⟨rfl, -⟩ := hg
    refine ⟨(List.replicate s []).map _, _, gs.map _, l', g', x, xs, by rw [List.map_append, List.map_cons], ?_, rfl, e, hx⟩
    intro y hy
    obtain ⟨z, hz, rfl⟩ := List.mem_map.1 hy
    exact (List.mem_replicate.1 hz).2

/-! ### The first word of a line of text -/

theorem WordLike.styled_box : ∀ {w : WordLike} {b : Box}, b ∈ w.boxes → ∀ e ∈ b.styled, e ∈ w.styled
  | .box x, b, hb, e, he => by
    simp only [WordLike.boxes, List.mem_singleton] at hb
    subst hb; exact he
  | .word w, b, hb, e, he => List.mem_append_left _ (List.mem_flatMap.2 ⟨b, hb, he⟩)
  | .withCmd w c, b, hb, e, he => WordLike.styled_box (w := w) hb e he

theorem WordLike.styled_boxless : ∀ {w : WordLike}, w.boxes = [] → ∀ e ∈ w.styled, e.1 = ' '
  | .box x, h, e, he => by simp [WordLike.boxes] at h
  | .word w, h, e, he => by
    simp only [WordLike.boxes] at h
    simp only [WordLike.styled, Word.styled, h, List.flatMap_nil, List.nil_append] at he
    split at he
    · simp only [List.mem_singleton] at he; rw [he]
    · simp at he
  | .withCmd w c, h, e, he => WordLike.styled_boxless (w := w) h e he

theorem Box.WF.first {b : Box} (h : b.WF env) : ∃ s ∈ b.first, s.WF env ∧ ∀ e ∈ s.styled, e ∈ b.styled := by
  cases b with
  | slug s => exact ⟨s, rfl, h, fun _ he => he⟩
  | mixed segs st =>
    cases segs with
    | nil => exact absurd h (by simp [Box.WF, SegsWF])
    | cons e l =>
      obtain ⟨s, c⟩ := e
      have hs : s.WF env := by
        cases l with
        | nil => exact h.1
        | cons x l => exact h.1
      exact ⟨s, rfl, hs, fun e he => List.mem_flatMap.2 ⟨(s, c), by simp, he⟩⟩

/-- The first word of a line of text that does not start with a space, indented. -/
theorem words_start (henv : env.Ok) {line : List Passage} (ht : Tidy line) {st : State} {cmd : Command} {words : List WordLike}
    (h : intoWords env line st = some (cmd, words)) (hz : NonZero (styled line st)) (hs : ∃ e ∈ (styled line st).head?, e.1 ≠ ' ') (a : ℚ) :
    ∃ w ws, indentFirst words a = w :: ws ∧ w.Starts a := by
  obtain ⟨cmd', ws', h1, h2, h3⟩ := intoWords_spec henv line st
  rw [h] at h1
  simp only [Option.some.injEq, Prod.mk.injEq] at h1
  obtain ⟨rfl, rfl⟩ := h1
  obtain ⟨h4, h5⟩ := h3 ht
  obtain ⟨e, he, hne⟩ := hs
  cases words with
  | nil => rw [← h5] at he; simp at he
  | cons w ws =>
    refine ⟨w.indent a, ws, rfl, ?_⟩
    have hb : w.boxes ≠ [] := by
      intro hb
      have hall := WordLike.styled_boxless hb
      rw [← h5, List.flatMap_cons] at he
      cases es : w.styled with
      | nil =>
        have htext : w.text = [] := by simp [WordLike.text, es]
        cases ws with
        | nil =>
          rw [es] at he; simp at he
        | cons x l => exact (h2.ends w (by simp)).ne htext
      | cons y l =>
        rw [es] at he
        simp only [List.cons_append, List.head?_cons, Option.mem_def, Option.some.injEq] at he
        subst he
        exact hne (hall y (by rw [es]; simp))
    refine WordLike.indent_starts a h4.1 (intoWords_noInit henv line st cmd _ h w rfl) ?_ hb
    obtain ⟨b, bs, eb⟩ := List.exists_cons_of_ne_nil hb
    have hmem : b ∈ w.boxes := by rw [eb]; simp
    obtain ⟨s, k1, k2, k3⟩ := (WordLike.boxes_wf h4.1 b hmem).first
    rw [← WordLike.first_state (w := w) (b := b) (by rw [eb]; rfl) k1]
    obtain ⟨c, cs, ec⟩ := List.exists_cons_of_ne_nil k2.ne
    refine hz (c, s.state) ?_
    rw [← h5]
    refine List.mem_flatMap.2 ⟨w, by simp, WordLike.styled_box hmem _ (k3 _ ?_)⟩
    simp [Slug.styled, ec]

/-- The first line of a chunk in one style. -/
theorem chunk_startsAt (W : FontRef → Char → ℚ) {a : ℚ} {c : ShapedText} {l : TLine} {ls : List TLine} {x : WordLike} {xs : List WordLike} (hc : c.lines = l :: ls)
    (hl : l.words = x :: xs) (hx : x.Starts a) (hq : c.StartsQuiet) : c.StartsAt W a := by
  intro pos width v
  have hh : (c.lines.flatMap TLine.words).head? = some x := by rw [hc, List.flatMap_cons, hl]; rfl
  have hp : c.preState = some x.state := by
    simp only [ShapedText.preState]
    exact congrArg (Option.map WordLike.state) hh
  obtain ⟨ops, s, ss, v', h1, h2, h3, h4, h5⟩ := renderText_first (W := W) pos x.state width l.toR (ls.map TLine.toR) c.lead c.align v
  have h6 : v'.In x.preState := by rw [← hq x hh]; exact h3
  obtain ⟨g, gs, h7, h8⟩ := words_first (W := W) hx xs h6
  refine ⟨ops, _, _, s, ss, g, gs, ?_, h2, rfl, rfl, ?_, ?_⟩
  · rw [ShapedText.render, hp, hc]; exact h1
  · rw [h5]
    have : l.toR.ops = encodeWords (x :: xs) [] := by simp [RLine.ops, TLine.toR, hl, Command.ops]
    rw [this]; exact h7
  · rw [h8, h4]

end Pdfje
