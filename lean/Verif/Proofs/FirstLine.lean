import Verif.Props.Paragraph
/-
Where the first line of a paragraph starts.
-/

namespace Pdfje

variable {env : Env}

/-! ### The first piece of a word -/

/-- How far to the right the text of a slug starts. -/
def Slug.start (s : Slug) : ℚ := match s.kern with | (0, k) :: _ => k / 1000 * s.state.size | _ => 0

/-- The text of the slug starts `a` to the right. -/
structure Slug.Starts (a : ℚ) (s : Slug) : Prop where
  ne : s.txt ≠ []
  start : s.start = a
  only : ∀ e ∈ s.kern.tail, e.1 ≠ 0

/-- The first slug of a box. -/
def Box.first : Box → Option Slug
  | .slug s => some s
  | .mixed segs _ => segs.head?.map (·.1)

/-- The text of a word starts `a` to the right. -/
def WordLike.Starts (a : ℚ) (w : WordLike) : Prop := ∃ b ∈ w.boxes.head?, ∃ s ∈ b.first, s.Starts a

theorem Slug.Starts.withHyphen {a : ℚ} {s : Slug} (h : s.Starts a) : (s.withHyphen env).Starts a := by
  obtain ⟨txt, k, w, st⟩ := s
  obtain ⟨h1, h2, h3⟩ := h
  simp only at h1 h3
  have hl : txt.length ≠ 0 := by simpa using h1
  simp only [Slug.withHyphen]
  refine ⟨by simp, ?_, ?_⟩
  · rw [← h2]
    unfold Slug.start
    simp only
    split_ifs with hk
    · cases k with
      | nil =>
        simp only [List.nil_append]
        cases e : txt.length with
        | zero => exact absurd e hl
        | succ n => rfl
      | cons x k => obtain ⟨i, x⟩ := x; cases i <;> rfl
    · rfl
  · split_ifs with hk
    · cases k with
      | nil => simp
      | cons x k =>
        intro e he
        simp only [List.cons_append, List.tail_cons, List.mem_append, List.mem_singleton] at he
        rcases he with he | rfl
        · exact h3 e he
        · exact hl
    · exact h3

theorem Box.first_withHyphen {b : Box} {a : ℚ} {s : Slug} (hs : s ∈ b.first) (h : s.Starts a) : ∃ s' ∈ (b.withHyphen env).first, s'.Starts a := by
  cases b with
  | slug x =>
    simp only [Box.first, Option.mem_def, Option.some.injEq] at hs
    subst hs
    exact ⟨_, rfl, h.withHyphen⟩
  | mixed segs st =>
    cases segs with
    | nil => simp [Box.first] at hs
    | cons e l => exact ⟨s, by simpa [Box.withHyphen, Box.first] using hs, h⟩

theorem WordLike.Starts.of_boxes {a : ℚ} {w x : WordLike} (h : w.Starts a) (e : x.boxes.head? = w.boxes.head?) : x.Starts a := by
  rw [WordLike.Starts, e]; exact h

theorem WordLike.pruned_boxes : ∀ w : WordLike, w.pruned.boxes = w.boxes
  | .box _ => rfl
  | .word w => by simp only [WordLike.pruned, WordLike.boxes, Word.pruned]; split <;> rfl
  | .withCmd w c => by simp only [WordLike.pruned, WordLike.boxes]; exact w.pruned_boxes

theorem WordLike.stretchTail_boxes (a : ℚ) : ∀ w : WordLike, (w.stretchTail a).boxes = w.boxes
  | .box _ => rfl
  | .word w => by
    simp only [WordLike.stretchTail, WordLike.boxes, Word.stretchTail]
    split
    · split <;> rfl
    · rfl
  | .withCmd w c => by
    simp only [WordLike.stretchTail]
    split
    · simp only [WordLike.boxes]; exact w.stretchTail_boxes a
    · rfl

theorem hyphenateLoop_starts {a : ℚ} {b : Box} {rest : List Box} {space : ℚ} {fit n r st} (h : hyphenateLoop env b rest space = some (fit, n, r, st))
    (hb : ∃ s ∈ b.first, s.Starts a) : ∃ b' ∈ fit.head?, ∃ s ∈ b'.first, s.Starts a := by
  cases rest with
  | nil => simp [hyphenateLoop] at h
  | cons x rest =>
    simp only [hyphenateLoop] at h
    split at h
    · simp only [Option.some.injEq, Prod.mk.injEq] at h
      obtain ⟨rfl, -⟩ := h
      obtain ⟨s, hs, h1⟩ := hb
      exact ⟨_, rfl, Box.first_withHyphen hs h1⟩
    · rw [Option.map_eq_some_iff] at h
      obtain ⟨⟨f, n', r', st'⟩, -, e⟩ := h
      simp only [Prod.mk.injEq] at e
      obtain ⟨rfl, -⟩ := e
      exact ⟨b, rfl, hb⟩

theorem Word.hyphenate_starts {a : ℚ} {w x y : Word} {space : ℚ} (h : w.hyphenate env space = some (some x, y)) (hw : (WordLike.word w).Starts a) :
    (WordLike.word x).Starts a := by
  obtain ⟨b, hb, hs⟩ := hw
  unfold Word.hyphenate at h
  split at h
  · simp at h
  · rename_i b' rest e
    have hbb : b' = b := by simpa [WordLike.boxes, e] using hb
    subst hbb
    split at h
    · simp at h
    · rw [Option.map_eq_some_iff] at h
      obtain ⟨⟨f, n, r, st⟩, h1, h2⟩ := h
      simp only [Prod.mk.injEq, Option.some.injEq] at h2
      obtain ⟨rfl, -⟩ := h2
      exact hyphenateLoop_starts h1 hs

theorem WordLike.hyphenate_starts {a : ℚ} {space : ℚ} : ∀ {w x y : WordLike}, w.hyphenate env space = some (some x, y) → w.Starts a → x.Starts a
  | .box b, x, y, h, hw => by simp [WordLike.hyphenate] at h
  | .word w, x, y, h, hw => by
    simp only [WordLike.hyphenate, Option.map_eq_some_iff] at h
    obtain ⟨⟨o, d⟩, h1, h2⟩ := h
    simp only [Prod.mk.injEq, Option.map_eq_some_iff] at h2
    obtain ⟨⟨x', rfl, rfl⟩, -⟩ := h2
    exact Word.hyphenate_starts h1 hw
  | .withCmd w c, x, y, h, hw => by
    simp only [WordLike.hyphenate, Option.map_eq_some_iff] at h
    obtain ⟨⟨o, d⟩, h1, h2⟩ := h
    simp only [Prod.mk.injEq] at h2
    obtain ⟨rfl, -⟩ := h2
    exact WordLike.hyphenate_starts h1 hw

/-! ### The first glyph -/

variable {W : FontRef → Char → ℚ}

/-- Items that start with text, `a` to the right in a font of size `z`. -/
def ItemsStart (a z : ℚ) (items : List ShowItem) : Prop :=
  ∃ f c cs more, (items = .txt f (c :: cs) :: more ∧ a = 0) ∨ ∃ k, items = .adj k :: .txt f (c :: cs) :: more ∧ -k / 1000 * z = a

theorem ItemsStart.append {a z : ℚ} {items : List ShowItem} (h : ItemsStart a z items) (more : List ShowItem) : ItemsStart a z (items ++ more) := by
  obtain ⟨f, c, cs, m, ⟨rfl, h⟩ | ⟨k, rfl, h⟩⟩ := h
  · exact ⟨f, c, cs, m ++ more, .inl ⟨rfl, h⟩⟩
  · exact ⟨f, c, cs, m ++ more, .inr ⟨k, rfl, h⟩⟩

theorem ItemsStart.glyph {a z : ℚ} {items : List ShowItem} (h : ItemsStart a z items) {v : Viewer} {f : FontRef} (hv : v.font = some (f, z)) :
    ∃ g gs, (Viewer.show W items v).1 = g :: gs ∧ g.x = v.x + a := by
  obtain ⟨f, c, cs, m, ⟨rfl, h⟩ | ⟨k, rfl, h⟩⟩ := h
  · exact ⟨_, _, rfl, by simp [Viewer.glyph, h]⟩
  · refine ⟨_, _, rfl, ?_⟩
    simp only [Viewer.glyph, Viewer.dist, hv]
    rw [← h]; ring

theorem encodeLoop_starts (f : FontRef) {txt : List Char} (hne : txt ≠ []) {k : List (Nat × ℚ)} (hk : ∀ e ∈ k, e.1 ≠ 0) :
    ∃ c cs more, (encodeKerningLoop txt 1 0 k).map (Piece.item f) = .txt f (c :: cs) :: more := by
  obtain ⟨c, cs, rfl⟩ := List.exists_cons_of_ne_nil hne
  cases k with
  | nil => exact ⟨c, cs, [], rfl⟩
  | cons e k =>
    obtain ⟨i, x⟩ := e
    cases i with
    | zero => exact absurd rfl (hk (0, x) (by simp))
    | succ i => 
      refine ⟨c, cs.take i, .adj (-x) :: (encodeKerningLoop (c :: cs) 1 (i + 1) k).map (Piece.item f), ?_⟩
      simp only [encodeKerningLoop, Nat.mul_one, List.take_succ_cons, List.drop_zero, List.map_cons, Piece.item]

theorem Slug.Starts.items {a : ℚ} {s : Slug} (h : s.Starts a) : ItemsStart a s.state.size s.toItems := by
  obtain ⟨txt, k, w, st⟩ := s
  obtain ⟨h1, h2, h3⟩ := h
  simp only [Slug.toItems]
  cases k with
  | nil =>
    obtain ⟨c, cs, more, e⟩ := encodeLoop_starts st.font h1 (k := []) (by simp)
    exact ⟨st.font, c, cs, more, .inl ⟨by simpa [encodeKerning, encodeKerningLoop] using e, by simpa [Slug.start] using h2.symm⟩⟩
  | cons e k =>
    obtain ⟨i, x⟩ := e
    simp only [List.tail_cons] at h3
    cases i with
    | zero =>
      obtain ⟨c, cs, more, e⟩ := encodeLoop_starts st.font h1 h3
      refine ⟨st.font, c, cs, more, .inr ⟨-x, ?_, ?_⟩⟩
      · simp [encodeKerning, Piece.item, e]
      · rw [← h2]; simp [Slug.start]
    | succ i =>
      obtain ⟨c, cs, more, e⟩ := encodeLoop_starts st.font h1 (k := (i + 1, x) :: k) (by
        intro e he
        rcases List.mem_cons.1 he with rfl | he
        · simp
        · exact h3 e he)
      refine ⟨st.font, c, cs, more, .inl ⟨e, ?_⟩⟩
      simpa [Slug.start] using h2.symm

/-- The encoding begins with these items. -/
def Begins (items : List ShowItem) (e : List TextOp × List ShowItem) : Prop :=
  (∃ more, e = ([], items ++ more)) ∨ ∃ more ops l, e = (.tj (items ++ more) :: ops, l)

theorem Box.begins (b : Box) (items : List ShowItem) : Begins items (b.encodeInto items) := by
  cases b with
  | slug s => exact .inl ⟨_, rfl⟩
  | mixed segs st =>
    cases segs with
    | nil => exact .inl ⟨[], by simp [Box.encodeInto, encodeSegments]⟩
    | cons e l => obtain ⟨s, c⟩ := e; exact .inr ⟨_, _, _, rfl⟩

theorem Begins.boxes {items : List ShowItem} : ∀ {bs : List Box} {e : List TextOp × List ShowItem}, Begins items e →
    Begins items (e.1 ++ (encodeBoxes bs e.2).1, (encodeBoxes bs e.2).2)
  | [], e, h => by simpa [encodeBoxes] using h
  | b :: bs, e, h => by
    rcases h with ⟨m, rfl⟩ | ⟨m, ops, l, rfl⟩
    · have h1 : Begins items (b.encodeInto (items ++ m)) := by
        rcases b.begins (items ++ m) with ⟨m2, e⟩ | ⟨m2, ops, l, e⟩
        · exact .inl ⟨m ++ m2, by rw [e, List.append_assoc]⟩
        · exact .inr ⟨m ++ m2, ops, l, by rw [e, List.append_assoc]⟩
      have := Begins.boxes (bs := bs) h1
      simpa [encodeBoxes] using this
    · exact .inr ⟨m, _, _, rfl⟩

theorem WordLike.begins : ∀ (w : WordLike) (items : List ShowItem), Begins items (w.encodeInto items)
  | .box b, items => b.begins items
  | .word w, items => by
    have : Begins items (encodeBoxes w.boxes items) := by
      have := Begins.boxes (items := items) (bs := w.boxes) (e := ([], items)) (.inl ⟨[], by rw [List.append_nil]⟩)
      simpa using this
    simp only [WordLike.encodeInto, Word.encodeInto]
    rcases this with ⟨m, e⟩ | ⟨m, ops, l, e⟩
    · rw [e]
      cases w.tail with
      | none => exact .inl ⟨m, rfl⟩
      | some t => exact .inl ⟨m ++ t.toItems w.state, by simp⟩
    · rw [e]; exact .inr ⟨m, ops, _, rfl⟩
  | .withCmd w c, items => by
    simp only [WordLike.encodeInto]
    rcases w.begins items with ⟨m, e⟩ | ⟨m, ops, l, e⟩
    · rw [e]; exact .inr ⟨m, _, _, rfl⟩
    · rw [e]; exact .inr ⟨m, _, _, rfl⟩

theorem Begins.words {items : List ShowItem} : ∀ {ws : List WordLike} {e : List TextOp × List ShowItem}, Begins items e →
    ∃ more ops, e.1 ++ encodeWords ws e.2 = .tj (items ++ more) :: ops
  | [], e, h => by
    rcases h with ⟨m, rfl⟩ | ⟨m, ops, l, rfl⟩
    · exact ⟨m, [], rfl⟩
    · exact ⟨m, _, rfl⟩
  | w :: ws, e, h => by
    rcases h with ⟨m, rfl⟩ | ⟨m, ops, l, rfl⟩
    · have h1 : Begins items (w.encodeInto (items ++ m)) := by
        rcases w.begins (items ++ m) with ⟨m2, e⟩ | ⟨m2, ops, l, e⟩
        · exact .inl ⟨m ++ m2, by rw [e, List.append_assoc]⟩
        · exact .inr ⟨m ++ m2, ops, l, by rw [e, List.append_assoc]⟩
      exact Begins.words (ws := ws) h1
    · exact ⟨m, _, rfl⟩

theorem Box.begins_first {b : Box} {s : Slug} (h : s ∈ b.first) : Begins s.toItems (b.encodeInto []) := by
  cases b with
  | slug x =>
    simp only [Box.first, Option.mem_def, Option.some.injEq] at h
    subst h
    exact .inl ⟨[], by simp [Box.encodeInto]⟩
  | mixed segs st =>
    cases segs with
    | nil => simp [Box.first] at h
    | cons e l =>
      obtain ⟨x, c⟩ := e
      simp only [Box.first, List.head?_cons, Option.map_some, Option.mem_def, Option.some.injEq] at h
      subst h
      exact .inr ⟨[], c.ops ++ (encodeSegments l []).1, (encodeSegments l []).2, by simp [Box.encodeInto, encodeSegments]⟩

theorem WordLike.begins_first : ∀ {w : WordLike} {b : Box} {s : Slug}, b ∈ w.boxes.head? → s ∈ b.first → Begins s.toItems (w.encodeInto [])
  | .box x, b, s, hb, hs => by
    simp only [WordLike.boxes, List.head?_cons, Option.mem_def, Option.some.injEq] at hb
    subst hb
    exact Box.begins_first hs
  | .word w, b, s, hb, hs => by
    have : Begins s.toItems (encodeBoxes w.boxes []) := by
      obtain ⟨rest, e⟩ : ∃ rest, w.boxes = b :: rest := by
        simp only [WordLike.boxes] at hb
        exact List.head?_eq_some_iff.1 hb
      rw [e]
      exact Begins.boxes (bs := rest) (Box.begins_first hs)
    simp only [WordLike.encodeInto, Word.encodeInto]
    rcases this with ⟨m, e⟩ | ⟨m, ops, l, e⟩
    · rw [e]
      cases w.tail with
      | none => exact .inl ⟨m, rfl⟩
      | some t => exact .inl ⟨m ++ t.toItems w.state, by simp⟩
    · rw [e]; exact .inr ⟨m, ops, _, rfl⟩
  | .withCmd w c, b, s, hb, hs => by
    simp only [WordLike.encodeInto]
    rcases WordLike.begins_first (w := w) hb hs with ⟨m, e⟩ | ⟨m, ops, l, e⟩
    · rw [e]; exact .inr ⟨m, _, _, rfl⟩
    · rw [e]; exact .inr ⟨m, _, _, rfl⟩

theorem WordLike.first_state : ∀ {w : WordLike} {b : Box} {s : Slug}, b ∈ w.boxes.head? → s ∈ b.first → s.state = w.preState
  | .box x, b, s, hb, hs => by
    simp only [WordLike.boxes, List.head?_cons, Option.mem_def, Option.some.injEq] at hb
    subst hb
    rcases x with x | ⟨_ | ⟨⟨x, c⟩, l⟩, st⟩ <;> simp_all [Box.first, WordLike.preState, Box.preState]
  | .word w, b, s, hb, hs => by
    obtain ⟨rest, e⟩ : ∃ rest, w.boxes = b :: rest := by
      simp only [WordLike.boxes] at hb
      exact List.head?_eq_some_iff.1 hb
    rcases b with x | ⟨_ | ⟨⟨x, c⟩, l⟩, st⟩ <;> simp_all [Box.first, WordLike.preState, Box.preState, Word.preState]
  | .withCmd w c, b, s, hb, hs => WordLike.first_state (w := w) hb hs

/-- The first glyph of a line. -/
theorem words_first {a : ℚ} {w : WordLike} (h : w.Starts a) (ws : List WordLike) {v : Viewer} (hv : v.In w.preState) :
    ∃ g gs, (Viewer.run W (encodeWords (w :: ws) []) v).1 = g :: gs ∧ g.x = v.x + a := by
  obtain ⟨b, hb, s, hs, h1⟩ := h
  obtain ⟨more, ops, e⟩ := Begins.words (ws := ws) (WordLike.begins_first hb hs)
  have e' : encodeWords (w :: ws) [] = .tj (s.toItems ++ more) :: ops := e
  have hst := WordLike.first_state hb hs
  obtain ⟨g, gs, h2, h3⟩ := (h1.items.append more).glyph (W := W) (v := v) (f := s.state.font) (by rw [hst]; exact hv.1)
  rw [e']
  simp only [Viewer.run, Viewer.step, h2, List.cons_append]
  exact ⟨g, _, rfl, h3⟩

/-- The first line of a text. -/
theorem renderText_first (pos : ℚ × ℚ) (st : State) (prev : ℚ) (l : RLine) (ls : List RLine) (lead : ℚ) (align : Align) (v : Viewer) :
    ∃ ops s ss v', renderText pos (some st) prev (l :: ls) lead align = .text ops ∧
      Viewer.textLines W ops v = ⟨[], 0, 0, 0⟩ :: ⟨[], pos.2, pos.1, pos.1⟩ :: s :: ss ∧ v'.In st ∧ v'.x = s.left ∧
      s.glyphs = (Viewer.run W l.ops v').1 := by
  suffices hs : ∃ s ss v', Viewer.textLines W (.td pos.1 pos.2 :: st.ops ++ renderLines align (l :: ls) lead prev) v =
      ⟨[], 0, 0, 0⟩ :: ⟨[], pos.2, pos.1, pos.1⟩ :: s :: ss ∧ v'.In st ∧ v'.x = s.left ∧ s.glyphs = (Viewer.run W l.ops v').1 by
    obtain ⟨s, ss, v', h⟩ := hs
    exact ⟨_, s, ss, v', rfl, h⟩
  rw [Viewer.textLines, List.cons_append, Viewer.lines]
  simp only [Viewer.step, TextOp.moves, if_true]
  set v1 := v.beginText.newLine pos.1 pos.2 with hv1
  have ex : v1.x = pos.1 := by simp [hv1, Viewer.newLine, Viewer.beginText]
  have ey : v1.lineY = pos.2 := by simp [hv1, Viewer.newLine, Viewer.beginText]
  have hst : Stays st.ops := .cons rfl (.cons rfl .nil)
  rw [lines_stays _ _ _ _ hst rfl]
  have e2 : Viewer.run W st.ops v1 = ([], { v1 with font := some (st.font, st.size), color := st.color }) := rfl
  rw [e2]
  simp only [List.append_nil]
  set v2 : Viewer := { v1 with font := some (st.font, st.size), color := st.color } with hv2
  have hin : v2.In st := ⟨rfl, rfl⟩
  have x2 : v2.x = pos.1 := ex
  have moved : ∀ (ratio : ℚ) (f : List RLine → ℚ → List TextOp) (hf0 : ∀ p, f [] p = [])
      (hf : ∀ l ls p, f (l :: ls) p = .tdl ((p - l.width) * ratio) (-lead) :: l.ops ++ f ls l.width),
      ∃ s ss v', Viewer.lines W (f (l :: ls) prev) v2 ⟨[], v1.lineY, v1.x, v1.x⟩ = ⟨[], pos.2, pos.1, pos.1⟩ :: s :: ss ∧ v'.In st ∧ v'.x = s.left ∧
        s.glyphs = (Viewer.run W l.ops v').1 := by
    intro ratio f hf0 hf
    rw [hf, List.cons_append, Viewer.lines]
    simp only [Viewer.step, TextOp.moves, if_true]
    rw [lines_stays _ _ _ _ l.stays rfl]
    obtain ⟨ss, h1, -⟩ := moved_places (W := W) lead ratio f hf0 hf ls
      (Viewer.run W l.ops { v2.newLine ((prev - l.width) * ratio) (-lead) with leading := - -lead }).2
      ⟨[] ++ (Viewer.run W l.ops { v2.newLine ((prev - l.width) * ratio) (-lead) with leading := - -lead }).1, 
        ({ v2.newLine ((prev - l.width) * ratio) (-lead) with leading := - -lead } : Viewer).lineY,
        ({ v2.newLine ((prev - l.width) * ratio) (-lead) with leading := - -lead } : Viewer).x,
        (Viewer.run W l.ops { v2.newLine ((prev - l.width) * ratio) (-lead) with leading := - -lead }).2.x⟩ l.width
    refine ⟨⟨[] ++ (Viewer.run W l.ops { v2.newLine ((prev - l.width) * ratio) (-lead) with leading := - -lead }).1, 
        ({ v2.newLine ((prev - l.width) * ratio) (-lead) with leading := - -lead } : Viewer).lineY,
        ({ v2.newLine ((prev - l.width) * ratio) (-lead) with leading := - -lead } : Viewer).x,
        (Viewer.run W l.ops { v2.newLine ((prev - l.width) * ratio) (-lead) with leading := - -lead }).2.x⟩, ss,
      { v2.newLine ((prev - l.width) * ratio) (-lead) with leading := - -lead }, ?_, hin, rfl, ?_⟩
    · rw [h1, ex, ey]
    · simp
  have left : ∃ s ss v', Viewer.lines W (renderLeft (l :: ls) lead) v2 ⟨[], v1.lineY, v1.x, v1.x⟩ = ⟨[], pos.2, pos.1, pos.1⟩ :: s :: ss ∧ v'.In st ∧
      v'.x = s.left ∧ s.glyphs = (Viewer.run W l.ops v').1 := by
    rw [renderLeft, Viewer.lines]
    simp only [Viewer.step, TextOp.moves, Bool.false_eq_true, if_false, List.append_nil]
    rw [List.flatMap_cons, List.cons_append, Viewer.lines]
    simp only [Viewer.step, TextOp.moves, if_true]
    rw [lines_stays _ _ _ _ l.stays rfl]
    set v3 : Viewer := ({ v2 with leading := lead } : Viewer).newLine 0 (-lead) with hv3
    obtain ⟨-, -, g5⟩ := run_line (W := W) l.ops v3 l.stays
    obtain ⟨ss, h1, -⟩ := left_places (W := W) lead ls (Viewer.run W l.ops v3).2
      ⟨[] ++ (Viewer.run W l.ops v3).1, v3.lineY, v3.x, (Viewer.run W l.ops v3).2.x⟩ g5
    refine ⟨⟨[] ++ (Viewer.run W l.ops v3).1, v3.lineY, v3.x, (Viewer.run W l.ops v3).2.x⟩, ss, v3, ?_, hin, rfl, ?_⟩
    · rw [h1, ex, ey]
    · simp
  have fin : ∀ {x : List ShownLine}, (∃ s ss v', x = ⟨[], pos.2, pos.1, pos.1⟩ :: s :: ss ∧ v'.In st ∧ v'.x = s.left ∧ s.glyphs = (Viewer.run W l.ops v').1) →
      ∃ s ss v', (⟨[], 0, 0, 0⟩ : ShownLine) :: x = ⟨[], 0, 0, 0⟩ :: ⟨[], pos.2, pos.1, pos.1⟩ :: s :: ss ∧ v'.In st ∧ v'.x = s.left ∧
        s.glyphs = (Viewer.run W l.ops v').1 := by
    rintro x ⟨s, ss, v', rfl, h⟩
    exact ⟨s, ss, v', rfl, h⟩
  cases align with
  | left => exact fin left
  | justify => exact fin left
  | center =>
    exact fin (moved (1 / 2) (fun ls p => renderCentered lead ls p) (fun p => rfl)
      (fun l ls p => by show renderCentered lead (l :: ls) p = _; rw [renderCentered, div_eq_mul_one_div]))
  | right =>
    exact fin (moved 1 (fun ls p => renderRight lead ls p) (fun p => rfl)
      (fun l ls p => by show renderRight lead (l :: ls) p = _; rw [renderRight, mul_one]))

/-! ### Indenting -/

theorem Slug.indent_starts {s : Slug} (hs : s.WF env) (h : s.hasInitKern = false) (hz : s.state.size ≠ 0) (a : ℚ) : (s.indent a).Starts a := by
  obtain ⟨txt, k, w, st⟩ := s
  have hk : ∀ e ∈ k, e.1 ≠ 0 := by
    cases k with
    | nil => simp
    | cons e k =>
      obtain ⟨i, x⟩ := e
      cases i with
      | zero => simp [Slug.hasInitKern] at h
      | succ i =>
        intro e he
        rcases List.mem_cons.1 he with rfl | he
        · simp
        · have : i + 1 ≤ e.1 := (List.pairwise_cons.1 hs.kern.1).1 e.1 (List.mem_map_of_mem he)
          omega
  by_cases ha : a = 0
  · subst ha
    refine ⟨by simpa [Slug.indent] using hs.ne, ?_, ?_⟩
    · simp only [Slug.indent, if_true, Slug.start]
      cases k with
      | nil => rfl
      | cons e k =>
        obtain ⟨i, x⟩ := e
        cases i with
        | zero => exact absurd rfl (hk (0, x) (by simp))
        | succ i => rfl
    · intro e he
      simp only [Slug.indent, if_true] at he
      exact hk e (List.mem_of_mem_tail he)
  · refine ⟨by simpa [Slug.indent, ha] using hs.ne, ?_, ?_⟩
    · simp only [Slug.indent, if_neg ha, Slug.start]
      simp only at hz
      field_simp
    · simpa [Slug.indent, ha] using hk

theorem Box.indent_starts {b : Box} (hb : b.WF env) (h : b.hasInitKern = false) (hz : b.preState.size ≠ 0) (a : ℚ) :
    ∃ s ∈ (b.indent a).first, s.Starts a := by
  cases b with
  | slug s => exact ⟨_, rfl, Slug.indent_starts hb h hz a⟩
  | mixed segs st =>
    cases segs with
    | nil => exact absurd hb (by simp [Box.WF, SegsWF])
    | cons e l =>
      obtain ⟨s, c⟩ := e
      have hs : s.WF env := by
        cases l with
        | nil => exact hb.1
        | cons x l => exact hb.1
      refine ⟨s.indent a, ?_, Slug.indent_starts hs h hz a⟩
      simp only [Box.indent]
      split
      · rename_i ha; subst ha; simp [Box.first, Slug.indent]
      · rfl

theorem WordLike.indent_starts (a : ℚ) : ∀ {w : WordLike}, w.WF env → w.hasInitKern = false → w.preState.size ≠ 0 → w.boxes ≠ [] → (w.indent a).Starts a
  | .box b, hw, h, hz, _ => ⟨b.indent a, rfl, Box.indent_starts hw h hz a⟩
  | .word w, hw, h, hz, hne => by
    obtain ⟨b, bs, e⟩ := List.exists_cons_of_ne_nil hne
    simp only [WordLike.boxes] at e
    have h1 : b.hasInitKern = false := by simpa [WordLike.hasInitKern, Word.hasInitKern, e] using h
    have h2 : b.preState.size ≠ 0 := by simpa [WordLike.preState, Word.preState, e] using hz
    have h3 := Box.indent_starts (WordLike.boxes_wf hw b (by simp [WordLike.boxes, e])) h1 h2 a
    refine ⟨b.indent a, ?_, h3⟩
    simp only [WordLike.indent, WordLike.boxes, Word.indent]
    split
    · rename_i ha
      subst ha
      rw [e]
      rcases b with s | ⟨_ | ⟨x, l⟩, st⟩ <;> simp [Box.indent, Slug.indent]
    · rw [e]; rfl
  | .withCmd w c, hw, h, hz, hne => by
    have := WordLike.indent_starts a (w := w) hw h hz hne
    simp only [WordLike.indent]
    split
    · rename_i ha
      subst ha
      have e : w.indent 0 = w := by
        cases w with
        | box b => rcases b with s | ⟨_ | ⟨x, l⟩, st⟩ <;> simp [WordLike.indent, Box.indent, Slug.indent]
        | word w => simp [WordLike.indent, Word.indent]
        | withCmd w c => simp [WordLike.indent]
      rw [e] at this
      exact this
    · exact this

end Pdfje
