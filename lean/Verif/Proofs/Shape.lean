import Verif.Proofs.FirstFit
/-
First-fit shaping of columns.
-/

namespace Pdfje

variable {env : Env}

/-- Lines taken one after the other from a queue, at one width. -/
inductive LinesFrom (env : Env) (width : ℚ) : Option (List WordLike) → List TLine → Option (List WordLike) → Prop
  | nil (q) : LinesFrom env width q [] q
  | cons (ws q ln lines q') : takeLine env ws width = some (q, ln) → LinesFrom env width q lines q' →
      LinesFrom env width (some ws) (ln :: lines) q'

theorem LinesFrom.snoc {width : ℚ} {q : Option (List WordLike)} {lines : List TLine} {ws : List WordLike} {q' : Option (List WordLike)}
    {ln : TLine} (h : LinesFrom env width q lines (some ws)) (ht : takeLine env ws width = some (q', ln)) :
    LinesFrom env width q (lines ++ [ln]) q' := by
  generalize hq : some ws = x at h
  induction h with
  | nil q => subst hq; exact .cons _ _ _ _ _ ht (.nil _)
  | cons ws' q ln' lines q'' h1 h2 ih => exact .cons _ _ _ _ _ h1 (ih hq)

theorem LinesFrom.from_none {width : ℚ} {lines : List TLine} {q' : Option (List WordLike)} (h : LinesFrom env width none lines q') :
    lines = [] ∧ q' = none := by
  cases h; exact ⟨rfl, rfl⟩

/-- The words before the last line, if there is one. -/
def UndoOk (env : Env) (width : ℚ) (q : Option (List WordLike)) (lines : List TLine) (q' undo : Option (List WordLike)) : Prop :=
  ∀ init l, lines = init ++ [l] → ∃ ws, undo = some ws ∧ LinesFrom env width q init (some ws) ∧ takeLine env ws width = some (q', l)

theorem takeLines_spec (width : ℚ) : ∀ (n : Nat) (q prev q' : Option (List WordLike)) (lines : List TLine) (p : Option (List WordLike)),
    takeLines env width n q prev = some (q', lines, p) →
    LinesFrom env width q lines q' ∧ lines.length ≤ n ∧ (q' = none ∨ lines.length = n) ∧ (lines = [] → p = prev) ∧
      UndoOk env width q lines q' p
  | 0, q, prev, q', lines, p, h => by
    simp only [takeLines, Option.some.injEq, Prod.mk.injEq] at h
    obtain ⟨rfl, rfl, rfl⟩ := h
    exact ⟨.nil _, by simp, Or.inr rfl, fun _ => rfl, by intro init l e; simp at e⟩
  | n + 1, none, prev, q', lines, p, h => by
    simp only [takeLines, Option.some.injEq, Prod.mk.injEq] at h
    obtain ⟨rfl, rfl, rfl⟩ := h
    exact ⟨.nil _, by simp, Or.inl rfl, fun _ => rfl, by intro init l e; simp at e⟩
  | n + 1, some ws, prev, q', lines, p, h => by
    simp only [takeLines] at h
    split at h
    · simp at h
    · rename_i queue ln e
      simp only [Option.map_eq_some_iff, Prod.exists, Prod.mk.injEq] at h
      obtain ⟨q1, l1, p1, h, rfl, rfl, rfl⟩ := h
      obtain ⟨i1, i2, i3, i4, i5⟩ := takeLines_spec width n _ _ _ _ _ h
      refine ⟨.cons _ _ _ _ _ e i1, by simpa using i2, ?_, by simp, ?_⟩
      · rcases i3 with i3 | i3
        · exact Or.inl i3
        · exact Or.inr (by simp [i3])
      · intro init l el
        cases init with
        | nil =>
          simp only [List.nil_append, List.cons.injEq] at el
          obtain ⟨rfl, rfl⟩ := el
          cases i1
          exact ⟨ws, i4 rfl, .nil _, e⟩
        | cons x init =>
          simp only [List.cons_append, List.cons.injEq] at el
          obtain ⟨rfl, el⟩ := el
          obtain ⟨ws', h1, h2, h3⟩ := i5 init l el
          exact ⟨ws', h1, .cons _ _ _ _ _ e h2, h3⟩

/-- A column of lines. -/
structure BoxOk (env : Env) (q : Option (List WordLike)) (col : ℚ × ℚ) (allowEmpty : Bool) (lead : ℚ) (q' : Option (List WordLike))
    (lines : List TLine) (undo : Option (List WordLike)) : Prop where
  taken : LinesFrom env col.1 q lines q'
  count : lines.length ≤ maxLines col.2 lead allowEmpty
  full : q' = none ∨ lines.length = maxLines col.2 lead allowEmpty
  noUndo : lines = [] → undo = q
  undoOk : UndoOk env col.1 q lines q' undo
  leadNe : lead ≠ 0

theorem takeBox_spec {q : Option (List WordLike)} {col : ℚ × ℚ} {ae : Bool} {lead : ℚ} {q' lines undo}
    (h : takeBox env q col ae lead = some (q', lines, undo)) : BoxOk env q col ae lead q' lines undo := by
  unfold takeBox at h
  split at h
  · simp at h
  · rename_i hl
    obtain ⟨h1, h2, h3, h4, h5⟩ := takeLines_spec _ _ _ _ _ _ _ h
    exact ⟨h1, h2, h3, h4, h5, hl⟩

theorem LinesFrom.ne_nil {width : ℚ} {ws : List WordLike} {lines : List TLine} (h : LinesFrom env width (some ws) lines none) : lines ≠ [] := by
  cases h; simp

theorem LinesFrom.append {width : ℚ} {q q' q'' : Option (List WordLike)} {a b : List TLine} (h1 : LinesFrom env width q a q')
    (h2 : LinesFrom env width q' b q'') : LinesFrom env width q (a ++ b) q'' := by
  induction h1 with
  | nil q => exact h2
  | cons ws q ln lines q' h1 h2' ih => exact .cons _ _ _ _ _ h1 (ih h2)

/-- Columns of lines, from column `i` on; `ae`: this column may be empty. -/
inductive Chunks (env : Env) (cols : Cols) (lead : ℚ) : Nat → Bool → List WordLike → List (List TLine) → Prop
  | last (i ae ws lines) : LinesFrom env (cols i).1 (some ws) lines none → lines.length ≤ maxLines (cols i).2 lead ae →
      Chunks env cols lead i ae ws [lines]
  | more (i ae ws lines ws' rest) : LinesFrom env (cols i).1 (some ws) lines (some ws') →
      lines.length ≤ maxLines (cols i).2 lead ae → (ae = false → 0 < maxLines (cols i).2 lead ae → lines ≠ []) →
      Chunks env cols lead (i + 1) false ws' rest → Chunks env cols lead i ae ws (lines :: rest)

theorem BoxOk.ne {ws : List WordLike} {col : ℚ × ℚ} {ae : Bool} {lead : ℚ} {ws' : List WordLike} {lines undo}
    (h : BoxOk env (some ws) col ae lead (some ws') lines undo) (hm : 0 < maxLines col.2 lead ae) : lines ≠ [] := by
  rcases h.full with h | h
  · simp at h
  · rw [← h] at hm; exact List.ne_nil_of_length_pos hm

theorem shapeSimple_chunks (cols : Cols) (lead : ℚ) (i : Nat) (ws : List WordLike) (ae : Bool)
    (out : List (List TLine)) (h : shapeSimple env cols lead i (some ws) ae = some out) : Chunks env cols lead i ae ws out := by
  refine shapeSimple.partial_correctness env cols lead (fun i q ae out => ∀ ws, q = some ws → Chunks env cols lead i ae ws out) ?_
    i (some ws) ae out h ws rfl
  rintro f ih i _ ae out h ws rfl
  split at h
  · simp at h
  · rename_i q' lines undo e
    have hb := takeBox_spec e
    split at h
    · simp only [Option.some.injEq] at h
      subst h
      exact .last _ _ _ _ hb.taken hb.count
    · rename_i ws'
      simp only [Option.bind_eq_bind, Option.bind_eq_some_iff, Option.some.injEq] at h
      obtain ⟨more, h1, rfl⟩ := h
      exact .more _ _ _ _ _ _ hb.taken hb.count (fun _ => hb.ne) (ih _ _ _ _ h1 _ rfl)

/-- The column before the current one, in the loop that avoids orphans. -/
structure Prev (env : Env) (cols : Cols) (lead : ℚ) (i : Nat) (ae : Bool) (q : List WordLike) (prev : List TLine) (w : List WordLike)
    (undo : Option (List WordLike)) : Prop where
  taken : LinesFrom env (cols i).1 (some q) prev (some w)
  count : prev.length ≤ maxLines (cols i).2 lead ae
  ne : ae = false → 0 < maxLines (cols i).2 lead ae → prev ≠ []
  undo_ok : UndoOk env (cols i).1 (some q) prev (some w) undo ∨
      ∀ q' lines u, takeBox env (some w) (cols (i + 1)) false lead = some (q', lines, u) → lines.length ≠ 1

theorem BoxOk.prev {cols : Cols} {i : Nat} {ws : List WordLike} {ae : Bool} {lead : ℚ} {ws' : List WordLike} {lines undo}
    (h : BoxOk env (some ws) (cols i) ae lead (some ws') lines undo) : Prev env cols lead i ae ws lines ws' undo :=
  ⟨h.taken, h.count, fun _ => h.ne, Or.inl h.undoOk⟩

/-- Moving the last line of the column to the next one. -/
theorem Prev.back {cols : Cols} {lead : ℚ} {i : Nat} {ae : Bool} {q : List WordLike} {prev : List TLine} {w wu : List WordLike}
    (hu : UndoOk env (cols i).1 (some q) prev (some w) (some wu)) (hc : prev.length > 2)
    (hk : prev.length ≤ maxLines (cols i).2 lead ae) {q2 linesNew undo2}
    (e2 : takeBox env (some wu) (cols (i + 1)) false lead = some (q2, linesNew, undo2)) (hne : linesNew.length ≠ 1)
    (undo : Option (List WordLike)) :
    Prev env cols lead i ae q prev.dropLast wu undo := by
  obtain ⟨init, l, rfl⟩ : ∃ init l, prev = init ++ [l] := by
    rcases List.eq_nil_or_concat prev with rfl | ⟨a, b, rfl⟩
    · simp at hc
    · exact ⟨a, b, by simp⟩
  obtain ⟨wu', h1, h2, h3⟩ := hu init l rfl
  simp only [Option.some.injEq] at h1
  subst h1
  simp only [List.length_append, List.length_cons, List.length_nil] at hc hk
  rw [List.dropLast_concat]
  refine ⟨h2, by omega, fun _ _ => List.ne_nil_of_length_pos (by omega), Or.inr ?_⟩
  intro q3 l3 u3 e3
  rw [e2] at e3
  simp only [Option.some.injEq, Prod.mk.injEq] at e3
  rw [← e3.2.1]; exact hne

theorem avoidLoop_chunks (cols : Cols) (lead : ℚ) (i : Nat) (ws : List WordLike) (prev : List TLine) (undo : Option (List WordLike))
    (out : List (List TLine)) (h : avoidLoop env cols lead (i + 1) (some ws) prev undo = some out) (ae : Bool) (q : List WordLike)
    (hp : Prev env cols lead i ae q prev ws undo) :
    Chunks env cols lead i ae q out := by
  refine avoidLoop.partial_correctness env cols lead (fun j ws prev undo out => ∀ i w ae q, j = i + 1 → ws = some w →
    Prev env cols lead i ae q prev w undo → Chunks env cols lead i ae q out) ?_ (i + 1) (some ws) prev undo out h i ws ae q rfl rfl hp
  rintro f ih _ _ prev undo out h i w ae q rfl rfl hp
  split at h
  · simp at h
  · rename_i q' lines undo' e
    have hb := takeBox_spec e
    split at h
    · rename_i ws'
      simp only [Option.bind_eq_bind, Option.bind_eq_some_iff, Option.some.injEq] at h
      obtain ⟨more, h1, rfl⟩ := h
      exact .more _ _ _ _ _ _ hp.taken hp.count hp.ne (ih _ _ _ _ _ h1 (i + 1) ws' false w rfl rfl hb.prev)
    · split at h
      · rename_i hc
        split at h
        · simp at h
        · rename_i wu
          split at h
          · simp at h
          · rename_i q2 linesNew undo2 e2
            split at h
            · simp only [Option.some.injEq] at h
              subst h
              exact .more _ _ _ _ _ _ hp.taken hp.count hp.ne (.last _ _ _ _ hb.taken hb.count)
            · rename_i hne
              rcases hp.undo_ok with hu | hu
              · exact ih _ _ _ _ _ h i wu ae q rfl rfl (Prev.back hu hc.2.1 hp.count e2 hne _)
              · exact absurd hc.1 (hu _ _ _ e)
      · simp only [Option.some.injEq] at h
        subst h
        exact .more _ _ _ _ _ _ hp.taken hp.count hp.ne (.last _ _ _ _ hb.taken hb.count)

/-- The start of the loop when the only line of the first column is moved to the next. -/
theorem Prev.restart (cols : Cols) (lead : ℚ) (ws : List WordLike) : Prev env cols lead 0 true ws [] ws (some ws) :=
  ⟨.nil _, by simp, by simp, Or.inl (by intro init l e; simp at e)⟩

theorem shapeAvoid_chunks (cols : Cols) (lead : ℚ) (ws : List WordLike) (ae : Bool) (out : List (List TLine))
    (h : shapeAvoidOrphans env cols lead (some ws) ae = some out) : Chunks env cols lead 0 ae ws out := by
  unfold shapeAvoidOrphans at h
  split at h
  · simp at h
  · rename_i q' lines undo e
    have hb := takeBox_spec e
    split at h
    · rename_i hc
      obtain ⟨l, rfl⟩ := List.length_eq_one_iff.1 hc.2.1
      obtain ⟨wu, h1, h2, h3⟩ := hb.undoOk [] l rfl
      cases h2
      subst h1
      obtain rfl : ae = true := hc.2.2
      exact avoidLoop_chunks cols lead 0 ws [] (some ws) out h true ws (Prev.restart _ _ _)
    · split at h
      · rename_i hn
        rw [Option.isNone_iff_eq_none] at hn
        subst hn
        simp only [Option.some.injEq] at h
        subst h
        exact .last _ _ _ _ hb.taken hb.count
      · rename_i hn
        obtain ⟨ws', rfl⟩ : ∃ ws', q' = some ws' := by cases q' with | none => simp at hn | some x => exact ⟨x, rfl⟩
        exact avoidLoop_chunks cols lead 0 ws' lines undo out h ae ws hb.prev

/-- The lines of both variants. -/
theorem shape_chunks (cols : Cols) (lead : ℚ) (avoid : Bool) (ws : List WordLike) (ae : Bool) (out : List (List TLine))
    (h : (if avoid then shapeAvoidOrphans env cols lead (some ws) ae else shapeSimple env cols lead 0 (some ws) ae) = some out) :
    Chunks env cols lead 0 ae ws out := by
  split at h
  · exact shapeAvoid_chunks _ _ _ _ _ h
  · exact shapeSimple_chunks _ _ _ _ _ _ h

/-! ### Text -/

/-- The boundaries of the words that are left are those of all words. -/
def SameBounds (all a : List WordLike) : Prop := ∀ n < textLen a, Boundary a n ↔ Boundary all n

theorem LinesFrom.text {all : List WordLike} {width : ℚ} {q : Option (List WordLike)} {lines : List TLine} {q' : Option (List WordLike)}
    (h : LinesFrom env width q lines q') : ∀ pre fin, WordsWF env (q.getD []) pre fin → (∀ w ∈ q.getD [], w.styled ≠ []) →
      SameBounds all (q.getD []) → ∃ mid,
      WordsWF env (lines.flatMap TLine.words) pre mid ∧ WordsWF env (q'.getD []) mid fin ∧ (∀ w ∈ q'.getD [], w.styled ≠ []) ∧
      SameBounds all (q'.getD []) ∧
      ∀ more, LinesShow all more ((q'.getD []).flatMap WordLike.styled) →
        LinesShow all (lines.map TLine.styled ++ more) ((q.getD []).flatMap WordLike.styled) := by
  induction h with
  | nil q => intro pre fin hw hn hb; exact ⟨pre, rfl, hw, hn, hb, fun _ h => h⟩
  | cons ws q ln lines q' h1 h2 ih =>
    intro pre fin hw hn hb
    have lo := (takeLine_ending h1).1.lineOk hw
    obtain ⟨mid, piece, a1, a2, a3, a4⟩ := lo.ok
    have hb' : SameBounds all (q.getD []) := by
      intro n hlt
      rw [lo.left n hlt]
      rcases lo.less hn with rfl | hl
      · simp [textLen] at hlt
      · exact hb n (by simp only [Option.getD_some]; omega)
    have hbd : Boundary ws (textLen (q.getD [])) ↔ Boundary all (textLen (q.getD [])) := by
      rcases lo.less hn with rfl | hl
      · simp only [Option.getD_none]; exact iff_of_true (.zero _) (.zero _)
      · exact hb _ hl
    obtain ⟨mid', b1, b2, b3, b4, b5⟩ := ih mid fin a2 (lo.ne hn) hb'
    refine ⟨mid', ?_, b2, b3, b4, ?_⟩
    · simp only [List.flatMap_cons]; exact a1.append b1
    · intro more hm
      have := b5 more hm
      simp only [Option.getD_some, List.map_cons, List.cons_append]
      rw [a3]
      rw [hbd] at a4
      refine .cons _ _ _ _ ?_ ?_ this
      · intro hB
        rcases a4 with ⟨-, h⟩ | ⟨h, -⟩
        · exact h
        · exact absurd hB h
      · intro hB
        rcases a4 with ⟨h, -⟩ | ⟨-, h⟩
        · exact absurd h hB
        · exact h

theorem Chunks.text {all : List WordLike} {cols : Cols} {lead : ℚ} {i : Nat} {ae : Bool} {ws : List WordLike} {out : List (List TLine)}
    (h : Chunks env cols lead i ae ws out) :
    ∀ pre fin, WordsWF env ws pre fin → (∀ w ∈ ws, w.styled ≠ []) → SameBounds all ws →
      WordsWF env (out.flatten.flatMap TLine.words) pre fin ∧
      LinesShow all (out.flatten.map TLine.styled) (ws.flatMap WordLike.styled) := by
  induction h with
  | last i ae ws lines h _ =>
    intro pre fin hw hn hb
    obtain ⟨mid, b1, b2, b3, b4, b5⟩ := h.text pre fin hw hn hb
    cases b2
    exact ⟨by simpa using b1, by simpa using b5 [] .nil⟩
  | more i ae ws lines ws' rest h1 _ _ h2 ih =>
    intro pre fin hw hn hb
    obtain ⟨mid, b1, b2, b3, b4, b5⟩ := h1.text pre fin hw hn hb
    obtain ⟨c1, c2⟩ := ih mid fin b2 b3 b4
    refine ⟨by simpa using b1.append c1, ?_⟩
    simp only [List.flatten_cons, List.map_append]
    exact b5 _ c2

theorem SameBounds.refl (ws : List WordLike) : SameBounds ws ws := fun _ _ => Iff.rfl

/-! ### All lines -/

/-- The words that are left after some lines. -/
inductive Left (env : Env) (ws : List WordLike) : List WordLike → Prop
  | refl : Left env ws ws
  | step {a b width line} : Left env ws a → takeLine env a width = some (some b, line) → Left env ws b

theorem Left.trans {a b c : List WordLike} (h1 : Left env a b) (h2 : Left env b c) : Left env a c := by
  induction h2 with
  | refl => exact h1
  | step _ h ih => exact .step ih h

theorem LinesFrom.left {width : ℚ} {ws ws' : List WordLike} {lines : List TLine} (h : LinesFrom env width (some ws) lines (some ws')) :
    Left env ws ws' := by
  generalize hq : some ws = q at h
  generalize hq' : some ws' = q' at h
  induction h generalizing ws with
  | nil q => subst hq; simp only [Option.some.injEq] at hq'; subst hq'; exact .refl
  | cons ws0 q ln lines q' h1 h2 ih =>
    simp only [Option.some.injEq] at hq
    subst hq
    cases q with
    | none => have := h2.from_none; rw [this.2] at hq'; simp at hq'
    | some a => exact (Left.step .refl h1).trans (ih rfl hq')

/-- Each line is taken from the words left after those before it; the line that takes the last words is the last. -/
theorem LinesFrom.line {width : ℚ} {ws : List WordLike} {q' : Option (List WordLike)} {lines : List TLine}
    (h : LinesFrom env width (some ws) lines q') : ∀ k line, lines[k]? = some line →
      ∃ a r, Left env ws a ∧ takeLine env a width = some (r, line) ∧ (r = none ↔ q' = none ∧ k + 1 = lines.length) := by
  generalize hq : some ws = q at h
  induction h generalizing ws with
  | nil q => simp
  | cons ws0 q ln lines q' h1 h2 ih =>
    simp only [Option.some.injEq] at hq
    subst hq
    intro k line hk
    cases k with
    | zero =>
      simp only [List.getElem?_cons_zero, Option.some.injEq] at hk
      subst hk
      refine ⟨ws, q, .refl, h1, ?_⟩
      cases h2 with
      | nil => simp
      | cons => simp
    | succ k =>
      rw [List.getElem?_cons_succ] at hk
      cases q with
      | none => rw [h2.from_none.1] at hk; simp at hk
      | some b =>
        obtain ⟨a, r, i1, i2, i3⟩ := ih rfl k line hk
        exact ⟨a, r, (Left.step .refl h1).trans i1, i2, by simpa using i3⟩

theorem Chunks.line {cols : Cols} {lead : ℚ} {i : Nat} {ae : Bool} {ws : List WordLike} {out : List (List TLine)}
    (h : Chunks env cols lead i ae ws out) : ∀ j chunk, out[j]? = some chunk → ∀ k line, chunk[k]? = some line →
      ∃ a r, Left env ws a ∧ takeLine env a (cols (i + j)).1 = some (r, line) ∧
        (r = none ↔ j + 1 = out.length ∧ k + 1 = chunk.length) := by
  induction h with
  | last i ae ws lines h _ =>
    intro j chunk hj k line hk
    cases j with
    | zero =>
      simp only [List.getElem?_cons_zero, Option.some.injEq] at hj
      subst hj
      simpa using h.line k line hk
    | succ j => simp at hj
  | more i ae ws lines ws' rest h1 _ _ h2 ih =>
    intro j chunk hj k line hk
    cases j with
    | zero =>
      simp only [List.getElem?_cons_zero, Option.some.injEq] at hj
      subst hj
      obtain ⟨a, r, i1, i2, i3⟩ := h1.line k line hk
      refine ⟨a, r, i1, i2, ?_⟩
      have hne : rest ≠ [] := by cases h2 <;> simp
      simp only [reduceCtorEq, false_and, iff_false] at i3
      exact ⟨fun h => absurd h i3, fun h => absurd (List.length_eq_zero_iff.1 (by simpa using h.1)) hne⟩
    | succ j =>
      rw [List.getElem?_cons_succ] at hj
      obtain ⟨a, r, i1, i2, i3⟩ := ih j chunk hj k line hk
      exact ⟨a, r, h1.left.trans i1, by rw [show i + (j + 1) = i + 1 + j by omega]; exact i2, by simpa using i3⟩

theorem Chunks.chunk {cols : Cols} {lead : ℚ} {i : Nat} {ae : Bool} {ws : List WordLike} {out : List (List TLine)}
    (h : Chunks env cols lead i ae ws out) : ∀ j chunk, out[j]? = some chunk →
      chunk.length ≤ maxLines (cols (i + j)).2 lead (ae && decide (j = 0)) ∧
      ((ae = false ∨ j ≠ 0) → 0 < maxLines (cols (i + j)).2 lead false → chunk ≠ []) := by
  induction h with
  | last i ae ws lines h hc =>
    intro j chunk hj
    cases j with
    | zero =>
      simp only [List.getElem?_cons_zero, Option.some.injEq] at hj
      subst hj
      exact ⟨by simpa using hc, fun _ _ => h.ne_nil⟩
    | succ j => simp at hj
  | more i ae ws lines ws' rest h1 hc hn h2 ih =>
    intro j chunk hj
    cases j with
    | zero =>
      simp only [List.getElem?_cons_zero, Option.some.injEq] at hj
      subst hj
      refine ⟨by simpa using hc, ?_⟩
      rintro (rfl | h)
      · simpa using hn
      · simp at h
    | succ j =>
      rw [List.getElem?_cons_succ] at hj
      obtain ⟨i1, i2⟩ := ih j chunk hj
      rw [show i + (j + 1) = i + 1 + j by omega]
      exact ⟨by simpa using i1, fun _ => i2 (Or.inl rfl)⟩

theorem Left.wf {ws a : List WordLike} (h : Left env ws a) : ∀ {pre fin : State}, WordsWF env ws pre fin → ∃ mid, WordsWF env a mid fin := by
  induction h with
  | refl => intro pre fin hw; exact ⟨pre, hw⟩
  | step _ h ih =>
    intro pre fin hw
    obtain ⟨mid, hm⟩ := ih hw
    obtain ⟨m, piece, h1, h2, -⟩ := ((takeLine_ending h).1.lineOk hm).ok
    exact ⟨m, h2⟩

end Pdfje
