import Verif.Proofs.Shape
/-
First-fit shaping ends.
-/

namespace Pdfje

variable {env : Env}

theorem Left.sizes {ws a : List WordLike} (h : Left env ws a) (hs : ∀ w ∈ ws, SizesOk w) : ∀ w ∈ a, SizesOk w := by
  induction h with
  | refl => exact hs
  | step _ h ih => exact (takeLine_ending h).1.sizes ih

theorem LinesFrom.weight_le {width : ℚ} {ws ws' : List WordLike} {lines : List TLine}
    (h : LinesFrom env width (some ws) lines (some ws')) : weight ws' + lines.length ≤ weight ws := by
  generalize hq : some ws = q at h
  generalize hq' : some ws' = q' at h
  induction h generalizing ws with
  | nil q => subst hq; simp only [Option.some.injEq] at hq'; subst hq'; simp
  | cons ws0 q ln lines q' h1 h2 ih =>
    simp only [Option.some.injEq] at hq
    subst hq
    cases q with
    | none => have := h2.from_none; rw [this.2] at hq'; simp at hq'
    | some a =>
      have := (takeLine_ending h1).1.weight_lt
      have := ih rfl hq'
      simp only [List.length_cons]; omega

theorem takeLines_isSome (hh : HyphenOk env) (width : ℚ) : ∀ (n : Nat) (q prev : Option (List WordLike)),
    (∀ ws, q = some ws → ∀ w ∈ ws, SizesOk w) → ∃ r, takeLines env width n q prev = some r
  | 0, q, prev, _ => ⟨_, rfl⟩
  | n + 1, none, prev, _ => ⟨_, rfl⟩
  | n + 1, some ws, prev, hs => by
    obtain ⟨r, line, e⟩ := takeLine_isSome hh (hs ws rfl) width
    obtain ⟨⟨a, b, c⟩, h⟩ := takeLines_isSome hh width n r (some ws) (by
      rintro ws' rfl
      exact (takeLine_ending e).1.sizes (hs ws rfl))
    simp only [takeLines, e, h]
    exact ⟨_, rfl⟩

theorem takeBox_isSome (hh : HyphenOk env) {lead : ℚ} (hl : 0 < lead) (col : ℚ × ℚ) (ae : Bool) {ws : List WordLike}
    (hs : ∀ w ∈ ws, SizesOk w) : ∃ q' lines undo, takeBox env (some ws) col ae lead = some (q', lines, undo) := by
  obtain ⟨⟨a, b, c⟩, h⟩ := takeLines_isSome hh col.1 (maxLines col.2 lead ae) (some ws) (some ws) (by
    rintro _ e; simp only [Option.some.injEq] at e; subst e; exact hs)
  exact ⟨a, b, c, by rw [takeBox, if_neg hl.ne', h]⟩

theorem maxLines_pos {h lead : ℚ} (hl : 0 < lead) (hh : 0 ≤ h) : 0 < maxLines h lead false := by
  unfold maxLines
  split
  · simp
  · rename_i hne
    have : 0 ≤ ⌊h / lead⌋ := Int.floor_nonneg.2 (div_nonneg hh hl.le)
    omega

theorem shapeSimple_ends (hh : HyphenOk env) {cols : Cols} {lead : ℚ} (hl : 0 < lead) : ∀ (n i : Nat) (ws : List WordLike),
    weight ws ≤ n → (∀ w ∈ ws, SizesOk w) → (∀ j ≥ i, 0 ≤ (cols j).2) → ∃ out, shapeSimple env cols lead i (some ws) false = some out := by
  intro n
  induction n using Nat.strong_induction_on with
  | _ n ih =>
    intro i ws hn hs hc
    obtain ⟨q', lines, undo, e⟩ := takeBox_isSome hh hl (cols i) false hs
    have hb := takeBox_spec e
    rw [shapeSimple, e]
    cases q' with
    | none => exact ⟨_, rfl⟩
    | some ws' =>
      have hw := hb.taken.weight_le
      have := List.length_pos_iff.2 (hb.ne (maxLines_pos hl (hc i le_rfl)))
      obtain ⟨out, h⟩ := ih (weight ws') (by omega) (i + 1) ws' le_rfl (hb.taken.left.sizes hs) (fun j hj => hc j (by omega))
      exact ⟨lines :: out, by simp [h]⟩

theorem avoidLoop_ends (hh : HyphenOk env) {cols : Cols} {lead : ℚ} (hl : 0 < lead) : ∀ (n i : Nat) (ae : Bool) (p ws : List WordLike)
    (prev : List TLine) (undo : Option (List WordLike)),
    weight p ≤ n → (∀ w ∈ p, SizesOk w) → (∀ j ≥ i + 1, 0 ≤ (cols j).2) → prev ≠ [] → Prev env cols lead i ae p prev ws undo →
    ∃ out, avoidLoop env cols lead (i + 1) (some ws) prev undo = some out := by
  intro n
  induction n using Nat.strong_induction_on with
  | _ n ih =>
    intro i ae p ws prev undo hn hs hc hne hp
    have hlt : weight ws < weight p := by
      have := hp.taken.weight_le
      have := List.length_pos_iff.2 hne
      omega
    obtain ⟨q', lines, undo', e⟩ := takeBox_isSome hh hl (cols (i + 1)) false (hp.taken.left.sizes hs)
    have hb := takeBox_spec e
    rw [avoidLoop, e]
    cases q' with
    | some ws' =>
      obtain ⟨out, h⟩ := ih (weight ws) (by omega) (i + 1) false ws ws' lines undo' le_rfl (hp.taken.left.sizes hs)
        (fun j hj => hc j (by omega)) (hb.ne (maxLines_pos hl (hc (i + 1) le_rfl))) hb.prev
      exact ⟨prev :: out, by simp [h]⟩
    | none =>
      dsimp only
      split
      · rename_i hcond
        rcases hp.undo_ok with hu | hu
        · obtain ⟨init, l, rfl⟩ : ∃ init l, prev = init ++ [l] := by
            rcases List.eq_nil_or_concat prev with rfl | ⟨a, b, rfl⟩
            · simp at hne
            · exact ⟨a, b, by simp⟩
          obtain ⟨wu, rfl, h2, h3⟩ := hu init l rfl
          dsimp only
          have hsu := h2.left.sizes hs
          obtain ⟨q2, linesNew, undo2, e2⟩ := takeBox_isSome hh hl (cols (i + 1)) false hsu
          have hb2 := takeBox_spec e2
          rw [e2]
          dsimp only
          split
          · exact ⟨_, rfl⟩
          · rename_i hn1
            have hlt2 : weight wu < weight p := by
              have := h2.weight_le
              simp only [List.length_append, List.length_cons, List.length_nil] at hcond
              omega
            rw [avoidLoop, e2]
            cases q2 with
            | none =>
              dsimp only
              rw [if_neg (by rintro ⟨a, -⟩; exact hn1 a)]
              exact ⟨_, rfl⟩
            | some ws2 =>
              obtain ⟨out, h⟩ := ih (weight wu) (by omega) (i + 1) false wu ws2 linesNew undo2 le_rfl hsu
                (fun j hj => hc j (by omega)) (hb2.ne (maxLines_pos hl (hc (i + 1) le_rfl))) hb2.prev
              exact ⟨init :: out, by simp [h]⟩
        · exact absurd hcond.1 (hu _ _ _ e)
      · exact ⟨_, rfl⟩

theorem shape_ends (hh : HyphenOk env) {cols : Cols} {lead : ℚ} (hl : 0 < lead) (avoid : Bool) (ws : List WordLike) (ae : Bool)
    (hs : ∀ w ∈ ws, SizesOk w) (hc : ∀ j ≥ 1, 0 ≤ (cols j).2) :
    ∃ out, (if avoid then shapeAvoidOrphans env cols lead (some ws) ae else shapeSimple env cols lead 0 (some ws) ae) = some out := by
  obtain ⟨q', lines, undo, e⟩ := takeBox_isSome hh hl (cols 0) ae hs
  have hb := takeBox_spec e
  cases avoid with
  | false =>
    simp only [Bool.false_eq_true, if_false]
    rw [shapeSimple, e]
    cases q' with
    | none => exact ⟨_, rfl⟩
    | some ws' =>
      obtain ⟨out, h⟩ := shapeSimple_ends hh hl _ 1 ws' le_rfl (hb.taken.left.sizes hs) hc
      exact ⟨lines :: out, by simp [h]⟩
  | true =>
    simp only [if_true]
    -- a first column without lines
    have empty : ∀ (ws : List WordLike) undo, (∀ w ∈ ws, SizesOk w) → ∃ out, avoidLoop env cols lead 1 (some ws) [] undo = some out := by
      intro ws undo hs
      obtain ⟨q2, lines2, undo2, e2⟩ := takeBox_isSome hh hl (cols 1) false hs
      have hb2 := takeBox_spec e2
      rw [avoidLoop, e2]
      cases q2 with
      | none => exact ⟨[[], lines2], by simp⟩
      | some ws2 =>
        obtain ⟨out, h⟩ := avoidLoop_ends hh hl (weight ws) 1 false ws ws2 lines2 undo2 le_rfl hs
          (fun j hj => hc j (by omega)) (hb2.ne (maxLines_pos hl (hc 1 le_rfl))) hb2.prev
        exact ⟨[] :: out, by simp [h]⟩
    rw [shapeAvoidOrphans, e]
    dsimp only
    split
    · rename_i hcond
      obtain ⟨l, rfl⟩ := List.length_eq_one_iff.1 hcond.2.1
      obtain ⟨wu, h1, h2, h3⟩ := hb.undoOk [] l rfl
      cases h2
      subst h1
      exact empty _ _ hs
    · split
      · exact ⟨_, rfl⟩
      · rename_i hn
        obtain ⟨ws', rfl⟩ : ∃ ws', q' = some ws' := by cases q' with | none => simp at hn | some x => exact ⟨x, rfl⟩
        by_cases hl0 : lines = []
        · subst hl0
          exact empty _ _ (hb.taken.left.sizes hs)
        · exact avoidLoop_ends hh hl (weight ws) 0 ae ws ws' lines undo le_rfl hs (fun j hj => hc j (by omega)) hl0 hb.prev

/-! ### Orphans -/

/-- What `avoidLoop` makes of the column before: it stays, or loses one of at least three lines. -/
theorem avoidLoop_head (cols : Cols) (lead : ℚ) (i : Nat) (ws : List WordLike) (prev : List TLine) (undo : Option (List WordLike))
    (out : List (List TLine)) (h : avoidLoop env cols lead (i + 1) (some ws) prev undo = some out) (ae : Bool) (q : List WordLike)
    (hp : Prev env cols lead i ae q prev ws undo) :
    ∃ first more, out = first :: more ∧ more ≠ [] ∧ (first = prev ∨ first.length ≥ 2) := by
  refine avoidLoop.partial_correctness env cols lead (fun j ws prev undo out =>
    ∃ first more, out = first :: more ∧ more ≠ [] ∧ (first = prev ∨ first.length ≥ 2)) ?_ (i + 1) (some ws) prev undo out h
  rintro f ih j ws prev undo out h
  split at h
  · simp at h
  · rename_i q' lines undo' e
    split at h
    · rename_i ws'
      simp only [Option.bind_eq_bind, Option.bind_eq_some_iff, Option.some.injEq] at h
      obtain ⟨more, h1, rfl⟩ := h
      obtain ⟨first, m, rfl, -⟩ := ih _ _ _ _ _ h1
      exact ⟨prev, _, rfl, by simp, Or.inl rfl⟩
    · split at h
      · rename_i hc
        split at h
        · simp at h
        · split at h
          · simp at h
          · split at h
            · simp only [Option.some.injEq] at h
              subst h
              exact ⟨_, _, rfl, by simp, Or.inl rfl⟩
            · obtain ⟨first, m, rfl, hm, hf⟩ := ih _ _ _ _ _ h
              refine ⟨first, m, rfl, hm, Or.inr ?_⟩
              rcases hf with rfl | hf
              · rw [List.length_dropLast]; omega
              · exact hf
      · simp only [Option.some.injEq] at h
        subst h
        exact ⟨_, _, rfl, by simp, Or.inl rfl⟩

theorem shapeAvoid_first (cols : Cols) (lead : ℚ) (ws : List WordLike) (out : List (List TLine))
    (h : shapeAvoidOrphans env cols lead (some ws) true = some out) (h2 : 2 ≤ out.length) :
    ∀ first ∈ out.head?, first.length ≠ 1 := by
  unfold shapeAvoidOrphans at h
  split at h
  · simp at h
  · rename_i q' lines undo e
    have hb := takeBox_spec e
    split at h
    · rename_i hc
      obtain ⟨l, rfl⟩ := List.length_eq_one_iff.1 hc.2.1
      obtain ⟨wu, h1, h2', h3⟩ := hb.undoOk [] l rfl
      cases h2'
      subst h1
      obtain ⟨first, more, rfl, -, hf⟩ := avoidLoop_head cols lead 0 ws [] (some ws) out h true ws (Prev.restart _ _ _)
      intro x hx
      simp only [List.head?_cons, Option.mem_def, Option.some.injEq] at hx
      subst hx
      rcases hf with rfl | hf
      · simp
      · omega
    · split at h
      · simp only [Option.some.injEq] at h
        subst h
        simp at h2
      · rename_i hc hn
        obtain ⟨ws', rfl⟩ : ∃ ws', q' = some ws' := by cases q' with | none => simp at hn | some x => exact ⟨x, rfl⟩
        obtain ⟨first, more, rfl, -, hf⟩ := avoidLoop_head cols lead 0 ws' lines undo out h true ws hb.prev
        intro x hx
        simp only [List.head?_cons, Option.mem_def, Option.some.injEq] at hx
        subst hx
        rcases hf with rfl | hf
        · simpa using hc
        · omega

/-- Why the last column can have a single line. -/
def OrphanOk (env : Env) (ws0 : List WordLike) (cols : Cols) (lead : ℚ) (i : Nat) (prev : List TLine) (l : TLine) : Prop :=
  prev.length ≤ 2 ∨ (cols (i + 1)).2 < lead * 2 ∨
  ∃ a b pl l2, Left env ws0 a ∧ prev.getLast? = some pl ∧ takeLine env a (cols i).1 = some (some b, pl) ∧
    takeLine env b (cols (i + 1)).1 = some (none, l) ∧ takeLine env a (cols (i + 1)).1 = some (none, l2)

theorem maxLines_two {h lead : ℚ} (hl : 0 < lead) (hh : lead * 2 ≤ h) : 2 ≤ maxLines h lead false := by
  have : 2 ≤ ⌊h / lead⌋ := Int.le_floor.2 (by rw [le_div_iff₀ hl]; push_cast; linarith)
  unfold maxLines
  rw [if_neg (by omega)]
  omega

theorem BoxOk.one {ws : List WordLike} {col : ℚ × ℚ} {lead : ℚ} {q' lines undo}
    (h : BoxOk env (some ws) col false lead q' lines undo) (hm : 2 ≤ maxLines col.2 lead false) (h1 : lines.length = 1) :
    ∃ l, lines = [l] ∧ takeLine env ws col.1 = some (none, l) := by
  rcases h.full with rfl | hf
  · obtain ⟨l, rfl⟩ := List.length_eq_one_iff.1 h1
    have := h.taken
    cases this with
    | cons ws q ln lines q' h1 h2 =>
      cases h2
      exact ⟨l, rfl, h1⟩
  · omega

theorem avoidLoop_last {ws0 : List WordLike} (cols : Cols) {lead : ℚ} (hl : 0 < lead) (i : Nat) (ws : List WordLike) (prev : List TLine)
    (undo : Option (List WordLike)) (out : List (List TLine)) (h : avoidLoop env cols lead (i + 1) (some ws) prev undo = some out)
    (ae : Bool) (q : List WordLike) (hp : Prev env cols lead i ae q prev ws undo) (hq : Left env ws0 q) :
    2 ≤ out.length ∧ ∀ pre p l, out = pre ++ [p, [l]] → OrphanOk env ws0 cols lead (i + pre.length) p l := by
  refine avoidLoop.partial_correctness env cols lead (fun j ws prev undo out => ∀ i w ae q, j = i + 1 → ws = some w →
    Prev env cols lead i ae q prev w undo → Left env ws0 q → 2 ≤ out.length ∧ ∀ pre p l, out = pre ++ [p, [l]] → OrphanOk env ws0 cols lead (i + pre.length) p l) ?_
    (i + 1) (some ws) prev undo out h i ws ae q rfl rfl hp hq
  rintro f ih _ _ prev undo out h i w ae q rfl rfl hp hq
  -- the loop ends with these two columns
  have two : ∀ lines : List TLine, out = [prev, lines] → (∀ l, lines = [l] → OrphanOk env ws0 cols lead i prev l) →
      2 ≤ out.length ∧ ∀ pre p l, out = pre ++ [p, [l]] → OrphanOk env ws0 cols lead (i + pre.length) p l := by
    intro lines ho hk
    refine ⟨by rw [ho]; simp, ?_⟩
    intro pre p l he
    rw [ho] at he
    match pre with
    | [] => simp only [List.nil_append, List.cons.injEq, and_true] at he; obtain ⟨rfl, rfl⟩ := he; exact hk l rfl
    | [a] => simp at he
    | a :: b :: pre => simp at he
  split at h
  · simp at h
  · rename_i q' lines undo' e
    have hb := takeBox_spec e
    split at h
    · rename_i ws'
      simp only [Option.bind_eq_bind, Option.bind_eq_some_iff, Option.some.injEq] at h
      obtain ⟨more, h1, rfl⟩ := h
      obtain ⟨i1, i2⟩ := ih _ _ _ _ _ h1 (i + 1) ws' false w rfl rfl hb.prev (hq.trans hp.taken.left)
      refine ⟨by simp; omega, ?_⟩
      intro pre p l he
      cases pre with
      | nil =>
        simp only [List.nil_append, List.cons.injEq] at he
        obtain ⟨rfl, rfl⟩ := he
        simp at i1
      | cons a pre =>
        simp only [List.cons_append, List.cons.injEq] at he
        obtain ⟨rfl, rfl⟩ := he
        rw [show i + (prev :: pre).length = i + 1 + pre.length by simp; omega]
        exact i2 pre p l rfl
    · split at h
      · rename_i hc
        split at h
        · simp at h
        · rename_i wu
          split at h
          · simp at h
          · rename_i q2 linesNew undo2 e2
            rcases hp.undo_ok with hu | hu
            · split at h
              · rename_i h1
                simp only [Option.some.injEq] at h
                refine two lines h.symm ?_
                have hm := maxLines_two hl (show lead * 2 ≤ (cols (i + 1)).2 from hc.2.2)
                obtain ⟨l2, -, hl2⟩ := (takeBox_spec e2).one hm h1
                obtain ⟨l, rfl, hl1⟩ := hb.one hm hc.1
                intro l' e'
                simp only [List.cons.injEq, and_true] at e'
                subst e'
                obtain ⟨init, pl, rfl⟩ : ∃ init pl, prev = init ++ [pl] := by
                  rcases List.eq_nil_or_concat prev with rfl | ⟨a, b, rfl⟩
                  · simp at hc
                  · exact ⟨a, b, by simp⟩
                obtain ⟨wu', e1, h2, h3⟩ := hu init pl rfl
                simp only [Option.some.injEq] at e1
                subst e1
                exact Or.inr (Or.inr ⟨_, _, pl, l2, hq.trans h2.left, by simp, h3, hl1, hl2⟩)
              · rename_i hne
                exact ih _ _ _ _ _ h i wu ae q rfl rfl (Prev.back hu hc.2.1 hp.count e2 hne _) hq
            · exact absurd hc.1 (hu _ _ _ e)
      · rename_i hc
        simp only [Option.some.injEq] at h
        refine two lines h.symm ?_
        rintro l rfl
        by_cases h1 : prev.length ≤ 2
        · exact Or.inl h1
        · by_cases h2 : (cols (i + 1)).2 < lead * 2
          · exact Or.inr (Or.inl h2)
          · exact absurd ⟨by simp, by omega, not_lt.1 h2⟩ hc

theorem shapeAvoid_last (cols : Cols) {lead : ℚ} (hl : 0 < lead) (ws : List WordLike) (ae : Bool) (out : List (List TLine))
    (h : shapeAvoidOrphans env cols lead (some ws) ae = some out) :
    ∀ pre p l, out = pre ++ [p, [l]] → OrphanOk env ws cols lead pre.length p l := by
  unfold shapeAvoidOrphans at h
  split at h
  · simp at h
  · rename_i q' lines undo e
    have hb := takeBox_spec e
    split at h
    · rename_i hc
      obtain ⟨l, rfl⟩ := List.length_eq_one_iff.1 hc.2.1
      obtain ⟨wu, h1, h2', h3⟩ := hb.undoOk [] l rfl
      cases h2'
      subst h1
      simpa using (avoidLoop_last cols hl 0 ws [] (some ws) out h true ws (Prev.restart _ _ _) .refl).2
    · split at h
      · simp only [Option.some.injEq] at h
        subst h
        intro pre p l he
        match pre with
        | [] => simp at he
        | a :: pre => simp at he
      · rename_i hn
        obtain ⟨ws', rfl⟩ : ∃ ws', q' = some ws' := by cases q' with | none => simp at hn | some x => exact ⟨x, rfl⟩
        simpa using (avoidLoop_last cols hl 0 ws' lines undo out h ae ws hb.prev .refl).2

/-! ### Justification -/

/-- The state in which the trailing space is set. -/
def WordLike.tailState : WordLike → Option State
  | .box _ => none
  | .word w => w.tail.map fun _ => w.state
  | .withCmd w _ => w.tailState

theorem WordLike.tailState_isSome : ∀ w : WordLike, w.tailState.isSome = w.tail.isSome
  | .box _ => rfl
  | .word w => by simp [WordLike.tailState, WordLike.tail]
  | .withCmd w _ => WordLike.tailState_isSome w

theorem WordLike.tailState_mem : ∀ {w : WordLike} {st : State}, st ∈ w.tailState → (' ', st) ∈ w.styled
  | .box _, _, h => by simp [WordLike.tailState] at h
  | .word w, st, h => by
    simp only [WordLike.tailState, Option.mem_def, Option.map_eq_some_iff] at h
    obtain ⟨t, h1, rfl⟩ := h
    simp [WordLike.styled, Word.styled, h1]
  | .withCmd w _, st, h => WordLike.tailState_mem (w := w) h

theorem WordLike.extendTail_width' (a : ℚ) : ∀ {w : WordLike}, w.WF env → (∀ st ∈ w.tailState, st.size ≠ 0) →
    (w.extendTail a).width = if w.tail.isSome then w.width + a else w.width
  | .box b, h, _ => by simp [WordLike.extendTail, WordLike.tail]
  | .word w, h, hz => by
    obtain ⟨bs, t, st⟩ := w
    cases t with
    | none => rfl
    | some t =>
      simp only [WordLike.extendTail, WordLike.tail, WordLike.width, Word.extendTail, Option.isSome_some, if_true]
      split
      · rename_i e; simp [e]
      · have hz' : st.size ≠ 0 := hz st (by simp [WordLike.tailState])
        have hw : Word.WF env ⟨bs, some t, st⟩ := h
        simp only [Word.width, Word.prunedWidth, Word.prunableSpace, (hw.tail t (by simp)).stretch_width hz']
        ring
  | .withCmd w c, h, hz => by
    simp only [WordLike.extendTail]
    split
    · exact WordLike.extendTail_width' a (w := w) h hz
    · rename_i hn
      simp only [ne_eq, not_and_or, not_not] at hn
      rcases hn with hn | hn
      · simp [WordLike.tail, hn]
      · simp [hn]

theorem WordLike.addCmd_tailState (w : WordLike) (c : Command) : (w.addCmd c).tailState = w.tailState := by cases c <;> rfl

/-- `x` has no trailing space, or that of `w`. -/
def TailFrom (x w : WordLike) : Prop := x.tailState = none ∨ (x.tailState = w.tailState ∧ x.state = w.state)

theorem TailFrom.refl (w : WordLike) : TailFrom w w := Or.inr ⟨rfl, rfl⟩
theorem TailFrom.trans {a b c : WordLike} (h1 : TailFrom a b) (h2 : TailFrom b c) : TailFrom a c := by
  rcases h1 with h1 | ⟨h1, h1'⟩
  · exact Or.inl h1
  · rcases h2 with h2 | ⟨h2, h2'⟩
    · exact Or.inl (h1.trans h2)
    · exact Or.inr ⟨h1.trans h2, h1'.trans h2'⟩

theorem TailFrom.addCmd {a b : WordLike} (h : TailFrom a b) (c : Command) : TailFrom (a.addCmd c) (.withCmd b c) := by
  rcases h with h | ⟨h, h'⟩
  · exact Or.inl (by rw [WordLike.addCmd_tailState, h])
  · refine Or.inr ⟨by rw [WordLike.addCmd_tailState, h]; rfl, by rw [WordLike.addCmd_state, h']; rfl⟩

theorem WordLike.pruned_tailFrom : ∀ w : WordLike, TailFrom w.pruned w
  | .box b => .refl _
  | .word w => by
    refine Or.inl ?_
    simp only [WordLike.pruned, WordLike.tailState, Word.pruned]
    split
    · rfl
    · rename_i h; simp [h]
  | .withCmd w c => by
    rcases WordLike.pruned_tailFrom w with h | ⟨h, h'⟩
    · exact Or.inl h
    · exact Or.inr ⟨h, congrArg c.apply h'⟩

theorem WordLike.hyphenate_tailFrom {space : ℚ} : ∀ {w : WordLike} {a : Option WordLike} {b : WordLike},
    w.hyphenate env space = some (a, b) → TailFrom b w ∧ ∀ x ∈ a, x.tailState = none := by
  intro w
  induction w with
  | box b => intro a d h; simp [WordLike.hyphenate] at h; obtain ⟨rfl, rfl⟩ := h; exact ⟨.refl _, by simp⟩
  | word w =>
    intro a d h
    simp only [WordLike.hyphenate, Option.map_eq_some_iff, Prod.exists, Prod.mk.injEq] at h
    obtain ⟨a', b', h, rfl, rfl⟩ := h
    have hk : TailFrom (.word w.withoutInitKern) (.word w) := by
      obtain ⟨bs, t, st⟩ := w
      refine Or.inr ⟨?_, ?_⟩
      · unfold Word.withoutInitKern
        repeat' split
        all_goals simp_all [WordLike.tailState]
      · unfold Word.withoutInitKern
        repeat' split
        all_goals rfl
    unfold Word.hyphenate at h
    repeat' split at h
    · simp only [Option.some.injEq, Prod.mk.injEq] at h
      obtain ⟨rfl, rfl⟩ := h
      exact ⟨hk, by simp⟩
    · simp only [Option.some.injEq, Prod.mk.injEq] at h
      obtain ⟨rfl, rfl⟩ := h
      exact ⟨hk, by simp⟩
    · simp only [Option.map_eq_some_iff, Prod.exists, Prod.mk.injEq] at h
      obtain ⟨fit, n, r, st', h1, rfl, rfl⟩ := h
      exact ⟨Or.inr ⟨rfl, rfl⟩, by simp [WordLike.tailState]⟩
  | withCmd w c ih =>
    intro a d h
    simp only [WordLike.hyphenate, Option.map_eq_some_iff, Prod.exists, Prod.mk.injEq] at h
    obtain ⟨a', b, h, rfl, rfl⟩ := h
    exact ⟨(ih h).1.addCmd c, (ih h).2⟩

theorem WordLike.minimalBox_tailFrom : ∀ (w : WordLike), TailFrom (w.minimalBox env).1 w ∧ ∀ b ∈ (w.minimalBox env).2, TailFrom b w := by
  intro w
  induction w with
  | box b => exact ⟨.refl _, by simp [WordLike.minimalBox]⟩
  | word w =>
    obtain ⟨bs, t, st⟩ := w
    match bs with
    | [] => exact ⟨.refl _, by simp [WordLike.minimalBox, Word.minimalBox]⟩
    | [b] => exact ⟨.refl _, by simp [WordLike.minimalBox, Word.minimalBox]⟩
    | b :: b2 :: rest =>
      refine ⟨Or.inl rfl, ?_⟩
      simp only [WordLike.minimalBox, Word.minimalBox, Option.map_some, Option.mem_def, Option.some.injEq, forall_eq']
      exact Or.inr ⟨rfl, rfl⟩
  | withCmd w c ih =>
    simp only [WordLike.minimalBox]
    split
    · rename_i a e
      rw [e] at ih
      exact ⟨ih.1.addCmd c, by simp⟩
    · rename_i a b e
      rw [e] at ih
      refine ⟨?_, ?_⟩
      · rcases ih.1 with h | ⟨h, h'⟩
        · exact Or.inl h
        · -- the first part of a cut word has no trailing space
          left
          have key : ∀ w : WordLike, ∀ a b, w.minimalBox env = (a, some b) → a.tailState = none := by
            intro w
            induction w with
            | box b => intro a b h; simp [WordLike.minimalBox] at h
            | word w =>
              obtain ⟨bs, t, st⟩ := w
              match bs with
              | [] => intro a b h; simp [WordLike.minimalBox, Word.minimalBox] at h
              | [x] => intro a b h; simp [WordLike.minimalBox, Word.minimalBox] at h
              | x :: b2 :: rest =>
                intro a b h
                simp only [WordLike.minimalBox, Word.minimalBox, Prod.mk.injEq] at h
                rw [← h.1]; rfl
            | withCmd w c ih =>
              intro a b h
              simp only [WordLike.minimalBox] at h
              split at h
              · simp at h
              · rename_i a' b' e
                simp only [Prod.mk.injEq] at h
                rw [← h.1]; exact ih _ _ e
          exact key w a b e
      · simp only [Option.mem_def, Option.some.injEq, forall_eq']
        exact (ih.2 b (by simp)).addCmd c

theorem Ending.tailFrom {ws : List WordLike} {width : ℚ} {r : Option (List WordLike)} {line : TLine} (h : Ending env ws width r line) :
    (∀ x ∈ line.words, ∃ w ∈ ws, TailFrom x w) ∧ (∀ r', r = some r' → ∀ x ∈ r', ∃ w ∈ ws, TailFrom x w) := by
  cases h with
  | all h1 h2 => subst h1; rw [h2]; exact ⟨fun x hx => ⟨x, hx, .refl _⟩, by simp⟩
  | cut content rest w a b k h1 h2 h3 h4 h5 h6 =>
    subst h1 h2
    have hy := WordLike.hyphenate_tailFrom h5
    rw [h3]
    refine ⟨?_, ?_⟩
    · intro x hx
      rcases List.mem_append.1 hx with hx | hx
      · exact ⟨x, by simp [hx], .refl _⟩
      · simp only [List.mem_singleton] at hx
        subst hx
        exact ⟨w, by simp, Or.inl (hy.2 _ rfl)⟩
    · rintro _ rfl' x hx
      simp only [Option.some.injEq] at rfl'
      subst rfl'
      rcases List.mem_cons.1 hx with rfl | hx
      · exact ⟨w, by simp, hy.1⟩
      · exact ⟨x, by simp [hx], .refl _⟩
  | word content rest l w b h1 h2 h3 h4 h5 h6 h7 =>
    subst h1 h2
    have hy := WordLike.hyphenate_tailFrom h6
    refine ⟨?_, ?_⟩
    · intro x hx
      have : x ∈ content ∨ x = l.pruned ∨ x = l := by
        rcases h3 with h3 | ⟨h3, -⟩
        · rw [h3] at hx
          rcases List.mem_append.1 hx with hx | hx
          · exact Or.inl hx
          · simp only [List.mem_singleton] at hx; exact Or.inr (Or.inl hx)
        · rw [h3] at hx
          rcases List.mem_append.1 hx with hx | hx
          · exact Or.inl hx
          · simp only [List.mem_singleton] at hx; exact Or.inr (Or.inr hx)
      rcases this with hx | rfl | rfl
      · exact ⟨x, by simp [hx], .refl _⟩
      · exact ⟨l, by simp, WordLike.pruned_tailFrom l⟩
      · exact ⟨x, by simp, .refl _⟩
    · rintro _ rfl' x hx
      simp only [Option.some.injEq] at rfl'
      subst rfl'
      rcases List.mem_cons.1 hx with rfl | hx
      · exact ⟨w, by simp, hy.1⟩
      · exact ⟨x, by simp [hx], .refl _⟩
  | forced rest w d a h1 h2 h3 h4 h5 h6 =>
    subst h1
    have hy := (WordLike.hyphenate_tailFrom h4).1
    have hm := WordLike.minimalBox_tailFrom (env := env) d
    rw [h5] at hm
    rw [h2]
    refine ⟨?_, ?_⟩
    · intro x hx
      simp only [List.mem_singleton] at hx
      subst hx
      exact ⟨w, by simp, hm.1.trans hy⟩
    · rintro _ rfl x hx
      rcases h6 with ⟨h6, h7⟩ | ⟨b, h6, h7⟩
      · rcases h7 with ⟨h7, -⟩ | ⟨h7, -⟩
        · simp only [Option.some.injEq] at h7
          subst h7
          exact ⟨x, by simp [hx], .refl _⟩
        · simp at h7
      · simp only [Option.some.injEq] at h7
        subst h7
        rcases List.mem_cons.1 hx with rfl | hx
        · exact ⟨w, by simp, (hm.2 _ h6).trans hy⟩
        · exact ⟨x, by simp [hx], .refl _⟩

theorem Left.tailFrom {ws a : List WordLike} (h : Left env ws a) : ∀ x ∈ a, ∃ w ∈ ws, TailFrom x w := by
  induction h with
  | refl => exact fun x hx => ⟨x, hx, .refl _⟩
  | step _ h ih =>
    intro x hx
    obtain ⟨y, hy, h1⟩ := (takeLine_ending h).1.tailFrom.2 _ rfl x hx
    obtain ⟨w, hw, h2⟩ := ih y hy
    exact ⟨w, hw, h1.trans h2⟩

theorem WordLike.tail_iff (w : WordLike) : w.tail.isSome ↔ ∃ st, w.tailState = some st := by
  rw [← WordLike.tailState_isSome, Option.isSome_iff_exists]

/-- The width of the words of a justified line. -/
theorem justify_widths (ws : List WordLike) (c : ℚ) (hw : ∀ w ∈ ws, w.WF env) (hz : ∀ w ∈ ws, ∀ st ∈ w.tailState, st.size ≠ 0) :
    ((ws.map fun w => w.extendTail (c * w.state.size)).map WordLike.width).sum = (ws.map WordLike.width).sum + c * tailSizes ws := by
  induction ws with
  | nil => simp [tailSizes]
  | cons w ws ih =>
    have i := ih (fun x hx => hw x (List.mem_cons_of_mem _ hx)) (fun x hx => hz x (List.mem_cons_of_mem _ hx))
    have e := WordLike.extendTail_width' (c * w.state.size) (hw w List.mem_cons_self) (hz w List.mem_cons_self)
    simp only [List.map_cons, List.sum_cons, e, i]
    cases ht : w.tail.isSome
    · simp [tailSizes, List.filter_cons, ht]; ring
    · simp [tailSizes, List.filter_cons, ht]; ring

theorem TLine.justify_width {l : TLine} (hl : l.width = (l.words.map WordLike.width).sum) (hw : ∀ w ∈ l.words, w.WF env)
    (hz : ∀ w ∈ l.words, ∀ st ∈ w.tailState, st.size ≠ 0) :
    l.justify.width = (l.justify.words.map WordLike.width).sum := by
  unfold TLine.justify
  split
  · exact hl
  · rename_i h
    simp only [justify_widths _ _ hw hz, hl, div_mul_cancel₀ _ h]

theorem tailSizes_pos {ws : List WordLike} (hp : ∀ w ∈ ws, w.tail.isSome → 0 < w.state.size) (he : ∃ w ∈ ws, w.tail.isSome) :
    0 < tailSizes ws := by
  induction ws with
  | nil => simp at he
  | cons w ws ih =>
    have nonneg : 0 ≤ tailSizes ws := by
      apply List.sum_nonneg
      intro x hx
      obtain ⟨y, hy, rfl⟩ := List.mem_map.1 hx
      obtain ⟨h1, h2⟩ := List.mem_filter.1 hy
      exact (hp y (List.mem_cons_of_mem _ h1) h2).le
    cases ht : w.tail.isSome
    · have : tailSizes (w :: ws) = tailSizes ws := by simp [tailSizes, List.filter_cons, ht]
      rw [this]
      apply ih (fun x hx => hp x (List.mem_cons_of_mem _ hx))
      obtain ⟨x, hx, h⟩ := he
      rcases List.mem_cons.1 hx with rfl | hx
      · rw [ht] at h; simp at h
      · exact ⟨x, hx, h⟩
    · have : tailSizes (w :: ws) = w.state.size + tailSizes ws := by simp [tailSizes, List.filter_cons, ht]
      rw [this]
      have := hp w List.mem_cons_self ht
      linarith

theorem tailSizes_zero {ws : List WordLike} (he : ∀ w ∈ ws, w.tail.isSome = false) : tailSizes ws = 0 := by
  unfold tailSizes
  rw [List.filter_eq_nil_iff.2 (by intro a ha; rw [he a ha]; simp)]
  rfl

theorem WordsWF.map_same {f : WordLike → WordLike} (hf : ∀ w, w.WF env → SameText env w (f w)) : ∀ {ws : List WordLike} {s t : State},
    WordsWF env ws s t → WordsWF env (ws.map f) s t
  | [], _, _, h => h
  | w :: ws, s, t, h => ⟨(hf w h.1).wf, by rw [(hf w h.1).pre]; exact h.2.1, by rw [(hf w h.1).post]; exact WordsWF.map_same hf h.2.2⟩

theorem TLine.justify_wf {l : TLine} {s t : State} (h : WordsWF env l.words s t) : WordsWF env l.justify.words s t := by
  unfold TLine.justify
  split
  · exact h
  · exact h.map_same (f := fun w => w.extendTail (l.space / tailSizes l.words * w.state.size)) (fun w hw => WordLike.extendTail_same _ hw)

theorem TLine.justify_styled {l : TLine} {s t : State} (h : WordsWF env l.words s t) : l.justify.styled = l.styled := by
  unfold TLine.justify
  split
  · rfl
  · have : ∀ ws : List WordLike, (∀ w ∈ ws, w.WF env) → ∀ c : ℚ, (ws.map fun w => w.extendTail (c * w.state.size)).flatMap WordLike.styled =
        ws.flatMap WordLike.styled := by
      intro ws hw c
      induction ws with
      | nil => rfl
      | cons w ws ih =>
        simp only [List.map_cons, List.flatMap_cons, ih (fun x hx => hw x (List.mem_cons_of_mem _ hx)),
          (WordLike.extendTail_same (c * w.state.size) (hw w List.mem_cons_self)).styled]
    exact this l.words h.mem _

end Pdfje
