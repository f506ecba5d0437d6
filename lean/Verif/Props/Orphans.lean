import Verif.Props.Optimum
import Verif.Spec.Orphans
/-
C71: orphaned lines with optimal line breaks (`optimal=True`).
-/

namespace Pdfje

variable {env : Env}

theorem lineCap_less {y lead : ℚ} (hl : 0 < lead) {d : ℤ} (hd : d ≤ 1) (h : 2 < lineCap y lead d) :
    lineCap (y - lead) lead d = lineCap y lead d - 1 ∧ 2 * lead ≤ y - lead := by
  unfold lineCap at h
  have hf : 2 < ⌊y / lead⌋ := by
    split at h
    · omega
    · exact h
  have e : ⌊(y - lead) / lead⌋ = ⌊y / lead⌋ - 1 := by
    rw [sub_div, div_self hl.ne', Int.floor_sub_one]
  refine ⟨?_, ?_⟩
  · unfold lineCap
    rw [e, if_neg (by omega), if_neg (by omega)]
  · have h3 : (3 : ℤ) ≤ ⌊y / lead⌋ := by omega
    have := Int.le_floor.1 h3
    rw [le_div_iff₀ hl] at this
    push_cast at this
    linarith

theorem lineCap_two {y lead : ℚ} (hl : 0 < lead) {d : ℤ} (hd : d ≤ 1) : lineCap y lead d ≤ 1 ↔ y < lead * 2 := by
  unfold lineCap
  have key : ⌊y / lead⌋ ≤ 1 ↔ y < lead * 2 := by
    rw [← Int.lt_add_one_iff, Int.floor_lt, div_lt_iff₀ hl]
    norm_num [mul_comm]
  split
  · rename_i h
    rw [h] at key
    exact ⟨fun _ => key.1 (by norm_num), fun _ => hd⟩
  · exact key

theorem new_default (i : Nat) (ae : Bool) : (if i = 0 ∧ ae = true then (0 : ℤ) else 1) ≤ 1 := by split <;> norm_num

theorem new_shorten {cols : Cols} {lead : ℚ} (hl : 0 < lead) {ae : Bool} {i : Nat} (h : 2 < (ColQueue.new cols lead ae).cap i) :
    (ColQueue.new cols lead ae).shorten i = ColQueue.new (lineLess lead cols i) lead ae ∧ 2 * lead ≤ (cols i).2 - lead := by
  obtain ⟨h1, h2⟩ := lineCap_less hl (new_default i ae) h
  refine ⟨?_, h2⟩
  unfold ColQueue.shorten
  have e1 : (ColQueue.new cols lead ae).width = (ColQueue.new (lineLess lead cols i) lead ae).width := by
    funext j
    simp only [ColQueue.new, lineLess]
    split <;> rfl
  have e2 : (fun j => if j = i then (ColQueue.new cols lead ae).cap j - 1 else (ColQueue.new cols lead ae).cap j) =
      (ColQueue.new (lineLess lead cols i) lead ae).cap := by
    funext j
    by_cases hj : j = i
    · subst hj
      simp only [if_true, ColQueue.new, lineLess] at h1 ⊢
      exact h1.symm
    · simp only [hj, if_false, ColQueue.new, lineLess]
  rw [e1, e2]

theorem LessRoom.refl (lead : ℚ) (cols : Cols) : LessRoom lead cols cols := fun _ => .inl rfl

theorem LessRoom.lineLess {lead : ℚ} {cols cols' : Cols} (h : LessRoom lead cols cols') {i : Nat} (hi : 2 * lead ≤ (cols' i).2 - lead) :
    LessRoom lead cols (lineLess lead cols' i) := by
  intro j
  by_cases hj : j = i
  · subst hj
    right
    simp only [Pdfje.lineLess, if_true]
    rcases h j with h | ⟨n, h, -⟩
    · exact ⟨1, by rw [h]; simp, hi⟩
    · refine ⟨n + 1, ?_, hi⟩
      rw [h]
      push_cast
      simp only [Prod.mk.injEq, true_and]
      ring
  · simp only [Pdfje.lineLess, hj, if_false]
    exact h j

theorem LessRoom.nonneg {lead : ℚ} (hl : 0 < lead) {cols cols' : Cols} (h : LessRoom lead cols cols') (hc : ∀ i, 0 ≤ (cols i).2) : ∀ i, 0 ≤ (cols' i).2 := by
  intro i
  rcases h i with h | ⟨n, -, h⟩
  · rw [h]; exact hc i
  · linarith

/-- If the last line of these groups is alone in its column: why. -/
def GroupsEnd (p : OptParams) (justify : Bool) (fbs : List (Fragment × KBox)) (lead : ℚ) (ae : Bool) (cols : Cols) (groups : List (List TLine)) : Prop :=
  orphaned (ColQueue.new cols lead ae) groups = some false ∨
    ((ColQueue.new (lineLess lead cols (groups.length - 2)) lead ae).Full ∧
    ∃ lines last, breakLines p justify fbs (ColQueue.new (lineLess lead cols (groups.length - 2)) lead ae) = some lines ∧
      (groupLines (ColQueue.new (lineLess lead cols (groups.length - 2)) lead ae) lines).getLast? = some last ∧
      groups.length = (groupLines (ColQueue.new (lineLess lead cols (groups.length - 2)) lead ae) lines).length ∧ last.length = 1)

theorem orphanLoop_end {p : OptParams} {justify : Bool} {fbs : List (Fragment × KBox)} {lead : ℚ} (hl : 0 < lead) {ae : Bool} {cols0 : Cols}
    (h0 : (ColQueue.new cols0 lead ae).Full) {lines : List TLine} (hb : breakLines p justify fbs (ColQueue.new cols0 lead ae) = some lines)
    {r : List (List TLine)} (h : orphanLoop p justify fbs (ColQueue.new cols0 lead ae) (groupLines (ColQueue.new cols0 lead ae) lines) = some r) :
    ∃ cols lines, LessRoom lead cols0 cols ∧ (ColQueue.new cols lead ae).Full ∧
      breakLines p justify fbs (ColQueue.new cols lead ae) = some lines ∧ r = groupLines (ColQueue.new cols lead ae) lines ∧
      GroupsEnd p justify fbs lead ae cols r := by
  refine orphanLoop.partial_correctness p justify fbs
    (motive := fun q groups r => ∀ cols lines, q = ColQueue.new cols lead ae → LessRoom lead cols0 cols → q.Full → breakLines p justify fbs q = some lines →
      groups = groupLines q lines → ∃ cols lines, LessRoom lead cols0 cols ∧ (ColQueue.new cols lead ae).Full ∧
      breakLines p justify fbs (ColQueue.new cols lead ae) = some lines ∧ r = groupLines (ColQueue.new cols lead ae) lines ∧
      GroupsEnd p justify fbs lead ae cols r)
    ?_ _ _ _ h cols0 lines rfl (LessRoom.refl lead cols0) h0 hb rfl
  intro rec ih q groups r h cols lines0 hq hless hf hb hg
  subst hq
  split at h
  · simp at h
  · rename_i ho
    simp only [Option.some.injEq] at h
    subst h
    exact ⟨cols, lines0, hless, hf, hb, hg, .inl ho⟩
  · rename_i ho
    obtain ⟨h1, g, h2, h3⟩ := orphaned_true ho
    have h4 : g.length ≤ ((ColQueue.new cols lead ae).cap (groups.length - 2)).toNat := by
      rw [hg] at h2 ⊢
      exact (groupLines_length hf lines0 h2).2.1
    obtain ⟨h5, h6⟩ := new_shorten hl (cols := cols) (ae := ae) (i := groups.length - 2) (by omega)
    have hf' := ColQueue.shorten_full (i := groups.length - 2) hf (by omega)
    rw [h5] at hf' h
    split at h
    · simp at h
    · rename_i lines hbl
      split at h
      · simp at h
      · rename_i last hlast
        split at h
        · rename_i hsame
          simp only [Option.some.injEq] at h
          subst h
          exact ⟨cols, lines0, hless, hf, hb, hg, .inr ⟨hf', lines, last, hbl, hlast, hsame.1, hsame.2⟩⟩
        · exact ih _ _ _ h _ lines rfl (hless.lineLess h6) hf' hbl rfl

/-- The layout without avoiding orphaned lines. -/
theorem optimum_plain {cols : Cols} {lead : ℚ} (hl : lead ≠ 0) {align : Align} {p : OptParams} {ws : List WordLike} {ae : Bool} {fbs : List (Fragment × KBox)}
    (hfb : intoBoxes env ws (align = .justify) = some fbs) (hne : fbs ≠ []) (hf : (ColQueue.new cols lead ae).Full) {lines : List TLine}
    (hb : breakLines p (align = .justify) fbs (ColQueue.new cols lead ae) = some lines) :
    optimumShape env cols lead false align p ws ae = some ((groupLines (ColQueue.new cols lead ae) lines).map fun ls => ⟨ls, lead, align, ls.length * lead⟩) := by
  have h0 : (ColQueue.new cols lead ae).count 0 ≠ 0 := by have := hf 0; simp only [ColQueue.count]; omega
  rw [optimumShape, if_neg hl, hfb]
  simp only [h0, if_false]
  rw [shapeFrom, if_neg hne, hb]
  simp [placeLines]

theorem shapeFrom_orphans {p : OptParams} {justify ae ae' : Bool} {fbs : List (Fragment × KBox)} (hne : fbs ≠ []) {cols : Cols} {lead : ℚ}
    (hl : 0 < lead) (hc : ∀ i, 0 ≤ (cols i).2) (hf : (ColQueue.new cols lead ae').Full) (hae : ae' = true → ae = true) {r : List (List TLine)}
    (h : shapeFrom p justify true ae fbs (ColQueue.new cols lead ae') = some r) :
    ∃ skip cols' lines, skip ≤ 1 ∧ (∀ i < skip, (cols i).2 < lead * 2 ∧ ae = true) ∧ LessRoom lead (fun i => cols (skip + i)) cols' ∧
      (ColQueue.new cols' lead (ae' && skip = 0)).Full ∧ breakLines p justify fbs (ColQueue.new cols' lead (ae' && skip = 0)) = some lines ∧
      r = List.replicate skip [] ++ groupLines (ColQueue.new cols' lead (ae' && skip = 0)) lines ∧
      GroupsEnd p justify fbs lead (ae' && skip = 0) cols' (groupLines (ColQueue.new cols' lead (ae' && skip = 0)) lines) ∧
      (skip = 0 → ae = true → (ColQueue.new cols lead ae').cap 0 = 1 → r.length ≤ 1) := by
  rw [shapeFrom, if_neg hne] at h
  split at h
  · simp at h
  · rename_i lines hb
    split at h
    · rename_i hc1
      split at h
      · simp at h
      · rename_i lines' hb'
        have e : (ColQueue.new cols lead ae').removeFirst = ColQueue.new (fun i => cols (1 + i)) lead false := by
          unfold ColQueue.removeFirst ColQueue.new
          congr 1
          · funext i; simp only [Nat.add_comm 1 i]
          · funext i; simp only [Nat.add_comm 1 i]; simp
        rw [e] at hb' h
        have hf' : (ColQueue.new (fun i => cols (1 + i)) lead false).Full := by rw [← e]; exact fun c => hf (c + 1)
        obtain ⟨r', hr', rfl⟩ := Option.map_eq_some_iff.1 h
        simp only [placeLines, if_true] at hr'
        obtain ⟨cols', lines'', h1, h2, h3, rfl, h4⟩ := orphanLoop_end hl hf' hb' hr'
        refine ⟨1, cols', lines'', le_rfl, ?_, h1, by simpa using h2, by simpa using h3, by simp, by simpa using h4, by simp⟩
        intro i hi
        obtain rfl : i = 0 := by omega
        refine ⟨?_, hc1.2.1⟩
        have : (ColQueue.new cols lead ae').cap 0 = 1 := hc1.2.2.1
        exact (lineCap_two hl (new_default 0 ae')).1 (le_of_eq this)
    · rename_i hc1
      simp only [placeLines, if_true] at h
      have h' := h
      obtain ⟨cols', lines'', h1, h2, h3, hr, h4⟩ := orphanLoop_end hl hf hb h
      rw [hr] at h4
      refine ⟨0, cols', lines'', by norm_num, by simp, by simpa using h1, by simpa using h2, by simpa using h3, by simpa using hr, by simpa using h4, ?_⟩
      intro _ hae' hcap
      have h1' : (ColQueue.new cols lead ae').count 0 = 1 := hcap
      have h2' : 2 ≤ (ColQueue.new cols lead ae').count 1 := by
        have := hf 1
        simp only [ColQueue.count, Nat.zero_add] at h1' ⊢
        omega
      have hlen : lines.length ≤ 1 := by
        by_contra hlen
        exact hc1 ⟨rfl, hae', h1', by omega, h2'⟩
      have hcount := groupLines_count hf lines
      have hor : orphaned (ColQueue.new cols lead ae') (groupLines (ColQueue.new cols lead ae') lines) ≠ some true := by
        intro ho
        have := (orphaned_true ho).1
        omega
      rw [orphanLoop] at h'
      split at h'
      · simp at h'
      · simp only [Option.some.injEq] at h'
        rw [← h']
        omega
      · rename_i ho
        exact absurd ho hor

theorem intoBoxes_ne {ws : List WordLike} (hws : ws ≠ []) {justify : Bool} {fbs : List (Fragment × KBox)} (h : intoBoxes env ws justify = some fbs) : fbs ≠ [] := by
  cases ws with
  | nil => exact absurd rfl hws
  | cons w ws =>
    simp only [intoBoxes, fragsLoop] at h
    split at h
    · simp at h
    · obtain ⟨m, -, rfl⟩ := Option.map_eq_some_iff.1 h
      simp

/-- What comes out for a paragraph with words. -/
theorem optimum_orphans {ws : List WordLike} (hws : ws ≠ []) {cols : Cols} {lead : ℚ} (hl : 0 < lead) (hc : ∀ i, 0 ≤ (cols i).2) {align : Align} {p : OptParams} {ae : Bool}
    {out : List ShapedText} (h : optimumShape env cols lead true align p ws ae = some out) :
    ∃ fbs skip cols' lines, intoBoxes env ws (align = .justify) = some fbs ∧ fbs ≠ [] ∧ (∀ i < skip, (cols i).2 < lead * 2 ∧ ae = true) ∧
      LessRoom lead (fun i => cols (skip + i)) cols' ∧ (ColQueue.new cols' lead (ae && skip = 0)).Full ∧
      breakLines p (align = .justify) fbs (ColQueue.new cols' lead (ae && skip = 0)) = some lines ∧
      out = (List.replicate skip [] ++ groupLines (ColQueue.new cols' lead (ae && skip = 0)) lines).map (fun ls => ⟨ls, lead, align, ls.length * lead⟩) ∧
      GroupsEnd p (align = .justify) fbs lead (ae && skip = 0) cols' (groupLines (ColQueue.new cols' lead (ae && skip = 0)) lines) ∧
      (skip = 0 → ae = true → (ColQueue.new cols lead ae).cap 0 = 1 → out.length ≤ 1) := by
  rw [optimumShape, if_neg hl.ne'] at h
  split at h
  · simp at h
  · rename_i fbs hfb
    have hne := intoBoxes_ne hws hfb
    split at h
    · rename_i h0
      have hae : ae = true := by
        by_contra hae
        have : 1 ≤ (ColQueue.new cols lead ae).cap 0 := by
          rcases lineCap_spec hl (hc 0) 1 with ⟨h1, -⟩ | ⟨h1, -⟩ <;> simp [ColQueue.new, hae, h1]
        simp only [ColQueue.count] at h0
        omega
      obtain ⟨chunks, hch, rfl⟩ := Option.map_eq_some_iff.1 h
      obtain ⟨r, hr, rfl⟩ := Option.map_eq_some_iff.1 hch
      have hf : (ColQueue.new (fun i => cols (i + 1)) lead false).Full := by
        intro c
        rcases lineCap_spec hl (hc (c + 1)) 1 with ⟨h1, -⟩ | ⟨h1, -⟩ <;> simp [ColQueue.new, h1]
      obtain ⟨skip, cols', lines, h1, h2, h3, h4, h5, rfl, h6, -⟩ := shapeFrom_orphans hne hl (fun i => hc (i + 1)) hf (fun e => by simp at e) hr
      have e : (ae && decide (skip + 1 = 0)) = (false && decide (skip = 0)) := by simp
      refine ⟨fbs, skip + 1, cols', lines, hfb, hne, ?_, ?_, ?_, ?_, ?_, ?_, by simp⟩
      · intro i hi
        cases i with
        | zero =>
          refine ⟨?_, hae⟩
          exact (lineCap_two hl (new_default 0 ae)).1 (by
            have : lineCap (cols 0).2 lead (if 0 = 0 ∧ ae = true then 0 else 1) = 0 := h0
            omega)
        | succ i => exact h2 i (by omega)
      · intro i
        have := h3 i
        simp only [show skip + i + 1 = skip + 1 + i by omega] at this
        exact this
      · rw [e]; exact h4
      · rw [e]; exact h5
      · rw [e, List.replicate_succ]; rfl
      · rw [e]; exact h6
    · rename_i h0
      obtain ⟨r, hr, rfl⟩ := Option.map_eq_some_iff.1 h
      obtain ⟨skip, cols', lines, h1, h2, h3, h4, h5, h7, h6, h8⟩ := shapeFrom_orphans hne hl hc (SetFrom.new hl hc h0).full id hr
      refine ⟨fbs, skip, cols', lines, hfb, hne, h2, h3, h4, h5, by rw [h7], h6, fun a b c => by simpa using h8 a b c⟩

theorem orphaned_false {q : ColQueue} {before : List (List TLine)} {prev last : List TLine} (h : orphaned q (before ++ [prev, last]) = some false)
    (h1 : last.length = 1) : prev.length ≤ 2 ∨ q.cap (before.length + 1) ≤ 1 := by
  simp only [orphaned, List.reverse_append, List.reverse_cons, List.reverse_nil, List.nil_append, List.cons_append, Option.some.injEq,
    decide_eq_false_iff_not, h1, true_and, List.length_append, List.length_cons, List.length_nil] at h
  simp only [show before.length + (0 + 1 + 1) - 1 = before.length + 1 by omega] at h
  omega

/-- C71, the columns: with `avoid_orphans`, a paragraph is laid out as it is without, for columns of which some are left out at the start (only if the paragraph may leave
its first column empty, and these have no room for two lines), and some have whole lines of room less (and still room for two lines). If the last line is alone in its column then
the column before it has at most two lines, or the last has no room for two lines, or it does not help to take another line of room from the column before it: the
paragraph still needs as many columns, and again there is one line in the last. -/
theorem C71_orphans {ws : List WordLike} {cols : Cols} {lead : ℚ} (hl : 0 < lead) (hc : ∀ i, 0 ≤ (cols i).2) {align : Align} {p : OptParams} {ae : Bool}
    {out : List ShapedText} (h : optimumShape env cols lead true align p ws ae = some out) :
    ∃ (skip : Nat) (cols' : Cols) (rest : List ShapedText), (∀ i < skip, (cols i).2 < lead * 2 ∧ ae = true) ∧
      LessRoom lead (fun i => cols (skip + i)) cols' ∧ out = List.replicate skip ⟨[], lead, align, 0⟩ ++ rest ∧
      optimumShape env cols' lead false align p ws (ae && skip = 0) = some rest ∧
      ∀ before prev last, rest = before ++ [prev, last] → last.lines.length = 1 →
        prev.lines.length ≤ 2 ∨ (cols' (before.length + 1)).2 < lead * 2 ∨
        ∃ (rest' : List ShapedText) (last' : ShapedText), optimumShape env (lineLess lead cols' before.length) lead false align p ws (ae && skip = 0) = some rest' ∧
          rest'.length = rest.length ∧ rest'.getLast? = some last' ∧ last'.lines.length = 1 := by
  by_cases hws : ws = []
  · subst hws
    rcases optimumShape_nil h with ⟨rfl, h0⟩ | ⟨rfl, h0⟩
    · refine ⟨0, cols, [⟨[⟨[], 0, 0⟩], lead, align, lead⟩], by simp, by simpa using LessRoom.refl lead cols, by simp, ?_, ?_⟩
      · simp only [decide_true, Bool.and_true]
        simp [optimumShape, hl.ne', intoBoxes, fragsLoop, h0, shapeFrom]
      · intro before prev last e _
        have := congrArg List.length e
        simp at this
    · refine ⟨1, fun i => cols (1 + i), [⟨[⟨[], 0, 0⟩], lead, align, lead⟩], ?_, LessRoom.refl lead _, by simp, ?_, ?_⟩
      · intro i hi
        obtain rfl : i = 0 := by omega
        have hcap : lineCap (cols 0).2 lead (if 0 = 0 ∧ ae = true then 0 else 1) = 0 := h0
        refine ⟨(lineCap_two hl (new_default 0 ae)).1 (by omega), ?_⟩
        by_contra hae
        rcases lineCap_spec hl (hc 0) 1 with ⟨h1, -⟩ | ⟨h1, -⟩ <;> simp [hae] at hcap <;> omega
      · have h1 : (ColQueue.new (fun i => cols (1 + i)) lead false).count 0 ≠ 0 := by
          rcases lineCap_spec hl (hc 1) 1 with ⟨h1, -⟩ | ⟨h1, -⟩ <;> simp [ColQueue.count, ColQueue.new, h1] <;> omega
        simp [optimumShape, hl.ne', intoBoxes, fragsLoop, h1, shapeFrom]
      · intro before prev last e _
        have := congrArg List.length e
        simp at this
  · obtain ⟨fbs, skip, cols', lines, hfb, hne, h1, h2, h3, h4, rfl, h5, -⟩ := optimum_orphans hws hl hc h
    refine ⟨skip, cols', _, h1, h2, by rw [List.map_append, List.map_replicate]; simp, optimum_plain hl.ne' hfb hne h3 h4, ?_⟩
    intro before prev last e h6
    obtain ⟨g1, g2, e0, rfl, e2⟩ := List.map_eq_append_iff.1 e
    obtain ⟨gp, g3, rfl, rfl, e4⟩ := List.map_eq_cons_iff.1 e2
    obtain ⟨gl, g4, rfl, rfl, e6⟩ := List.map_eq_cons_iff.1 e4
    obtain rfl := List.map_eq_nil_iff.1 e6
    rw [List.length_map] at *
    simp only at h6
    rcases h5 with h5 | ⟨h5, lines', last', h7, h8, h9, h10⟩
    · rw [e0] at h5
      rcases orphaned_false h5 h6 with h | h
      · exact .inl h
      · exact .inr (.inl ((lineCap_two hl (new_default _ _)).1 h))
    · right; right
      have el : (groupLines (ColQueue.new cols' lead (ae && decide (skip = 0))) lines).length - 2 = g1.length := by rw [e0]; simp
      rw [el] at h5 h7 h8 h9
      refine ⟨_, ⟨last', lead, align, last'.length * lead⟩, optimum_plain hl.ne' hfb hne h5 h7, ?_, ?_, h10⟩
      · rw [List.length_map, List.length_map, ← h9]
      · rw [List.getLast?_map, h8]; rfl

/-- C71, the first column: a paragraph that starts in a column with content and goes on in the next never leaves exactly one line in the first. -/
theorem C71_first {ws : List WordLike} {cols : Cols} {lead : ℚ} (hl : 0 < lead) (hc : ∀ i, 0 ≤ (cols i).2) {align : Align} {p : OptParams}
    {out : List ShapedText} (h : optimumShape env cols lead true align p ws true = some out) (h2 : 2 ≤ out.length) :
    ∀ chunk ∈ out.head?, chunk.lines.length ≠ 1 := by
  by_cases hws : ws = []
  · subst hws
    rcases optimumShape_nil h with ⟨rfl, h0⟩ | ⟨rfl, h0⟩
    · simp at h2
    · simp
  · obtain ⟨fbs, skip, cols', lines, hfb, hne, h1, h3, h4, h5, rfl, h6, h7⟩ := optimum_orphans hws hl hc h
    cases skip with
    | succ skip => simp [List.replicate_succ]
    | zero =>
      simp only [List.replicate_zero, List.nil_append, decide_true, Bool.and_true, List.length_map, List.head?_map, Nat.zero_add] at *
      intro chunk hch
      obtain ⟨g, hg, rfl⟩ := Option.map_eq_some_iff.1 hch
      simp only
      have hcap : (ColQueue.new cols lead true).cap 0 ≠ 1 := fun e => by have := h7 trivial trivial e; omega
      have hcap' : 2 ≤ (ColQueue.new cols' lead true).cap 0 := by
        have hf := h4 0
        by_contra hlt
        have hle : (ColQueue.new cols' lead true).cap 0 = 1 := by omega
        rcases h3 0 with e | ⟨n, e, e2⟩
        · apply hcap
          have e' : cols' 0 = cols 0 := e
          simp only [ColQueue.new] at hle ⊢
          rw [← e']; exact hle
        · have := (lineCap_two hl (y := (cols' 0).2) (new_default 0 true)).1 (le_of_eq hle)
          linarith
      have hb := groupLines_before h4 lines (c := 1) (by omega)
      have e : (groupLines (ColQueue.new cols' lead true) lines).take 1 = [g] := by
        cases hgl : groupLines (ColQueue.new cols' lead true) lines with
        | nil => rw [hgl] at hg; simp at hg
        | cons x xs => rw [hgl] at hg; simp at hg; simp [hg]
      rw [e] at hb
      simp only [List.flatten_cons, List.flatten_nil, List.append_nil, ColQueue.before] at hb
      omega

/-! ### A case -/

/-- "AVAV " eight times: four lines of two. -/
def orphanWords : List WordLike := demoWords ++ demoWords ++ [.word demoWord, .word demoWord]

/-- One line of room in the first column, three in the others. -/
def orphanCols : Cols := fun i => if i = 0 then (50, 10) else (50, 30)

/-- The boxes of these words. -/
def orphanBoxes : List (Fragment × KBox) := (intoBoxes demoEnv orphanWords false).getD []

/-- The columns after the first. -/
def orphanQueue : ColQueue := (ColQueue.new orphanCols 10 true).removeFirst

/-- The lines for these columns. -/
def orphanLines : List TLine := (breakLines .default false orphanBoxes orphanQueue).getD []

/-- The lines for these columns, with one line of room less in the first. -/
def orphanLines2 : List TLine := (breakLines .default false orphanBoxes (orphanQueue.shorten 0)).getD []

/-- The first column is skipped, and a line moves to the last. Without `avoid_orphans` there would be one line in the first and
three in the second, and if the second were the first three and one. -/
theorem orphan_case : ∃ out, optimumShape demoEnv orphanCols 10 true .left .default orphanWords true = some out ∧ out.map (fun c => c.lines.length) = [0, 2, 2] ∧
    (optimumShape demoEnv (fun i => orphanCols (1 + i)) 10 false .left .default orphanWords false).map (·.map fun c => c.lines.length) = some [3, 1] := by
  have e1 : intoBoxes demoEnv orphanWords false = some orphanBoxes := eq_some_getD (by decide +kernel)
  have e2 : breakLines .default false orphanBoxes orphanQueue = some orphanLines := eq_some_getD (by decide +kernel)
  have e3 : breakLines .default false orphanBoxes (orphanQueue.shorten 0) = some orphanLines2 := eq_some_getD (by decide +kernel)
  have e4 : orphaned orphanQueue (groupLines orphanQueue orphanLines) = some true := by decide +kernel
  have e5 : (groupLines orphanQueue orphanLines).length - 2 = 0 := by decide +kernel
  have e6 : orphaned (orphanQueue.shorten 0) (groupLines (orphanQueue.shorten 0) orphanLines2) = some false := by decide +kernel
  have e7 : ((groupLines (orphanQueue.shorten 0) orphanLines2).getLast?.map List.length) = some 2 := by decide +kernel
  have e8 : (breakLines .default false orphanBoxes (ColQueue.new orphanCols 10 true)).map List.length = some 4 := by decide +kernel
  obtain ⟨last, e9, e10⟩ := Option.map_eq_some_iff.1 e7
  obtain ⟨lines, e11, e12⟩ := Option.map_eq_some_iff.1 e8
  have hloop : orphanLoop .default false orphanBoxes orphanQueue (groupLines orphanQueue orphanLines) = some (groupLines (orphanQueue.shorten 0) orphanLines2) := by
    rw [orphanLoop, e4]
    simp only [e5, e3, e9]
    rw [if_neg (by rw [e10]; simp), orphanLoop, e6]
  refine ⟨([] :: groupLines (orphanQueue.shorten 0) orphanLines2).map fun ls => ⟨ls, 10, .left, ls.length * 10⟩, ?_, ?_, by decide +kernel⟩
  · rw [optimumShape, if_neg (by norm_num)]
    simp only [show decide (Align.left = .justify) = false from rfl, e1]
    rw [if_neg (by decide +kernel), shapeFrom, if_neg (by decide +kernel), e11]
    simp only
    rw [if_pos ⟨trivial, trivial, by decide +kernel, by omega, by decide +kernel⟩]
    rw [show (ColQueue.new orphanCols 10 true).removeFirst = orphanQueue from rfl, e2]
    simp only [placeLines, if_true, hloop, Option.map_some]
  · decide +kernel

/-- The conditions of both theorems are met. -/
example : ∃ out, optimumShape demoEnv orphanCols 10 true .left .default orphanWords true = some out ∧ 2 ≤ out.length ∧
    (∀ i, 0 ≤ (orphanCols i).2) ∧ ∀ chunk ∈ out.head?, chunk.lines.length ≠ 1 := by
  obtain ⟨out, h, h2, -⟩ := orphan_case
  have hc : ∀ i, 0 ≤ (orphanCols i).2 := fun i => by simp only [orphanCols]; split <;> norm_num
  have hlen : 2 ≤ out.length := by have := congrArg List.length h2; simp at this; omega
  exact ⟨out, h, hlen, hc, C71_first (by norm_num) hc h hlen⟩

end Pdfje
