import Verif.Proofs.OptLines
import Verif.Proofs.ShapeEnds
import Verif.Props.KnuthPlass
/-
Lines in columns (optimum.py): groups of lines, and the loop that moves orphaned lines.
-/

namespace Pdfje

variable {env : Env}

/-! ### Stretched lines -/

theorem WordLike.stretchTail_width (a : ℚ) : ∀ {w : WordLike}, w.WF env → (∀ st ∈ w.tailState, st.size ≠ 0) →
    (w.stretchTail a).width = w.width + if a = 1 then 0 else a * w.spaceWidth
  | .box b, h, _ => by simp [WordLike.stretchTail, WordLike.spaceWidth, WordLike.tail]
  | .word w, h, hz => by
    obtain ⟨bs, t, st⟩ := w
    cases t with
    | none => simp [WordLike.stretchTail, WordLike.spaceWidth, WordLike.tail, Word.stretchTail]
    | some t =>
      simp only [WordLike.stretchTail, WordLike.spaceWidth, WordLike.tail, WordLike.width, Word.stretchTail]
      split
      · simp
      · have hz' : st.size ≠ 0 := hz st (by simp [WordLike.tailState])
        have hw : Word.WF env ⟨bs, some t, st⟩ := h
        simp only [Word.width, Word.prunedWidth, Word.prunableSpace, (hw.tail t (by simp)).stretch_width hz']
        ring
  | .withCmd w c, h, hz => by
    simp only [WordLike.stretchTail]
    split
    · exact WordLike.stretchTail_width a (w := w) h hz
    · rename_i hn
      have : w.tail = none := by simpa using hn
      simp [WordLike.spaceWidth, WordLike.tail, this]

theorem stretch_widths (ws : List WordLike) (a : ℚ) (hw : ∀ w ∈ ws, w.WF env) (hz : ∀ w ∈ ws, ∀ st ∈ w.tailState, st.size ≠ 0) :
    totalWidth (ws.map (WordLike.stretchTail a)) = totalWidth ws + if a = 1 then 0 else a * totalSpace ws := by
  induction ws with
  | nil => simp [totalWidth, totalSpace]
  | cons w ws ih =>
    have i := ih (fun x hx => hw x (List.mem_cons_of_mem _ hx)) (fun x hx => hz x (List.mem_cons_of_mem _ hx))
    have e := WordLike.stretchTail_width a (hw w List.mem_cons_self) (hz w List.mem_cons_self)
    simp only [totalWidth, totalSpace, List.map_cons, List.sum_cons] at i ⊢
    rw [e, i]
    split
    · ring
    · ring

/-! ### Groups of lines -/

/-- The columns from which a paragraph is set: each holds at least one line. -/
def ColQueue.Full (q : ColQueue) : Prop := ∀ c, 1 ≤ q.cap c

/-- The lines in the columns before `c`. -/
def ColQueue.before (q : ColQueue) : Nat → Nat
  | 0 => 0
  | c + 1 => q.before c + (q.cap c).toNat

theorem ColQueue.count_eq {q : ColQueue} (h : q.Full) : ∀ c, q.count c = q.before (c + 1)
  | 0 => by have := h 0; simp [ColQueue.count, ColQueue.before]; omega
  | c + 1 => by
    have := h (c + 1)
    rw [ColQueue.count, ColQueue.count_eq h c, ColQueue.before.eq_2 q (c + 1)]; push_cast; omega

theorem ColQueue.before_lt {q : ColQueue} (h : q.Full) (c : Nat) : q.before c < q.before (c + 1) := by
  have := h c; simp only [ColQueue.before]; omega

theorem ColQueue.before_mono {q : ColQueue} (h : q.Full) : StrictMono q.before := strictMono_nat_of_lt_succ (ColQueue.before_lt h)

theorem pySlice_nat {α} (ls : List α) (a b : Nat) : pySlice ls a b = (ls.take b).drop a := by
  have h1 : ¬ ((a : ℤ) < 0) := by omega
  have h2 : ¬ ((b : ℤ) < 0) := by omega
  simp only [pySlice, sliceIndex, if_neg h1, if_neg h2, Int.toNat_natCast]

theorem linesPerColumn_eq {q : ColQueue} (h : q.Full) (ls : List TLine) (fuel c : Nat) :
    linesPerColumn q ls (fuel + 1) c (q.before c) = if ls.length ≤ q.before c then []
      else (ls.take (q.before (c + 1))).drop (q.before c) :: linesPerColumn q ls fuel (c + 1) (q.before (c + 1)) := by
  simp only [linesPerColumn]
  rw [ColQueue.count_eq h, pySlice_nat]
  have := ColQueue.before_lt h c
  split
  · rename_i e
    rw [List.drop_eq_nil_iff, List.length_take] at e
    rw [if_pos (by omega)]
  · rename_i e
    rw [List.drop_eq_nil_iff, List.length_take] at e
    rw [if_neg (by omega)]

theorem linesPerColumn_get {q : ColQueue} (h : q.Full) (ls : List TLine) : ∀ (fuel c k : Nat) (g : List TLine),
    (linesPerColumn q ls fuel c (q.before c))[k]? = some g →
    g = (ls.take (q.before (c + k + 1))).drop (q.before (c + k)) ∧ q.before (c + k) < ls.length
  | 0, c, k, g, hk => by simp [linesPerColumn] at hk
  | fuel + 1, c, k, g, hk => by
    rw [linesPerColumn_eq h] at hk
    split at hk
    · simp at hk
    · cases k with
      | zero => simp at hk; exact ⟨hk.symm, by simpa using by omega⟩
      | succ k =>
        rw [List.getElem?_cons_succ] at hk
        have := linesPerColumn_get h ls fuel (c + 1) k g hk
        rw [show c + 1 + k = c + (k + 1) by omega] at this
        exact this

theorem linesPerColumn_flatten {q : ColQueue} (h : q.Full) (ls : List TLine) : ∀ (fuel c : Nat), ls.length ≤ q.before c + fuel →
    (linesPerColumn q ls fuel c (q.before c)).flatten = ls.drop (q.before c)
  | 0, c, hf => by simp [linesPerColumn]; omega
  | fuel + 1, c, hf => by
    rw [linesPerColumn_eq h]
    split
    · rename_i e; simp; omega
    · have := ColQueue.before_lt h c
      rw [List.flatten_cons, linesPerColumn_flatten h ls fuel (c + 1) (by omega)]
      exact drop_take_append_drop ls _ _ (by omega)

/-- The groups are all lines, and each is as long as its column allows. -/
theorem groupLines_spec {q : ColQueue} (h : q.Full) (ls : List TLine) :
    (groupLines q ls).flatten = ls ∧ ∀ c g, (groupLines q ls)[c]? = some g →
      g = (ls.take (q.before (c + 1))).drop (q.before c) ∧ q.before c < ls.length := by
  refine ⟨?_, ?_⟩
  · have := linesPerColumn_flatten h ls (ls.length + 1) 0 (by simp [ColQueue.before])
    simpa [groupLines, ColQueue.before] using this
  · intro c g hc
    have := linesPerColumn_get h ls (ls.length + 1) 0 c g (by simpa [groupLines, ColQueue.before] using hc)
    simpa using this

theorem groupLines_length {q : ColQueue} (h : q.Full) (ls : List TLine) {c : Nat} {g : List TLine} (hc : (groupLines q ls)[c]? = some g) :
    g ≠ [] ∧ g.length ≤ (q.cap c).toNat ∧ q.before c + g.length ≤ ls.length := by
  obtain ⟨rfl, h1⟩ := (groupLines_spec h ls).2 c g hc
  have := ColQueue.before_lt h c
  refine ⟨?_, ?_, ?_⟩
  · rw [ne_eq, List.drop_eq_nil_iff, List.length_take]; omega
  · simp only [List.length_drop, List.length_take, ColQueue.before]; omega
  · simp only [List.length_drop, List.length_take]; omega

/-- Where a line of a group is among all lines. -/
theorem groupLines_index {q : ColQueue} (h : q.Full) (ls : List TLine) {c : Nat} {g : List TLine} (hc : (groupLines q ls)[c]? = some g)
    {k : Nat} {l : TLine} (hk : g[k]? = some l) : ls[q.before c + k]? = some l ∧ q.before c + k < q.before (c + 1) := by
  obtain ⟨rfl, h1⟩ := (groupLines_spec h ls).2 c g hc
  rw [List.getElem?_drop, List.getElem?_take] at hk
  split at hk
  · exact ⟨hk, by assumption⟩
  · simp at hk

/-- The lines before a group. -/
theorem groupLines_before {q : ColQueue} (h : q.Full) (ls : List TLine) : ∀ {c : Nat}, c < (groupLines q ls).length →
    (((groupLines q ls).take c).flatten).length = q.before c
  | 0, _ => by simp [ColQueue.before]
  | c + 1, hc => by
    have h1 : c < (groupLines q ls).length := by omega
    rw [List.take_add_one, List.getElem?_eq_getElem h1, List.flatten_append, List.length_append, groupLines_before h ls h1]
    obtain ⟨e, h2⟩ := (groupLines_spec h ls).2 c _ (List.getElem?_eq_getElem h1)
    obtain ⟨e', h3⟩ := (groupLines_spec h ls).2 (c + 1) _ (List.getElem?_eq_getElem hc)
    have := ColQueue.before_lt h c
    simp only [Option.toList_some, List.flatten_cons, List.flatten_nil, List.append_nil]
    rw [e, List.length_drop, List.length_take]
    omega

theorem find_spec {q : ColQueue} (h : q.Full) (i : Nat) : ∀ (fuel c : Nat), q.before c ≤ i → i < q.before c + fuel →
    q.before (q.find i fuel c (q.before c)) ≤ i ∧ i < q.before (q.find i fuel c (q.before c) + 1)
  | 0, c, h1, h2 => by omega
  | fuel + 1, c, h1, h2 => by
    have h3 := h c
    have e : (q.before c : ℤ) + q.cap c = q.before (c + 1) := by simp only [ColQueue.before]; push_cast; omega
    simp only [ColQueue.find]
    rw [e]
    split
    · rename_i hlt; exact ⟨h1, by exact_mod_cast hlt⟩
    · rename_i hlt
      have := ColQueue.before_lt h c
      exact find_spec h i fuel (c + 1) (by omega) (by omega)

/-- The width of a line is that of the column that it is in. -/
theorem lineLength_spec {q : ColQueue} (h : q.Full) {i c : Nat} (h1 : q.before c ≤ i) (h2 : i < q.before (c + 1)) : q.lineLength i = q.width c := by
  obtain ⟨h3, h4⟩ := find_spec h i (i + 2 + (q.cap 0).natAbs) 0 (by simp [ColQueue.before]) (by simp [ColQueue.before]; omega)
  unfold ColQueue.lineLength
  congr 1
  simp only [ColQueue.before, Nat.cast_zero] at h3 h4
  generalize q.find i (i + 2 + (q.cap 0).natAbs) 0 0 = d at h3 h4
  have hm := ColQueue.before_mono h
  rcases lt_trichotomy d c with hd | hd | hd
  · have := hm.monotone (show d + 1 ≤ c by omega); rw [ColQueue.before] at this; omega
  · exact hd
  · have := hm.monotone (show c + 1 ≤ d by omega); omega

/-! ### Moving orphaned lines -/

/-- Groups of lines that were set for the columns they are in. These columns may be shorter than those given. -/
def Placed (p : OptParams) (justify : Bool) (fbs : List (Fragment × KBox)) (q : ColQueue) (groups : List (List TLine)) : Prop :=
  ∃ q' lines, q'.width = q.width ∧ q'.Full ∧ (∀ c, q'.cap c ≤ q.cap c) ∧ breakLines p justify fbs q' = some lines ∧
    groups = groupLines q' lines

theorem orphaned_true {q : ColQueue} {groups : List (List TLine)} (h : orphaned q groups = some true) :
    2 ≤ groups.length ∧ ∃ g, groups[groups.length - 2]? = some g ∧ 2 < g.length := by
  unfold orphaned at h
  split at h
  · simp at h
  · simp at h
  · rename_i last prev more e
    have e' : groups = more.reverse ++ [prev, last] := by
      rw [← List.reverse_reverse groups, e]; simp
    simp only [Option.some.injEq, decide_eq_true_eq] at h
    subst e'
    refine ⟨by simp, prev, ?_, h.2.2⟩
    simp

theorem ColQueue.shorten_full {q : ColQueue} (h : q.Full) {i : Nat} (hi : 2 ≤ q.cap i) : (q.shorten i).Full := by
  intro c
  simp only [ColQueue.shorten]
  split
  · subst_vars; omega
  · exact h c

theorem orphanLoop_placed (p : OptParams) (justify : Bool) (fbs : List (Fragment × KBox)) (q0 : ColQueue) (q : ColQueue) (groups : List (List TLine))
    (r : List (List TLine)) (h : orphanLoop p justify fbs q groups = some r)
    (hw : q.width = q0.width) (hf : q.Full) (hc : ∀ c, q.cap c ≤ q0.cap c)
    (hg : ∃ lines, breakLines p justify fbs q = some lines ∧ groups = groupLines q lines) : Placed p justify fbs q0 r := by
  refine orphanLoop.partial_correctness p justify fbs
    (motive := fun q groups r => q.width = q0.width → q.Full → (∀ c, q.cap c ≤ q0.cap c) →
      (∃ lines, breakLines p justify fbs q = some lines ∧ groups = groupLines q lines) → Placed p justify fbs q0 r)
    ?_ q groups r h hw hf hc hg
  clear h hw hf hc hg q groups r
  intro rec ih q groups r h hw hf hc hg
  obtain ⟨lines0, hl0, rfl⟩ := hg
  split at h
  · simp at h
  · simp only [Option.some.injEq] at h
    exact ⟨q, lines0, hw, hf, hc, hl0, h.symm⟩
  · rename_i ho
    split at h
    · simp at h
    · rename_i lines hl
      split at h
      · simp at h
      · split at h
        · simp only [Option.some.injEq] at h
          exact ⟨q, lines0, hw, hf, hc, hl0, h.symm⟩
        · obtain ⟨h1, g, h2, h3⟩ := orphaned_true ho
          have h4 := (groupLines_length hf lines0 h2).2.1
          refine ih _ _ _ h hw (ColQueue.shorten_full hf (by omega)) ?_ ⟨lines, hl, rfl⟩
          intro c
          simp only [ColQueue.shorten]
          have := hc c
          split <;> omega

theorem placeLines_placed {p : OptParams} {justify avoid : Bool} {fbs : List (Fragment × KBox)} {q : ColQueue} (hf : q.Full) {lines : List TLine}
    (hl : breakLines p justify fbs q = some lines) {r : List (List TLine)} (h : placeLines p justify avoid fbs q lines = some r) :
    Placed p justify fbs q r := by
  unfold placeLines at h
  split at h
  · exact orphanLoop_placed p justify fbs q q _ r h rfl hf (fun _ => le_rfl) ⟨lines, hl, rfl⟩
  · simp only [Option.some.injEq] at h
    exact ⟨q, lines, rfl, hf, fun _ => le_rfl, hl, h.symm⟩

/-! ### The loop ends -/

/-- The lines in the first `n` columns. -/
theorem ColQueue.shorten_before {q : ColQueue} {i : Nat} (hi : 1 ≤ q.cap i) : ∀ n, i < n → (q.shorten i).before n < q.before n := by
  have same : ∀ n, n ≤ i → (q.shorten i).before n = q.before n := by
    intro n
    induction n with
    | zero => intro _; rfl
    | succ n ih => intro hn; simp only [ColQueue.before, ih (by omega)]; congr 2; simp [ColQueue.shorten]; omega
  intro n
  induction n with
  | zero => intro h; omega
  | succ n ih =>
    intro hn
    simp only [ColQueue.before]
    rcases Nat.lt_or_ge i n with h | h
    · have := ih h
      have e : (q.shorten i).cap n = q.cap n := by simp [ColQueue.shorten]; omega
      rw [e]; omega
    · have : n = i := by omega
      subst this
      rw [same n le_rfl]
      have e : (q.shorten n).cap n = q.cap n - 1 := by simp [ColQueue.shorten]
      rw [e]; omega

theorem tryTolerances_spec {p : FitParams} {bs : List KBox} {width : Nat → ℚ} : ∀ {ts : List Tol} {brs : List KBreak},
    tryTolerances p bs width ts = some brs → ∃ pre t post, ts = pre ++ t :: post ∧ optimumFit p bs width t = .ok brs ∧
      ∀ x ∈ pre, optimumFit p bs width x = .error .noFeasibleBreaks
  | [], _, h => by simp [tryTolerances] at h
  | t :: ts, brs, h => by
    simp only [tryTolerances] at h
    split at h
    · rename_i e
      simp only [Option.some.injEq] at h
      subst h
      exact ⟨[], t, ts, rfl, e, by simp⟩
    · rename_i e
      obtain ⟨pre, t', post, rfl, h2, h3⟩ := tryTolerances_spec h
      refine ⟨t :: pre, t', post, rfl, h2, fun x hx => ?_⟩
      rcases List.mem_cons.1 hx with rfl | hx
      · exact e
      · exact h3 x hx
    · simp at h

theorem tolerances_steps (t : ℚ) : tolerances t = tolSteps t := by simp [tolerances, tolSteps]

theorem intoLines_length (justify : Bool) (brs : List KBreak) (fs : List Fragment) : (intoLines justify brs fs).length = brs.length := by
  unfold intoLines
  split <;> simp [raggedLines_length]

/-- The lines come from breaks for the first of the tolerances for which there are any. -/
theorem breakLines_spec {p : OptParams} {justify : Bool} {fbs : List (Fragment × KBox)} {q : ColQueue} {lines : List TLine}
    (h : breakLines p justify fbs q = some lines) : ∃ tol, FirstTol p.tolerance
        (fun x => optimumFit (p.fit (!justify)) (fbs.map (·.2)) q.lineLength x = .error .noFeasibleBreaks) tol ∧ ∃ brs,
      optimumFit (p.fit (!justify)) (fbs.map (·.2)) q.lineLength tol = .ok brs ∧ lines = intoLines justify brs (fbs.map (·.1)) := by
  unfold breakLines at h
  rw [Option.map_eq_some_iff] at h
  obtain ⟨brs, h1, rfl⟩ := h
  obtain ⟨pre, t, post, h2, h3, h4⟩ := tryTolerances_spec h1
  exact ⟨t, ⟨pre, post, by rw [← tolerances_steps]; exact h2, h4⟩, brs, h3, rfl⟩

theorem increasing_length : ∀ {ps : List Nat} {a n : Nat}, (a :: ps).Pairwise (· < ·) → (∀ x ∈ a :: ps, x ≤ n) → ps.length + a ≤ n
  | [], a, n, _, h => by have := h a (by simp); simpa using this
  | b :: ps, a, n, hp, h => by
    have := increasing_length (ps := ps) (a := b) (n := n) (List.pairwise_cons.1 hp).2 (fun x hx => h x (List.mem_cons_of_mem _ hx))
    have := (List.pairwise_cons.1 hp).1 b (by simp)
    simp only [List.length_cons]; omega

theorem breakLines_length {p : OptParams} {justify : Bool} {fbs : List (Fragment × KBox)} (hne : fbs ≠ []) {q : ColQueue} {lines : List TLine}
    (h : breakLines p justify fbs q = some lines) : lines ≠ [] ∧ lines.length ≤ fbs.length := by
  obtain ⟨tol, -, brs, h1, rfl⟩ := breakLines_spec h
  have hne' : fbs.map (·.2) ≠ [] := by simpa using hne
  obtain ⟨ps, h2, -, rfl, -⟩ := (optimumFit_spec hne').1 brs h1
  rw [← List.length_pos_iff, intoLines_length]
  obtain ⟨i1, i2⟩ := Feasible.increasing ps 0 0 h2
  have e : (lineBreaks (p.fit !justify) (fbs.map (·.2)) q.lineLength 0 0 1 ps).length = ps.length := by
    conv_rhs => rw [← lineBreaks_pos (p := p.fit !justify) (bs := fbs.map (·.2)) (width := q.lineLength) ps 0 0 1]
    simp
  rw [e]
  have hps : ps ≠ [] := by rintro rfl; simp at i2
  refine ⟨List.length_pos_iff.2 hps, ?_⟩
  have hlast : (0 :: ps).getLast? = some fbs.length := by
    cases ps with
    | nil => exact absurd rfl hps
    | cons x ps => rw [List.getLast?_cons_cons]; simpa using i2
  have := increasing_length i1 (last_ge i1 hlast)
  omega

theorem groupLines_ne {q : ColQueue} (h : q.Full) {ls : List TLine} (hl : ls ≠ []) : groupLines q ls ≠ [] := by
  intro e
  have := (groupLines_spec h ls).1
  rw [e] at this
  exact hl this.symm

theorem groupLines_count {q : ColQueue} (h : q.Full) (ls : List TLine) : (groupLines q ls).length ≤ ls.length := by
  conv_rhs => rw [← (groupLines_spec h ls).1]
  have key : ∀ gs : List (List TLine), (∀ g ∈ gs, g ≠ []) → gs.length ≤ gs.flatten.length := by
    intro gs
    induction gs with
    | nil => intro _; simp
    | cons g gs ih =>
      intro hg
      have h1 := ih (fun x hx => hg x (by simp [hx]))
      have h2 := List.length_pos_iff.2 (hg g (by simp))
      simp only [List.length_cons, List.flatten_cons, List.length_append]; omega
  apply key
  intro g hg
  obtain ⟨c, hc, e⟩ := List.mem_iff_getElem.1 hg
  exact (groupLines_length h ls (List.getElem?_eq_some_iff.2 ⟨hc, e⟩)).1

theorem orphaned_isSome {q : ColQueue} {groups : List (List TLine)} (h : groups ≠ []) : ∃ b, orphaned q groups = some b := by
  unfold orphaned
  split
  · rename_i e; simp at e; exact absurd e h
  · exact ⟨_, rfl⟩
  · exact ⟨_, rfl⟩

/-- The loop ends, if lines can be set for all columns of these widths. -/
theorem orphanLoop_isSome {p : OptParams} {justify : Bool} {fbs : List (Fragment × KBox)} (hne : fbs ≠ []) {width : Nat → ℚ}
    (hb : ∀ q : ColQueue, q.width = width → q.Full → ∃ lines, breakLines p justify fbs q = some lines) :
    ∀ (n : Nat) (q : ColQueue) (lines : List TLine), q.before fbs.length ≤ n → q.width = width → q.Full → breakLines p justify fbs q = some lines →
      ∃ r, orphanLoop p justify fbs q (groupLines q lines) = some r := by
  intro n
  induction n with
  | zero =>
    intro q lines hn hw hf hl
    have := (ColQueue.before_mono hf).id_le fbs.length
    have h0 := List.length_pos_iff.2 hne
    simp only [id_eq] at this
    omega
  | succ n ih =>
    intro q lines hn hw hf hl
    obtain ⟨h1, h2⟩ := breakLines_length hne hl
    obtain ⟨b, ho⟩ := orphaned_isSome (q := q) (groupLines_ne hf h1)
    rw [orphanLoop, ho]
    cases b with
    | false => exact ⟨_, rfl⟩
    | true =>
      obtain ⟨k1, g, k2, k3⟩ := orphaned_true ho
      have k4 := (groupLines_length hf lines k2).2.1
      have hf' := ColQueue.shorten_full (i := (groupLines q lines).length - 2) hf (by omega)
      obtain ⟨lines', hl'⟩ := hb (q.shorten ((groupLines q lines).length - 2)) hw hf'
      obtain ⟨m1, m2⟩ := breakLines_length hne hl'
      simp only [hl']
      rcases List.eq_nil_or_concat (groupLines (q.shorten ((groupLines q lines).length - 2)) lines') with e | ⟨a, last, e⟩
      · exact absurd e (groupLines_ne hf' m1)
      · rw [List.concat_eq_append] at e
        have e2 : (groupLines (q.shorten ((groupLines q lines).length - 2)) lines').getLast? = some last := by rw [e]; simp
        simp only [e2]
        split
        · exact ⟨_, rfl⟩
        · refine ih _ _ ?_ hw hf' hl'
          have c1 := groupLines_count hf lines
          have := ColQueue.shorten_before (q := q) (i := (groupLines q lines).length - 2) (by omega) fbs.length (by omega)
          omega

end Pdfje

namespace Pdfje

variable {env : Env}

/-! ### The whole layout -/

theorem lineCap_spec {y lead : ℚ} (hl : 0 < lead) (hy : 0 ≤ y) (d : ℤ) :
    (lineCap y lead d = d ∧ y < lead) ∨ (1 ≤ lineCap y lead d ∧ lineCap y lead d * lead ≤ y) := by
  unfold lineCap
  split
  · rename_i h
    left
    refine ⟨rfl, ?_⟩
    have := Int.lt_floor_add_one (y / lead)
    rw [h, div_lt_iff₀ hl] at this
    simpa using this
  · rename_i h
    right
    have h0 : 0 ≤ ⌊y / lead⌋ := Int.floor_nonneg.2 (div_nonneg hy hl.le)
    refine ⟨by omega, ?_⟩
    have := Int.floor_le (y / lead)
    rwa [le_div_iff₀ hl] at this

/-- Columns in which a paragraph is set: `q` are those from column `s` on. -/
structure SetFrom (cols : Cols) (lead : ℚ) (allowEmpty : Bool) (s : Nat) (q : ColQueue) : Prop where
  full : q.Full
  width : ∀ c, q.width c = (cols (s + c)).1
  cap : ∀ c, (q.cap c = 1 ∧ (cols (s + c)).2 < lead ∧ (allowEmpty = false ∨ 1 ≤ s + c)) ∨ q.cap c * lead ≤ (cols (s + c)).2

theorem SetFrom.new {cols : Cols} {lead : ℚ} (hl : 0 < lead) (hc : ∀ i, 0 ≤ (cols i).2) {allowEmpty : Bool}
    (h0 : (ColQueue.new cols lead allowEmpty).count 0 ≠ 0) : SetFrom cols lead allowEmpty 0 (ColQueue.new cols lead allowEmpty) := by
  simp only [ColQueue.count] at h0
  have key : ∀ c, 1 ≤ (ColQueue.new cols lead allowEmpty).cap c ∧
      (((ColQueue.new cols lead allowEmpty).cap c = 1 ∧ (cols c).2 < lead ∧ (allowEmpty = false ∨ 1 ≤ c)) ∨
        (ColQueue.new cols lead allowEmpty).cap c * lead ≤ (cols c).2) := by
    intro c
    simp only [ColQueue.new] at h0 ⊢
    by_cases hd : c = 0 ∧ allowEmpty = true
    · obtain ⟨rfl, rfl⟩ := hd
      simp only [and_self, if_true] at h0 ⊢
      rcases lineCap_spec hl (hc 0) 0 with ⟨h, -⟩ | ⟨h1, h2⟩
      · exact absurd h h0
      · exact ⟨h1, Or.inr h2⟩
    · rw [if_neg hd]
      rcases lineCap_spec hl (hc c) 1 with ⟨h1, h2⟩ | ⟨h1, h2⟩
      · rw [h1]
        refine ⟨le_rfl, Or.inl ⟨rfl, h2, ?_⟩⟩
        cases allowEmpty with
        | false => exact Or.inl rfl
        | true => right; simp at hd; omega
      · exact ⟨h1, Or.inr h2⟩
  exact ⟨fun c => (key c).1, fun c => by rw [Nat.zero_add]; rfl, fun c => by rw [Nat.zero_add]; exact (key c).2⟩

theorem SetFrom.skip {cols : Cols} {lead : ℚ} {ae ae' : Bool} {s : Nat} {q : ColQueue} (h : SetFrom (fun i => cols (i + 1)) lead ae s q) :
    SetFrom cols lead ae' (s + 1) q := by
  refine ⟨h.full, ?_, ?_⟩
  · intro c; rw [h.width]; congr 2; omega
  · intro c
    have e : s + 1 + c = s + c + 1 := by omega
    rw [e]
    rcases h.cap c with ⟨h1, h2, -⟩ | h1
    · exact Or.inl ⟨h1, h2, Or.inr (by omega)⟩
    · exact Or.inr h1

theorem SetFrom.removeFirst {cols : Cols} {lead : ℚ} {ae : Bool} {s : Nat} {q : ColQueue} (h : SetFrom cols lead ae s q) :
    SetFrom cols lead ae (s + 1) q.removeFirst := by
  refine ⟨fun c => h.full (c + 1), ?_, ?_⟩
  · intro c
    have := h.width (c + 1)
    rw [show s + (c + 1) = s + 1 + c by omega] at this
    exact this
  · intro c
    have := h.cap (c + 1)
    rw [show s + (c + 1) = s + 1 + c by omega] at this
    exact this

theorem SetFrom.shorter {cols : Cols} {lead : ℚ} (hl : 0 < lead) {ae : Bool} {s : Nat} {q q' : ColQueue} (h : SetFrom cols lead ae s q)
    (hw : q'.width = q.width) (hf : q'.Full) (hc : ∀ c, q'.cap c ≤ q.cap c) : SetFrom cols lead ae s q' := by
  refine ⟨hf, by rw [hw]; exact h.width, ?_⟩
  intro c
  have h1 := hf c
  have h2 := hc c
  rcases h.cap c with ⟨h3, h4⟩ | h3
  · exact Or.inl ⟨by omega, h4⟩
  · right
    have : (q'.cap c : ℚ) ≤ q.cap c := by exact_mod_cast h2
    nlinarith

/-- What is known of the chunks: some columns are skipped, then come groups of lines for the columns they are in. -/
def Laid (p : OptParams) (justify : Bool) (fbs : List (Fragment × KBox)) (cols : Cols) (lead : ℚ) (ae : Bool)
    (chunks : List (List TLine)) : Prop :=
  ∃ s q lines, SetFrom cols lead ae s q ∧ (0 < s → ae = true) ∧ breakLines p justify fbs q = some lines ∧
    chunks = List.replicate s [] ++ groupLines q lines

theorem shapeFrom_laid {p : OptParams} {justify avoid ae ae' : Bool} {fbs : List (Fragment × KBox)} (hne : fbs ≠ []) {cols : Cols} {lead : ℚ}
    (hl : 0 < lead) {q : ColQueue} (hq : SetFrom cols lead ae' 0 q) {chunks : List (List TLine)} (hae : ae = true → ae' = true)
    (h : shapeFrom p justify avoid ae fbs q = some chunks) : Laid p justify fbs cols lead ae' chunks := by
  unfold shapeFrom at h
  rw [if_neg hne] at h
  split at h
  · simp at h
  · rename_i lines hb
    split at h
    · rename_i hc
      split at h
      · simp at h
      · rename_i lines' hb'
        rw [Option.map_eq_some_iff] at h
        obtain ⟨g, h1, rfl⟩ := h
        obtain ⟨q', ls, k1, k2, k3, k4, rfl⟩ := placeLines_placed hq.removeFirst.full hb' h1
        exact ⟨1, q', ls, hq.removeFirst.shorter hl k1 k2 k3, fun _ => hae hc.2.1, k4, rfl⟩
    · obtain ⟨q', ls, k1, k2, k3, k4, rfl⟩ := placeLines_placed hq.full hb h
      exact ⟨0, q', ls, hq.shorter hl k1 k2 k3, by simp, k4, rfl⟩

theorem optimumShape_laid {cols : Cols} {lead : ℚ} {avoid : Bool} {align : Align} {p : OptParams} {ws : List WordLike} {ae : Bool}
    {out : List ShapedText} (hl : 0 < lead) (hc : ∀ i, 0 ≤ (cols i).2) (hws : ws ≠ [])
    (h : optimumShape env cols lead avoid align p ws ae = some out) :
    ∃ fbs chunks, intoBoxes env ws (align = .justify) = some fbs ∧ fbs ≠ [] ∧ Laid p (align = .justify) fbs cols lead ae chunks ∧
      out = chunks.map fun ls => ⟨ls, lead, align, ls.length * lead⟩ := by
  unfold optimumShape at h
  rw [if_neg hl.ne'] at h
  split at h
  · simp at h
  · rename_i fbs hf
    have hne : fbs ≠ [] := fragsLoop_ne hws hf
    rw [Option.map_eq_some_iff] at h
    obtain ⟨chunks, h1, rfl⟩ := h
    refine ⟨fbs, chunks, hf, hne, ?_, rfl⟩
    split at h1
    · rename_i h0
      rw [Option.map_eq_some_iff] at h1
      obtain ⟨g, h2, rfl⟩ := h1
      have hae : ae = true := by
        by_contra hae
        rw [Bool.not_eq_true] at hae
        subst hae
        rcases lineCap_spec hl (hc 0) 1 with ⟨h, -⟩ | ⟨h, -⟩ <;> simp [ColQueue.count, ColQueue.new] at h0 <;> omega
      have hq : SetFrom (fun i => cols (i + 1)) lead false 0 (ColQueue.new (fun i => cols (i + 1)) lead false) := by
        apply SetFrom.new hl (fun i => hc (i + 1))
        rcases lineCap_spec hl (hc 1) 1 with ⟨h, -⟩ | ⟨h, -⟩ <;> simp [ColQueue.count, ColQueue.new] <;> omega
      subst hae
      unfold shapeFrom at h2
      rw [if_neg hne] at h2
      split at h2
      · simp at h2
      · rename_i lines hb
        split at h2
        · split at h2
          · simp at h2
          · rename_i lines' hb'
            rw [Option.map_eq_some_iff] at h2
            obtain ⟨g, h3, rfl⟩ := h2
            obtain ⟨q', ls, k1, k2, k3, k4, rfl⟩ := placeLines_placed hq.removeFirst.full hb' h3
            exact ⟨2, q', ls, (hq.removeFirst.shorter hl k1 k2 k3).skip, fun _ => rfl, k4, rfl⟩
        · obtain ⟨q', ls, k1, k2, k3, k4, rfl⟩ := placeLines_placed hq.full hb h2
          exact ⟨1, q', ls, (hq.shorter hl k1 k2 k3).skip, fun _ => rfl, k4, rfl⟩
    · rename_i h0
      exact shapeFrom_laid hne hl (SetFrom.new hl hc h0) id h1

end Pdfje
