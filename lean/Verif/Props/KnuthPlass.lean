import Verif.Proofs.Optimal
/-
C38 to C41: optimal line breaks.
-/

namespace Pdfje

variable {p : FitParams} {bs : List KBox} {width : Nat → ℚ} {tol : Tol}

/-! ### Lists of breaks -/

theorem lineBreaks_pos : ∀ (ps : List Nat) (j a f : Nat), (lineBreaks p bs width j a f ps).map KBreak.pos = ps
  | [], _, _, _ => rfl
  | [_], _, _, _ => rfl
  | b :: c :: rest, j, a, f => by simp only [lineBreaks, List.map_cons, lineBreaks_pos (c :: rest)]

theorem lineBreaks_demerits : ∀ (ps : List Nat) (j a f : Nat),
    ((lineBreaks p bs width j a f ps).map KBreak.demerits).sum = totalDemerits p bs width j a f ps
  | [], _, _, _ => rfl
  | [_], _, _, _ => by simp [lineBreaks, totalDemerits]
  | b :: c :: rest, j, a, f => by
    simp only [lineBreaks, List.map_cons, List.sum_cons, totalDemerits, lineBreaks_demerits (c :: rest)]

theorem lineBreaks_width : ∀ (ps : List Nat) (j a f : Nat), Feasible p bs width tol j a ps →
    ((lineBreaks p bs width j a f ps).map KBreak.width).sum = startWidth bs bs.length - startWidth bs a
  | [], _, _, _, h => h.elim
  | [b], _, _, _, h => by obtain ⟨rfl, -⟩ := h; simp [lineBreaks]
  | b :: c :: rest, j, a, f, h => by
    simp only [lineBreaks, List.map_cons, List.sum_cons, lineBreaks_width (c :: rest) _ _ _ h.2.2.2.2]
    ring

theorem Feasible.increasing : ∀ (ps : List Nat) (j a : Nat), Feasible p bs width tol j a ps →
    (a :: ps).Pairwise (· < ·) ∧ ps.getLast? = some bs.length
  | [], _, _, h => h.elim
  | [b], _, _, h => by obtain ⟨rfl, h, -⟩ := h; simp [h]
  | b :: c :: rest, j, a, h => by
    obtain ⟨i1, i2⟩ := Feasible.increasing (c :: rest) _ _ h.2.2.2.2
    refine ⟨?_, by simpa using i2⟩
    rw [List.pairwise_cons]
    refine ⟨?_, i1⟩
    intro x hx
    rcases List.mem_cons.1 hx with rfl | hx
    · exact h.1
    · exact h.1.trans ((List.pairwise_cons.1 i1).1 x hx)

/-! ### C38 -/

/-- C38. The positions of the breaks increase strictly, from after the beginning of the paragraph up to its end; the
demerits and widths of the breaks add up to those of the whole. -/
theorem C38_partition (hne : bs ≠ []) {brs : List KBreak} (h : optimumFit p bs width tol = .ok brs) :
    (0 :: brs.map KBreak.pos).Pairwise (· < ·) ∧ (brs.map KBreak.pos).getLast? = some bs.length ∧
    (brs.map KBreak.demerits).sum = totalDemerits p bs width 0 0 1 (brs.map KBreak.pos) ∧
    ∀ last, bs.getLast? = some last → (brs.map KBreak.width).sum = last.inclSpace := by
  obtain ⟨ps, h1, -, rfl, -⟩ := (optimumFit_spec hne).1 brs h
  rw [lineBreaks_pos, lineBreaks_demerits, lineBreaks_width ps 0 0 1 h1]
  obtain ⟨i1, i2⟩ := Feasible.increasing ps 0 0 h1
  refine ⟨i1, i2, rfl, ?_⟩
  intro last hl
  rw [startWidth_last hl]
  simp [startWidth]

/-- C38: no boxes, no breaks. -/
theorem C38_empty : optimumFit p [] width tol = .ok [] := rfl

/-! ### C39 -/

theorem lineBreaks_adjust : ∀ (ps : List Nat) (j a f : Nat), Feasible p bs width tol j a ps → ∀ k br,
    (lineBreaks p bs width j a f ps)[k]? = some br → ∃ a', (a :: ps)[k]? = some a' ∧
      (k + 1 < ps.length → br.adjust = lineRatio p.ragged bs width (j + k) a' br.pos ∧ -1 ≤ br.adjust ∧ tol.Within br.adjust ∧
        Legal bs br.pos) ∧
      (k + 1 = ps.length → br.adjust = min (lineRatio p.ragged bs width (j + k) a' br.pos) 0 ∧ -1 < br.adjust)
  | [], _, _, _, h => h.elim
  | [b], j, a, f, h => by
    intro k br hk
    cases k with
    | succ k => simp [lineBreaks] at hk
    | zero =>
      simp only [lineBreaks, List.getElem?_cons_zero, Option.some.injEq] at hk
      subst hk
      obtain ⟨rfl, h1, h2⟩ := h
      refine ⟨a, rfl, by simp, ?_⟩
      intro _
      refine ⟨rfl, ?_⟩
      rw [lt_min_iff]; exact ⟨h2, by norm_num⟩
  | b :: c :: rest, j, a, f, h => by
    intro k br hk
    obtain ⟨h1, h2, h3, h4, h5⟩ := h
    cases k with
    | zero =>
      simp only [lineBreaks, List.getElem?_cons_zero, Option.some.injEq] at hk
      subst hk
      exact ⟨a, rfl, fun _ => ⟨rfl, h3, h4, h2⟩, by simp⟩
    | succ k =>
      simp only [lineBreaks, List.getElem?_cons_succ] at hk
      obtain ⟨a', i1, i2, i3⟩ := lineBreaks_adjust (c :: rest) (j + 1) b _ h5 k br hk
      refine ⟨a', by simpa using i1, ?_, ?_⟩
      · intro hk
        rw [show j + (k + 1) = j + 1 + k by omega]
        exact i2 (by simpa using hk)
      · intro hk
        rw [show j + (k + 1) = j + 1 + k by omega]
        exact i3 (by simpa using hk)

/-- C39. Line `k`, which ends at the `k`-th break and starts at the break before it (or at 0), has the adjustment ratio
of that piece of text for the width of line `k`. It is between -1 and the tolerance, and the line ends where a line
may end; the last line is never stretched, and need not shrink by 1 or more. -/
theorem C39_tolerance (hne : bs ≠ []) {brs : List KBreak} (h : optimumFit p bs width tol = .ok brs) {k : Nat} {br : KBreak}
    (hk : brs[k]? = some br) : ∃ start, (0 :: brs.map KBreak.pos)[k]? = some start ∧
      (k + 1 < brs.length → br.adjust = lineRatio p.ragged bs width k start br.pos ∧ -1 ≤ br.adjust ∧ tol.Within br.adjust ∧
        Legal bs br.pos) ∧
      (k + 1 = brs.length → br.adjust = min (lineRatio p.ragged bs width k start br.pos) 0 ∧ -1 < br.adjust) := by
  obtain ⟨ps, h1, -, rfl, -⟩ := (optimumFit_spec hne).1 brs h
  obtain ⟨a', i1, i2, i3⟩ := lineBreaks_adjust ps 0 0 1 h1 k br hk
  have hlen : (lineBreaks p bs width 0 0 1 ps).length = ps.length := by
    rw [← List.length_map (f := KBreak.pos), lineBreaks_pos]
  rw [lineBreaks_pos, hlen]
  rw [Nat.zero_add] at i2 i3
  exact ⟨a', i1, i2, i3⟩

/-! ### C40 -/

/-- C40 as stated, for all boxes. -/
def C40_Statement : Prop := ∀ (p : FitParams) (bs : List KBox) (width : Nat → ℚ) (tol : Tol) (brs : List KBreak), bs ≠ [] →
  NoZero p bs width → optimumFit p bs width tol = .ok brs →
  ∀ qs, Feasible p bs width tol 0 0 qs → totalDemerits p bs width 0 0 1 (brs.map KBreak.pos) ≤ totalDemerits p bs width 0 0 1 qs

/-- Three boxes: a word with a space, and two syllables of which the first with its hyphen is longer than both. -/
def hyphenBoxes : List KBox :=
  [⟨4, 3, 0, 5, 4, false, false⟩, ⟨10, 3, 0, 10, 13, true, false⟩, ⟨11, 3, 0, 11, 11, false, false⟩]

/-- Penalties as in the code's defaults, for ragged text. -/
def raggedParams : FitParams := ⟨100, 3000, 100, true⟩

/-- C40 is false if a hyphen can be wider than the syllable after it: the line is given up at the hyphen although the
whole word fits in it. -/
theorem C40_counterexample : ¬ C40_Statement := by
  intro h
  have hz : NoZero raggedParams hyphenBoxes (fun _ => 12) := ⟨fun _ => by norm_num, fun _ => by decide +kernel⟩
  have e : optimumFit raggedParams hyphenBoxes (fun _ => 12) .inf =
      .ok [⟨1, 8/3, (1 + 100 * (8/3 : ℚ) ^ 3) ^ 2 + 100, 5⟩, ⟨3, 0, 1 + 100, 6⟩] := by decide +kernel
  have := h raggedParams hyphenBoxes (fun _ => 12) .inf _ (by simp [hyphenBoxes]) hz e [3]
    ⟨rfl, by norm_num, by decide +kernel⟩
  revert this
  decide +kernel

/-- C40 for boxes for which too long lines stay too long (C40_paragraph_partial shows when this is so): no feasible breaks have
less demerits than the result. -/
theorem C40_optimal_partial (hne : bs ≠ []) (hm : Monotone' p bs width) {brs : List KBreak} (h : optimumFit p bs width tol = .ok brs) :
    Feasible p bs width tol 0 0 (brs.map KBreak.pos) ∧
    ∀ qs, Feasible p bs width tol 0 0 qs → totalDemerits p bs width 0 0 1 (brs.map KBreak.pos) ≤ totalDemerits p bs width 0 0 1 qs := by
  obtain ⟨ps, h1, -, rfl, h2⟩ := (optimumFit_spec hne).1 brs h
  rw [lineBreaks_pos]
  exact ⟨h1, fun qs hq => h2 qs hq (hq.unbroken hm)⟩

/-- C40 for all boxes: the result is the best of the feasible breaks that have no line that runs over a position where
it is too long. -/
theorem C40_unbroken_partial (hne : bs ≠ []) {brs : List KBreak} (h : optimumFit p bs width tol = .ok brs) :
    Feasible p bs width tol 0 0 (brs.map KBreak.pos) ∧ Unbroken p bs width 0 0 (brs.map KBreak.pos) ∧
    ∀ qs, Feasible p bs width tol 0 0 qs → Unbroken p bs width 0 0 qs →
      totalDemerits p bs width 0 0 1 (brs.map KBreak.pos) ≤ totalDemerits p bs width 0 0 1 qs := by
  obtain ⟨ps, h1, hu, rfl, h2⟩ := (optimumFit_spec hne).1 brs h
  rw [lineBreaks_pos]
  exact ⟨h1, hu, h2⟩

/-! ### C41 -/

/-- C41 as stated, for all boxes. -/
def C41_Statement : Prop := ∀ (p : FitParams) (bs : List KBox) (width : Nat → ℚ) (tol : Tol), bs ≠ [] → NoZero p bs width →
  (optimumFit p bs width tol = .error .noFeasibleBreaks ↔ ¬ ∃ qs, Feasible p bs width tol 0 0 qs)

/-- C41 is false for the same reason as C40: here the first word fits in the only line, but not with the hyphen. -/
theorem C41_counterexample : ¬ C41_Statement := by
  intro h
  have hz : NoZero raggedParams (hyphenBoxes.drop 1) (fun _ => 12) := ⟨fun _ => by norm_num, fun _ => by decide +kernel⟩
  have := (h raggedParams (hyphenBoxes.drop 1) (fun _ => 12) .inf (by simp [hyphenBoxes]) hz).1 (by decide +kernel)
  exact this ⟨[2], rfl, by norm_num, by decide +kernel⟩

/-- C41 for boxes for which too long lines stay too long. -/
theorem C41_feasible_partial (hne : bs ≠ []) (hm : Monotone' p bs width) (hz : NoZero p bs width) :
    optimumFit p bs width tol = .error .noFeasibleBreaks ↔ ¬ ∃ qs, Feasible p bs width tol 0 0 qs := by
  obtain ⟨h1, h2, h3⟩ := optimumFit_spec (p := p) (width := width) (tol := tol) hne
  constructor
  · rintro h ⟨qs, hq⟩
    exact h2 h qs hq (hq.unbroken hm)
  · intro h
    cases e : optimumFit p bs width tol with
    | ok brs =>
      obtain ⟨ps, hp, -⟩ := h1 brs e
      exact absurd ⟨ps, hp⟩ h
    | error x =>
      cases x with
      | noFeasibleBreaks => rfl
      | zeroDivision => exact absurd e (h3 hz)

/-- C41 for all boxes: there is a result just if there are feasible breaks with no line that runs over a position where
it is too long, and otherwise there is the exception for no feasible breaks. -/
theorem C41_unbroken_partial (hne : bs ≠ []) (hz : NoZero p bs width) :
    ((∃ qs, Feasible p bs width tol 0 0 qs ∧ Unbroken p bs width 0 0 qs) ↔ ∃ brs, optimumFit p bs width tol = .ok brs) ∧
    ((¬ ∃ qs, Feasible p bs width tol 0 0 qs ∧ Unbroken p bs width 0 0 qs) ↔ optimumFit p bs width tol = .error .noFeasibleBreaks) := by
  obtain ⟨h1, h2, h3⟩ := optimumFit_spec (p := p) (width := width) (tol := tol) hne
  cases e : optimumFit p bs width tol with
  | ok brs =>
    obtain ⟨ps, hp, hu, -⟩ := h1 brs e
    exact ⟨⟨fun _ => ⟨brs, rfl⟩, fun _ => ⟨ps, hp, hu⟩⟩, ⟨fun h => absurd ⟨ps, hp, hu⟩ h, fun h => by simp at h⟩⟩
  | error x =>
    cases x with
    | noFeasibleBreaks =>
      refine ⟨⟨?_, fun ⟨_, h⟩ => by simp at h⟩, ⟨fun _ => rfl, fun _ => ?_⟩⟩
      · rintro ⟨qs, hq, hu⟩; exact absurd hu (h2 e qs hq)
      · rintro ⟨qs, hq, hu⟩; exact h2 e qs hq hu
    | zeroDivision => exact absurd e (h3 hz)

end Pdfje
