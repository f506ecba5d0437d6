import Verif.Spec.Penalties
import Verif.Props.Optimum
/-
C83: larger penalties do not lead to more of what they penalise.
-/

namespace Pdfje

variable {p : FitParams} {bs : List KBox} {width : Nat → ℚ} {tol : Tol}

/-- C83 as stated: if one of the three penalties is increased then there are no more such places in the result. -/
def C83_Statement : Prop := ∀ (p p' : FitParams) (bs : List KBox) (width : Nat → ℚ) (tol : Tol) (brs brs' : List KBreak), bs ≠ [] →
  NoZero p bs width → optimumFit p bs width tol = .ok brs → optimumFit p' bs width tol = .ok brs' →
  (∀ x, p.hyphenPenalty ≤ x → p' = { p with hyphenPenalty := x } →
    hyphenCount bs (brs'.map KBreak.pos) ≤ hyphenCount bs (brs.map KBreak.pos)) ∧
  (∀ x, p.consecutiveHyphenPenalty ≤ x → p' = { p with consecutiveHyphenPenalty := x } →
    hyphensInARow bs (brs'.map KBreak.pos) ≤ hyphensInARow bs (brs.map KBreak.pos)) ∧
  (∀ x, p.fitDiffPenalty ≤ x → p' = { p with fitDiffPenalty := x } →
    classJumps p.ragged bs width (brs'.map KBreak.pos) ≤ classJumps p.ragged bs width (brs.map KBreak.pos))

/-- Six boxes, of which the first, second and fourth end in a hyphen. -/
def penaltyBoxes : List KBox :=
  [⟨5, 6, 0, 5, 6, true, false⟩, ⟨11, 6, 0, 11, 12, true, false⟩, ⟨14, 6, 0, 15, 14, false, false⟩,
   ⟨18, 6, 0, 18, 19, true, false⟩, ⟨24, 6, 0, 25, 24, false, false⟩, ⟨31, 6, 0, 32, 31, false, false⟩]

/-- C83 is false for the penalty for hyphens: without it one line ends in a hyphen, and with it two do. The penalty is
added to the badness before that is squared, so that it costs more on a bad line than on two good ones. -/
theorem C83_counterexample : ¬ C83_Statement := by
  intro h
  have hz : NoZero ⟨0, 0, 0, true⟩ penaltyBoxes (fun _ => 12) := ⟨fun _ => by norm_num, fun _ => by decide +kernel⟩
  obtain ⟨brs, h1, h1'⟩ : ∃ brs, optimumFit ⟨0, 0, 0, true⟩ penaltyBoxes (fun _ => 12) .inf = .ok brs ∧
      brs.map KBreak.pos = [1, 3, 5, 6] := by
    refine ⟨(optimumFit ⟨0, 0, 0, true⟩ penaltyBoxes (fun _ => 12) .inf).toOption.getD [], ?_, ?_⟩ <;> decide +kernel
  obtain ⟨brs', h2, h2'⟩ : ∃ brs, optimumFit ⟨10, 0, 0, true⟩ penaltyBoxes (fun _ => 12) .inf = .ok brs ∧
      brs.map KBreak.pos = [2, 4, 5, 6] := by
    refine ⟨(optimumFit ⟨10, 0, 0, true⟩ penaltyBoxes (fun _ => 12) .inf).toOption.getD [], ?_, ?_⟩ <;> decide +kernel
  have := (h _ _ _ _ _ _ _ (by simp [penaltyBoxes]) hz h1 h2).1 10 (by norm_num) rfl
  rw [h1', h2'] at this
  revert this
  decide +kernel

/-! ### The demerits as a function of two penalties -/

theorem jumps_cons (f g : Nat) (fs : List Nat) :
    jumps (f :: g :: fs) = (if ((f : ℤ) - g).natAbs ≤ 1 then 0 else 1) + jumps (g :: fs) := by
  simp only [jumps, List.tail_cons, List.zip_cons_cons, List.countP_cons, decide_eq_true_eq]
  split <;> split <;> omega

theorem jumps_one (f : Nat) : jumps [f] = 0 := rfl

theorem totalDemerits_linear (p : FitParams) : ∀ (ps : List Nat) (j a f : Nat), totalDemerits p bs width j a f ps =
    totalDemerits { p with consecutiveHyphenPenalty := 0, fitDiffPenalty := 0 } bs width j a f ps +
    p.consecutiveHyphenPenalty * (((a :: ps.dropLast).zip ps.dropLast).countP fun x => endsHyphen bs x.1 && endsHyphen bs x.2 : Nat) +
    p.fitDiffPenalty * (jumps (f :: lineClasses p.ragged bs width j a ps) : Nat)
  | [], _, _, f => by simp [totalDemerits, lineClasses, jumps_one]
  | [b], j, a, f => by
    simp only [totalDemerits, lastDemerits, classPenalty, lineClasses, jumps_cons, jumps_one, List.dropLast_singleton,
      List.zip_nil_right, List.countP_nil, Nat.cast_zero]
    split <;> simp
  | b :: c :: rest, j, a, f => by
    have ih := totalDemerits_linear p (c :: rest) (j + 1) b (fitClass (lineRatio p.ragged bs width j a b))
    simp only [totalDemerits, lineClasses, jumps_cons, List.dropLast_cons₂, List.zip_cons_cons, List.countP_cons]
    rw [ih]
    simp only [lineDemerits, classPenalty, Bool.and_eq_true]
    push_cast
    split <;> split <;> split <;> simp_all <;> ring

theorem totalDemerits_penalties (p : FitParams) (ps : List Nat) : totalDemerits p bs width 0 0 1 ps =
    totalDemerits { p with consecutiveHyphenPenalty := 0, fitDiffPenalty := 0 } bs width 0 0 1 ps +
    p.consecutiveHyphenPenalty * (hyphensInARow bs ps : Nat) + p.fitDiffPenalty * (classJumps p.ragged bs width ps : Nat) := by
  rw [totalDemerits_linear, classJumps, hyphensInARow]
  congr 4
  cases ps.dropLast with
  | nil => rfl
  | cons b l => simp [endsHyphen]

theorem Feasible.congr {p' : FitParams} (h : p'.ragged = p.ragged) : ∀ (ps : List Nat) (j a : Nat),
    Feasible p bs width tol j a ps → Feasible p' bs width tol j a ps
  | [], _, _, h => h
  | [b], _, _, hf => by simpa only [Feasible, h] using hf
  | b :: c :: rest, j, a, hf => by
    obtain ⟨h1, h2, h3, h4, h5⟩ := hf
    exact ⟨h1, h2, by rwa [h], by rwa [h], Feasible.congr h _ _ _ h5⟩

theorem Unbroken.congr {p' : FitParams} (h : p'.ragged = p.ragged) : ∀ (ps : List Nat) (j a : Nat),
    Unbroken p bs width j a ps → Unbroken p' bs width j a ps
  | [], _, _, h => h
  | b :: rest, j, a, hf => by
    refine ⟨?_, Unbroken.congr h _ _ _ hf.2⟩
    rw [h]; exact hf.1

/-- Two results for parameters that differ in the penalties only: each is at least as good as the other. -/
theorem optimumFit_both {p' : FitParams} (h : p'.ragged = p.ragged) (hne : bs ≠ []) {brs brs' : List KBreak}
    (h1 : optimumFit p bs width tol = .ok brs) (h2 : optimumFit p' bs width tol = .ok brs') :
    totalDemerits p bs width 0 0 1 (brs.map KBreak.pos) ≤ totalDemerits p bs width 0 0 1 (brs'.map KBreak.pos) ∧
    totalDemerits p' bs width 0 0 1 (brs'.map KBreak.pos) ≤ totalDemerits p' bs width 0 0 1 (brs.map KBreak.pos) := by
  obtain ⟨a1, a2, a3⟩ := C40_unbroken_partial hne h1
  obtain ⟨b1, b2, b3⟩ := C40_unbroken_partial hne h2
  exact ⟨a3 _ (b1.congr h.symm) (b2.congr h.symm), b3 _ (a1.congr h) (a2.congr h)⟩

/-- C83 for the penalty for lines in a row that end in a hyphen. -/
theorem C83_consecutive_partial (hne : bs ≠ []) {x : ℚ} (hx : p.consecutiveHyphenPenalty ≤ x) {brs brs' : List KBreak}
    (h1 : optimumFit p bs width tol = .ok brs) (h2 : optimumFit { p with consecutiveHyphenPenalty := x } bs width tol = .ok brs') :
    hyphensInARow bs (brs'.map KBreak.pos) ≤ hyphensInARow bs (brs.map KBreak.pos) := by
  rcases eq_or_lt_of_le hx with rfl | hx
  · rw [h1] at h2; cases h2; exact le_rfl
  obtain ⟨i1, i2⟩ := optimumFit_both (p := p) (p' := { p with consecutiveHyphenPenalty := x }) rfl hne h1 h2
  simp only [totalDemerits_penalties p] at i1
  simp only [totalDemerits_penalties { p with consecutiveHyphenPenalty := x }] at i2
  by_contra hlt
  rw [not_le, ← Nat.cast_lt (α := ℚ)] at hlt
  nlinarith [mul_pos (sub_pos.2 hx) (sub_pos.2 hlt)]

/-- C83 for the penalty for lines of very different tightness. -/
theorem C83_fitness_partial (hne : bs ≠ []) {x : ℚ} (hx : p.fitDiffPenalty ≤ x) {brs brs' : List KBreak}
    (h1 : optimumFit p bs width tol = .ok brs) (h2 : optimumFit { p with fitDiffPenalty := x } bs width tol = .ok brs') :
    classJumps p.ragged bs width (brs'.map KBreak.pos) ≤ classJumps p.ragged bs width (brs.map KBreak.pos) := by
  rcases eq_or_lt_of_le hx with rfl | hx
  · rw [h1] at h2; cases h2; exact le_rfl
  obtain ⟨i1, i2⟩ := optimumFit_both (p := p) (p' := { p with fitDiffPenalty := x }) rfl hne h1 h2
  simp only [totalDemerits_penalties p] at i1
  simp only [totalDemerits_penalties { p with fitDiffPenalty := x }] at i2
  by_contra hlt
  rw [not_le, ← Nat.cast_lt (α := ℚ)] at hlt
  nlinarith [mul_pos (sub_pos.2 hx) (sub_pos.2 hlt)]

theorem totalDemerits_hyphens (p : FitParams) (x : ℚ) : ∀ (ps : List Nat) (j a f : Nat),
    totalDemerits { p with hyphenPenalty := x } bs width j a f ps = totalDemerits p bs width j a f ps +
      (x - p.hyphenPenalty) * hyphenSum p.ragged bs width (fun d => 2 * d + p.hyphenPenalty + x) j a ps
  | [], _, _, f => by simp [totalDemerits, hyphenSum]
  | [b], j, a, f => by simp [totalDemerits, hyphenSum, lastDemerits, classPenalty]
  | b :: c :: rest, j, a, f => by
    simp only [totalDemerits, hyphenSum]
    rw [totalDemerits_hyphens p x (c :: rest)]
    simp only [lineDemerits, classPenalty]
    by_cases h : endsHyphen bs b = true
    · simp only [h, if_true]; ring
    · simp only [h, Bool.false_eq_true, if_false]; ring

theorem hyphenSum_zero {ragged : Bool} {weight : ℚ → ℚ} : ∀ (ps : List Nat) (j a : Nat), hyphenCount bs ps = 0 →
    hyphenSum ragged bs width weight j a ps = 0
  | [], _, _, _ => rfl
  | [_], _, _, _ => rfl
  | b :: c :: rest, j, a, h => by
    simp only [hyphenCount, List.dropLast_cons₂, List.countP_cons] at h
    rw [hyphenSum, if_neg (by intro hb; simp [hb] at h), hyphenSum_zero (c :: rest) _ _ (by rw [hyphenCount]; omega), add_zero]

theorem hyphenSum_ge {ragged : Bool} {weight : ℚ → ℚ} (hw : ∀ d, 1 ≤ d → 1 ≤ weight d) : ∀ (ps : List Nat) (j a : Nat),
    (hyphenCount bs ps : ℚ) ≤ hyphenSum ragged bs width weight j a ps
  | [], _, _ => by simp [hyphenCount, hyphenSum]
  | [_], _, _ => by simp [hyphenCount, hyphenSum]
  | b :: c :: rest, j, a => by
    have ih := hyphenSum_ge (ragged := ragged) hw (c :: rest) (j + 1) b
    have h0 : 1 ≤ weight (1 + 100 * |lineRatio ragged bs width j a b| ^ 3) := hw _ (by have : 0 ≤ |lineRatio ragged bs width j a b| ^ 3 := by positivity
                                                                                       linarith)
    simp only [hyphenCount, List.dropLast_cons₂, List.countP_cons, hyphenSum] at ih ⊢
    split
    · push_cast; linarith
    · push_cast; linarith

/-- What holds of C83 for the penalty for hyphens: if it is increased then the sum of twice the badness and both
penalties, over all lines that end in a hyphen, does not increase. -/
theorem C83_hyphens_partial (hne : bs ≠ []) {x : ℚ} (hx : p.hyphenPenalty < x) {brs brs' : List KBreak}
    (h1 : optimumFit p bs width tol = .ok brs) (h2 : optimumFit { p with hyphenPenalty := x } bs width tol = .ok brs') :
    hyphenSum p.ragged bs width (fun d => 2 * d + p.hyphenPenalty + x) 0 0 (brs'.map KBreak.pos) ≤
      hyphenSum p.ragged bs width (fun d => 2 * d + p.hyphenPenalty + x) 0 0 (brs.map KBreak.pos) := by
  obtain ⟨i1, i2⟩ := optimumFit_both (p := p) (p' := { p with hyphenPenalty := x }) rfl hne h1 h2
  simp only [totalDemerits_hyphens] at i2
  by_contra hlt
  rw [not_le] at hlt
  nlinarith [mul_pos (sub_pos.2 hx) (sub_pos.2 hlt)]

/-- C83 for the penalty for hyphens, in the case that there are none before: if it is increased then there still are none. -/
theorem C83_noHyphens_partial (hne : bs ≠ []) {x : ℚ} (h0 : 0 ≤ p.hyphenPenalty) (hx : p.hyphenPenalty ≤ x) {brs brs' : List KBreak}
    (h1 : optimumFit p bs width tol = .ok brs) (h2 : optimumFit { p with hyphenPenalty := x } bs width tol = .ok brs')
    (hn : hyphenCount bs (brs.map KBreak.pos) = 0) : hyphenCount bs (brs'.map KBreak.pos) = 0 := by
  rcases eq_or_lt_of_le hx with rfl | hx
  · rw [h1] at h2; cases h2; exact hn
  have := C83_hyphens_partial hne hx h1 h2
  rw [hyphenSum_zero _ _ _ hn] at this
  have h3 := hyphenSum_ge (bs := bs) (width := width) (ragged := p.ragged) (weight := fun d => 2 * d + p.hyphenPenalty + x)
    (fun d hd => by linarith) (brs'.map KBreak.pos) 0 0
  have : ((hyphenCount bs (brs'.map KBreak.pos) : ℕ) : ℚ) ≤ 0 := h3.trans this
  exact_mod_cast Nat.le_zero.1 (by exact_mod_cast this)

/-- C83: the penalties have no influence on whether there is a result. -/
theorem C83_fails_partial {p' : FitParams} (h : p'.ragged = p.ragged) (hne : bs ≠ []) (hz : NoZero p bs width) :
    optimumFit p bs width tol = .error .noFeasibleBreaks ↔ optimumFit p' bs width tol = .error .noFeasibleBreaks := by
  have hz' : NoZero p' bs width := ⟨hz.width, by rw [h]; exact hz.fill⟩
  rw [← (C41_unbroken_partial hne hz).2, ← (C41_unbroken_partial hne hz').2]
  constructor
  · rintro hq ⟨qs, h1, h2⟩; exact hq ⟨qs, h1.congr h.symm, h2.congr h.symm⟩
  · rintro hq ⟨qs, h1, h2⟩; exact hq ⟨qs, h1.congr h, h2.congr h⟩

theorem tryTolerances_both {p' : FitParams} (h : p'.ragged = p.ragged) (hne : bs ≠ []) (hz : NoZero p bs width) : ∀ {ts : List Tol}
    {brs brs' : List KBreak}, tryTolerances p bs width ts = some brs → tryTolerances p' bs width ts = some brs' →
    ∃ tol ∈ ts, optimumFit p bs width tol = .ok brs ∧ optimumFit p' bs width tol = .ok brs'
  | [], _, _, h, _ => by simp [tryTolerances] at h
  | t :: ts, brs, brs', h1, h2 => by
    simp only [tryTolerances] at h1 h2
    split at h1
    · rename_i b1 e1
      split at h2
      · rename_i b2 e2
        simp only [Option.some.injEq] at h1 h2
        subst h1 h2
        exact ⟨t, by simp, e1, e2⟩
      · rename_i e2
        rw [← C83_fails_partial h hne hz, e1] at e2
        simp at e2
      · simp at h2
    · rename_i e1
      rw [(C83_fails_partial h hne hz).1 e1] at h2
      obtain ⟨tol, i1, i2⟩ := tryTolerances_both h hne hz h1 h2
      exact ⟨tol, by simp [i1], i2⟩
    · simp at h1

/-- C83 for the breaks of a paragraph, where several tolerances are tried: if one of these two penalties is increased then
the same tolerance is used, and there are no more such places. -/
theorem C83_tolerances_partial (hne : bs ≠ []) {p p' : OptParams} {ragged : Bool} (hz : NoZero (p.fit ragged) bs width)
    (ht : p'.tolerance = p.tolerance) {brs brs' : List KBreak}
    (h1 : findBreaks p bs width ragged = some brs) (h2 : findBreaks p' bs width ragged = some brs') :
    (∃ tol ∈ tolSteps p.tolerance, optimumFit (penalties p ragged) bs width tol = .ok brs ∧
      optimumFit (penalties p' ragged) bs width tol = .ok brs') ∧
    (∀ x, p.consecutiveHyphenPenalty ≤ x → p' = { p with consecutiveHyphenPenalty := x } →
      hyphensInARow bs (brs'.map KBreak.pos) ≤ hyphensInARow bs (brs.map KBreak.pos)) ∧
    (∀ x, p.fitnessDiffPenalty ≤ x → p' = { p with fitnessDiffPenalty := x } →
      classJumps ragged bs width (brs'.map KBreak.pos) ≤ classJumps ragged bs width (brs.map KBreak.pos)) := by
  unfold findBreaks at h1 h2
  rw [ht] at h2
  obtain ⟨tol, i1, i2, i3⟩ := tryTolerances_both (p := p.fit ragged) (p' := p'.fit ragged) rfl hne hz h1 h2
  rw [tolerances_steps] at i1
  refine ⟨⟨tol, i1, i2, i3⟩, ?_, ?_⟩
  · rintro x hx rfl
    exact C83_consecutive_partial (p := p.fit ragged) hne hx i2 i3
  · rintro x hx rfl
    exact C83_fitness_partial (p := p.fit ragged) hne hx i2 i3

/-! ### An example -/

/-- Two lines end in a hyphen, one after the other; if that is made expensive, then only one does. -/
example : ((optimumFit ⟨10, 0, 0, true⟩ penaltyBoxes (fun _ => 12) .inf).toOption.map fun b =>
      (hyphensInARow penaltyBoxes (b.map KBreak.pos), hyphenCount penaltyBoxes (b.map KBreak.pos))) = some (1, 2) ∧
    ((optimumFit ⟨10, 1000000, 0, true⟩ penaltyBoxes (fun _ => 12) .inf).toOption.map fun b =>
      (hyphensInARow penaltyBoxes (b.map KBreak.pos), hyphenCount penaltyBoxes (b.map KBreak.pos))) = some (0, 1) := by decide +kernel

/-- A very loose line before and after a normal one; if that is made expensive, a word is broken. -/
def looseBoxes : List KBox := [⟨8, 4, 0, 9, 8, false, false⟩, ⟨17, 4, 0, 17, 18, true, false⟩, ⟨22, 4, 0, 23, 22, false, false⟩]

example : ((optimumFit ⟨0, 0, 0, true⟩ looseBoxes (fun _ => 13) .inf).toOption.map fun b =>
      (classJumps true looseBoxes (fun _ => 13) (b.map KBreak.pos), b.map KBreak.pos)) = some (2, [1, 3]) ∧
    ((optimumFit ⟨0, 0, 1000000000, true⟩ looseBoxes (fun _ => 13) .inf).toOption.map fun b =>
      (classJumps true looseBoxes (fun _ => 13) (b.map KBreak.pos), b.map KBreak.pos)) = some (1, [1, 2, 3]) := by decide +kernel

end Pdfje
