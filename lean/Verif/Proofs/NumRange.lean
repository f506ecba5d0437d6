import Verif.Proofs.Num
/- Exactly when `%g` uses fixed notation. -/

namespace Pdfje
open PdfSpec

theorem roundHalfEven_top (x : ℚ) (h1 : 100000 ≤ x) (h2 : x < 1000000) :
    roundHalfEven x = 1000000 ↔ 999999 + 1 / 2 ≤ x := by
  constructor
  · intro h
    have := roundHalfEven_err x (by linarith)
    rw [h, abs_le] at this
    push_cast at this
    linarith
  · intro h
    have hf : ⌊x⌋ = 999999 := by
      rw [Int.floor_eq_iff]; push_cast; constructor <;> linarith
    unfold roundHalfEven
    have h9 : (999999 : Int).toNat = 999999 := rfl
    simp only [hf, h9]
    split
    · rename_i h3; push_cast at h3; linarith
    · split
      · rfl
      · rfl

theorem log_le_iff (q : ℚ) (hq : 0 < q) (k : Int) : k ≤ Int.log 10 q ↔ (10 : ℚ) ^ k ≤ q := by
  have := Int.zpow_le_iff_le_log (R := ℚ) (b := 10) (x := k) (by norm_num) hq
  rw [← this]; norm_num

/-- `%g` prints a positive number without exponent exactly in this range. -/
theorem fixed_iff (q : ℚ) (hq : 0 < q) :
    ¬ ((sciDigits q).1 < -4 ∨ 6 ≤ (sciDigits q).1) ↔
      (9999995 / 100000000000 ≤ q ∧ q < 999999 + 1 / 2) := by
  have hl := Int.zpow_log_le_self (R := ℚ) (b := 10) (by norm_num) hq
  have hu := Int.lt_zpow_succ_log_self (R := ℚ) (b := 10) (by norm_num) q
  have k6 := log_le_iff q hq 6
  have k5 := log_le_iff q hq 5
  have km4 := log_le_iff q hq (-4)
  have km5 := log_le_iff q hq (-5)
  norm_num at k6 k5 km4 km5
  have hsd : sciDigits q = if roundHalfEven (q / (10 : ℚ) ^ (Int.log 10 q - 5)) = 1000000 then
      (Int.log 10 q + 1, 100000) else
      (Int.log 10 q, roundHalfEven (q / (10 : ℚ) ^ (Int.log 10 q - 5))) := rfl
  have h10 : (10 : ℚ) ≠ 0 := by norm_num
  by_cases h6 : 6 ≤ Int.log 10 q
  · have : 6 ≤ (sciDigits q).1 := by rw [hsd]; split <;> simp <;> omega
    have hq6 := k6.1 h6
    constructor
    · intro h; exact absurd (Or.inr this) h
    · rintro ⟨_, h⟩; linarith
  by_cases h5 : Int.log 10 q = 5
  · have hq5 := k5.1 (by omega)
    have hq6 : q < 1000000 := by
      by_contra hh; exact h6 (k6.2 (by linarith))
    rw [hsd, h5]
    norm_num
    have := roundHalfEven_top q hq5 hq6
    by_cases ht : roundHalfEven q = 1000000
    · simp only [ht, if_true]
      have := this.1 ht
      constructor
      · intro h; norm_num at h
      · rintro ⟨_, h⟩; linarith
    · simp only [ht, if_false]
      have : ¬ (999999 + 1 / 2 ≤ q) := fun h => ht (this.2 h)
      constructor
      · intro _; constructor <;> linarith
      · intro _; norm_num
  by_cases h4 : -4 ≤ Int.log 10 q
  · have hr : ¬ ((sciDigits q).1 < -4 ∨ 6 ≤ (sciDigits q).1) := by
      rw [hsd]; split <;> simp <;> omega
    have h1 := km4.1 h4
    have h2 : q < 100000 := by
      by_contra hh; have := k5.2 (by linarith); omega
    constructor
    · intro _; constructor <;> linarith
    · intro _; exact hr
  by_cases hm5 : Int.log 10 q = -5
  · have h1 := km5.1 (by omega)
    have h2 : q < 1 / 10000 := by
      by_contra hh; exact h4 (km4.2 (by linarith))
    rw [hsd, hm5]
    have e1 : q / (10 : ℚ) ^ ((-5 : Int) - 5) = q * 10000000000 := by norm_num; ring
    rw [e1]
    have := roundHalfEven_top (q * 10000000000) (by linarith) (by linarith)
    by_cases ht : roundHalfEven (q * 10000000000) = 1000000
    · simp only [ht, if_true]
      have := this.1 ht
      constructor
      · intro _; constructor <;> linarith
      · intro _; norm_num
    · simp only [ht, if_false]
      have : ¬ (999999 + 1 / 2 ≤ q * 10000000000) := fun h => ht (this.2 h)
      constructor
      · intro h; norm_num at h
      · rintro ⟨h, _⟩; linarith
  · have hr : (sciDigits q).1 < -4 := by
      rw [hsd]; split <;> simp <;> omega
    have : q < 1 / 100000 := by
      by_contra hh; have := km5.2 (by linarith); omega
    constructor
    · intro h; exact absurd (Or.inl hr) h
    · rintro ⟨h, _⟩; linarith

end Pdfje
