import Verif.Model.Num
import Verif.Spec.PdfReader
import Mathlib.Tactic.Linarith
import Mathlib.Tactic.Ring
import Mathlib.Tactic.FieldSimp
import Mathlib.Tactic.NormNum
import Mathlib.Tactic.Positivity
import Mathlib.Tactic.IntervalCases
/- Lemmas about number formatting. -/

namespace Pdfje
open PdfSpec

/-! ### takeWhile / dropWhile of a run -/

theorem takeWhile_run {α} (p : α → Bool) (a r : List α) (ha : ∀ x ∈ a, p x = true)
    (hr : ∀ x, r.head? = some x → p x = false) : (a ++ r).takeWhile p = a := by
  induction a with
  | nil => cases r with
    | nil => rfl
    | cons x r => simp [hr x rfl]
  | cons x a ih =>
    simp only [List.cons_append, List.takeWhile_cons, ha x (by simp), if_true]
    rw [ih (fun y hy => ha y (by simp [hy]))]

theorem dropWhile_run {α} (p : α → Bool) (a r : List α) (ha : ∀ x ∈ a, p x = true)
    (hr : ∀ x, r.head? = some x → p x = false) : (a ++ r).dropWhile p = r := by
  induction a with
  | nil => cases r with
    | nil => rfl
    | cons x r => simp [hr x rfl]
  | cons x a ih =>
    simp only [List.cons_append, List.dropWhile_cons, ha x (by simp), if_true]
    exact ih (fun y hy => ha y (by simp [hy]))

theorem mem_takeWhile_imp {α} (p : α → Bool) (l : List α) {x : α} (h : x ∈ l.takeWhile p) :
    p x = true := by
  induction l with
  | nil => simp at h
  | cons a l ih =>
    rw [List.takeWhile_cons] at h
    split at h
    · rcases List.mem_cons.1 h with rfl | h
      · assumption
      · exact ih h
    · simp at h

/-! ### digits -/

theorem isDigit_digit {d : Nat} (h : d < 10) : isDigit (digit d) = true := by
  interval_cases d <;> rfl

theorem digitVal_digit {d : Nat} (h : d < 10) : digitVal (digit d) = d := by
  interval_cases d <;> rfl

theorem digitsVal_snoc (s : Bytes) (c : UInt8) : digitsVal (s ++ [c]) = digitsVal s * 10 + digitVal c := by
  simp [digitsVal]

@[simp] theorem digitsVal_nil : digitsVal [] = 0 := rfl

theorem decNat_ne_nil (n : Nat) : decNat n ≠ [] := by
  unfold decNat; split <;> simp

theorem decNat_all (n : Nat) : ∀ c ∈ decNat n, isDigit c = true := by
  induction n using Nat.strongRecOn with
  | ind n ih =>
    unfold decNat
    split
    · rename_i h; intro c hc; simp at hc; subst hc; exact isDigit_digit h
    · intro c hc
      rcases List.mem_append.1 hc with h | h
      · exact ih (n / 10) (by omega) c h
      · simp at h; subst h; exact isDigit_digit (by omega)

theorem digitsVal_decNat (n : Nat) : digitsVal (decNat n) = n := by
  induction n using Nat.strongRecOn with
  | ind n ih =>
    unfold decNat
    split
    · rename_i h; simp [digitsVal, digitVal_digit h]
    · rw [digitsVal_snoc, ih (n / 10) (by omega), digitVal_digit (by omega)]; omega

theorem decNat_inj {a b : Nat} (h : decNat a = decNat b) : a = b := by
  have := congrArg digitsVal h
  simpa [digitsVal_decNat] using this

theorem readNat_decNat (n : Nat) (r : Bytes) (hr : ∀ x, r.head? = some x → isDigit x = false) :
    readNat (decNat n ++ r) = some (n, r) := by
  unfold readNat
  simp only [takeWhile_run _ _ _ (decNat_all n) hr, dropWhile_run _ _ _ (decNat_all n) hr]
  simp [decNat_ne_nil, digitsVal_decNat]

theorem decNat_length_le (n k : Nat) (hk : 0 < k) (h : n < 10 ^ k) : (decNat n).length ≤ k := by
  induction k generalizing n with
  | zero => omega
  | succ k ih =>
    unfold decNat
    split
    · simp
    · rename_i hn
      rcases Nat.eq_zero_or_pos k with rfl | hk'
      · simp at h; omega
      · have := ih (n / 10) hk' (by rw [Nat.pow_succ] at h; omega)
        simp; exact this

theorem foldl_digits_replicate (k : Nat) (s : Bytes) :
    digitsVal (List.replicate k (digit 0) ++ s) = digitsVal s := by
  unfold digitsVal
  rw [List.foldl_append]
  congr 1
  induction k with
  | zero => rfl
  | succ k ih =>
    rw [List.replicate_succ', List.foldl_append, ih]
    simp [digitVal_digit]

theorem decPad_length {k n : Nat} (hk : 0 < k) (h : n < 10 ^ k) : (decPad k n).length = k := by
  have := decNat_length_le n k hk h
  simp [decPad]; omega

theorem decPad_all (k n : Nat) : ∀ c ∈ decPad k n, isDigit c = true := by
  intro c hc
  rcases List.mem_append.1 hc with h | h
  · rw [List.mem_replicate] at h; rw [h.2]; exact isDigit_digit (by omega)
  · exact decNat_all n c h

theorem digitsVal_decPad (k n : Nat) : digitsVal (decPad k n) = n := by
  rw [decPad, foldl_digits_replicate, digitsVal_decNat]

theorem decFixed_length (k n : Nat) : (decFixed k n).length = k := by
  induction k generalizing n with
  | zero => rfl
  | succ k ih => simp [decFixed, ih]

theorem decFixed_all (k n : Nat) : ∀ c ∈ decFixed k n, isDigit c = true := by
  induction k generalizing n with
  | zero => simp [decFixed]
  | succ k ih =>
    intro c hc
    rcases List.mem_append.1 hc with h | h
    · exact ih _ c h
    · simp at h; subst h; exact isDigit_digit (by omega)

theorem digitsVal_decFixed (k n : Nat) (h : n < 10 ^ k) : digitsVal (decFixed k n) = n := by
  induction k generalizing n with
  | zero => simp at h; simp [decFixed, h]
  | succ k ih =>
    rw [decFixed, digitsVal_snoc, ih (n / 10) (by rw [Nat.pow_succ] at h; omega),
      digitVal_digit (by omega)]
    omega

/-! ### stripping zeros -/

theorem stripZeros_spec (s : Bytes) : ∃ k, s = stripZeros s ++ List.replicate k (digit 0) := by
  unfold stripZeros
  have h := List.takeWhile_append_dropWhile (p := (· == digit 0)) (l := s.reverse)
  refine ⟨(s.reverse.takeWhile (· == digit 0)).length, ?_⟩
  have h2 : s.reverse.takeWhile (· == digit 0) =
      List.replicate (s.reverse.takeWhile (· == digit 0)).length (digit 0) := by
    apply List.eq_replicate_of_mem
    intro b hb
    have := mem_takeWhile_imp _ _ hb
    simpa using this
  have h3 := congrArg List.reverse h
  rw [List.reverse_append, List.reverse_reverse] at h3
  rw [h2] at h3
  simpa using h3.symm

theorem digitsVal_append_zeros (s : Bytes) (k : Nat) :
    digitsVal (s ++ List.replicate k (digit 0)) = digitsVal s * 10 ^ k := by
  induction k with
  | zero => simp
  | succ k ih =>
    rw [List.replicate_succ', ← List.append_assoc, digitsVal_snoc, ih, digitVal_digit (by omega),
      Nat.pow_succ]
    ring

theorem stripZeros_val (s : Bytes) :
    (digitsVal (stripZeros s) : ℚ) / 10 ^ (stripZeros s).length = (digitsVal s : ℚ) / 10 ^ s.length := by
  obtain ⟨k, hk⟩ := stripZeros_spec s
  have h1 : digitsVal s = digitsVal (stripZeros s) * 10 ^ k := by
    conv_lhs => rw [hk]
    exact digitsVal_append_zeros _ _
  have h2 : s.length = (stripZeros s).length + k := by
    conv_lhs => rw [hk]
    simp
  rw [h1, h2, pow_add]
  push_cast
  have : (10 : ℚ) ^ k ≠ 0 := by positivity
  have : (10 : ℚ) ^ (stripZeros s).length ≠ 0 := by positivity
  field_simp

theorem stripZeros_all (s : Bytes) (h : ∀ c ∈ s, isDigit c = true) :
    ∀ c ∈ stripZeros s, isDigit c = true := by
  obtain ⟨k, hk⟩ := stripZeros_spec s
  intro c hc
  apply h; rw [hk]; simp [hc]

/-! ### parsing fixed-point numbers -/

theorem fracPart_chars (s : Bytes) (h : ∀ c ∈ s, isDigit c = true) :
    ∀ c ∈ fracPart s, isDigit c = true ∨ c = 0x2E := by
  unfold fracPart
  intro c hc
  simp only at hc
  split at hc
  · simp at hc
  · simp at hc
    rcases hc with rfl | hc
    · right; rfl
    · left; exact stripZeros_all s h c hc

theorem fracPart_head (s : Bytes) : ∀ x, (fracPart s).head? = some x → isDigit x = false := by
  intro x hx
  unfold fracPart at hx
  simp only at hx
  split at hx
  · simp at hx
  · simp at hx; subst hx; rfl

theorem parseUnsigned_fixed (ip s : Bytes) (hip : ip ≠ []) (h1 : ∀ c ∈ ip, isDigit c = true)
    (h2 : ∀ c ∈ s, isDigit c = true) :
    parseUnsigned (ip ++ fracPart s) =
      some ((digitsVal ip : ℚ) + (digitsVal s : ℚ) / 10 ^ s.length) := by
  have ht := takeWhile_run isDigit ip (fracPart s) h1 (fracPart_head s)
  have hd := dropWhile_run isDigit ip (fracPart s) h1 (fracPart_head s)
  unfold parseUnsigned
  simp only [ht, hd]
  rw [← stripZeros_val s]
  unfold fracPart
  simp only
  by_cases hz : (stripZeros s).isEmpty
  · simp only [hz, if_true]
    have : stripZeros s = [] := by simpa using hz
    simp [hip, this]
  · have hall : (stripZeros s).all isDigit = true := by
      rw [List.all_eq_true]; exact stripZeros_all s h2
    simp [hz, hall]

theorem parseNumber_noSign (s : Bytes) (h : ∀ c, s.head? = some c → c ≠ 0x2B ∧ c ≠ 0x2D) :
    parseNumber s = parseUnsigned s := by
  match s with
  | [] => rfl
  | c :: s =>
    have := h c rfl
    unfold parseNumber
    split
    · simp_all
    · simp_all
    · rfl

theorem isDigit_ne_sign {c : UInt8} (h : isDigit c = true) : c ≠ 0x2B ∧ c ≠ 0x2D := by
  constructor <;> (rintro rfl; exact absurd h (by decide))

theorem parseUnsigned_decNat (n : Nat) : parseUnsigned (decNat n) = some (n : ℚ) := by
  have := parseUnsigned_fixed (decNat n) [] (decNat_ne_nil n) (decNat_all n) (by simp)
  simpa [fracPart, stripZeros, digitsVal_decNat] using this

theorem decNat_head (n : Nat) : ∀ c, (decNat n).head? = some c → isDigit c = true := by
  intro c hc
  exact decNat_all n c (List.mem_of_mem_head? hc)

theorem parseNumber_decNat (n : Nat) : parseNumber (decNat n) = some (n : ℚ) := by
  rw [parseNumber_noSign _ (fun c hc => isDigit_ne_sign (decNat_head n c hc)), parseUnsigned_decNat]

theorem parseNumber_decInt (z : Int) : parseNumber (decInt z) = some (z : ℚ) := by
  match z with
  | .ofNat n => simp [decInt, parseNumber_decNat]
  | .negSucc n =>
    simp only [decInt, List.cons_append, List.nil_append, parseNumber, parseUnsigned_decNat,
      Option.map_some]
    simp [Int.negSucc_eq]

/-! ### `%g` -/

theorem roundHalfEven_err (x : ℚ) (hx : 0 ≤ x) : |(roundHalfEven x : ℚ) - x| ≤ 1 / 2 := by
  have h0 : (0 : Int) ≤ ⌊x⌋ := Int.floor_nonneg.2 hx
  have hf : ((⌊x⌋.toNat : ℕ) : ℚ) = (⌊x⌋ : ℚ) := by
    have : ((⌊x⌋.toNat : ℕ) : Int) = ⌊x⌋ := Int.toNat_of_nonneg h0
    exact_mod_cast this
  have h1 : (⌊x⌋ : ℚ) ≤ x := Int.floor_le x
  have h2 : x < (⌊x⌋ : ℚ) + 1 := Int.lt_floor_add_one x
  unfold roundHalfEven
  simp only
  rw [abs_le]
  split
  · rename_i h; rw [hf] at h ⊢; constructor <;> linarith
  · split
    · rename_i h; push_cast; rw [hf] at h ⊢; constructor <;> linarith
    · rename_i ha hb
      rw [hf] at ha hb
      split
      · rw [hf]; constructor <;> linarith
      · push_cast; rw [hf]; constructor <;> linarith

theorem sciDigits_spec (q : ℚ) (hq : 0 < q) :
    100000 ≤ (sciDigits q).2 ∧ (sciDigits q).2 < 1000000 ∧
    |((sciDigits q).2 : ℚ) * 10 ^ ((sciDigits q).1 - 5) - q| ≤ q * (5 / 1000000) := by
  have hl : (10 : ℚ) ^ (Int.log 10 q) ≤ q := by
    have := Int.zpow_log_le_self (R := ℚ) (b := 10) (by norm_num) hq
    simpa using this
  have hu : q < (10 : ℚ) ^ (Int.log 10 q + 1) := by
    have := Int.lt_zpow_succ_log_self (R := ℚ) (b := 10) (by norm_num) q
    simpa using this
  set e := Int.log 10 q with he
  have h10 : (10 : ℚ) ≠ 0 := by norm_num
  have hP : (0 : ℚ) < 10 ^ (e - 5) := zpow_pos (by norm_num) _
  have e5 : (10 : ℚ) ^ e = 10 ^ (e - 5) * 100000 := by
    have : (10 : ℚ) ^ e = 10 ^ (e - 5) * 10 ^ (5 : Int) := by
      rw [← zpow_add₀ h10]; congr 1; ring
    rw [this]; norm_num
  have e6 : (10 : ℚ) ^ (e + 1) = 10 ^ (e - 5) * 1000000 := by
    rw [zpow_add₀ h10, e5]; ring
  set P := (10 : ℚ) ^ (e - 5) with hPdef
  set x := q / P with hx
  have hxq : q = x * P := by rw [hx]; field_simp
  have x1 : 100000 ≤ x := by
    rw [hx, le_div_iff₀ hP]; linarith
  have x2 : x < 1000000 := by
    rw [hx, div_lt_iff₀ hP]; linarith
  have herr := roundHalfEven_err x (by linarith)
  set m := roundHalfEven x with hm
  have hm1 : 100000 ≤ m := by
    by_contra h
    have : (m : ℚ) ≤ 99999 := by exact_mod_cast (by omega : m ≤ 99999)
    rw [abs_le] at herr; linarith
  have hm2 : m ≤ 1000000 := by
    by_contra h
    have : (1000001 : ℚ) ≤ m := by exact_mod_cast (by omega : 1000001 ≤ m)
    rw [abs_le] at herr; linarith
  have hsd : sciDigits q = if m = 1000000 then (e + 1, 100000) else (e, m) := rfl
  have key : |(m : ℚ) * P - q| ≤ q * (5 / 1000000) := by
    rw [hxq]
    have : (m : ℚ) * P - x * P = (m - x) * P := by ring
    rw [this, abs_mul, abs_of_pos hP]
    have : |(m : ℚ) - x| * P ≤ 1 / 2 * P := by
      apply mul_le_mul_of_nonneg_right herr hP.le
    have h3 : 1 / 2 * P ≤ x * P * (5 / 1000000) := by nlinarith
    linarith
  rw [hsd]
  split
  · rename_i hmm
    refine ⟨by norm_num, by norm_num, ?_⟩
    have h1 : (10 : ℚ) ^ (e + 1 - 5) = P * 10 := by
      rw [hPdef, show e + 1 - 5 = (e - 5) + 1 by ring, zpow_add₀ h10]; simp
    rw [h1]
    have : ((100000 : ℕ) : ℚ) * (P * 10) = (m : ℚ) * P := by rw [hmm]; push_cast; ring
    rw [this]; exact key
  · rename_i hmm
    exact ⟨hm1, by omega, key⟩

/-- The value `%g` prints: the six-digit rounding. -/
theorem parse_fmtGPos (q : ℚ) (hq : 0 < q) (h : ¬ ((sciDigits q).1 < -4 ∨ 6 ≤ (sciDigits q).1)) :
    parseUnsigned (fmtGPos q) = some (((sciDigits q).2 : ℚ) * 10 ^ ((sciDigits q).1 - 5)) ∧
    (∀ c ∈ fmtGPos q, isDigit c = true ∨ c = 0x2E) ∧
    (∃ c, (fmtGPos q).head? = some c ∧ isDigit c = true) := by
  obtain ⟨h1, h2, -⟩ := sciDigits_spec q hq
  generalize hs : sciDigits q = sd at *
  obtain ⟨e, m⟩ := sd
  simp only at h1 h2 h
  unfold fmtGPos
  rw [hs]
  simp only [h, if_false]
  split
  · rename_i he
    obtain ⟨k, hk⟩ : ∃ k : ℕ, 5 - e = k := ⟨(5 - e).toNat, by omega⟩
    have hk2 : (5 - e).toNat = k := by omega
    simp only [hk2]
    refine ⟨?_, ?_, ?_⟩
    · rw [parseUnsigned_fixed _ _ (decNat_ne_nil _) (decNat_all _) (decFixed_all _ _)]
      rw [digitsVal_decNat, decFixed_length, digitsVal_decFixed _ _ (Nat.mod_lt _ (by positivity))]
      have h5 : e - 5 = -(k : ℤ) := by omega
      rw [h5, zpow_neg, zpow_natCast]
      congr 1
      have hp : (10 : ℚ) ^ k ≠ 0 := by positivity
      field_simp
      have := Nat.div_add_mod m (10 ^ k)
      exact_mod_cast (by rw [Nat.mul_comm] at this; exact this)
    · intro c hc
      rcases List.mem_append.1 hc with hc | hc
      · exact Or.inl (decNat_all _ c hc)
      · exact fracPart_chars _ (decFixed_all _ _) c hc
    · rcases hd : decNat (m / 10 ^ k) with _ | ⟨c, r⟩
      · exact absurd hd (decNat_ne_nil _)
      · exact ⟨c, by simp, decNat_all _ c (by rw [hd]; simp)⟩
  · rename_i he
    obtain ⟨k, hk⟩ : ∃ k : ℕ, 5 - e = k := ⟨(5 - e).toNat, by omega⟩
    have hk2 : (5 - e).toNat = k := by omega
    have hk6 : 6 ≤ k := by omega
    simp only [hk2]
    refine ⟨?_, ?_, ?_⟩
    · have hm : m < 10 ^ k := lt_of_lt_of_le h2 (by
        calc 1000000 = 10 ^ 6 := by norm_num
          _ ≤ 10 ^ k := Nat.pow_le_pow_right (by norm_num) hk6)
      rw [parseUnsigned_fixed b!"0" _ (by simp) (by intro c hc; simp at hc; subst hc; rfl)
        (decFixed_all _ _)]
      rw [decFixed_length, digitsVal_decFixed _ _ hm]
      have h5 : e - 5 = -(k : ℤ) := by omega
      rw [h5, zpow_neg, zpow_natCast]
      congr 1
      have : digitsVal b!"0" = 0 := rfl
      rw [this]; push_cast; field_simp; ring
    · intro c hc
      rcases List.mem_append.1 hc with hc | hc
      · left; simp at hc; subst hc; rfl
      · exact fracPart_chars _ (decFixed_all _ _) c hc
    · exact ⟨0x30, by simp, rfl⟩

/-- Everything `parseUnsigned` accepts consists of digits and points. -/
theorem parseUnsigned_chars (s : Bytes) (v : ℚ) (h : parseUnsigned s = some v) :
    ∀ c ∈ s, isDigit c = true ∨ c = 0x2E := by
  intro c hc
  rw [← List.takeWhile_append_dropWhile (p := isDigit) (l := s)] at hc
  rcases List.mem_append.1 hc with hc | hc
  · exact Or.inl (mem_takeWhile_imp _ _ hc)
  · unfold parseUnsigned at h
    simp only at h
    split at h
    · rename_i hd; rw [hd] at hc; simp at hc
    · rename_i fp hd
      rw [hd] at hc
      split at h
      · rename_i hh
        simp only [Bool.and_eq_true, List.all_eq_true] at hh
        rcases List.mem_cons.1 hc with rfl | hc
        · right; rfl
        · exact Or.inl (hh.1 c hc)
      · simp at h
    · simp at h

theorem parse_fmtGPos_exp (q : ℚ) (h : (sciDigits q).1 < -4 ∨ 6 ≤ (sciDigits q).1) :
    parseUnsigned (fmtGPos q) = none := by
  rw [Option.eq_none_iff_forall_ne_some]
  intro v hv
  have := parseUnsigned_chars _ _ hv 0x65 (by
    unfold fmtGPos
    generalize sciDigits q = sd at *
    obtain ⟨e, m⟩ := sd
    simp only at h ⊢
    simp [h])
  revert this; decide

end Pdfje
