import Verif.Model.Atoms
import Verif.Proofs.Num
/- Round trips of literal strings, hexadecimal strings and names. -/

namespace Pdfje
open PdfSpec

theorem readLit_escapeByte (c : UInt8) (fuel : Nat) (s : Bytes) :
    readLit (fuel + 1) 0 (escapeByte c ++ s) = (readLit fuel 0 s).map fun (str, r) => (c :: str, r) := by
  unfold escapeByte
  split
  · subst_vars; rfl
  split
  · subst_vars; rfl
  split
  · subst_vars; rfl
  split
  · subst_vars; rfl
  split
  · subst_vars; rfl
  split
  · subst_vars; rfl
  split
  · subst_vars; rfl
  split
  · subst_vars; rfl
  rename_i h1 h2 h3 h4 h5 h6 h7 h8
  simp [readLit, h1, h3, h7, h8]

theorem escapeByte_length (c : UInt8) : 1 ≤ (escapeByte c).length := by
  unfold escapeByte
  repeat' split
  all_goals simp

theorem escape_length (v : Bytes) : v.length ≤ (escape v).length := by
  induction v with
  | nil => simp
  | cons c v ih =>
    have := escapeByte_length c
    simp only [escape, List.flatMap_cons, List.length_append, List.length_cons] at *
    omega

theorem readLit_escape (v rest : Bytes) (fuel : Nat) (hf : v.length < fuel) :
    readLit fuel 0 (escape v ++ b!")" ++ rest) = some (v, rest) := by
  induction v generalizing fuel with
  | nil =>
    cases fuel with
    | zero => simp at hf
    | succ f => simp [escape, readLit]
  | cons c v ih =>
    cases fuel with
    | zero => simp at hf
    | succ f =>
      have : escape (c :: v) ++ b!")" ++ rest = escapeByte c ++ (escape v ++ b!")" ++ rest) := by
        simp [escape]
      rw [this, readLit_escapeByte, ih f (by simp at hf; omega)]
      rfl

theorem hexVal_L (d : Nat) (h : d < 16) : hexVal (hexDigitL d) = some d := by
  interval_cases d <;> rfl

theorem hexVal_U (d : Nat) (h : d < 16) : hexVal (hexDigitU d) = some d := by
  interval_cases d <;> rfl

theorem hexDigitL_not (d : Nat) (h : d < 16) : hexDigitL d ≠ 0x3E ∧ isWs (hexDigitL d) = false := by
  interval_cases d <;> decide

theorem readHex_hexlify (v rest : Bytes) :
    readHex none (hexlify v ++ b!">" ++ rest) = some (v, rest) := by
  induction v with
  | nil => simp [hexlify, readHex]
  | cons c v ih =>
    have hc := c.toNat_lt
    have h1 : c.toNat / 16 < 16 := by omega
    have h2 : c.toNat % 16 < 16 := by omega
    have e1 := hexDigitL_not _ h1
    have e2 := hexDigitL_not _ h2
    have : hexlify (c :: v) ++ b!">" ++ rest =
        hexDigitL (c.toNat / 16) :: hexDigitL (c.toNat % 16) :: (hexlify v ++ b!">" ++ rest) := by
      simp [hexlify]
    rw [this]
    simp only [readHex, e1.1, e1.2, e2.1, e2.2, hexVal_L _ h1, hexVal_L _ h2, ih, if_false]
    have : UInt8.ofNat (16 * (c.toNat / 16) + c.toNat % 16) = c := by
      rw [Nat.div_add_mod]; simp
    simp [this]

/-! ### names -/

/-- The bytes a sanitised name keeps. -/
def keptByte (c : UInt8) : Bool := 32 ≤ c && c ≤ 126

theorem sanitizeNameChar_regular : ∀ c : UInt8, isDelim c = false →
    (sanitizeNameChar c).all isRegular = true := by
  apply forall_byte; decide +kernel

theorem decodeName_cons_plain (c : UInt8) (h : c ≠ 0x23) (s : Bytes) :
    decodeName (c :: s) = (decodeName s).map (c :: ·) := by
  rw [decodeName]
  · simp [h]
  · intro a b rest hc; exact absurd hc h

theorem kept_of_range : ∀ c : UInt8, (33 ≤ c ∧ c ≤ 126) → keptByte c = true := by
  apply forall_byte; decide +kernel

theorem not_kept : ∀ c : UInt8, ¬ (33 ≤ c ∧ c ≤ 126) → ¬ c = 0x20 → keptByte c = false := by
  apply forall_byte; decide +kernel

theorem decodeName_sanitizeChar (c : UInt8) (s : Bytes) :
    decodeName (sanitizeNameChar c ++ s) =
      (decodeName s).map fun r => (if keptByte c then [c] else []) ++ r := by
  unfold sanitizeNameChar
  split
  · subst_vars
    have h2 : hexVal 0x32 = some 2 := rfl
    have h3 : hexVal 0x33 = some 3 := rfl
    simp [decodeName, h2, h3, keptByte]
    cases decodeName s <;> rfl
  · rename_i h1
    split
    · rename_i h2
      have : keptByte c = true := kept_of_range c h2
      rw [List.singleton_append, decodeName_cons_plain c h1]
      simp [this]
    · split
      · subst_vars
        have h2 : hexVal 0x32 = some 2 := rfl
        have h3 : hexVal 0x30 = some 0 := rfl
        simp [decodeName, h2, h3, keptByte]
        cases decodeName s <;> rfl
      · rename_i h2 h3
        have : keptByte c = false := not_kept c h2 h3
        simp [this]

theorem decodeName_sanitize (s : Bytes) :
    decodeName (sanitizeName s) = some (s.filter keptByte) := by
  induction s with
  | nil => rfl
  | cons c s ih =>
    simp only [sanitizeName, List.flatMap_cons] at *
    rw [decodeName_sanitizeChar, ih]
    simp only [Option.map_some, List.filter_cons]
    split <;> simp

/-- A name without `#` decodes to itself. -/
theorem decodeName_plain (s : Bytes) (h : ∀ c ∈ s, c ≠ 0x23) : decodeName s = some s := by
  induction s with
  | nil => rfl
  | cons c s ih =>
    rw [decodeName_cons_plain c (h c (by simp)), ih (fun c hc => h c (by simp [hc]))]
    rfl

end Pdfje
