import Verif.Basic
import Mathlib.Data.Int.Log
import Mathlib.Data.Rat.Floor
/-
Model of Python's number formatting as used by pdfje: `b"%i"`, `b"%010i"`, `b"%04X"`, `b"%g"`.
-/

namespace Pdfje

/-- ASCII digit `0`..`9` (for `d < 10`). -/
def digit (d : Nat) : UInt8 := UInt8.ofNat (48 + d)

/-- `b"%i" % n` for `n ≥ 0`  (used in atoms.py:80,174,178,196,209; resources.py:65; embed.py:346). -/
def decNat (n : Nat) : Bytes :=
  if _h : n < 10 then [digit n] else decNat (n / 10) ++ [digit (n % 10)]
termination_by n
decreasing_by omega

/-- `b"%i" % z` for any integer (atoms.py:80). -/
def decInt (z : Int) : Bytes :=
  match z with
  | .ofNat n => decNat n
  | .negSucc n => b!"-" ++ decNat (n + 1)

/-- Exactly `k` decimal digits of `n` (least significant `k`). -/
def decFixed : Nat → Nat → Bytes
  | 0, _ => []
  | k + 1, n => decFixed k (n / 10) ++ [digit (n % 10)]

/-- `b"%0ki" % n`: at least `k` digits, zero padded (atoms.py:200 with `k = 10`). -/
def decPad (k n : Nat) : Bytes :=
  List.replicate (k - (decNat n).length) (digit 0) ++ decNat n

/-- Upper-case hexadecimal digit. -/
def hexDigitU (d : Nat) : UInt8 := if d < 10 then UInt8.ofNat (48 + d) else UInt8.ofNat (55 + d)

/-- Lower-case hexadecimal digit (binascii.hexlify). -/
def hexDigitL (d : Nat) : UInt8 := if d < 10 then UInt8.ofNat (48 + d) else UInt8.ofNat (87 + d)

/-- `b"%04X" % n` for `n < 0x10000` (embed.py:56,58,348). -/
def hex4 (n : Nat) : Bytes :=
  [hexDigitU (n / 4096 % 16), hexDigitU (n / 256 % 16), hexDigitU (n / 16 % 16), hexDigitU (n % 16)]

/-- Round a non-negative rational to the nearest integer, ties to even (IEEE / printf rounding). -/
def roundHalfEven (x : ℚ) : Nat :=
  let f := ⌊x⌋.toNat
  let d := x - (f : ℚ)
  if d < 1 / 2 then f
  else if 1 / 2 < d then f + 1
  else if f % 2 = 0 then f else f + 1

/-- Remove trailing `0` bytes (`%g` strips trailing zeros). -/
def stripZeros (s : Bytes) : Bytes := (s.reverse.dropWhile (· == digit 0)).reverse

/-- The decimal exponent and the six-digit significand `%g` uses for `q > 0`:
`q ≈ m * 10^(e-5)` with `10^5 ≤ m < 10^6`. -/
def sciDigits (q : ℚ) : Int × Nat :=
  let e := Int.log 10 q
  let m := roundHalfEven (q / (10 : ℚ) ^ (e - 5))
  if m = 1000000 then (e + 1, 100000) else (e, m)

/-- Fraction part with its point, or nothing if all digits were zero. -/
def fracPart (s : Bytes) : Bytes :=
  let t := stripZeros s
  if t.isEmpty then [] else b!"." ++ t

/-- `b"%g" % q` for `q > 0`. -/
def fmtGPos (q : ℚ) : Bytes :=
  let (e, m) := sciDigits q
  if e < -4 ∨ 6 ≤ e then
    -- exponent notation: d.ddddde±XX
    [digit (m / 100000)] ++ fracPart (decFixed 5 (m % 100000)) ++ b!"e" ++
      (if e < 0 then b!"-" else b!"+") ++ decPad 2 e.natAbs
  else if 0 ≤ e then
    -- e+1 integer digits, 5-e decimals
    let k := (5 - e).toNat
    decNat (m / 10 ^ k) ++ fracPart (decFixed k (m % 10 ^ k))
  else
    -- 0.000ddd
    b!"0" ++ fracPart (decFixed (5 - e).toNat m)

/-- `b"%g" % q` (atoms.py:89 and every drawing operator), default precision 6.
Simplification: the argument is an exact rational instead of a double; negative zero is not modelled. -/
def fmtG (q : ℚ) : Bytes :=
  if q = 0 then b!"0"
  else if 0 < q then fmtGPos q
  else b!"-" ++ fmtGPos (-q)

end Pdfje
