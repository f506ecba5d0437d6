import Verif.Model.Style
/-
Specification vocabulary for colours.
-/

namespace Pdfje

/-- The six-digit hex colours `#RRGGBB`, in lower case, upper case or mixed case, with their bytes. -/
def hexChars : List Char := "0123456789abcdef".toList
@[inherit_doc hexChars] def hexCharsUp : List Char := "0123456789ABCDEF".toList

/-- `c` is the hex digit of value `n`. -/
def IsHex (c : Char) (n : Nat) : Prop := hexChars[n]? = some c ∨ hexCharsUp[n]? = some c

/-- `s` is the hex colour with bytes `r`, `g`, `b`. -/
def IsHexColor (s : List Char) (r g b : Nat) : Prop :=
  ∃ c1 c2 c3 c4 c5 c6 n1 n2 n3 n4 n5 n6, s = ['#', c1, c2, c3, c4, c5, c6] ∧
    IsHex c1 n1 ∧ IsHex c2 n2 ∧ IsHex c3 n3 ∧ IsHex c4 n4 ∧ IsHex c5 n5 ∧ IsHex c6 n6 ∧
    r = 16 * n1 + n2 ∧ g = 16 * n3 + n4 ∧ b = 16 * n5 + n6

/-- All components between 0 and 1. -/
def RGB.InRange (c : RGB) : Prop :=
  0 ≤ c.red ∧ c.red ≤ 1 ∧ 0 ≤ c.green ∧ c.green ≤ 1 ∧ 0 ≤ c.blue ∧ c.blue ≤ 1

end Pdfje
