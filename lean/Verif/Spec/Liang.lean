import Mathlib.Data.List.Basic
import Verif.Basic
/-
Specification: Liang's hyphenation method. A pattern, such as "a1bc3d4", is a text of letters (and full stops for the ends of words) with numbers between them. Where the letters of
a pattern occur in a word its numbers count for the places between the letters of the word; the greatest number that counts for a place decides, and the word may be broken where it is odd.
-/

namespace Pdfje

/-- A digit. -/
def Digit (c : Char) : Prop := '0' ≤ c ∧ c ≤ '9'

instance (c : Char) : Decidable (Digit c) := inferInstanceAs (Decidable (_ ∧ _))

/-- The letters of a pattern, without its numbers. -/
def lettersOf (p : List Char) : List Char := p.filter fun c => ¬ Digit c

/-- A pattern: full stops, letters a to z and digits. -/
def PatternText (p : List Char) : Prop := ∀ c ∈ p, c = '.' ∨ ('a' ≤ c ∧ c ≤ 'z') ∨ Digit c

/-- The number that digits denote; 0 without digits. -/
def decimal (ds : List Char) : Nat := ds.foldl (fun n c => 10 * n + (c.toNat - 48)) 0

/-- The number in the pattern after its first `j` letters is `v`. -/
def Marks (p : List Char) (j v : Nat) : Prop :=
  ∃ a ds b, p = a ++ ds ++ b ∧ (lettersOf a).length = j ∧ (∀ c ∈ ds, Digit c) ∧ (∀ c ∈ a.getLast?, ¬ Digit c) ∧ (∀ c ∈ b.head?, ¬ Digit c) ∧ v = decimal ds

/-- A text of the list, where of those with the same key only the last counts. -/
def LastWith (key : List Char → List Char) (l : List (List Char)) (p : List Char) : Prop := ∃ a b, l = a ++ p :: b ∧ ∀ q ∈ b, key q ≠ key p

/-- By a pattern whose letters occur in the word (with full stops at its ends), the number `v` counts for the place after the first `k` letters of the word. -/
def Counts (patterns : List (List Char)) (word : List Char) (k v : Nat) : Prop :=
  ∃ p a b j, LastWith lettersOf patterns p ∧ lettersOf p ≠ [] ∧ '.' :: word ++ ['.'] = a ++ lettersOf p ++ b ∧ Marks p j v ∧ a.length + j = k + 1

/-- The greatest number that counts for the place after the first `k` letters of the word is odd. -/
def BreakPlace (patterns : List (List Char)) (word : List Char) (k : Nat) : Prop :=
  ∃ v, Counts patterns word k v ∧ (∀ u, Counts patterns word k u → u ≤ v) ∧ v % 2 = 1

/-- There is a cut after the first `k` characters. -/
def CutAfter (pieces : List (List Char)) (k : Nat) : Prop := ∃ a b, pieces = a ++ b ∧ a ≠ [] ∧ b ≠ [] ∧ a.flatten.length = k

/-- An exception: syllables of letters a to z with hyphens between them. -/
def Syllables (ex : List Char) (syls : List (List Char)) : Prop :=
  ex = List.intercalate ['-'] syls ∧ syls ≠ [] ∧ ∀ s ∈ syls, s ≠ [] ∧ ∀ c ∈ s, 'a' ≤ c ∧ c ≤ 'z'

end Pdfje
