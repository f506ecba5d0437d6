import Verif.Spec.Lookup
/-
SPECIFICATION: the references in an object, each with the dictionary key it stands under, and what kind of
object a reference under that key must name (PDF 32000-1: 7.5.5, 7.7.2, 7.7.3, 7.8.3, 9.6-9.9).
-/

namespace Pdfje

mutual
/-- All references in an object, with the innermost dictionary key above them (`key` at the top). -/
def Atom.keyRefs (key : Bytes) : Atom → List (Bytes × Nat)
  | .ref n => [(key, n)]
  | .array as => itemRefs key as
  | .dict es => entryRefs es
  | .stream _ es => entryRefs es
  | _ => []
def itemRefs (key : Bytes) : List Atom → List (Bytes × Nat)
  | [] => []
  | a :: as => a.keyRefs key ++ itemRefs key as
def entryRefs : List (Bytes × Atom) → List (Bytes × Nat)
  | [] => []
  | (k, a) :: es => a.keyRefs k ++ entryRefs es
end

/-- `a` is a dictionary whose `/Type` is `t`. -/
def HasType (t : Bytes) (a : Atom) : Prop := a.get b!"Type" = some (.name t)

/-- What a reference under a key must name. Any key that is not one of the standard ones is a font name in a font
resource dictionary. -/
def KindOk (key : Bytes) (a : Atom) : Prop :=
  if key = b!"Pages" ∨ key = b!"Parent" then HasType b!"Pages" a
  else if key = b!"Kids" then HasType b!"Page" a
  else if key = b!"Contents" ∨ key = b!"ToUnicode" ∨ key = b!"CIDToGIDMap" then ∃ c, a.content = some c
  else if key = b!"FontFile2" then ∃ file : Bytes, a.content = some file ∧ a.get b!"Length1" = some (.int file.length)
  else if key = b!"Resources" then ∃ es, a.get b!"Font" = some (.dict es)
  else if key = b!"DescendantFonts" then HasType b!"Font" a ∧ a.get b!"Subtype" = some (.name b!"CIDFontType2")
  else if key = b!"FontDescriptor" then HasType b!"FontDescriptor" a
  else if key = b!"CIDSystemInfo" then (∃ x, a.get b!"Registry" = some x) ∧ ∃ x, a.get b!"Ordering" = some x
  else HasType b!"Font" a ∧ a.get b!"Subtype" = some (.name b!"Type0")

end Pdfje
