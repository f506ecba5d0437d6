import Verif.Model.Atoms
/-
SPECIFICATION: following keys and references in a list of objects. Independent of how they were made.
-/

namespace Pdfje

/-- Entry of a dictionary or of a stream's dictionary. -/
def Atom.get (a : Atom) (key : Bytes) : Option Atom :=
  match a with
  | .dict es => (es.find? fun e => e.1 == key).map (·.2)
  | .stream _ es => (es.find? fun e => e.1 == key).map (·.2)
  | _ => none

/-- The object with a given number (the first, if there were several). -/
def objAt (objs : List Obj) (i : Nat) : Option Atom := (objs.find? fun o => o.1 == i).map (·.2)

/-- Follow a reference. -/
def deref (objs : List Obj) : Atom → Option Atom
  | .ref i => objAt objs i
  | _ => none

/-- Entry of a dictionary, followed if it is a reference. -/
def follow (objs : List Obj) (key : Bytes) (a : Atom) : Option Atom := (a.get key).bind (deref objs)

/-- Content of a stream. -/
def Atom.content : Atom → Option Bytes
  | .stream b _ => some b
  | _ => none

/-- First item of an array. -/
def Atom.first : Atom → Option Atom
  | .array (a :: _) => some a
  | _ => none

end Pdfje
