import Verif.Model.Embed
/-
Model of /repo/src/pdfje/resources.py. The mutable registry is an explicit state.
-/

namespace Pdfje

/-- A `Font` object as handed out by `Resources.font`: a builtin font, or the n-th subset of the document. -/
inductive FontRef where
  | builtin (f : BuiltinFont)
  | subset (i : Nat)
  deriving DecidableEq

/-- resources.py:16-24. Dictionaries are association lists in insertion order; `next` is the state of
`_next_subset_index`. -/
structure Res where
  builtins : List ((Bytes × Bool × Bool) × BuiltinFont)
  subsets : List ((TrueType × Bool × Bool) × Subset)
  next : Nat
  deriving DecidableEq

/-- `Resources()`. -/
def Res.empty : Res := ⟨[], [], 0⟩

/-- resources.py:54-68 `Resources.font`. -/
def Res.font (r : Res) (f : Typeface) (bold italic : Bool) : FontRef × Res :=
  match f with
  | .builtin b =>
    let key := (b.regular.name, bold, italic)
    match r.builtins.find? (fun e => e.1 == key) with
    | some e => (.builtin e.2, r)
    | none => (.builtin (b.font bold italic), { r with builtins := r.builtins ++ [(key, b.font bold italic)] })
  | .trueType t =>
    let key := (t, bold, italic)
    match r.subsets.findIdx? (fun e => e.1 == key) with
    | some i => (.subset i, r)
    | none =>
      (.subset r.subsets.length,
        { r with
          subsets := r.subsets ++ [(key, ⟨b!"F" ++ decNat r.next, t.font bold italic, []⟩)],
          next := r.next + 1 })

/-- `Font.encode` (fonts/common.py:170-173, fonts/embed.py:137-144). `none` for a subset that was never made. -/
def Res.encode (r : Res) (f : FontRef) (s : List Char) : Option (Bytes × Res) :=
  match f with
  | .builtin _ => some (cp1252 s, r)
  | .subset i =>
    match r.subsets[i]? with
    | none => none
    | some e =>
      let (bs, cids) := encodeCids e.2.cids s
      some (bs, { r with subsets := r.subsets.set i (e.1, { e.2 with cids := cids }) })

/-- `Font.id`. -/
def Res.fontId (r : Res) : FontRef → Option Bytes
  | .builtin f => some f.fid
  | .subset i => (r.subsets[i]?).map (·.2.id)

/-- The loop of resources.py:27-31 from object id `i`: objects yielded, and whether the loop completed
(`false`: an assertion in `Subset.to_objects` failed). -/
def subsetObjects (compress : Bytes → Bytes) (files : Path → FontFile) : List Subset → Nat → List Obj × Bool
  | [], _ => ([], true)
  | s :: ss, i =>
    match s.toObjects compress (files s.path) i with
    | none => ([], false)
    | some objs =>
      let (rest, ok) := subsetObjects compress files ss (i + objsPerFont)
      (objs ++ rest, ok)

/-- resources.py:26-31 `Resources.to_objects`. -/
def Res.toObjects (compress : Bytes → Bytes) (files : Path → FontFile) (r : Res) (first : Nat) : List Obj × Bool :=
  subsetObjects compress files (r.subsets.map (·.2)) first

/-- Second part of the font dictionary, resources.py:44-50. -/
def subsetEntries : List Subset → Nat → List (Bytes × Atom)
  | [], _ => []
  | s :: ss, i => (s.id, .ref i) :: subsetEntries ss (i + objsPerFont)

/-- The entries of the font dictionary, resources.py:38-51. -/
def Res.fontEntries (r : Res) (first : Nat) : List (Bytes × Atom) :=
  r.builtins.map (fun e => (e.2.fid, e.2.toResource)) ++ subsetEntries (r.subsets.map (·.2)) first

/-- resources.py:33-52 `Resources.to_atoms`. -/
def Res.toAtoms (r : Res) (first : Nat) : Atom := .dict [(b!"Font", .dict (r.fontEntries first))]

end Pdfje

namespace Pdfje

/-! Histories of uses of the registry while a document is rendered (State.apply calls `Resources.font`
through style.py:365-383, text rendering calls `Font.encode`, words.py:607-628). -/

/-- A use of the registry: a font request (resources.py:54-68) or an encoding (fonts/common.py:170-173, fonts/embed.py:137-144). -/
inductive ResOp where
  | font (f : Typeface) (bold italic : Bool)
  | encode (f : FontRef) (s : List Char)
  deriving DecidableEq

/-- Its result. -/
inductive ResOut where
  | font (f : FontRef)
  | bytes (b : Bytes)
  deriving DecidableEq

/-- One use. -/
def Res.step (r : Res) : ResOp → Option (ResOut × Res)
  | .font f b i => let (x, r1) := r.font f b i; some (.font x, r1)
  | .encode f s => (r.encode f s).map fun (x, r1) => (.bytes x, r1)

/-- A sequence of uses; `none` if a subset is used that was never handed out. -/
def Res.run (r : Res) : List ResOp → Option (List ResOut × Res)
  | [] => some ([], r)
  | op :: ops =>
    match r.step op with
    | none => none
    | some (o, r1) =>
      match r1.run ops with
      | none => none
      | some (os, r2) => some (o :: os, r2)

end Pdfje
