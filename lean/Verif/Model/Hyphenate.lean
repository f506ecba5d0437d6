import Verif.Model.Style
/-
Model of /repo/src/pdfje/vendor/hyphenate.py (Liang's algorithm) and of typeset/hyphens.py.
`str.lower` is a parameter `lower`.
-/

namespace Pdfje

/-- vendor/hyphenate.py:48-53: the tree of patterns, a dict from letters to the subtrees below them. An entry has its letter, the points stored under `None` in
its subtree, that subtree, and the other entries. (The points of a pattern without letters, stored under `None` in the root, are never read and left out.) -/
inductive Trie where
  | nil
  | entry (c : Char) (points : Option (List Nat)) (below rest : Trie)
  deriving DecidableEq

/-- vendor/hyphenate.py:48-53 in a new, empty dict, for these letters. -/
def Trie.path : Char → List Char → List Nat → Trie
  | c, [], p => .entry c (some p) .nil .nil
  | c, d :: s, p => .entry c none (Trie.path d s p) .nil

/-- vendor/hyphenate.py:48-53: the letters of a pattern with its points are put into the tree. -/
def Trie.insert : Trie → List Char → List Nat → Trie
  | t, [], _ => t
  | .nil, c :: s, p => Trie.path c s p
  | .entry e q b r, c :: s, p =>
    if c = e then .entry e (if s = [] then some p else q) (b.insert s p) r else .entry e q b (r.insert (c :: s) p)

/-- vendor/hyphenate.py:71-72 `t[c]`, with what is under `None` in it. -/
def Trie.find : Trie → Char → Option (Option (List Nat) × Trie)
  | .nil, _ => none
  | .entry e q b r, c => if c = e then some (q, b) else r.find c

/-- vendor/hyphenate.py:27-37: what the object holds. -/
structure Hyphenator where
  tree : Trie
  exceptions : List (List Char × List Nat)

/-- `re.split` at every character of a class. -/
def splitWhere (p : Char → Bool) : List Char → List (List Char)
  | [] => [[]]
  | c :: s =>
    if p c then [] :: splitWhere p s
    else match splitWhere p s with | x :: xs => (c :: x) :: xs | [] => [[c]]

/-- The class `[0-9]`. -/
def isDigit09 (c : Char) : Bool := '0' ≤ c && c ≤ '9'
/-- The class `[a-z]`. -/
def isAZ (c : Char) : Bool := 'a' ≤ c && c ≤ 'z'

/-- `int(d or 0)` (ValueError: `none`). Only ASCII digits are read as numbers here. -/
def intOr0 (d : List Char) : Option Nat :=
  if d.all isDigit09 then some (d.foldl (fun n c => n * 10 + (c.toNat - '0'.toNat)) 0) else none

/-- vendor/hyphenate.py:42-43: letters and points of a pattern. -/
def patternOf (pattern : List Char) : Option (List Char × List Nat) :=
  ((splitWhere (fun c => c == '.' || isAZ c) pattern).mapM intOr0).map fun points =>
    (pattern.filter fun c => !isDigit09 c, points)

/-- vendor/hyphenate.py:35-37: letters and points of an exception. -/
def exceptionOf (ex : List Char) : List Char × List Nat :=
  (ex.filter (· ≠ '-'), 0 :: (splitWhere isAZ ex).map fun h => if h = ['-'] then 1 else 0)

/-- vendor/hyphenate.py:29-30, 39-53 for all patterns. -/
def buildTree : List (List Char) → Trie → Option Trie
  | [], t => some t
  | p :: ps, t =>
    match patternOf p with
    | none => none
    | some (chars, points) => buildTree ps (t.insert chars points)

/-- `str.split()`, for ASCII white space. -/
def splitText (s : List Char) : List (List Char) :=
  (splitWhere (fun c => c = ' ' || c = '\t' || c = '\n' || c = '\r' || c = '\x0b' || c = '\x0c') s).filter fun x => !x.isEmpty

/-- vendor/hyphenate.py:27-37 `Hyphenator.__init__`, the two texts already split at white space. -/
def Hyphenator.new (patterns exceptions : List (List Char)) : Option Hyphenator :=
  (buildTree patterns .nil).map fun t =>
    ⟨t, exceptions.foldl (fun d ex => dictSet d (exceptionOf ex).1 (exceptionOf ex).2) []⟩

/-- vendor/hyphenate.py:75-76 (IndexError: `none`). -/
def raisePoints (points : List Nat) (i : Nat) (p : List Nat) : Option (List Nat) :=
  if i + p.length ≤ points.length then
    some (points.mapIdx fun k x => if i ≤ k ∧ k < i + p.length then max x (p.getD (k - i) 0) else x)
  else none

/-- The loop of vendor/hyphenate.py:70-78 over the letters of `work[i:]`, from a place in the tree. -/
def walkTree (i : Nat) : Trie → List Char → List Nat → Option (List Nat)
  | _, [], points => some points
  | t, c :: s, points =>
    match t.find c with
    | none => some points
    | some (none, t) => walkTree i t s points
    | some (some p, t) => (raisePoints points i p).bind fun points => walkTree i t s points

/-- The loop of vendor/hyphenate.py:68-78 from position `i`. -/
def startLoop (t : Trie) : Nat → List Char → List Nat → Option (List Nat)
  | _, [], points => some points
  | i, c :: s, points => (walkTree i t (c :: s) points).bind fun points => startLoop t (i + 1) s points

/-- vendor/hyphenate.py:66-80: the points of a word. -/
def Hyphenator.points (h : Hyphenator) (lower : List Char → List Char) (word : List Char) : Option (List Nat) :=
  match h.exceptions.lookup (lower word) with
  | some points => some points
  | none =>
    let work := '.' :: lower word ++ ['.']
    (startLoop h.tree 0 work (List.replicate (work.length + 1) 0)).map fun points =>
      let n := points.length
      (((points.set 1 0).set 2 0).set (n - 2) 0).set (n - 3) 0

/-- The loop of vendor/hyphenate.py:84-87, `cur` being `pieces[-1]`. -/
def cutPieces : List (Char × Nat) → List Char → List (List Char)
  | [], cur => [cur]
  | (c, p) :: r, cur => if p % 2 = 1 then (cur ++ [c]) :: cutPieces r [] else cutPieces r (cur ++ [c])

/-- vendor/hyphenate.py:55-88 `Hyphenator.hyphenate_word`. -/
def Hyphenator.hyphenate (h : Hyphenator) (lower : List Char → List Char) (word : List Char) : Option (List (List Char)) :=
  if word.length ≤ 4 then some [word]
  else (h.points lower word).map fun points => cutPieces (word.zip (points.drop 2)) []

/-- vendor/hyphenate.py:512-516, the exceptions of the built-in English hyphenator. -/
def englishExceptions : List (List Char) :=
  ["as-so-ciate", "as-so-ciates", "dec-li-na-tion", "oblig-a-tory", "phil-an-thropic", "present",
   "presents", "project", "projects", "reci-procity", "re-cog-ni-zance", "ref-or-ma-tion",
   "ret-ri-bu-tion", "ta-ble"].map String.toList

/-- typeset/hyphens.py:10-11 `never_hyphenate`. -/
def neverHyphenate (s : List Char) : List (List Char) := [s]

/-- The slices of typeset/hyphens.py:50-53 from `start`. -/
def slices (s : List Char) : Nat → List Nat → List (List Char)
  | start, [] => [s.drop start]
  | start, p :: ps => (s.take p).drop start :: slices s p ps

/-- typeset/hyphens.py:48-56 `_pyphenate`, where `positions` is what the dictionary of the external package says. -/
def pyphenate (positions : List Char → List Nat) (s : List Char) : List (List Char) :=
  match positions s with
  | [] => [s]
  | pos => slices s 0 pos

end Pdfje
