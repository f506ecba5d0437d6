import Verif.Spec.PdfReader
/-
SPECIFICATION (independent of the model): a reader for content streams, following PDF 32000-1:2008 sections 7.2, 7.3 and 7.8.2: a
sequence of operands, each followed by an operator. Only what pdfje uses is covered: reading fails for dictionaries, comments,
nested arrays, inline images and operators that are not listed here (so that a theorem that says that reading succeeds is the stronger).
-/

namespace PdfSpec

/-- Tokens of a content stream. -/
inductive Tok where
  | num (v : ℚ)
  | name (v : Bytes)
  | str (v : Bytes)
  | openArr
  | closeArr
  | op (v : Bytes)

/-- One token, from its first character on, and what follows it. -/
def readTok : Bytes → Option (Tok × Bytes)
  | [] => none
  | c :: s =>
    if c = 0x2F then (decodeName (s.takeWhile isRegular)).map fun n => (.name n, s.dropWhile isRegular)
    else if c = 0x28 then (readLit (s.length + 1) 0 s).map fun (v, r) => (.str v, r)
    else if c = 0x3C then (readHex none s).map fun (v, r) => (.str v, r)
    else if c = 0x5B then some (.openArr, s)
    else if c = 0x5D then some (.closeArr, s)
    else if isRegular c then
      let tok := (c :: s).takeWhile isRegular
      let rest := (c :: s).dropWhile isRegular
      match parseNumber tok with
      | some q => some (.num q, rest)
      | none => some (.op tok, rest)
    else none

/-- All tokens. (Every token has at least one byte, so the number of bytes is enough fuel.) -/
def tokens : Nat → Bytes → Option (List Tok)
  | fuel, s =>
    match skipWs s with
    | [] => some []
    | c :: s' =>
      match fuel with
      | 0 => none
      | fuel + 1 =>
        match readTok (c :: s') with
        | none => none
        | some (t, r) => (tokens fuel r).map (t :: ·)

/-- Elements of an array. -/
inductive Elem where
  | num (v : ℚ)
  | str (v : Bytes)

/-- Operands. -/
inductive Operand where
  | num (v : ℚ)
  | name (v : Bytes)
  | str (v : Bytes)
  | arr (v : List Elem)

/-- Operators with their operands, from the operands read before and the elements of the array that is open. -/
def instructions : List Tok → List Operand → Option (List Elem) → Option (List (List Operand × Bytes))
  | [], [], none => some []
  | .num v :: ts, st, none => instructions ts (st ++ [.num v]) none
  | .num v :: ts, st, some es => instructions ts st (some (es ++ [.num v]))
  | .str v :: ts, st, none => instructions ts (st ++ [.str v]) none
  | .str v :: ts, st, some es => instructions ts st (some (es ++ [.str v]))
  | .name v :: ts, st, none => instructions ts (st ++ [.name v]) none
  | .openArr :: ts, st, none => instructions ts st (some [])
  | .closeArr :: ts, st, some es => instructions ts (st ++ [.arr es]) none
  | .op v :: ts, st, none => (instructions ts [] none).map ((st, v) :: ·)
  | _, _, _ => none

/-- The operators: paths (8.5.2, 8.5.3), colours (8.6.8), text (9.3.1, 9.4). -/
inductive COp where
  | moveTo (x y : ℚ)
  | lineTo (x y : ℚ)
  | curveTo (x1 y1 x2 y2 x3 y3 : ℚ)
  | rect (x y w h : ℚ)
  | fillColor (r g b : ℚ)
  | strokeColor (r g b : ℚ)
  | endPath | stroke | closeStroke | fill | fillStroke | closeFillStroke
  | beginText | endText
  | font (name : Bytes) (size : ℚ)
  | showText (items : List Elem)
  | move (x y : ℚ)
  | moveLeading (x y : ℚ)
  | leading (l : ℚ)
  | nextLine

/-- The operator with this name and these operands. -/
def operator : List Operand × Bytes → Option COp
  | ([.num x, .num y], [0x6D]) => some (.moveTo x y)                              -- m
  | ([.num x, .num y], [0x6C]) => some (.lineTo x y)                              -- l
  | ([.num x1, .num y1, .num x2, .num y2, .num x3, .num y3], [0x63]) => some (.curveTo x1 y1 x2 y2 x3 y3)  -- c
  | ([.num x, .num y, .num w, .num h], [0x72, 0x65]) => some (.rect x y w h)      -- re
  | ([.num r, .num g, .num b], [0x72, 0x67]) => some (.fillColor r g b)           -- rg
  | ([.num r, .num g, .num b], [0x52, 0x47]) => some (.strokeColor r g b)         -- RG
  | ([], [0x6E]) => some .endPath                                                 -- n
  | ([], [0x53]) => some .stroke                                                  -- S
  | ([], [0x73]) => some .closeStroke                                             -- s
  | ([], [0x66]) => some .fill                                                    -- f
  | ([], [0x42]) => some .fillStroke                                              -- B
  | ([], [0x62]) => some .closeFillStroke                                         -- b
  | ([], [0x42, 0x54]) => some .beginText                                         -- BT
  | ([], [0x45, 0x54]) => some .endText                                           -- ET
  | ([.name n, .num z], [0x54, 0x66]) => some (.font n z)                         -- Tf
  | ([.arr es], [0x54, 0x4A]) => some (.showText es)                              -- TJ
  | ([.num x, .num y], [0x54, 0x64]) => some (.move x y)                          -- Td
  | ([.num x, .num y], [0x54, 0x44]) => some (.moveLeading x y)                   -- TD
  | ([.num l], [0x54, 0x4C]) => some (.leading l)                                 -- TL
  | ([], [0x54, 0x2A]) => some .nextLine                                          -- T*
  | _ => none

/-- The operators of a content stream. -/
def readContent (s : Bytes) : Option (List COp) :=
  ((tokens s.length s).bind fun ts => instructions ts [] none).bind fun is => is.mapM operator

end PdfSpec
