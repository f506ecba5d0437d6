import Verif.Model.Parse
import Verif.Model.FirstFit
/-
Model of /repo/src/pdfje/typeset/layout.py and /repo/src/pdfje/draw.py: what text blocks and drawings write, as
operators. The bytes of the operators are in `Model/Ops.lean`.
-/

namespace Pdfje

/-- The world outside: metrics of the builtin fonts (fonts/builtins.py), font files, hyphenation functions and Unicode
tables. -/
structure World where
  builtin : BuiltinFont → Metrics
  files : Path → FontFile
  hyph : Nat → List Char → List (List Char)
  unicode : Unicode

/-- fonts/embed.py:110-132: the metrics of a font file (`kerning` is `None` if it has no kerning table). -/
def FontFile.metrics (f : FontFile) : Metrics := ⟨f.charwidth, fun p => match f.kerning with | some k => k p | none => 0⟩

/-- The metrics of the fonts handed out by a registry. (A subset that was not handed out has no metrics; nothing uses it.) -/
def World.metrics (w : World) (r : Res) : FontRef → Metrics
  | .builtin f => w.builtin f
  | .subset i => match r.subsets[i]? with | some e => (w.files e.2.path).metrics | none => ⟨fun _ => 0, fun _ => 0⟩

/-- What typesetting sees of the world. -/
def World.env (w : World) (r : Res) : Env := ⟨w.metrics r, w.hyph, w.unicode⟩

/-- The operators that paint or end a path (draw.py:203-213, layout/rule.py:65-70): `n`, `S`, `s`, `f`, `B`, `b`. -/
inductive Paint where
  | none | stroke | closeStroke | fill | fillStroke | closeFillStroke
  deriving DecidableEq

/-- The operators pdfje writes on a page: path construction (`m`, `l`, `c`, `re`), colours (`rg`, `RG`), painting, and
text objects (`BT` ... `ET`). -/
inductive PageOp where
  | moveTo (x y : ℚ)
  | lineTo (x y : ℚ)
  | curveTo (x1 y1 x2 y2 x3 y3 : ℚ)
  | rect (x y w h : ℚ)
  | fillColor (c : RGB)
  | strokeColor (c : RGB)
  | paint (p : Paint)
  | text (ops : List TextOp)
  deriving DecidableEq

/-! ### typeset/layout.py -/

/-- typeset/layout.py:57-67 `Line`: draw.py:364-375 `_TextLine`, or the lines of firstfit.py and optimum.py, which
have no command. -/
structure RLine where
  cmd : Command
  words : List WordLike
  width : ℚ

/-- A line of a paragraph (firstfit.py:169-193, optimum.py:182-211). -/
def TLine.toR (l : TLine) : RLine := ⟨.noop, l.words, l.width⟩

/-- draw.py:370-375, firstfit.py:188-193, optimum.py:187-192 `__iter__`. -/
def RLine.ops (l : RLine) : List TextOp := l.cmd.ops ++ encodeWords l.words []

/-- typeset/layout.py:70-74 `_render_left`. -/
def renderLeft (lines : List RLine) (lead : ℚ) : List TextOp := .tl lead :: lines.flatMap fun l => .tstar :: l.ops

/-- typeset/layout.py:77-83 `_render_centered`. -/
def renderCentered (lead : ℚ) : List RLine → ℚ → List TextOp
  | [], _ => []
  | l :: ls, prev => .tdl ((prev - l.width) / 2) (-lead) :: l.ops ++ renderCentered lead ls l.width

/-- typeset/layout.py:86-92 `_render_right`. -/
def renderRight (lead : ℚ) : List RLine → ℚ → List TextOp
  | [], _ => []
  | l :: ls, prev => .tdl (prev - l.width) (-lead) :: l.ops ++ renderRight lead ls l.width

/-- typeset/layout.py:95-102 `_pick_renderer`. -/
def renderLines (align : Align) (lines : List RLine) (lead prev : ℚ) : List TextOp :=
  match align with
  | .left => renderLeft lines lead
  | .center => renderCentered lead lines prev
  | .right => renderRight lead lines prev
  | .justify => renderLeft lines lead

/-- typeset/layout.py:43-54 `render_text`. -/
def renderText (pos : ℚ × ℚ) (st : Option State) (prev : ℚ) (lines : List RLine) (lead : ℚ) (align : Align) : PageOp :=
  .text (.td pos.1 pos.2 :: (match st with | some s => s.ops | none => []) ++ renderLines align lines lead prev)

/-- typeset/layout.py:26-32 `ShapedText.end_state`. -/
def ShapedText.endState (t : ShapedText) : Option State := (t.lines.flatMap (·.words)).getLast?.map WordLike.state

/-- typeset/layout.py:34-40 `ShapedText.pre_state`: the `state` of the first word. -/
def ShapedText.preState (t : ShapedText) : Option State := (t.lines.flatMap (·.words)).head?.map WordLike.state

/-- typeset/layout.py:21-24 `ShapedText.render`. -/
def ShapedText.render (t : ShapedText) (pos : ℚ × ℚ) (width : ℚ) : PageOp :=
  renderText pos t.preState width (t.lines.map TLine.toR) t.lead t.align

/-! ### draw.py -/

/-- A point given as an `XY` or as a tuple (draw.py:286, 299-307). -/
inductive PointLike where
  | xy (p : ℚ × ℚ)
  | tuple (p : ℚ × ℚ)
  deriving DecidableEq

@[inherit_doc PointLike] def PointLike.val : PointLike → ℚ × ℚ
  | .xy p => p
  | .tuple p => p

/-- draw.py: the drawings, after their constructors ran. -/
inductive Drawing where
  /-- draw.py:37-69 -/
  | line (start stop : ℚ × ℚ) (stroke : Option RGB)
  /-- draw.py:72-114 -/
  | rect (origin : ℚ × ℚ) (width height : ℚ) (fill stroke : Option RGB)
  /-- draw.py:117-160 -/
  | ellipse (center : ℚ × ℚ) (width height : ℚ) (fill stroke : Option RGB)
  /-- draw.py:163-200 -/
  | circle (center : ℚ × ℚ) (radius : ℚ) (fill stroke : Option RGB)
  /-- draw.py:264-307 -/
  | polyline (points : List PointLike) (close : Bool) (fill stroke : Option RGB)
  /-- draw.py:309-361 -/
  | text (loc : ℚ × ℚ) (content : List Item) (style : Style) (align : Align)

/-- draw.py:203-213 `_finish`. (An `RGB` is never falsy: its length is 3.) -/
def finish (fill stroke : Option RGB) (close : Bool) : List PageOp :=
  match fill, stroke with
  | some f, some s => [.fillColor f, .strokeColor s, .paint (if close then .closeFillStroke else .fillStroke)]
  | some f, none => [.fillColor f, .paint .fill]
  | none, some s => [.strokeColor s, .paint (if close then .closeStroke else .stroke)]
  | none, none => [.paint .none]

/-- draw.py:221 `kappa`. -/
def kappa : ℚ := 5522848 / 10000000

/-- draw.py:217-261 `_ellipse`. -/
def ellipseOps (center : ℚ × ℚ) (w h : ℚ) (fill stroke : Option RGB) : List PageOp :=
  let x := center.1 - w / 2
  let y := center.2 - h / 2
  let ox := w / 2 * kappa
  let oy := h / 2 * kappa
  let xe := x + w
  let ye := y + h
  let xm := x + w / 2
  let ym := y + h / 2
  [.moveTo x ym, .curveTo x (ym - oy) (xm - ox) y xm y, .curveTo (xm + ox) y xe (ym - oy) xe ym,
    .curveTo xe (ym + oy) (xm + ox) ye xm ye, .curveTo (xm - ox) ye x (ym + oy) x ym] ++ finish fill stroke false

/-- draw.py:299-307 `Polyline.render`: `none` is a TypeError (`%` with an `XY`, which is not a tuple). -/
def polylineOps (points : List PointLike) (close : Bool) (fill stroke : Option RGB) : Option (List PageOp) :=
  match points with
  | [] => some []
  | .xy _ :: _ => none
  | .tuple p :: ps => some (.moveTo p.1 p.2 :: ps.map (fun q => .lineTo q.val.1 q.val.2) ++ finish fill stroke close)

/-- draw.py:378-387 `into_lines`. -/
def intoTextLines (env : Env) : List (List Passage) → State → Option (List RLine)
  | [], _ => some []
  | s :: split, st =>
    match intoWords env s st with
    | none => none
    | some (cmd, words) =>
      (intoTextLines env split (match words.getLast? with | some w => w.state | none => st)).map
        (⟨cmd, words, (words.map WordLike.width).sum⟩ :: ·)

/-- draw.py:351-361 `Text.render`: the operators (`none`: the hyphenator misbehaves), and the registry afterwards. -/
def textOps (w : World) (loc : ℚ × ℚ) (content : List Item) (style : Style) (align : Align) (s : StyleFull) (r : Res) :
    Option (List PageOp) × Res :=
  let (st, r1) := s.asState r
  let (passages, _, r2) := flattenSpan style s [] content r1
  ((intoTextLines (w.env r2) (splitlines passages) st).map fun ls =>
    [renderText loc (some st) 0 ls (maxLead passages st) align], r2)

/-- draw.py:345-349: justified text is refused when a `Text` is made. -/
def Drawing.newText (loc : ℚ × ℚ) (content : List Item) (style : Style) (align : Align) : Option Drawing :=
  if align = .justify then none else some (.text loc content style align)

/-- `Drawing.render` (draw.py:67-69, 112-114, 157-160, 198-200, 299-307, 351-361): the operators, `none` if an error is
raised, and the registry afterwards. -/
def Drawing.render (w : World) (s : StyleFull) (r : Res) : Drawing → Option (List PageOp) × Res
  | .line a b stroke => (some ([.moveTo a.1 a.2, .lineTo b.1 b.2] ++ finish none stroke false), r)
  | .rect o width height fill stroke => (some (.rect o.1 o.2 width height :: finish fill stroke false), r)
  | .ellipse c width height fill stroke => (some (ellipseOps c width height fill stroke), r)
  | .circle c radius fill stroke => (some (ellipseOps c (radius * 2) (radius * 2) fill stroke), r)
  | .polyline points close fill stroke => (polylineOps points close fill stroke, r)
  | .text loc content style align => textOps w loc content style align s r

end Pdfje
