import Verif.Model.Ops
import Verif.Spec.Content
import Verif.Spec.FontSpec
import Verif.Spec.Denotes
/-
SPECIFICATION: which operators of a content stream (as a reader sees them, `Spec/Content`) stand for which operators of a page.
-/

namespace Pdfje
open PdfSpec

/-- `v` is the number printed for `q`: it differs by at most 5 parts in a million. -/
def Near (v q : ℚ) : Prop := |v - q| ≤ |q| * (5 / 1000000)

/-- A font that was requested from the registry. -/
def Res.Knows (r : Res) : FontRef → Prop
  | .builtin f => ∃ e ∈ r.builtins, e.2 = f
  | .subset i => i < r.subsets.length

/-- What a standard font makes of a character: WinAnsi has no others. -/
def winAnsiChar (c : Char) : Nat := if ∃ b : Fin 256, winAnsi (UInt8.ofNat b) = some c.toNat then c.toNat else 0x3F

/-- The characters that codes of the `i`-th embedded font of the document stand for. -/
def Res.charOf (r : Res) (i k : Nat) : Option Char := (r.subsets[i]?).bind fun e => e.2.cids[k]?

/-- The string `b` stands for the text `s` in the font `f`: one byte of WinAnsi for each character, or one two-byte code for each character. -/
def Encodes (r : Res) (f : FontRef) (s : List Char) (b : Bytes) : Prop :=
  match f with
  | .builtin _ => b.map winAnsi = s.map fun c => some (winAnsiChar c)
  | .subset i => ∃ codes, units16 b = some codes ∧ codes.map (r.charOf i) = s.map some

/-- Elements of the array of `TJ`. -/
inductive ItemStands (r : Res) : ShowItem → Elem → Prop
  | adj {x v : ℚ} : Near v x → ItemStands r (.adj x) (.num v)
  | txt {f : FontRef} {s : List Char} {b : Bytes} : Encodes r f s b → ItemStands r (.txt f s) (.str b)

/-- Text operators. A font is named by its key in the font dictionary. -/
inductive TextStands (r : Res) : TextOp → COp → Prop
  | tf {f : FontRef} {z v : ℚ} {n : Bytes} : r.fontId f = some n → Near v z → TextStands r (.tf f z) (.font n v)
  | rg {c : RGB} {x y z : ℚ} : Near x c.red → Near y c.green → Near z c.blue → TextStands r (.rg c) (.fillColor x y z)
  | tj {is : List ShowItem} {es : List Elem} : List.Forall₂ (ItemStands r) is es → TextStands r (.tj is) (.showText es)
  | td {x y v w : ℚ} : Near v x → Near w y → TextStands r (.td x y) (.move v w)
  | tdl {x y v w : ℚ} : Near v x → Near w y → TextStands r (.tdl x y) (.moveLeading v w)
  | tl {l v : ℚ} : Near v l → TextStands r (.tl l) (.leading v)
  | tstar : TextStands r .tstar .nextLine

/-- The operators that paint a path. -/
def Paint.cop : Paint → COp
  | .none => .endPath
  | .stroke => .stroke
  | .closeStroke => .closeStroke
  | .fill => .fill
  | .fillStroke => .fillStroke
  | .closeFillStroke => .closeFillStroke

/-- Operators of a page; a text object is a sequence of operators between `BT` and `ET`. -/
inductive PageStands (r : Res) : PageOp → List COp → Prop
  | moveTo {x y v w : ℚ} : Near v x → Near w y → PageStands r (.moveTo x y) [.moveTo v w]
  | lineTo {x y v w : ℚ} : Near v x → Near w y → PageStands r (.lineTo x y) [.lineTo v w]
  | curveTo {x1 y1 x2 y2 x3 y3 v1 w1 v2 w2 v3 w3 : ℚ} : Near v1 x1 → Near w1 y1 → Near v2 x2 → Near w2 y2 → Near v3 x3 → Near w3 y3 →
      PageStands r (.curveTo x1 y1 x2 y2 x3 y3) [.curveTo v1 w1 v2 w2 v3 w3]
  | rect {x y w h a b c d : ℚ} : Near a x → Near b y → Near c w → Near d h → PageStands r (.rect x y w h) [.rect a b c d]
  | fillColor {c : RGB} {x y z : ℚ} : Near x c.red → Near y c.green → Near z c.blue → PageStands r (.fillColor c) [.fillColor x y z]
  | strokeColor {c : RGB} {x y z : ℚ} : Near x c.red → Near y c.green → Near z c.blue → PageStands r (.strokeColor c) [.strokeColor x y z]
  | paint (p : Paint) : PageStands r (.paint p) [p.cop]
  | text {ops : List TextOp} {cs : List COp} : List.Forall₂ (TextStands r) ops cs → PageStands r (.text ops) (.beginText :: cs ++ [.endText])

/-- A sequence of operators. -/
def OpsStand (r : Res) (ops : List PageOp) (cs : List COp) : Prop :=
  ∃ css : List (List COp), List.Forall₂ (PageStands r) ops css ∧ cs = css.flatten

/-! Numbers that are printed without an exponent (`fmtG` of larger or smaller ones is not a PDF number, see `C10`). -/

/-- Elements of `TJ`. -/
def ShowItem.Printable : ShowItem → Prop
  | .adj x => GoodReal x
  | .txt _ _ => True

/-- Text operators. -/
def TextOp.Printable : TextOp → Prop
  | .tf _ z => GoodReal z
  | .rg c => GoodReal c.red ∧ GoodReal c.green ∧ GoodReal c.blue
  | .tj is => ∀ i ∈ is, i.Printable
  | .td x y => GoodReal x ∧ GoodReal y
  | .tdl x y => GoodReal x ∧ GoodReal y
  | .tl l => GoodReal l
  | .tstar => True

/-- Operators of a page. -/
def PageOp.Printable : PageOp → Prop
  | .moveTo x y => GoodReal x ∧ GoodReal y
  | .lineTo x y => GoodReal x ∧ GoodReal y
  | .curveTo x1 y1 x2 y2 x3 y3 => GoodReal x1 ∧ GoodReal y1 ∧ GoodReal x2 ∧ GoodReal y2 ∧ GoodReal x3 ∧ GoodReal y3
  | .rect x y w h => GoodReal x ∧ GoodReal y ∧ GoodReal w ∧ GoodReal h
  | .fillColor c => GoodReal c.red ∧ GoodReal c.green ∧ GoodReal c.blue
  | .strokeColor c => GoodReal c.red ∧ GoodReal c.green ∧ GoodReal c.blue
  | .paint _ => True
  | .text ops => ∀ op ∈ ops, op.Printable

section
variable (P : FontRef → Prop)

/-- The fonts of an operator satisfy `P`. -/
def ShowItem.Fonts : ShowItem → Prop
  | .adj _ => True
  | .txt f _ => P f

@[inherit_doc ShowItem.Fonts] def TextOp.Fonts : TextOp → Prop
  | .tf f _ => P f
  | .tj is => ∀ i ∈ is, i.Fonts P
  | _ => True

@[inherit_doc ShowItem.Fonts] def PageOp.Fonts : PageOp → Prop
  | .text ops => ∀ op ∈ ops, op.Fonts P
  | _ => True

end

/-- Fewer codes in each font than there are two-byte codes. (A document with more is refused, embed.py:155.) -/
def Res.Small (r : Res) : Prop := ∀ (i : Nat) (e : (TrueType × Bool × Bool) × Subset), r.subsets[i]? = some e → e.2.cids.length ≤ 0x10000

end Pdfje
