import Verif.Spec.Content
/-
SPECIFICATION (independent of the model): where operators may occur in a content stream (PDF 32000-1:2008, 8.2, Figure 9 and Table 51).
-/

namespace PdfSpec

/-- Graphics objects: the page level, a path object (from its first `m` or `re` to the operator that paints it) and a text object (from `BT` to `ET`). -/
inductive Mode where
  | page | path | text
  deriving DecidableEq

/-- Operators that construct a path. -/
def COp.constructs : COp → Bool
  | .moveTo .. | .lineTo .. | .curveTo .. | .rect .. => true
  | _ => false

/-- Operators that begin a path. -/
def COp.beginsPath : COp → Bool
  | .moveTo .. | .rect .. => true
  | _ => false

/-- Operators that paint a path, and end it. -/
def COp.paints : COp → Bool
  | .endPath | .stroke | .closeStroke | .fill | .fillStroke | .closeFillStroke => true
  | _ => false

/-- Operators that set a colour. -/
def COp.colours : COp → Bool
  | .fillColor .. | .strokeColor .. => true
  | _ => false

/-- Operators of the text state. -/
def COp.textState : COp → Bool
  | .font .. | .leading .. => true
  | _ => false

/-- Operators that position or show text. -/
def COp.places : COp → Bool
  | .showText .. | .move .. | .moveLeading .. | .nextLine => true
  | _ => false

/-- One operator: which object we are in after it; `none` if it is not allowed. At the page level, colours and the text state may be set and paths and text objects begin; in a path object it is
constructed and painted, and nothing else; in a text object, text is placed, and colours and the text state may be set. If `lenient`, colours may also be set between construction and painting of a
path. -/
def Mode.step (lenient : Bool) : Mode → COp → Option Mode
  | .page, .beginText => some .text
  | .page, op => if op.beginsPath then some .path else if op.colours || op.textState then some .page else none
  | .path, op => if op.constructs then some .path else if op.paints then some .page else if lenient && op.colours then some .path else none
  | .text, .endText => some .page
  | .text, op => if op.places || op.colours || op.textState then some .text else none

/-- A sequence of operators. -/
def Mode.run (lenient : Bool) : Mode → List COp → Option Mode
  | m, [] => some m
  | m, op :: ops => (m.step lenient op).bind fun m' => m'.run lenient ops

/-- A content stream all of whose operators are allowed where they are, and which ends at the page level. -/
def WellPlaced (ops : List COp) : Prop := Mode.run false .page ops = some .page

/-- The same, if colours may be set in a path object. -/
def WellPlacedLenient (ops : List COp) : Prop := Mode.run true .page ops = some .page

instance (ops : List COp) : Decidable (WellPlaced ops) := inferInstanceAs (Decidable (_ = _))

end PdfSpec
