import Verif.Model.Style
/-
Specification vocabulary for styled text: which character is set in which text state.
-/

namespace Pdfje

/-- Every character with the text state in force at it: a passage's command takes effect before its text. -/
def styled : List Passage → State → List (Char × State)
  | [], _ => []
  | p :: ps, st => p.txt.map (fun c => (c, p.cmd.apply st)) ++ styled ps (p.cmd.apply st)

/-- The state after all passages. -/
def endState : List Passage → State → State
  | [], st => st
  | p :: ps, st => endState ps (p.cmd.apply st)

/-- The state at every passage. -/
def stateAt : List Passage → State → List State
  | [], _ => []
  | p :: ps, st => p.cmd.apply st :: stateAt ps (p.cmd.apply st)

/-- The lines of a string: split at every `"\n"` and `"\r\n"`. -/
def textLines : List Char → List (List Char)
  | [] => [[]]
  | '\r' :: '\n' :: s => [] :: textLines s
  | '\n' :: s => [] :: textLines s
  | c :: s => match textLines s with | l :: ls => (c :: l) :: ls | [] => [[c]]

/-- Put two texts one after the other: the last line of the first and the first line of the second become one. -/
def joinLines {α} : List (List α) → List (List α) → List (List α)
  | [], b => b
  | [l], l' :: b => (l ++ l') :: b
  | [l], [] => [l]
  | l :: ls, b => l :: joinLines ls b

/-- The lines of styled text. -/
def styledLines : List Passage → State → List (List (Char × State))
  | [], _ => [[]]
  | p :: ps, st =>
    joinLines ((textLines p.txt).map fun l => l.map fun c => (c, p.cmd.apply st)) (styledLines ps (p.cmd.apply st))

/-- Consecutive groups of passages, each with the state the previous one leaves. -/
def groupsStyled : List (List Passage) → State → List (List (Char × State))
  | [], _ => []
  | g :: gs, st => styled g st :: groupsStyled gs (endState g st)

mutual
/-- The strings of a tree of spans, in order, each with the styles of the spans around it, outermost first. -/
def Item.strings (outer : List Style) : Item → List (List Char × List Style)
  | .str s => [(s, outer)]
  | .span c st => itemsStrings (outer ++ [st]) c
/-- The same for a sequence. -/
def itemsStrings (outer : List Style) : List Item → List (List Char × List Style)
  | [] => []
  | i :: is => i.strings outer ++ itemsStrings outer is
end

/-- A full style overlaid with styles from outermost to innermost, attribute by attribute. -/
def StyleFull.overlay (base : StyleFull) (ss : List Style) : StyleFull where
  font := ((ss.filterMap (·.font)).getLast?).getD base.font
  size := ((ss.filterMap (·.size)).getLast?).getD base.size
  bold := ((ss.filterMap (·.bold)).getLast?).getD base.bold
  italic := ((ss.filterMap (·.italic)).getLast?).getD base.italic
  color := ((ss.filterMap (·.color)).getLast?).getD base.color
  lineSpacing := ((ss.filterMap (·.lineSpacing)).getLast?).getD base.lineSpacing
  hyphens := ((ss.filterMap (·.hyphens)).getLast?).getD base.hyphens

mutual
/-- No span in the tree changes anything of the given style. -/
def Item.Keeps (base : StyleFull) : Item → Prop
  | .str _ => True
  | .span c st => base.overlay [st] = base ∧ itemsKeep base c
/-- The same for a sequence. -/
def itemsKeep (base : StyleFull) : List Item → Prop
  | [] => True
  | i :: is => i.Keeps base ∧ itemsKeep base is
end

/-- A command that is not a sequence of commands. -/
def Command.Flat : Command → Prop
  | .chain _ => False
  | _ => True

end Pdfje
