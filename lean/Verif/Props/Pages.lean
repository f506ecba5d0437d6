import Verif.Proofs.Reach
import Verif.Props.Document
import Verif.Props.EndToEnd
import Verif.Props.Style
import Verif.Props.Words
import Mathlib.Tactic.NormNum
/-
Properties of pages and of the layout of blocks on them: C05 (the default document), C49, C50, C51, C52, C53, C60.
-/

namespace Pdfje

/-! ### C53 -/

/-- The CSS shorthand for margins: one value for all sides; vertical, horizontal; top, horizontal, bottom; top, right, bottom, left. -/
inductive CssMargin : SidesLike → (top right bottom left : ℚ) → Prop
  | one (v) : CssMargin (.num v) v v v v
  | two (v h) : CssMargin (.tuple [v, h]) v h v h
  | three (t h b) : CssMargin (.tuple [t, h, b]) t h b h
  | four (t r b l) : CssMargin (.tuple [t, r, b, l]) t r b l
  | sides (t r b l) : CssMargin (.sides ⟨t, r, b, l⟩) t r b l

/-- A margin has at most one meaning, and tuples of other lengths have none. -/
theorem cssMargin_unique {m : SidesLike} {t r b l t' r' b' l' : ℚ} (h : CssMargin m t r b l) (h' : CssMargin m t' r' b' l') :
    t = t' ∧ r = r' ∧ b = b' ∧ l = l' := by
  cases h <;> cases h' <;> exact ⟨rfl, rfl, rfl, rfl⟩

/-- C53. A page without explicit columns is made exactly if the margin is one in CSS shorthand that leaves some width. It
then has one column, which is as far from the edges of the page as the margin says. -/
theorem C53_default_column (content : List Drawing) (size : ℚ × ℚ) (rotate : Int) (margin : SidesLike) (p : Page) :
    Page.new content size rotate margin [] = some p ↔
      ∃ top right bottom left, CssMargin margin top right bottom left ∧ left + right < size.1 ∧
        p.content = content ∧ p.size = size ∧ p.rotate = rotate ∧ ∃ c, p.columns = [c] ∧
          c.origin.1 = left ∧ c.origin.2 = bottom ∧
          size.1 - (c.origin.1 + c.width) = right ∧ size.2 - (c.origin.2 + c.height) = top := by
  have hparse : ∀ s, Sides.parse margin = some s ↔ CssMargin margin s.top s.right s.bottom s.left := by
    intro s
    obtain ⟨t, r, b, l⟩ := s
    constructor
    · intro h
      unfold Sides.parse at h
      split at h <;> simp only [Option.some.injEq, Sides.mk.injEq, reduceCtorEq] at h
      · subst h; exact .sides _ _ _ _
      all_goals
        obtain ⟨rfl, rfl, rfl, rfl⟩ := h
        constructor
    · intro h
      cases h <;> rfl
  constructor
  · intro h
    simp only [Page.new, Option.map_eq_some_iff] at h
    obtain ⟨c, hc, rfl⟩ := h
    unfold defaultColumn at hc
    split at hc
    · cases hc
    · rename_i m hm
      unfold Column.new at hc
      split at hc
      · rename_i hw
        cases hc
        refine ⟨m.top, m.right, m.bottom, m.left, (hparse m).1 hm, by linarith, rfl, rfl, rfl, _, rfl, rfl, rfl, ?_, ?_⟩ <;> simp only <;> ring
      · cases hc
  · rintro ⟨top, right, bottom, left, hm, hw, h1, h2, h3, c, hc, h4, h5, h6, h7⟩
    have hp := (hparse ⟨top, right, bottom, left⟩).2 hm
    simp only [Page.new, defaultColumn, hp, Column.new]
    rw [if_pos (by linarith)]
    simp only [Option.map_some, Option.some.injEq]
    obtain ⟨pc, ps, pr, pcols⟩ := p
    simp only at h1 h2 h3 hc
    subst h1 h2 h3 hc
    obtain ⟨⟨ox, oy⟩, cw, ch⟩ := c
    simp only at h4 h5 h6 h7
    subst h4 h5
    simp only [Page.mk.injEq, List.cons.injEq, Column.mk.injEq, and_true, true_and]
    constructor <;> linarith

/-- Given columns are used as they are. -/
theorem C53_explicit_columns (content : List Drawing) (size : ℚ × ℚ) (rotate : Int) (margin : SidesLike) (c : Column) (cs : List Column) :
    Page.new content size rotate margin (c :: cs) = some ⟨content, size, rotate, c :: cs⟩ := rfl

/-- Every page has a column: the hypothesis on templates below holds for all pages that can be made. -/
theorem C53_columns (content : List Drawing) (size : ℚ × ℚ) (rotate : Int) (margin : SidesLike) (columns : List Column) (p : Page)
    (h : Page.new content size rotate margin columns = some p) : p.columns ≠ [] := by
  cases columns with
  | nil => simp only [Page.new, Option.map_eq_some_iff] at h; obtain ⟨c, -, rfl⟩ := h; simp
  | cons c cs => simp only [Page.new, Option.some.injEq] at h; subst h; simp

/-- The default page, and a margin in three parts. -/
example : Page.new [] a4 0 defaultMargin [] = some .default := by
  have : defaultColumn a4 defaultMargin = some ⟨(72, 72), 595 - 72 - 72, 842 - 72 - 72⟩ := by decide +kernel
  simp [Page.new, Page.default, this]
example : (defaultColumn (100, 200) (.tuple [10, 20, 30])) = some ⟨(20, 30), 60, 160⟩ := by decide +kernel
example : (defaultColumn (100, 200) (.num 50)) = none := by decide +kernel

/-! ### C49 -/

/-- C49. If the automatic pages are rendered without an error, then the columns of all pages are those of a tape on which the blocks have
been put one after the other, starting with the first column of the first page; every page that has been reached is
emitted once, in order, with all its columns. -/
theorem C49_pages (w : World) (s : StyleFull) (a : AutoPage) (pnum : Nat) (r : Res) (hcols : ∀ n, (a.template n).columns ≠ [])
    (hok : (a.render w s pnum r).err = none) :
    ∃ t0 t : Tape, t0.IsNew (fun n => a.template (pnum + n)) ∧ Fills w s a.content t0 t ∧
      ∃ P, (a.render w s pnum r).pages.length = P + 1 ∧
        offset (fun n => a.template (pnum + n)) P ≤ t.head ∧ t.head < offset (fun n => a.template (pnum + n)) (P + 1) ∧
        ∀ (j : Nat) (x : Written), (a.render w s pnum r).pages[j]? = some x →
          x.page.base = a.template (pnum + j) ∧ x.page.cols = t.page (fun n => a.template (pnum + n)) j := by
  have hc : ∀ n, ((fun n => a.template (pnum + n)) n).columns ≠ [] := fun n => hcols _
  obtain ⟨t0, h0⟩ := exists_newTape hc
  obtain ⟨t, h1, P, h2, h3, h4, h5⟩ := autoLoop_spec hc w s a.content 0 _ t0 r (PagesInv.ofNew hc t0 h0) hok
  simp only [Nat.zero_add] at h3 h4 h5
  exact ⟨t0, t, h0, h1, P, h2, h3, h4, fun j x hx => by rw [h5 j x hx]; exact ⟨rfl, rfl⟩⟩

/-- C49, columns that are full: no block changes the columns before the one it starts in. -/
theorem C49_before (w : World) (s : StyleFull) (first rest : List Block) (t t' : Tape) (h : Fills w s (first ++ rest) t t') :
    ∃ u, Fills w s first t u ∧ Fills w s rest u t' ∧ u.head ≤ t'.head ∧ ∀ i, i < u.head → t'.cells i = u.cells i := by
  obtain ⟨u, h1, h2⟩ := (Fills.append first rest).1 h
  exact ⟨u, h1, h2, h2.before.1, h2.before.2⟩

/-- C49, the current column: if the blocks only add to the columns they are given, then whatever the first blocks wrote stays where it is when
the rest is laid out, and the columns after the last one written stay empty. -/
theorem C49_kept (w : World) (s : StyleFull) (first rest : List Block) (t t' : Tape) (h : Fills w s (first ++ rest) t t')
    (hadds : ∀ pre b post u r filled r', first ++ rest = pre ++ b :: post → Fills w s pre t u →
      b.intoColumns w r s u.view = (some filled, r') → Adds u.view filled) :
    ∃ u, Fills w s first t u ∧ Fills w s rest u t' ∧ u.Grows t' := by
  obtain ⟨u, h1, h2⟩ := (Fills.append first rest).1 h
  refine ⟨u, h1, h2, ?_⟩
  clear h
  induction h2 generalizing first with
  | nil u => exact .refl u
  | cons b bs u r r' filled t' hb hrest ih =>
    have ha := hadds first b bs u r filled r' rfl h1 hb
    refine (u.grows_fill filled ha).trans (ih (first ++ [b]) ?_ ?_)
    · intro pre b' post u' r1 filled' r1' he
      exact hadds pre b' post u' r1 filled' r1' (by rw [← he]; simp)
    · exact (Fills.append first [b]).2 ⟨u, h1, .cons b [] u r r' filled _ hb (.nil _)⟩

/-- C49, paragraphs: they only add to the columns, whatever their text, style and alignment. -/
theorem C49_paragraph_adds (p : Paragraph) (w : World) (r : Res) (s : StyleFull) (cs : Nat → ColumnFill) (filled : List ColumnFill) (r' : Res)
    (h : (Block.paragraph p).intoColumns w r s cs = (some filled, r')) : Adds cs filled := paragraph_adds p w r s cs filled r' h

/-- C49, rules that fit in the current column only add to it. -/
theorem C49_rule_adds (x : Rule) (w : World) (r : Res) (s : StyleFull) (cs : Nat → ColumnFill) (filled : List ColumnFill) (r' : Res)
    (hfits : x.margin.top + x.margin.bottom ≤ (cs 0).heightFree)
    (h : (Block.rule x).intoColumns w r s cs = (some filled, r')) : Adds cs filled := by
  simp only [Block.intoColumns, Rule.intoColumns, Prod.mk.injEq, Option.some.injEq] at h
  rw [if_neg (by linarith)] at h
  obtain ⟨rfl, -⟩ := h
  intro i c hi
  cases i with
  | zero => simp only [List.getElem?_cons_zero, Option.some.injEq] at hi; subst hi; exact ColumnFill.extends_add _ _
  | succ i => simp at hi

/-- C49, inside a paragraph: the text of a paragraph is laid out line by line (lines end at newlines); the chunks of a line go to consecutive columns, each chunk
once, below what is there. -/
theorem C49_paragraph_lines (p : Paragraph) (w : World) (r : Res) (s : StyleFull) (t : Tape) (filled : List ColumnFill) (r' : Res)
    (h : (Block.paragraph p).intoColumns w r s t.view = (some filled, r')) :
    ∃ passages st lead, LinesFill p (w.env r') lead (splitlines passages) st t (t.fill filled) ∧
      passages = (flattenSpan p.style (s.or p.style) [] p.content ((s.or p.style).asState r).2).1 ∧
      st = ((s.or p.style).asState r).1 ∧ lead = maxLead passages st := by
  simp only [Block.intoColumns, Paragraph.intoColumns, Prod.mk.injEq] at h
  obtain ⟨h, rfl⟩ := h
  exact ⟨_, _, _, (paragraphLoop_spec p _ _ _ t _ filled h).2, rfl, rfl, rfl⟩

/-! ### C52 -/

theorem stacked_new (c : Column) : (ColumnFill.new c).Stacked := ⟨by simp [ColumnFill.new], by simp [ColumnFill.new]⟩

theorem ColumnFill.Stacked.add {c : ColumnFill} (h : c.Stacked) (s : Shaped) : (c.add s).Stacked := by
  constructor
  · intro i e he
    simp only [ColumnFill.add] at he ⊢
    rw [List.getElem?_append] at he
    split at he
    · rename_i hi
      rw [List.take_append_of_le_length (by omega)]
      exact h.place i e he
    · rename_i hi
      rw [List.getElem?_singleton] at he
      split at he
      · rename_i hz
        have : i = c.blocks.length := by omega
        subst this
        simp only [Option.some.injEq] at he
        subst he
        rw [List.take_left]
        simp only [ColumnFill.cursor, Prod.mk.injEq, true_and]
        rw [h.free]; ring
      · cases he
  · simp only [ColumnFill.add, List.map_append, List.sum_append, List.map_cons, List.map_nil, List.sum_cons, List.sum_nil]
    rw [h.free]; ring

/-- Filling columns keeps them stacked. -/
theorem stacked_fill (t : Tape) (filled : List ColumnFill) (h : ∀ i, (t.cells i).Stacked) (hf : ∀ c ∈ filled, c.Stacked) :
    ∀ i, ((t.fill filled).cells i).Stacked := by
  intro i
  unfold Tape.fill
  split
  · exact h i
  · simp only
    split
    · cases hx : filled[i - t.head]? with
      | none => exact h i
      | some c => exact hf c (List.mem_of_getElem? hx)
    · exact h i

theorem LinesFill.stacked {p : Paragraph} {env : Env} {lead : ℚ} {lines : List (List Passage)} {st : State} {t t' : Tape}
    (h : LinesFill p env lead lines st t t') : (∀ i, (t.cells i).Stacked) → ∀ i, (t'.cells i).Stacked := by
  induction h with
  | nil => exact fun h => h
  | cons line rest st t cmd words chunks t' _ _ _ _ ih =>
    intro h
    refine ih (stacked_fill t _ h ?_)
    intro c hc
    rw [List.mem_mapIdx] at hc
    obtain ⟨i, hi, rfl⟩ := hc
    exact (h _).add _

theorem Fills.stacked {w : World} {s : StyleFull} {bs : List Block} {t t' : Tape} (h : Fills w s bs t t') :
    (∀ i, (t.cells i).Stacked) → ∀ i, (t'.cells i).Stacked := by
  induction h with
  | nil => exact fun h => h
  | cons b bs t r r' filled t' hb hrest ih =>
    intro h
    refine ih ?_
    cases b with
    | paragraph p =>
      obtain ⟨ps, st, lead, hl, -⟩ := C49_paragraph_lines p w r s t filled r' hb
      exact hl.stacked h
    | rule x =>
      simp only [Block.intoColumns, Rule.intoColumns, Prod.mk.injEq, Option.some.injEq] at hb
      obtain ⟨rfl, -⟩ := hb
      refine stacked_fill t _ h ?_
      intro c hc
      split at hc
      · simp only [List.mem_cons, List.not_mem_nil, or_false] at hc
        rcases hc with rfl | rfl
        · exact h _
        · exact (h _).add _
      · simp only [List.mem_singleton] at hc
        subst hc
        exact (h _).add _

/-- C52. On every page that is written, the blocks of each column start at the top of the column and follow each other without gap or overlap; what
is left free is the rest of the column's height. -/
theorem C52_stacked (w : World) (s : StyleFull) (a : AutoPage) (pnum : Nat) (r : Res) (hcols : ∀ n, (a.template n).columns ≠ [])
    (hok : (a.render w s pnum r).err = none) : ∀ x ∈ (a.render w s pnum r).pages, ∀ c ∈ x.page.cols, c.Stacked := by
  obtain ⟨t0, t, h0, h1, P, -, -, -, h5⟩ := C49_pages w s a pnum r hcols hok
  have hnew : ∀ i, (t0.cells i).Stacked := by
    have hc : ∀ n, ((fun n => a.template (pnum + n)) n).columns ≠ [] := fun n => hcols _
    intro i
    -- every cell is on some page
    have hex : ∃ n, offset (fun n => a.template (pnum + n)) n ≤ i ∧ i < offset (fun n => a.template (pnum + n)) (n + 1) := by
      induction i with
      | zero => exact ⟨0, le_rfl, by have := offset_lt hc 0; simp only [offset] at this ⊢; omega⟩
      | succ i ih =>
        obtain ⟨n, hn, hn'⟩ := ih
        by_cases h : i + 1 < offset (fun n => a.template (pnum + n)) (n + 1)
        · exact ⟨n, by omega, h⟩
        · exact ⟨n + 1, by omega, by have := offset_lt hc (n + 1); omega⟩
    obtain ⟨n, hn, hn'⟩ := hex
    have := h0.cells n
    have hget : (t0.page (fun n => a.template (pnum + n)) n)[i - offset (fun n => a.template (pnum + n)) n]? = some (t0.cells i) := by
      rw [Tape.page, slice_getElem?, if_pos (by rw [offset] at hn'; omega)]
      congr 2; omega
    rw [this, List.getElem?_map, Option.map_eq_some_iff] at hget
    obtain ⟨col, -, e⟩ := hget
    rw [← e]
    exact stacked_new col
  have hall := h1.stacked hnew
  intro x hx c hc
  obtain ⟨j, hj⟩ := List.getElem?_of_mem hx
  rw [(h5 j x hj).2, Tape.page, slice, List.mem_map] at hc
  obtain ⟨i, -, rfl⟩ := hc
  exact hall _

/-- C49, the places: if blocks only add to their columns, every written page has exactly the columns of its template, in place and in order. -/
theorem C49_boxes (w : World) (s : StyleFull) (a : AutoPage) (pnum : Nat) (r : Res) (hcols : ∀ n, (a.template n).columns ≠ [])
    (hok : (a.render w s pnum r).err = none) (hp : ∀ b ∈ a.content, ∃ p, b = .paragraph p) :
    ∀ (j : Nat) (x : Written), (a.render w s pnum r).pages[j]? = some x → x.page.cols.map (·.box) = (a.template (pnum + j)).columns := by
  obtain ⟨t0, t, h0, h1, P, -, -, -, h5⟩ := C49_pages w s a pnum r hcols hok
  obtain ⟨u, hu, -, hg⟩ := C49_kept w s [] a.content t0 t h1 (by
    intro pre b post u r filled r' he _ hb
    obtain ⟨p, rfl⟩ := hp b (by rw [List.nil_append] at he; rw [he]; simp)
    exact C49_paragraph_adds p w r s u.view filled r' hb)
  cases hu
  intro j x hx
  rw [(h5 j x hx).2]
  have := congrArg (List.map (·.box)) (h0.cells j)
  rw [List.map_map] at this
  have e : (fun x : ColumnFill => x.box) ∘ ColumnFill.new = id := rfl
  rw [e, List.map_id] at this
  rw [← this]
  simp only [Tape.page, slice, List.map_map]
  exact List.map_congr_left fun i _ => ((hg.cells _).1).symm

/-! ### C50 -/

/-- What a rule draws. -/
def ruleSegment (x : Rule) (left right y : ℚ) : List PageOp :=
  [.moveTo (left + x.margin.left) y, .lineTo (right - x.margin.right) y, .strokeColor x.color, .paint .stroke]

/-- C50 as stated: a rule changes nothing in the columns but for one segment, which is drawn below everything in the current
column or else, if there is not enough room for it, in the next one; from the left to the right margin and inside the column. -/
def C50_Statement : Prop := ∀ (x : Rule) (cs : Nat → ColumnFill), 0 ≤ x.margin.top → 0 ≤ x.margin.bottom →
  (∀ i, (cs i).Stacked) → (∀ i, x.margin.top + x.margin.bottom ≤ (cs (i + 1)).heightFree) → ∃ before col y,
    (x.intoColumns cs).map (·.ops) = before.map (·.ops) ++ [col.ops ++ ruleSegment x col.box.origin.1 (col.box.origin.1 + col.box.width) y] ∧
    before ++ [col] = (List.range (before.length + 1)).map cs ∧ before.length ≤ 1 ∧
    (before ≠ [] → (cs 0).heightFree < x.margin.top + x.margin.bottom) ∧
    col.box.origin.2 ≤ y ∧ y ≤ col.box.origin.2 + col.box.height

/-- Columns one below the other of height 10 and 20 and so on; the first has only 5 left. -/
def fullColumns : Nat → ColumnFill
  | 0 => (ColumnFill.new ⟨(0, 0), 100, 10⟩).add (.rule (0, 8) (100, 8) ⟨0, 0, 0⟩ 5)
  | n + 1 => ColumnFill.new ⟨(200 * (n + 1), 0), 100, 20⟩

/-- C50 is false of the code: if the rule does not fit, the same column is emitted twice, the second time with the rule below its bottom edge
(layout/rule.py:46 yields the column without taking the next one), in place of the next column. -/
theorem C50_counterexample : ¬ C50_Statement := by
  intro h
  obtain ⟨before, col, y, h1, h2, h3, h4, h5, h6⟩ := h ⟨⟨0, 0, 0⟩, ⟨6, 0, 6, 0⟩⟩ fullColumns (by norm_num) (by norm_num) (by
    intro i
    cases i with
    | zero => exact (stacked_new _).add _
    | succ n => exact stacked_new _) (by intro i; norm_num [fullColumns, ColumnFill.new])
  have hlen := congrArg List.length h1
  have hin : Rule.intoColumns ⟨⟨0, 0, 0⟩, ⟨6, 0, 6, 0⟩⟩ fullColumns
      = [fullColumns 0, (fullColumns 0).add (Rule.shaped ⟨⟨0, 0, 0⟩, ⟨6, 0, 6, 0⟩⟩ (fullColumns 0))] := by
    unfold Rule.intoColumns
    simp only
    rw [if_pos (by norm_num [fullColumns, ColumnFill.new, ColumnFill.add, Shaped.height])]
  rw [hin] at hlen h1
  simp only [List.map_cons, List.map_nil, List.length_cons, List.length_nil, List.length_append, List.length_map] at hlen
  have hb : before.length = 1 := by omega
  obtain ⟨b, rfl⟩ := List.length_eq_one_iff.1 hb
  simp only [List.cons_append, List.nil_append, List.length_singleton] at h2
  rw [show List.range (1 + 1) = [0, 1] from rfl] at h2
  simp only [List.map_cons, List.map_nil, List.cons.injEq, and_true] at h2
  obtain ⟨-, rfl⟩ := h2
  simp only [List.map_cons, List.map_nil, List.cons_append, List.nil_append, List.cons.injEq, and_true] at h1
  have := congrArg List.length h1.2
  simp [ColumnFill.ops, fullColumns, ColumnFill.new, ColumnFill.add, Shaped.render, Rule.shaped, ruleSegment] at this

/-- What happens to every rule that does not fit: everything that is in the column is drawn again, at the same place, and the rule below the
column; the next column is not used. -/
theorem C50_repeated (x : Rule) (cs : Nat → ColumnFill) (h : (cs 0).heightFree < x.margin.top + x.margin.bottom) :
    ∃ again, x.intoColumns cs = [cs 0, again] ∧ again.box = (cs 0).box ∧
      again.ops = (cs 0).ops ++ ruleSegment x (cs 0).box.origin.1 ((cs 0).box.origin.1 + (cs 0).box.width)
        ((cs 0).box.origin.2 + (cs 0).heightFree - x.margin.top) := by
  refine ⟨(cs 0).add (x.shaped (cs 0)), ?_, rfl, ?_⟩
  · unfold Rule.intoColumns; simp only; rw [if_pos h]
  · simp [ColumnFill.ops, ColumnFill.add, Rule.shaped, Shaped.render, ruleSegment]

/-- C50 for rules that fit in the current column, with the height of the rule inside the column. -/
theorem C50_rule_partial (x : Rule) (cs : Nat → ColumnFill) (ht : 0 ≤ x.margin.top) (hb : 0 ≤ x.margin.bottom)
    (hst : (cs 0).Stacked) (hh : ∀ e ∈ (cs 0).blocks, 0 ≤ e.2.height) (hfits : x.margin.top + x.margin.bottom ≤ (cs 0).heightFree) :
    ∃ col y, x.intoColumns cs = [col] ∧ (cs 0).Extends col ∧ col.Stacked ∧
      col.ops = (cs 0).ops ++ ruleSegment x (cs 0).box.origin.1 ((cs 0).box.origin.1 + (cs 0).box.width) y ∧
      y = (cs 0).cursor.2 - x.margin.top ∧ col.cursor.2 = y - x.margin.bottom ∧
      (cs 0).box.origin.2 ≤ y - x.margin.bottom ∧ y + x.margin.top ≤ (cs 0).box.origin.2 + (cs 0).box.height := by
  refine ⟨(cs 0).add (x.shaped (cs 0)), (cs 0).cursor.2 - x.margin.top, ?_, ColumnFill.extends_add _ _, hst.add _, ?_, rfl, ?_, ?_, ?_⟩
  · unfold Rule.intoColumns; simp only; rw [if_neg (by linarith)]
  · simp [ColumnFill.ops, ColumnFill.add, Rule.shaped, Shaped.render, ruleSegment, ColumnFill.cursor]
  · simp only [ColumnFill.cursor, ColumnFill.add, Rule.shaped, Shaped.height]; ring
  · simp only [ColumnFill.cursor]; linarith
  · have : 0 ≤ ((cs 0).blocks.map fun e => e.2.height).sum := List.sum_nonneg (by
      intro v hv
      obtain ⟨e, he, rfl⟩ := List.mem_map.1 hv
      exact hh e he)
    have hf := hst.free
    simp only [ColumnFill.cursor]
    linarith

/-- A rule in the second column of `fullColumns` fits. -/
example : (6 : ℚ) + 6 ≤ (fullColumns 1).heightFree := by norm_num [fullColumns, ColumnFill.new]

/-! ### C60 -/

theorem drawingsRun_ops (w : World) (s : StyleFull) (ds : List Drawing) : ∀ (r r' : Res) (ops : List PageOp) (b : Bytes),
    drawingsRun w s ds r = (some (ops, b), r') → ∃ parts : List (List PageOp), ops = parts.flatten ∧
      List.Forall₂ (fun d part => ∃ r0 r1, d.render w s r0 = (some part, r1)) ds parts := by
  induction ds with
  | nil =>
    intro r r' ops b h
    simp only [drawingsRun, Prod.mk.injEq, Option.some.injEq] at h
    obtain ⟨⟨rfl, rfl⟩, rfl⟩ := h
    exact ⟨[], rfl, .nil⟩
  | cons d ds ih =>
    intro r r' ops b h
    rw [drawingsRun] at h
    cases hd : d.render w s r with
    | mk o r1 =>
      rw [hd] at h
      cases o with
      | none => cases h
      | some part =>
        simp only at h
        split at h
        · cases h
        · rename_i b1 r2 h1
          split at h
          · cases h
          · rename_i ops' b' r3 h2
            simp only [Prod.mk.injEq, Option.some.injEq] at h
            obtain ⟨⟨rfl, rfl⟩, rfl⟩ := h
            obtain ⟨parts, rfl, hp⟩ := ih _ _ _ _ h2
            exact ⟨part :: parts, rfl, .cons ⟨r, r1, hd⟩ hp⟩

/-- What is written for a page: what each of its drawings renders, in order, and then what is in its columns, in order. -/
structure Written.Ordered (w : World) (s : StyleFull) (x : Written) : Prop where
  content : ∃ drawings : List (List PageOp), x.ops = drawings.flatten ++ x.page.cols.flatMap ColumnFill.ops ∧
    List.Forall₂ (fun d ops => ∃ r r', d.render w s r = (some ops, r')) x.page.base.content drawings

theorem filled_ordered (w : World) (s : StyleFull) (x : Written) (r r' : Res) (h : x.page.run w s r = (some (x.ops, x.bytes), r')) :
    x.Ordered w s := by
  unfold Filled.run at h
  split at h
  · cases h
  · rename_i ops b r1 hd
    split at h
    · cases h
    · simp only [Prod.mk.injEq, Option.some.injEq] at h
      obtain ⟨⟨h1, -⟩, -⟩ := h
      obtain ⟨parts, rfl, hp⟩ := drawingsRun_ops w s _ _ _ _ _ hd
      exact ⟨parts, h1.symm, hp⟩

theorem autoLoop_run (w : World) (s : StyleFull) (bs : List Block) : ∀ (doc : Nat → PageFill) (r : Res),
    ∀ x ∈ (autoLoop w s bs doc r).pages, ∃ r0 r1, x.page.run w s r0 = (some (x.ops, x.bytes), r1) := by
  induction bs with
  | nil => intro doc r x h; exact writePages_run w s _ r x h
  | cons b bs ih =>
    intro doc r x h
    rw [autoLoop] at h
    split at h
    · cases h
    · split at h
      · cases h
      · rename_i doc' completed hf
        unfold PagesRun.andThen at h
        split at h
        · exact writePages_run w s _ _ x h
        · rcases List.mem_append.mp h with h | h
          · exact writePages_run w s _ _ x h
          · exact ih _ _ x h

/-- C60. The content of every page that is written, of explicit pages and of automatic ones (even if an error follows), consists of its drawings in order
and then its columns in order. -/
theorem C60_order (w : World) (s : StyleFull) (it : DocItem) (pnum : Nat) (r : Res) :
    ∀ x ∈ (it.run w s pnum r).pages, x.Ordered w s := by
  intro x hx
  have : ∃ r0 r1, x.page.run w s r0 = (some (x.ops, x.bytes), r1) := by
    cases it with
    | page p => exact writePages_run w s _ r x hx
    | auto a => exact autoLoop_run w s a.content _ r x hx
  obtain ⟨r0, r1, h⟩ := this
  exact filled_ordered w s x r0 r1 h

/-- C60, explicit pages: one page with only the drawings, of the size and rotation given. -/
theorem C60_page (w : World) (s : StyleFull) (p : Page) (pnum : Nat) (r : Res)
    (hok : ((DocItem.page p).run w s pnum r).err = none) : ∃ x, ((DocItem.page p).run w s pnum r).pages = [x] ∧ x.page = ⟨p, []⟩ ∧
      x.rendered.size = p.size ∧ x.rendered.rotate = p.rotate := by
  have h := writePages_pages w s [⟨p, []⟩] r hok
  simp only [DocItem.run]
  cases hp : (writePages w s [⟨p, []⟩] r).pages with
  | nil => rw [hp] at h; cases h
  | cons x xs =>
    rw [hp] at h
    simp only [List.map_cons, List.cons.injEq, List.map_eq_nil_iff] at h
    obtain ⟨h1, rfl⟩ := h
    refine ⟨x, rfl, h1, ?_, ?_⟩ <;> simp [Written.rendered, h1]

/-- C60, `Page.add`: a page with one more drawing after the others, the same otherwise. -/
theorem C60_add (p : Page) (d : Drawing) (hp : p.columns ≠ []) :
    p.add d = some ⟨p.content ++ [d], p.size, p.rotate, p.columns⟩ := by
  unfold Page.add Page.new
  cases h : p.columns with
  | nil => exact absurd h hp
  | cons c cs => rfl

/-! ### C51 -/

/-- C51. In a document, the pages of an automatic item have consecutive places `n + 1`, `n + 2`, ..., after the `n` pages of the items before it, and the page in
place `k` is the one that the template gives for the number `k`, with its size and rotation. -/
theorem C51_template (w : World) (s : StyleFull) (before : List DocItem) (a : AutoPage) (after : List DocItem)
    (hcols : ∀ n, (a.template n).columns ≠ [])
    (hno : (docPages (DocItem.render w s) (before ++ .auto a :: after) 0 Res.empty).err = none) :
    ∃ ws : List Written, ws ≠ [] ∧
      renderedPages (DocItem.render w s) (before ++ [.auto a]) = renderedPages (DocItem.render w s) before ++ ws.map Written.rendered ∧
      ∀ (k : Nat) (x : Written), ws[k]? = some x →
        x.page.base = a.template ((renderedPages (DocItem.render w s) before).length + k + 1) ∧
        (renderedPages (DocItem.render w s) (before ++ .auto a :: after))[(renderedPages (DocItem.render w s) before).length + k]?
          = some x.rendered ∧
        x.rendered.size = x.page.base.size ∧ x.rendered.rotate = x.page.base.rotate ∧ x.rendered.stream = x.bytes := by
  have key : ∀ (l : List DocItem) (n : Nat) (r : Res), (docPages (DocItem.render w s) (l ++ .auto a :: after) n r).err = none →
      (docPages (DocItem.render w s) l n r).err = none ∧
      ((DocItem.auto a).run w s (n + (docPages (DocItem.render w s) l n r).pages.length + 1) (docPages (DocItem.render w s) l n r).res).err = none ∧
      (docPages (DocItem.render w s) (l ++ [.auto a]) n r).pages = (docPages (DocItem.render w s) l n r).pages ++
        ((DocItem.auto a).run w s (n + (docPages (DocItem.render w s) l n r).pages.length + 1)
          (docPages (DocItem.render w s) l n r).res).pages.map Written.rendered ∧
      ∃ tail, (docPages (DocItem.render w s) (l ++ .auto a :: after) n r).pages
        = (docPages (DocItem.render w s) (l ++ [.auto a]) n r).pages ++ tail := by
    intro l
    induction l with
    | nil =>
      intro n r h
      simp only [List.nil_append, docPages, List.length_nil, Nat.add_zero] at h ⊢
      split at h
      · rename_i e he; cases h
      · rename_i he
        have he' : ((DocItem.auto a).run w s (n + 1) r).err = none := he
        refine ⟨trivial, he', ?_, ?_⟩
        · simp only [he, List.append_nil]
          rfl
        · simp only [docPages, he]
          rw [List.append_nil]
          exact ⟨_, rfl⟩
    | cons it l ih =>
      intro n r h
      simp only [List.cons_append, docPages] at h ⊢
      split at h
      · cases h
      · rename_i he
        obtain ⟨i1, i2, i3, tail, i4⟩ := ih _ _ h
        simp only [he]
        refine ⟨i1, ?_, ?_, tail, ?_⟩
        · rw [List.length_append, ← Nat.add_assoc]; exact i2
        · rw [i3, List.length_append, ← Nat.add_assoc, List.append_assoc]
        · rw [i4, List.append_assoc]
  obtain ⟨-, h2, h3, tail, h4⟩ := key before 0 Res.empty hno
  rw [Nat.zero_add] at h2 h3
  obtain ⟨t0, t, -, -, P, hP, -, -, h5⟩ := C49_pages w s a _ _ hcols h2
  refine ⟨_, ?_, h3, fun k x hx => ⟨?_, ?_, rfl, rfl, rfl⟩⟩
  · intro he
    have := congrArg List.length he
    simp only [List.length_nil] at this
    simp only [DocItem.run] at this
    omega
  · rw [(h5 k x hx).1]
    congr 1
    simp only [renderedPages]
    omega
  · unfold renderedPages
    rw [h4, h3, List.append_assoc, List.getElem?_append_right (by omega), Nat.add_sub_cancel_left, List.getElem?_append_left (by
      rw [List.length_map]; exact (List.getElem?_eq_some_iff.1 hx).1), List.getElem?_map, hx]
    rfl

/-- A world with one metric for all fonts (that of `demoEnv`). -/
def demoWorld : World where
  builtin := demoEnv.metrics ∘ FontRef.builtin
  files := fun _ => ⟨b!"Demo", (demoEnv.metrics (.subset 0)).charwidth, none, fun _ => 0, fun _ _ => 1, fun _ => 4, fun _ => (0, 0, 1, 1),
    fun _ => 0, fun _ => 1, fun _ => 0, fun _ => 1, fun _ => 146, fun _ => []⟩
  hyph := demoEnv.hyph
  unicode := demoEnv.unicode

/-- The style of a document without one. -/
def demoStyle : StyleFull := ⟨.builtin helvetica, 12, false, false, ⟨0, 0, 0⟩, 5 / 4, 1⟩

/-- Two columns on odd pages, one on even ones. -/
def demoTemplate (n : Nat) : Page :=
  if n % 2 = 1 then ⟨[.line (0, 0) (n, 10) (some ⟨0, 0, 0⟩)], (100, 100), 0, [⟨(0, 0), 40, 20⟩, ⟨(50, 0), 40, 20⟩]⟩
  else ⟨[], (100, 100), 90, [⟨(0, 0), 90, 10⟩]⟩

/-- Three rules and no room for more than one in a column: three pages (with the content of full columns repeated, see C50), after an
explicit page. The hypotheses of C49, C51, C52 and C60 hold. -/
example : (docPages (DocItem.render demoWorld demoStyle)
    [.page .default, .auto ⟨[.rule ⟨⟨0, 0, 0⟩, ⟨6, 0, 6, 0⟩⟩, .rule ⟨⟨0, 0, 0⟩, ⟨6, 0, 6, 0⟩⟩, .rule ⟨⟨0, 0, 0⟩, ⟨2, 0, 1, 0⟩⟩], demoTemplate⟩]
    0 Res.empty).err = none := by decide +kernel

/-! ### C05, C02 and C03 for documents -/

section
variable (compress : Bytes → Bytes)

/-- C05, the default document: `Document()` is written as one empty page of size A4, without an error. -/
theorem C05_default (w : World) (s : StyleFull) (id : Bytes) :
    renderedPages (DocItem.render w s) DocContent.none.items' = [⟨0, a4, []⟩] ∧
      (docWrite compress w.files (DocItem.render w s) id DocContent.none.items').2 = true := by
  have hp : docPages (DocItem.render w s) DocContent.none.items' 0 Res.empty = ⟨[⟨0, a4, []⟩], Res.empty, none⟩ := rfl
  refine ⟨by rw [renderedPages, hp], ?_⟩
  have : ∃ objs, docObjects compress w.files (DocItem.render w s) DocContent.none.items' = (objs, true) := by
    unfold docObjects
    rw [hp]
    exact ⟨_, rfl⟩
  obtain ⟨objs, ho⟩ := this
  obtain ⟨chunks, -, h⟩ := docWrite_done compress w.files (DocItem.render w s) id _ objs ho
  rw [h]

/-- C05, a document made from a string or a block has at least one page, if it is written at all. -/
theorem C05_block (w : World) (s : StyleFull) (b : Block) (hno : (docPages (DocItem.render w s) (DocContent.block b).items' 0 Res.empty).err = none) :
    renderedPages (DocItem.render w s) (DocContent.block b).items' ≠ [] := by
  obtain ⟨ws, hne, -, h⟩ := C51_template w s [] ⟨[b], fun _ => .default⟩ [] (by simp [Page.default]) hno
  cases hw : ws with
  | nil => exact absurd hw hne
  | cons x xs =>
    have := (h 0 x (by rw [hw]; rfl)).2.1
    intro he
    have e : renderedPages (DocItem.render w s) ([] ++ DocItem.auto ⟨[b], fun _ => .default⟩ :: []) = [] := he
    rw [e] at this
    cases this

/-- C02 for documents: whatever the document contains (with typefaces that exist), if it is written without an error, its objects are numbered
from 1 without gaps and every reference names an object of the right kind. -/
theorem C02_document (w : World) (s : StyleFull) (hs : s.Known) (items : List DocItem) (hk : ∀ it ∈ items, it.Known)
    (objs : List Obj) (h : docObjects compress w.files (DocItem.render w s) items = (objs, true)) :
    (objs.map (·.1)).Nodup ∧ (∀ n, n ∈ objs.map (·.1) ↔ 1 ≤ n ∧ n ≤ objs.length) ∧
    (∃ a, objAt objs 1 = some a ∧ HasType b!"Catalog" a) ∧
    ∀ o ∈ objs, ∀ x ∈ o.2.keyRefs b!"", ∃ a, objAt objs x.2 = some a ∧ KindOk x.1 a := by
  obtain ⟨l, rfl⟩ := attach_known items hk
  rw [← docObjects_map compress w.files (DocItem.render w s) (·.1) l] at h
  exact C02_references compress w.files _ (renderOk w s hs) l objs h

end

end Pdfje
