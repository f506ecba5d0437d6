import Verif.Props.Columns
import Verif.Props.Orphans
/-
C52 for what is drawn, and C59 and C71 for paragraphs in columns.
-/

namespace Pdfje

theorem shaped_drawn (W : FontRef → Char → ℚ) (s : Shaped) (pos : ℚ × ℚ) (width : ℚ) : s.DrawnAt W pos.2 (s.render pos width) := by
  cases s with
  | rule a b c h => rfl
  | text t =>
    simp only [Shaped.render, Shaped.DrawnAt, ShapedText.render]
    obtain ⟨ops, h1⟩ : ∃ ops, renderText pos t.preState width (t.lines.map TLine.toR) t.lead t.align = .text ops := ⟨_, rfl⟩
    refine ⟨ops, by rw [h1], fun v l hl hg => ?_⟩
    obtain ⟨ops', ss, h1', h2, h3⟩ := renderText_places (W := W) pos t.preState width (t.lines.map TLine.toR) t.lead t.align v
    obtain rfl : ops = ops' := by rw [h1] at h1'; cases h1'; rfl
    rw [h2] at hl
    simp only [List.mem_cons] at hl
    rcases hl with rfl | rfl | hl
    · exact absurd rfl hg
    · exact absurd rfl hg
    · obtain ⟨k, hk⟩ := List.mem_iff_getElem?.1 hl
      obtain ⟨e1, e2⟩ := h3.get
      have hlt := (List.getElem?_eq_some_iff.1 hk).1
      rw [e1, List.length_map] at hlt
      exact ⟨k, hlt, (e2 k l hk).1⟩

/-- C52, what is drawn: the operators of a page are those of its drawings and then those of the blocks in its columns, each of which is drawn at the place that it has in its column.
(`C52_stacked` says where these places are.) -/
theorem C52_drawn (W : FontRef → Char → ℚ) (w : World) (s : StyleFull) (it : DocItem) (pnum : Nat) (r : Res) :
    ∀ x ∈ (it.run w s pnum r).pages, ∃ (drawings : List PageOp) (blocks : List (List (List PageOp))),
      x.ops = drawings ++ (blocks.map List.flatten).flatten ∧
      List.Forall₂ (fun c => List.Forall₂ (fun (e : (ℚ × ℚ) × Shaped) ops => e.2.DrawnAt W e.1.2 ops) c.blocks) x.page.cols blocks := by
  intro x hx
  obtain ⟨ds, h1, -⟩ := (C60_order w s it pnum r x hx).content
  refine ⟨ds.flatten, x.page.cols.map fun c => c.blocks.map fun e => e.2.render e.1 c.box.width, ?_, ?_⟩
  · rw [h1, List.map_map, ← List.flatMap_def]
    congr 1
  · rw [List.forall₂_map_right_iff]
    refine List.forall₂_same.2 fun c _ => ?_
    rw [List.forall₂_map_right_iff]
    exact List.forall₂_same.2 fun e _ => shaped_drawn W e.2 e.1 _

/-! ### Orphans in columns -/

theorem addChunks_get : ∀ (chunks : List ShapedText) (cs : Nat → ColumnFill) (i : Nat), (addChunks chunks cs)[i]? = chunks[i]?.map fun c => (cs i).add (.text c)
  | [], _, _ => rfl
  | c :: chunks, cs, 0 => rfl
  | c :: chunks, cs, i + 1 => by
    rw [addChunks, List.getElem?_cons_succ, List.getElem?_cons_succ, addChunks_get chunks _ i]

theorem addChunks_length : ∀ (chunks : List ShapedText) (cs : Nat → ColumnFill), (addChunks chunks cs).length = chunks.length
  | [], _ => rfl
  | c :: chunks, cs => by rw [addChunks, List.length_cons, List.length_cons, addChunks_length chunks]

/-- A line of text (the text up to a newline, or all of it) of a paragraph that avoids orphans, set in columns of which the first is partly filled: if it does not end in the first, this
gets more than one line of it, or none. -/
def LeavesNoOrphan (cs : Nat → ColumnFill) (filled : List ColumnFill) : Prop :=
  (cs 0).blocks ≠ [] → 2 ≤ filled.length → ∀ c ∈ filled.head?, c.lines.length ≠ (cs 0).lines.length + 1

theorem orphan_add {cs : Nat → ColumnFill} {chunks : List ShapedText} (h : 2 ≤ chunks.length → ∀ chunk ∈ chunks.head?, chunk.lines.length ≠ 1) (h2 : 2 ≤ (addChunks chunks cs).length) :
    ∀ c ∈ (addChunks chunks cs).head?, c.lines.length ≠ (cs 0).lines.length + 1 := by
  rw [addChunks_length] at h2
  cases chunks with
  | nil => simp at h2
  | cons chunk rest =>
    intro c hc
    simp only [addChunks, List.head?_cons, Option.mem_def, Option.some.injEq] at hc
    subst hc
    rw [ColumnFill.lines_add]
    have := h h2 chunk rfl
    simp only [Shaped.lines, List.length_append]
    omega

/-- C59 for a line of text of a first-fit paragraph. -/
theorem C59_paragraph {p : Paragraph} {env : Env} {txt : List Passage} {cs : Nat → ColumnFill} {st st' : State} {lead : ℚ} {filled : List ColumnFill}
    (hp : p.avoidOrphans = true) (ho : p.optimal = none) (h : fillParagraph p env txt cs st lead = some (filled, st')) : LeavesNoOrphan cs filled := by
  intro hne h2
  unfold fillParagraph at h
  split at h
  · cases h
  · rename_i cmd words hw
    obtain ⟨chunks, h3, h4⟩ := Option.map_eq_some_iff.1 h
    simp only [Prod.mk.injEq] at h4
    obtain ⟨rfl, -⟩ := h4
    have hb : (!(cs 0).blocks.isEmpty) = true := by simpa using hne
    rw [Paragraph.shape, ho, hp, hb] at h3
    exact orphan_add (fun hc => C59_first h3 hc) h2

/-- C71 for a line of text of a paragraph with optimal line breaks, in columns that are not over-full. -/
theorem C71_paragraph {p : Paragraph} {env : Env} {txt : List Passage} {cs : Nat → ColumnFill} {st st' : State} {lead : ℚ} (hl : 0 < lead) (hc : ∀ i, 0 ≤ (cs i).heightFree)
    {filled : List ColumnFill} {o : OptParams} (hp : p.avoidOrphans = true) (ho : p.optimal = some o) (h : fillParagraph p env txt cs st lead = some (filled, st')) :
    LeavesNoOrphan cs filled := by
  intro hne h2
  unfold fillParagraph at h
  split at h
  · cases h
  · rename_i cmd words hw
    obtain ⟨chunks, h3, h4⟩ := Option.map_eq_some_iff.1 h
    simp only [Prod.mk.injEq] at h4
    obtain ⟨rfl, -⟩ := h4
    have hb : (!(cs 0).blocks.isEmpty) = true := by simpa using hne
    rw [Paragraph.shape, ho, hp, hb] at h3
    exact orphan_add (fun h => C71_first hl hc h3 h) h2

/-- A column with room for one line, in which there is a rule already, and columns with room for two. -/
def partlyFilled : Nat → ColumnFill := fun i =>
  if i = 0 then (ColumnFill.new ⟨(0, 0), 10, 25⟩).add (.rule (0, 20) (10, 20) ⟨0, 0, 0⟩ 10) else .new ⟨(0, 0), 10, 30⟩

/-- The paragraph "a b", in two lines. -/
def shortKept (opt : Option OptParams) : Paragraph := ⟨[.str ['a', ' ', 'b']], Style.empty, .left, 0, true, opt⟩

/-- Its first line would be alone in the first column, so both are put in the second. -/
theorem kept_firstfit : ∃ filled st', fillParagraph (shortKept none) (demoWorld.env shortRes) [⟨.noop, ['a', ' ', 'b']⟩] partlyFilled faceState 15 = some (filled, st') ∧
    filled.map (fun c => c.lines.length) = [0, 2] := by
  have e0 : indentFirst shortWords (shortKept none).indent = shortWords := rfl
  have e1 : ((takeBox (demoWorld.env shortRes) (some shortWords) (10, 15) true 15).map fun x => (x.1.isSome, x.2.1.length)) = some (true, 1) := by decide +kernel
  have e2 : (((takeBox (demoWorld.env shortRes) (some shortWords) (10, 15) true 15).bind fun x => takeBox (demoWorld.env shortRes) x.2.2 (10, 30) false 15).map fun x => (x.1.isSome, x.2.1.length)) =
      some (false, 2) := by decide +kernel
  obtain ⟨⟨q, ls, u⟩, h1, h2⟩ := Option.map_eq_some_iff.1 e1
  rw [h1] at e2
  obtain ⟨⟨q', ls', u'⟩, h3, h4⟩ := Option.map_eq_some_iff.1 e2
  simp only [Prod.mk.injEq] at h2 h4
  have h3' : takeBox (demoWorld.env shortRes) u (10, 30) false 15 = some (q', ls', u') := h3
  have hq : q' = none := by simpa using h4.1
  subst hq
  have hs : (shortKept none).shape (demoWorld.env shortRes) (fun i => ((partlyFilled i).box.width, (partlyFilled i).heightFree)) 15 shortWords true =
      some [⟨[], 15, .left, 0⟩, ⟨ls', 15, .left, 30⟩] := by
    rw [Paragraph.shape, shortKept]
    simp only
    rw [firstfitShape, if_pos rfl, shapeAvoidOrphans]
    rw [show ((partlyFilled 0).box.width, (partlyFilled 0).heightFree) = (10, 15) by norm_num [partlyFilled, ColumnFill.new, ColumnFill.add, Shaped.height], h1]
    simp only
    rw [if_pos ⟨h2.1, h2.2, trivial⟩, avoidLoop]
    rw [show ((partlyFilled 1).box.width, (partlyFilled 1).heightFree) = (10, 30) by norm_num [partlyFilled, ColumnFill.new], h3']
    simp [h4.2]
    norm_num
  refine ⟨addChunks [⟨[], 15, .left, 0⟩, ⟨ls', 15, .left, 30⟩] partlyFilled, chunksState [⟨[], 15, .left, 0⟩, ⟨ls', 15, .left, 30⟩] (Command.noop.apply faceState), ?_, ?_⟩
  · unfold fillParagraph
    rw [shortWords_eq]
    simp only [e0]
    rw [show (!(partlyFilled 0).blocks.isEmpty) = true from rfl, hs, Option.map_some]
  · simp [addChunks, partlyFilled, ColumnFill.new, ColumnFill.add, ColumnFill.lines, Shaped.lines, h4.2]

/-- The boxes of its words. -/
def keptBoxes : List (Fragment × KBox) := (intoBoxes (demoWorld.env shortRes) shortWords false).getD []

/-- The columns after the first. -/
def keptQueue : ColQueue := (ColQueue.new (fun i => ((partlyFilled i).box.width, (partlyFilled i).heightFree)) 15 true).removeFirst

/-- The lines for these. -/
def keptLines : List TLine := (breakLines .default false keptBoxes keptQueue).getD []

/-- The same with optimal line breaks. -/
theorem kept_optimal : ∃ filled st', fillParagraph (shortKept (some .default)) (demoWorld.env shortRes) [⟨.noop, ['a', ' ', 'b']⟩] partlyFilled faceState 15 = some (filled, st') ∧
    filled.map (fun c => c.lines.length) = [0, 2] := by
  have e0 : indentFirst shortWords (shortKept (some .default)).indent = shortWords := rfl
  have e1 : intoBoxes (demoWorld.env shortRes) shortWords false = some keptBoxes := eq_some_getD (by decide +kernel)
  have e2 : breakLines .default false keptBoxes keptQueue = some keptLines := eq_some_getD (by decide +kernel)
  have e4 : orphaned keptQueue (groupLines keptQueue keptLines) = some false := by decide +kernel
  have e8 : (breakLines .default false keptBoxes (ColQueue.new (fun i => ((partlyFilled i).box.width, (partlyFilled i).heightFree)) 15 true)).map List.length = some 2 := by decide +kernel
  have e9 : (groupLines keptQueue keptLines).map List.length = [2] := by decide +kernel
  obtain ⟨lines, e11, e12⟩ := Option.map_eq_some_iff.1 e8
  obtain ⟨g, e13, e14⟩ := List.map_eq_singleton_iff.1 e9
  have hs : (shortKept (some .default)).shape (demoWorld.env shortRes) (fun i => ((partlyFilled i).box.width, (partlyFilled i).heightFree)) 15 shortWords true =
      some [⟨[], 15, .left, 0⟩, ⟨g, 15, .left, g.length * 15⟩] := by
    rw [Paragraph.shape, shortKept]
    simp only
    rw [optimumShape, if_neg (by norm_num)]
    simp only [show decide (Align.left = .justify) = false from rfl, e1]
    rw [if_neg (by decide +kernel), shapeFrom, if_neg (by decide +kernel), e11]
    simp only
    rw [if_pos ⟨trivial, trivial, by decide +kernel, by omega, by decide +kernel⟩]
    rw [show (ColQueue.new (fun i => ((partlyFilled i).box.width, (partlyFilled i).heightFree)) 15 true).removeFirst = keptQueue from rfl, e2]
    simp only [placeLines, if_true]
    rw [orphanLoop, e4, e13]
    simp
  refine ⟨addChunks [⟨[], 15, .left, 0⟩, ⟨g, 15, .left, g.length * 15⟩] partlyFilled,
    chunksState [⟨[], 15, .left, 0⟩, ⟨g, 15, .left, g.length * 15⟩] (Command.noop.apply faceState), ?_, ?_⟩
  · unfold fillParagraph
    rw [shortWords_eq]
    simp only [e0]
    rw [show (!(partlyFilled 0).blocks.isEmpty) = true from rfl, hs, Option.map_some]
  · simp [addChunks, partlyFilled, ColumnFill.new, ColumnFill.add, ColumnFill.lines, Shaped.lines, e14]

/-- The conditions of C71 for paragraphs are met. -/
example : ∃ filled st', fillParagraph (shortKept (some .default)) (demoWorld.env shortRes) [⟨.noop, ['a', ' ', 'b']⟩] partlyFilled faceState 15 = some (filled, st') ∧
    (partlyFilled 0).blocks ≠ [] ∧ 2 ≤ filled.length ∧ LeavesNoOrphan partlyFilled filled := by
  obtain ⟨filled, st', h1, h2⟩ := kept_optimal
  refine ⟨filled, st', h1, by simp [partlyFilled, ColumnFill.add], ?_, C71_paragraph (by norm_num) (fun i => ?_) rfl rfl h1⟩
  · have := congrArg List.length h2
    simp at this; omega
  · simp only [partlyFilled]
    split <;> norm_num [ColumnFill.new, ColumnFill.add, Shaped.height]

/-- The conditions of C59 for paragraphs are met. -/
example : ∃ filled st', fillParagraph (shortKept none) (demoWorld.env shortRes) [⟨.noop, ['a', ' ', 'b']⟩] partlyFilled faceState 15 = some (filled, st') ∧
    (partlyFilled 0).blocks ≠ [] ∧ 2 ≤ filled.length ∧ LeavesNoOrphan partlyFilled filled := by
  obtain ⟨filled, st', h1, h2⟩ := kept_firstfit
  refine ⟨filled, st', h1, by simp [partlyFilled, ColumnFill.add], ?_, C59_paragraph rfl rfl h1⟩
  have := congrArg List.length h2
  simp at this; omega

end Pdfje
