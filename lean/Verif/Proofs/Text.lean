import Verif.Spec.Text
import Verif.Proofs.Display
import Verif.Proofs.FirstFit
/-
What the operators of `render_text` show.
-/

namespace Pdfje

variable {W : FontRef → Char → ℚ}

/-! ### Operators that stay on the line -/

/-- An operator that shows text or changes font or colour. -/
def TextOp.inLine : TextOp → Bool
  | .tf _ _ => true
  | .rg _ => true
  | .tj _ => true
  | _ => false

theorem TextOp.inLine_moves {op : TextOp} (h : op.inLine = true) : op.moves = false := by cases op <;> simp_all [TextOp.inLine, TextOp.moves]

/-- No operator moves to a new line or changes the leading. -/
def Stays (ops : List TextOp) : Prop := ∀ op ∈ ops, op.inLine = true

theorem Stays.nil : Stays [] := by simp [Stays]
theorem Stays.append {a b : List TextOp} (ha : Stays a) (hb : Stays b) : Stays (a ++ b) := by
  intro op h; rcases List.mem_append.1 h with h | h
  · exact ha op h
  · exact hb op h
theorem Stays.cons {op : TextOp} {b : List TextOp} (ha : op.inLine = true) (hb : Stays b) : Stays (op :: b) := by
  intro x h; rcases List.mem_cons.1 h with rfl | h
  · exact ha
  · exact hb x h

mutual
theorem Command.stays : ∀ c : Command, Stays c.ops
  | .noop => by rw [Command.ops]; exact .nil
  | .setFont _ _ => by rw [Command.ops]; exact .cons rfl .nil
  | .setColor _ => by rw [Command.ops]; exact .cons rfl .nil
  | .setLineSpacing _ => by rw [Command.ops]; exact .nil
  | .setHyphens _ => by rw [Command.ops]; exact .nil
  | .chain l => by rw [Command.ops]; exact opsAll_stays l
theorem opsAll_stays : ∀ l : List Command, Stays (opsAll l)
  | [] => by rw [opsAll]; exact .nil
  | c :: cs => by rw [opsAll]; exact (Command.stays c).append (opsAll_stays cs)
end

theorem encodeSegments_stays : ∀ (segs : List (Slug × Command)) (line : List ShowItem), Stays (encodeSegments segs line).1
  | [], line => by rw [encodeSegments]; exact .nil
  | (s, c) :: rest, line => by
    rw [encodeSegments]
    exact .cons rfl ((Command.stays c).append (encodeSegments_stays rest []))

theorem Box.stays (b : Box) (line : List ShowItem) : Stays (b.encodeInto line).1 := by
  cases b with
  | slug s => exact .nil
  | mixed segs st => exact encodeSegments_stays segs line

theorem encodeBoxes_stays : ∀ (bs : List Box) (line : List ShowItem), Stays (encodeBoxes bs line).1
  | [], line => .nil
  | b :: bs, line => by
    rw [encodeBoxes]
    exact (b.stays line).append (encodeBoxes_stays bs _)

theorem WordLike.stays : ∀ (w : WordLike) (line : List ShowItem), Stays (w.encodeInto line).1
  | .box b, line => b.stays line
  | .word w, line => by
    rw [WordLike.encodeInto, Word.encodeInto]
    exact encodeBoxes_stays _ _
  | .withCmd w c, line => by
    rw [WordLike.encodeInto]
    exact ((WordLike.stays w line).append (.cons rfl .nil)).append (Command.stays c)

theorem encodeWords_stays : ∀ (ws : List WordLike) (line : List ShowItem), Stays (encodeWords ws line)
  | [], line => .cons rfl .nil
  | w :: ws, line => by
    rw [encodeWords]
    exact (w.stays line).append (encodeWords_stays ws _)

theorem RLine.stays (l : RLine) : Stays l.ops := (Command.stays _).append (encodeWords_stays _ _)

/-- Operators that stay on the line add to the line. -/
theorem lines_stays (a : List TextOp) : ∀ (b : List TextOp) (v : Viewer) (cur : ShownLine), Stays a → cur.right = v.x →
    Viewer.lines W (a ++ b) v cur = Viewer.lines W b (Viewer.run W a v).2
      { cur with glyphs := cur.glyphs ++ (Viewer.run W a v).1, right := (Viewer.run W a v).2.x } := by
  induction a with
  | nil => intro b v cur _ h; simp [Viewer.run, ← h]
  | cons op a ih =>
    intro b v cur hs h
    have h1 := (hs op List.mem_cons_self |> TextOp.inLine_moves)
    rw [List.cons_append, Viewer.lines]
    simp only [h1, Bool.false_eq_true, if_false]
    rw [ih b _ _ (fun x hx => hs x (List.mem_cons_of_mem _ hx)) rfl]
    simp [Viewer.run, List.append_assoc]

theorem show_line (items : List ShowItem) : ∀ v : Viewer, (Viewer.show W items v).2.lineX = v.lineX ∧
    (Viewer.show W items v).2.lineY = v.lineY ∧ (Viewer.show W items v).2.leading = v.leading := by
  have txt : ∀ (f : FontRef) (s : List Char) (v : Viewer), (Viewer.showText W f s v).2.lineX = v.lineX ∧
      (Viewer.showText W f s v).2.lineY = v.lineY ∧ (Viewer.showText W f s v).2.leading = v.leading := by
    intro f s
    induction s with
    | nil => intro v; exact ⟨rfl, rfl, rfl⟩
    | cons c s ih => intro v; rw [Viewer.showText]; exact ih _
  induction items with
  | nil => intro v; exact ⟨rfl, rfl, rfl⟩
  | cons i items ih =>
    intro v
    cases i with
    | adj a => rw [Viewer.show]; exact ih _
    | txt f s =>
      rw [Viewer.show]
      obtain ⟨h1, h2, h3⟩ := ih (Viewer.showText W f s v).2
      obtain ⟨g1, g2, g3⟩ := txt f s v
      exact ⟨h1.trans g1, h2.trans g2, h3.trans g3⟩

/-- Operators that stay on the line leave its start and the leading alone. -/
theorem run_line (a : List TextOp) : ∀ v : Viewer, Stays a → (Viewer.run W a v).2.lineX = v.lineX ∧
    (Viewer.run W a v).2.lineY = v.lineY ∧ (Viewer.run W a v).2.leading = v.leading := by
  induction a with
  | nil => intro v _; exact ⟨rfl, rfl, rfl⟩
  | cons op a ih =>
    intro v hs
    rw [Viewer.run]
    obtain ⟨h1, h2, h3⟩ := ih (v.step W op).2 (fun x hx => hs x (List.mem_cons_of_mem _ hx))
    have : (v.step W op).2.lineX = v.lineX ∧ (v.step W op).2.lineY = v.lineY ∧ (v.step W op).2.leading = v.leading := by
      have := hs op List.mem_cons_self
      cases op <;> simp only [TextOp.inLine, Bool.false_eq_true] at this
      · exact ⟨rfl, rfl, rfl⟩
      · exact ⟨rfl, rfl, rfl⟩
      · exact show_line _ v
    exact ⟨h1.trans this.1, h2.trans this.2.1, h3.trans this.2.2⟩

/-- The lines of a text object contain all its glyphs, in order. -/
theorem lines_glyphs (ops : List TextOp) : ∀ (v : Viewer) (cur : ShownLine),
    (Viewer.lines W ops v cur).flatMap ShownLine.glyphs = cur.glyphs ++ (Viewer.run W ops v).1 := by
  induction ops with
  | nil => intro v cur; simp [Viewer.lines, Viewer.run]
  | cons op ops ih =>
    intro v cur
    rw [Viewer.lines]
    simp only [Viewer.run]
    split
    · rw [List.flatMap_cons, ih]
    · rw [ih]; simp [List.append_assoc]

/-! ### Lines that lead from state to state -/

@[inherit_doc WordsWF] def RLinesWF (env : Env) : List RLine → State → Prop
  | [], _ => True
  | l :: ls, st => ∃ mid, WordsWF env l.words (l.cmd.apply st) mid ∧ RLinesWF env ls mid

/-- The characters of a line. -/
def RLine.styled (l : RLine) : List (Char × State) := l.words.flatMap WordLike.styled

theorem line_shown {env : Env} {l : RLine} {st mid : State} (h : WordsWF env l.words (l.cmd.apply st) mid) (v : Viewer) (hv : v.In st) :
    Shown v (Viewer.run env.widths l.ops v).1 (Viewer.run env.widths l.ops v).2 l.styled mid (totalWidth l.words) := by
  rw [RLine.ops, Viewer.run_append]
  have h1 := Command.shown env.widths l.cmd v st hv
  obtain ⟨g, v', h2, h3⟩ := encodeWords_shown l.words _ _ h [] _ [] _ rfl h1.st
  rw [List.nil_append] at h2
  have h4 := h1.trans h3
  simp only [h2]
  simpa [totalWidth, RLine.styled] using h4

/-- The lines can be shown: the viewer is in the state in which they start, or there is nothing on them. -/
def Showable (env : Env) (ls : List RLine) (v : Viewer) : Prop :=
  (∃ st, RLinesWF env ls st ∧ v.In st) ∨ ∀ l ∈ ls, l.words = [] ∧ l.cmd = .noop

theorem Showable.of_eq {env : Env} {ls : List RLine} {v v' : Viewer} (h : Showable env ls v) (h1 : v'.font = v.font) (h2 : v'.color = v.color) :
    Showable env ls v' := by
  rcases h with ⟨st, h3, h4⟩ | h
  · exact Or.inl ⟨st, h3, by rw [Viewer.In, h1, h2]; exact h4⟩
  · exact Or.inr h

theorem Showable.step {env : Env} {l : RLine} {ls : List RLine} {v : Viewer} (h : Showable env (l :: ls) v) :
    (Viewer.run env.widths l.ops v).1.map Glyph.look = l.styled.map (lookOf v.lineY) ∧
    (Viewer.run env.widths l.ops v).2.x = v.x + totalWidth l.words ∧
    (Viewer.run env.widths l.ops v).2.lineX = v.lineX ∧ (Viewer.run env.widths l.ops v).2.lineY = v.lineY ∧
    (Viewer.run env.widths l.ops v).2.leading = v.leading ∧ Showable env ls (Viewer.run env.widths l.ops v).2 := by
  rcases h with ⟨st, ⟨mid, h1, h2⟩, h3⟩ | h
  · have h4 := line_shown h1 v h3
    exact ⟨h4.looks, h4.x, h4.lineX, h4.lineY, h4.leading, Or.inl ⟨mid, h2, h4.st⟩⟩
  · obtain ⟨h1, h2⟩ := h l List.mem_cons_self
    have : Viewer.run env.widths l.ops v = ([], v) := by
      simp [RLine.ops, h1, h2, Command.ops, encodeWords, Viewer.run, Viewer.step, Viewer.show]
    rw [this]
    exact ⟨by simp [RLine.styled, h1], by simp [totalWidth, h1], rfl, rfl, rfl, Or.inr fun x hx => h x (List.mem_cons_of_mem _ hx)⟩

/-! ### Positions of lines, whatever is on them -/

/-- Where a line is moved to, relative to the position of the text: by its recorded width. -/
def alignShift (align : Align) (prev width : ℚ) : ℚ :=
  match align with
  | .left => 0
  | .justify => 0
  | .center => (prev - width) * (1 / 2)
  | .right => (prev - width) * 1

/-- Lines below `y`, each starting at the place for its recorded width. -/
inductive PlacesLines (lead : ℚ) (left : RLine → ℚ) : List RLine → ℚ → List ShownLine → Prop
  | nil (y) : PlacesLines lead left [] y []
  | cons (l ls y s ss) : s.y = y - lead → s.left = left l → PlacesLines lead left ls (y - lead) ss → PlacesLines lead left (l :: ls) y (s :: ss)

theorem left_places (lead : ℚ) : ∀ (ls : List RLine) (v : Viewer) (cur : ShownLine), v.leading = lead →
    ∃ ss, Viewer.lines W (ls.flatMap fun l => .tstar :: l.ops) v cur = cur :: ss ∧ PlacesLines lead (fun _ => v.lineX) ls v.lineY ss
  | [], v, cur, _ => ⟨[], by simp [Viewer.lines], .nil _⟩
  | l :: ls, v, cur, hl => by
    rw [List.flatMap_cons, List.cons_append, Viewer.lines]
    simp only [Viewer.step, TextOp.moves, if_true]
    set v1 := v.newLine 0 (-v.leading) with hv1
    obtain ⟨g3, g4, g5⟩ := run_line (W := W) l.ops v1 l.stays
    rw [lines_stays _ _ _ _ l.stays rfl]
    obtain ⟨ss, h4, h5⟩ := left_places lead ls _ ⟨[] ++ (Viewer.run W l.ops v1).1, v1.lineY, v1.x, (Viewer.run W l.ops v1).2.x⟩ (g5.trans hl)
    refine ⟨_, by rw [h4], ?_⟩
    have ex : v1.x = v.lineX := by simp [hv1, Viewer.newLine]
    have ey : v1.lineY = v.lineY - lead := by simp [hv1, Viewer.newLine, hl, sub_eq_add_neg]
    have elx : v1.lineX = v.lineX := by simp [hv1, Viewer.newLine]
    refine .cons _ _ _ _ _ ey ex ?_
    rw [g3, g4, ey, elx] at h5
    exact h5

theorem moved_places (lead : ℚ) (ratio : ℚ) (f : List RLine → ℚ → List TextOp)
    (hf0 : ∀ p, f [] p = []) (hf : ∀ l ls p, f (l :: ls) p = .tdl ((p - l.width) * ratio) (-lead) :: l.ops ++ f ls l.width) :
    ∀ (ls : List RLine) (v : Viewer) (cur : ShownLine) (prev : ℚ),
    ∃ ss, Viewer.lines W (f ls prev) v cur = cur :: ss ∧ PlacesLines lead (fun l => v.lineX + (prev - l.width) * ratio) ls v.lineY ss
  | [], v, cur, prev => ⟨[], by simp [hf0, Viewer.lines], .nil _⟩
  | l :: ls, v, cur, prev => by
    rw [hf, List.cons_append, Viewer.lines]
    simp only [Viewer.step, TextOp.moves, if_true]
    set v1 : Viewer := { v.newLine ((prev - l.width) * ratio) (-lead) with leading := - -lead } with hv1
    obtain ⟨g3, g4, g5⟩ := run_line (W := W) l.ops v1 l.stays
    rw [lines_stays _ _ _ _ l.stays rfl]
    obtain ⟨ss, h4, h5⟩ := moved_places lead ratio f hf0 hf ls _ ⟨[] ++ (Viewer.run W l.ops v1).1, v1.lineY, v1.x, (Viewer.run W l.ops v1).2.x⟩ l.width
    refine ⟨_, by rw [h4], ?_⟩
    have ex : v1.x = v.lineX + (prev - l.width) * ratio := by simp [hv1, Viewer.newLine]
    have ey : v1.lineY = v.lineY - lead := by simp [hv1, Viewer.newLine, sub_eq_add_neg]
    have elx : v1.lineX = v.lineX + (prev - l.width) * ratio := by simp [hv1, Viewer.newLine]
    refine .cons _ _ _ _ _ ey ex ?_
    rw [g3, g4, ey, elx] at h5
    have e : (fun l' : RLine => v.lineX + (prev - l.width) * ratio + (l.width - l'.width) * ratio) =
        fun l' => v.lineX + (prev - l'.width) * ratio := by funext l'; ring
    rw [e] at h5
    exact h5

theorem renderLines_places (align : Align) (ls : List RLine) (lead prev : ℚ) (v : Viewer) (cur : ShownLine) (hc : cur.right = v.x) :
    ∃ ss, Viewer.lines W (renderLines align ls lead prev) v cur = cur :: ss ∧
      PlacesLines lead (fun l => v.lineX + alignShift align prev l.width) ls v.lineY ss := by
  have left : ∃ ss, Viewer.lines W (renderLeft ls lead) v cur = cur :: ss ∧ PlacesLines lead (fun l => v.lineX + 0) ls v.lineY ss := by
    have := left_places (W := W) lead ls { v with leading := lead } cur rfl
    rw [renderLeft, Viewer.lines]
    simp only [Viewer.step, TextOp.moves, Bool.false_eq_true, if_false, List.append_nil, add_zero]
    obtain ⟨cg, cy, cl, cr⟩ := cur
    simp only at hc
    subst hc
    exact this
  cases align with
  | left => exact left
  | justify => exact left
  | center =>
    exact moved_places lead (1 / 2) (fun ls p => renderCentered lead ls p) (fun p => rfl)
      (fun l ls p => by show renderCentered lead (l :: ls) p = _; rw [renderCentered, div_eq_mul_one_div]) ls v cur prev
  | right =>
    exact moved_places lead 1 (fun ls p => renderRight lead ls p) (fun p => rfl)
      (fun l ls p => by show renderRight lead (l :: ls) p = _; rw [renderRight, mul_one]) ls v cur prev

/-- Where the lines of `render_text` are, whatever is on them. -/
theorem renderText_places (pos : ℚ × ℚ) (st : Option State) (prev : ℚ) (ls : List RLine) (lead : ℚ) (align : Align) (v : Viewer) :
    ∃ ops ss, renderText pos st prev ls lead align = .text ops ∧
      Viewer.textLines W ops v = ⟨[], 0, 0, 0⟩ :: ⟨[], pos.2, pos.1, pos.1⟩ :: ss ∧
      PlacesLines lead (fun l => pos.1 + alignShift align prev l.width) ls pos.2 ss := by
  suffices hs : ∃ ss, Viewer.textLines W
      (.td pos.1 pos.2 :: (match st with | some s => s.ops | none => []) ++ renderLines align ls lead prev) v =
        ⟨[], 0, 0, 0⟩ :: ⟨[], pos.2, pos.1, pos.1⟩ :: ss ∧
      PlacesLines lead (fun l => pos.1 + alignShift align prev l.width) ls pos.2 ss by
    obtain ⟨ss, h1, h2⟩ := hs
    exact ⟨_, ss, rfl, h1, h2⟩
  rw [Viewer.textLines, List.cons_append, Viewer.lines]
  simp only [Viewer.step, TextOp.moves, if_true]
  set v1 := v.beginText.newLine pos.1 pos.2 with hv1
  have ex : v1.x = pos.1 := by simp [hv1, Viewer.newLine, Viewer.beginText]
  have elx : v1.lineX = pos.1 := by simp [hv1, Viewer.newLine, Viewer.beginText]
  have ey : v1.lineY = pos.2 := by simp [hv1, Viewer.newLine, Viewer.beginText]
  cases st with
  | none =>
    simp only [List.nil_append]
    obtain ⟨ss, h1, h2⟩ := renderLines_places (W := W) align ls lead prev v1 ⟨[], v1.lineY, v1.x, v1.x⟩ rfl
    rw [h1, ex, ey]
    rw [elx, ey] at h2
    exact ⟨ss, rfl, h2⟩
  | some s =>
    have hst : Stays s.ops := .cons rfl (.cons rfl .nil)
    rw [lines_stays _ _ _ _ hst rfl]
    set v2 := (Viewer.run W s.ops v1).2 with hv2
    have e2 : Viewer.run W s.ops v1 = ([], { v1 with font := some (s.font, s.size), color := s.color }) := rfl
    have h3 : v2 = { v1 with font := some (s.font, s.size), color := s.color } := by rw [hv2, e2]
    obtain ⟨ss, h1, h2⟩ := renderLines_places (W := W) align ls lead prev v2 ⟨[], v1.lineY, v1.x, v2.x⟩ rfl
    have e1 : (Viewer.run W s.ops v1).1 = [] := by rw [e2]
    rw [e1, List.append_nil, h1]
    have x2 : v2.x = pos.1 := by rw [h3]; exact ex
    have lx2 : v2.lineX = pos.1 := by rw [h3]; exact elx
    have y2 : v2.lineY = pos.2 := by rw [h3]; exact ey
    rw [lx2, y2] at h2
    rw [x2, ex, ey]
    exact ⟨ss, rfl, h2⟩

theorem PlacesLines.get {lead : ℚ} {left : RLine → ℚ} {ls : List RLine} {y : ℚ} {ss : List ShownLine} (h : PlacesLines lead left ls y ss) :
    ss.length = ls.length ∧ ∀ (k : Nat) s, ss[k]? = some s → s.y = y - (k + 1) * lead ∧ ∃ l, ls[k]? = some l ∧ s.left = left l := by
  induction h with
  | nil y => simp
  | cons l ls y s ss h1 h2 _ ih =>
    refine ⟨by simp [ih.1], ?_⟩
    intro k t ht
    cases k with
    | zero => simp at ht; subst ht; exact ⟨by rw [h1]; push_cast; ring, l, rfl, h2⟩
    | succ k =>
      obtain ⟨i1, l', i2, i3⟩ := ih.2 k t (by simpa using ht)
      exact ⟨by rw [i1]; push_cast; ring, l', by simpa using i2, i3⟩

/-! ### Lines in their styles -/

/-- What is shown of lines below `y`. -/
inductive ShowsLines (env : Env) (lead : ℚ) (left : RLine → ℚ) : List RLine → ℚ → List ShownLine → Prop
  | nil (y) : ShowsLines env lead left [] y []
  | cons (l ls y s ss) : s.y = y - lead → s.left = left l → s.right = left l + totalWidth l.words →
      s.glyphs.map Glyph.look = l.styled.map (lookOf s.y) →
      (∃ v, Showable env [l] v ∧ v.x = s.left ∧ s.glyphs = (Viewer.run env.widths l.ops v).1) → ShowsLines env lead left ls (y - lead) ss →
      ShowsLines env lead left (l :: ls) y (s :: ss)

theorem Showable.head {env : Env} {l : RLine} {ls : List RLine} {v : Viewer} (h : Showable env (l :: ls) v) : Showable env [l] v := by
  rcases h with ⟨st, ⟨mid, h1, h2⟩, h3⟩ | h
  · exact .inl ⟨st, ⟨mid, h1, trivial⟩, h3⟩
  · exact .inr fun x hx => h x (by rw [List.mem_singleton] at hx; rw [hx]; exact List.mem_cons_self)

theorem left_shown {env : Env} (lead : ℚ) : ∀ (ls : List RLine) (v : Viewer) (cur : ShownLine),
    Showable env ls v → v.leading = lead →
    ∃ ss, Viewer.lines env.widths (ls.flatMap fun l => .tstar :: l.ops) v cur = cur :: ss ∧
      ShowsLines env lead (fun _ => v.lineX) ls v.lineY ss
  | [], v, cur, _, _ => ⟨[], by simp [Viewer.lines], .nil _⟩
  | l :: ls, v, cur, h, hl => by
    rw [List.flatMap_cons, List.cons_append, Viewer.lines]
    simp only [Viewer.step, TextOp.moves, if_true]
    set v1 := v.newLine 0 (-v.leading) with hv1
    obtain ⟨g1, g2, g3, g4, g5, g6⟩ := (h.of_eq (v' := v1) rfl rfl).step
    rw [lines_stays _ _ _ _ l.stays rfl]
    obtain ⟨ss, h4, h5⟩ := left_shown lead ls _ ⟨[] ++ (Viewer.run env.widths l.ops v1).1, v1.lineY, v1.x,
      (Viewer.run env.widths l.ops v1).2.x⟩ g6 (g5.trans hl)
    refine ⟨_, by rw [h4], ?_⟩
    have ex : v1.x = v.lineX := by simp [hv1, Viewer.newLine]
    have ey : v1.lineY = v.lineY - lead := by simp [hv1, Viewer.newLine, hl, sub_eq_add_neg]
    have elx : v1.lineX = v.lineX := by simp [hv1, Viewer.newLine]
    refine .cons _ _ _ _ _ ey ex ?_ ?_ ⟨v1, (h.of_eq (v' := v1) rfl rfl).head, rfl, by simp⟩ ?_
    · show _ = _
      rw [g2, ex]
    · simpa using g1
    · rw [g3, g4, ey, elx] at h5
      exact h5

theorem moved_shown {env : Env} (lead : ℚ) (ratio : ℚ) (f : List RLine → ℚ → List TextOp)
    (hf0 : ∀ p, f [] p = []) (hf : ∀ l ls p, f (l :: ls) p = .tdl ((p - l.width) * ratio) (-lead) :: l.ops ++ f ls l.width) :
    ∀ (ls : List RLine) (v : Viewer) (cur : ShownLine) (prev : ℚ), Showable env ls v →
    ∃ ss, Viewer.lines env.widths (f ls prev) v cur = cur :: ss ∧
      ShowsLines env lead (fun l => v.lineX + (prev - l.width) * ratio) ls v.lineY ss
  | [], v, cur, prev, _ => ⟨[], by simp [hf0, Viewer.lines], .nil _⟩
  | l :: ls, v, cur, prev, h => by
    rw [hf, List.cons_append, Viewer.lines]
    simp only [Viewer.step, TextOp.moves, if_true]
    set v1 : Viewer := { v.newLine ((prev - l.width) * ratio) (-lead) with leading := - -lead } with hv1
    obtain ⟨g1, g2, g3, g4, g5, g6⟩ := (h.of_eq (v' := v1) rfl rfl).step
    rw [lines_stays _ _ _ _ l.stays rfl]
    obtain ⟨ss, h4, h5⟩ := moved_shown lead ratio f hf0 hf ls _ ⟨[] ++ (Viewer.run env.widths l.ops v1).1, v1.lineY, v1.x,
      (Viewer.run env.widths l.ops v1).2.x⟩ l.width g6
    refine ⟨_, by rw [h4], ?_⟩
    have ex : v1.x = v.lineX + (prev - l.width) * ratio := by simp [hv1, Viewer.newLine]
    have ey : v1.lineY = v.lineY - lead := by simp [hv1, Viewer.newLine, sub_eq_add_neg]
    have elx : v1.lineX = v.lineX + (prev - l.width) * ratio := by simp [hv1, Viewer.newLine]
    refine .cons _ _ _ _ _ ey ex ?_ ?_ ⟨v1, (h.of_eq (v' := v1) rfl rfl).head, rfl, by simp⟩ ?_
    · show _ = _
      rw [g2, ex]
    · simpa using g1
    · rw [g3, g4, ey, elx] at h5
      have e : (fun l' : RLine => v.lineX + (prev - l.width) * ratio + (l.width - l'.width) * ratio) =
          fun l' => v.lineX + (prev - l'.width) * ratio := by funext l'; ring
      rw [e] at h5
      exact h5

/-- What the lines of a text show. -/
theorem renderLines_shown {env : Env} (align : Align) (ls : List RLine) (lead prev : ℚ) (v : Viewer) (cur : ShownLine)
    (h : Showable env ls v) (hc : cur.right = v.x) :
    ∃ ss, Viewer.lines env.widths (renderLines align ls lead prev) v cur = cur :: ss ∧
      ShowsLines env lead (fun l => v.lineX + alignShift align prev l.width) ls v.lineY ss := by
  have left : ∃ ss, Viewer.lines env.widths (renderLeft ls lead) v cur = cur :: ss ∧
      ShowsLines env lead (fun l => v.lineX + 0) ls v.lineY ss := by
    have := left_shown (env := env) lead ls { v with leading := lead } cur (h.of_eq rfl rfl) rfl
    rw [renderLeft, Viewer.lines]
    simp only [Viewer.step, TextOp.moves, Bool.false_eq_true, if_false, List.append_nil, add_zero]
    obtain ⟨cg, cy, cl, cr⟩ := cur
    simp only at hc
    subst hc
    exact this
  cases align with
  | left => exact left
  | justify => exact left
  | center =>
    exact moved_shown lead (1 / 2) (fun ls p => renderCentered lead ls p) (fun p => rfl)
      (fun l ls p => by show renderCentered lead (l :: ls) p = _; rw [renderCentered, div_eq_mul_one_div]) ls v cur prev h
  | right =>
    exact moved_shown lead 1 (fun ls p => renderRight lead ls p) (fun p => rfl)
      (fun l ls p => by show renderRight lead (l :: ls) p = _; rw [renderRight, mul_one]) ls v cur prev h

/-- What `render_text` shows: two empty lines (before and after the first move), and then the lines. -/
theorem renderText_shown {env : Env} (pos : ℚ × ℚ) (st : Option State) (prev : ℚ) (ls : List RLine) (lead : ℚ) (align : Align) (v : Viewer)
    (h : ∀ s ∈ st, RLinesWF env ls s) (hn : st = none → ∀ l ∈ ls, l.words = [] ∧ l.cmd = .noop) :
    ∃ ops ss, renderText pos st prev ls lead align = .text ops ∧
      Viewer.textLines env.widths ops v = ⟨[], 0, 0, 0⟩ :: ⟨[], pos.2, pos.1, pos.1⟩ :: ss ∧
      ShowsLines env lead (fun l => pos.1 + alignShift align prev l.width) ls pos.2 ss := by
  suffices hs : ∃ ss, Viewer.textLines env.widths
      (.td pos.1 pos.2 :: (match st with | some s => s.ops | none => []) ++ renderLines align ls lead prev) v =
        ⟨[], 0, 0, 0⟩ :: ⟨[], pos.2, pos.1, pos.1⟩ :: ss ∧
      ShowsLines env lead (fun l => pos.1 + alignShift align prev l.width) ls pos.2 ss by
    obtain ⟨ss, h1, h2⟩ := hs
    exact ⟨_, ss, rfl, h1, h2⟩
  rw [Viewer.textLines, List.cons_append, Viewer.lines]
  simp only [Viewer.step, TextOp.moves, if_true]
  set v1 := v.beginText.newLine pos.1 pos.2 with hv1
  have ex : v1.x = pos.1 := by simp [hv1, Viewer.newLine, Viewer.beginText]
  have elx : v1.lineX = pos.1 := by simp [hv1, Viewer.newLine, Viewer.beginText]
  have ey : v1.lineY = pos.2 := by simp [hv1, Viewer.newLine, Viewer.beginText]
  cases st with
  | none =>
    simp only [List.nil_append]
    obtain ⟨ss, h1, h2⟩ := renderLines_shown (env := env) align ls lead prev v1 ⟨[], v1.lineY, v1.x, v1.x⟩ (Or.inr (hn rfl)) rfl
    rw [h1, ex, ey]
    rw [elx, ey] at h2
    exact ⟨ss, rfl, h2⟩
  | some s =>
    have hst : Stays s.ops := .cons rfl (.cons rfl .nil)
    rw [lines_stays _ _ _ _ hst rfl]
    set v2 := (Viewer.run env.widths s.ops v1).2 with hv2
    have e2 : Viewer.run env.widths s.ops v1 = ([], { v1 with font := some (s.font, s.size), color := s.color }) := rfl
    have h3 : v2 = { v1 with font := some (s.font, s.size), color := s.color } := by rw [hv2, e2]
    obtain ⟨ss, h1, h2⟩ := renderLines_shown (env := env) align ls lead prev v2 ⟨[], v1.lineY, v1.x, v2.x⟩
      (Or.inl ⟨s, h s rfl, by rw [h3]; exact ⟨rfl, rfl⟩⟩) rfl
    have e1 : (Viewer.run env.widths s.ops v1).1 = [] := by rw [e2]
    rw [e1, List.append_nil, h1]
    have x2 : v2.x = pos.1 := by rw [h3]; exact ex
    have lx2 : v2.lineX = pos.1 := by rw [h3]; exact elx
    have y2 : v2.lineY = pos.2 := by rw [h3]; exact ey
    rw [lx2, y2] at h2
    rw [x2, ex, ey]
    exact ⟨ss, rfl, h2⟩

theorem ShowsLines.showsBelow {lead : ℚ} {left : RLine → ℚ} {ls : List RLine} {y : ℚ} {ss : List ShownLine} {env : Env} (h : ShowsLines env lead left ls y ss) :
    ∀ x, ShowsBelow ss (ls.map RLine.styled) (x, y) lead := by
  intro x
  induction h with
  | nil y => exact ⟨rfl, by simp, by simp⟩
  | cons l ls y s ss h1 h2 h3 h4 _ _ ih =>
    refine ⟨by simpa using ih.count, ?_, ?_⟩
    · intro k t ht
      cases k with
      | zero => simp at ht; subst ht; rw [h1]; push_cast; ring
      | succ k => rw [ih.baseline k t (by simpa using ht)]; push_cast; ring
    · intro k t c ht hc
      cases k with
      | zero => simp at ht hc; subst ht hc; exact h4
      | succ k => exact ih.looks k t c (by simpa using ht) (by simpa using hc)

theorem ShowsLines.get {lead : ℚ} {left : RLine → ℚ} {ls : List RLine} {y : ℚ} {ss : List ShownLine} {env : Env} (h : ShowsLines env lead left ls y ss)
    {k : Nat} {s : ShownLine} (hs : ss[k]? = some s) : ∃ l, ls[k]? = some l ∧ s.left = left l ∧ s.right = left l + totalWidth l.words := by
  induction h generalizing k with
  | nil y => simp at hs
  | cons l ls y s ss h1 h2 h3 h4 _ _ ih =>
    cases k with
    | zero => simp at hs; subst hs; exact ⟨l, rfl, h2, h3⟩
    | succ k => simpa using ih (by simpa using hs)

theorem ShowsLines.run {lead : ℚ} {left : RLine → ℚ} {ls : List RLine} {y : ℚ} {ss : List ShownLine} {env : Env} (h : ShowsLines env lead left ls y ss) :
    List.Forall₂ (fun l s => ∃ v, Showable env [l] v ∧ v.x = s.left ∧ s.glyphs = (Viewer.run env.widths l.ops v).1) ls ss := by
  induction h with
  | nil y => exact .nil
  | cons l ls y s ss h1 h2 h3 h4 h5 _ ih => exact .cons h5 ih

theorem placed_of_width {s : ShownLine} {align : Align} {x prev width total : ℚ} (h1 : s.left = x + alignShift align prev width)
    (h2 : s.right = x + alignShift align prev width + total) (h : align = .center ∨ align = .right → width = total) : s.Placed align x prev := by
  cases align with
  | left => simpa [ShownLine.Placed, alignShift] using h1
  | justify => simpa [ShownLine.Placed, alignShift] using h1
  | center =>
    have := h (Or.inl rfl)
    simp only [ShownLine.Placed, alignShift] at *
    rw [h1, h2, this]; ring
  | right =>
    have := h (Or.inr rfl)
    simp only [ShownLine.Placed, alignShift] at *
    rw [h2, this]; ring

end Pdfje
