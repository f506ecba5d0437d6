import Verif.Spec.Words
import Verif.Proofs.Style
import Mathlib.Tactic.Ring
import Mathlib.Tactic.Linarith
/-
How words are displayed: the operators written for a word show its characters, each in its style, and advance by
its width.
-/

namespace Pdfje

variable {W : FontRef → Char → ℚ}

/-- The viewer after moving right by `d`. -/
def Viewer.move (v : Viewer) (d : ℚ) : Viewer := { v with x := v.x + d }

@[simp] theorem Viewer.move_font (v : Viewer) (d : ℚ) : (v.move d).font = v.font := rfl
@[simp] theorem Viewer.move_color (v : Viewer) (d : ℚ) : (v.move d).color = v.color := rfl
@[simp] theorem Viewer.move_lineX (v : Viewer) (d : ℚ) : (v.move d).lineX = v.lineX := rfl
@[simp] theorem Viewer.move_lineY (v : Viewer) (d : ℚ) : (v.move d).lineY = v.lineY := rfl
@[simp] theorem Viewer.move_leading (v : Viewer) (d : ℚ) : (v.move d).leading = v.leading := rfl
@[simp] theorem Viewer.move_x (v : Viewer) (d : ℚ) : (v.move d).x = v.x + d := rfl
theorem Viewer.move_move (v : Viewer) (a b : ℚ) : (v.move a).move b = v.move (a + b) := by
  simp [Viewer.move, add_assoc]
@[simp] theorem Viewer.move_zero (v : Viewer) : v.move 0 = v := by simp [Viewer.move]
@[simp] theorem Viewer.dist_move (v : Viewer) (a b : ℚ) : (v.move a).dist b = v.dist b := rfl
theorem Viewer.dist_of {v : Viewer} {f z} (h : v.font = some (f, z)) (d : ℚ) : v.dist d = d / 1000 * z := by
  simp [Viewer.dist, h]
theorem Viewer.dist_add (v : Viewer) (a b : ℚ) : v.dist (a + b) = v.dist a + v.dist b := by
  unfold Viewer.dist; split <;> ring
theorem Viewer.dist_neg (v : Viewer) (a : ℚ) : v.dist (-a) = - v.dist a := by
  unfold Viewer.dist; split <;> ring
@[simp] theorem Viewer.dist_zero (v : Viewer) : v.dist 0 = 0 := by
  unfold Viewer.dist; split <;> ring

theorem showText_spec (f : FontRef) (s : List Char) : ∀ (v : Viewer) (g z), v.font = some (g, z) →
    (Viewer.showText W f s v).2 = v.move (v.dist ((s.map (W g)).sum)) ∧
    (Viewer.showText W f s v).1.map Glyph.look = s.map fun c => (c, f, v.font, v.color, v.lineY) := by
  induction s with
  | nil => intro v g z _; simp [Viewer.showText]
  | cons c s ih =>
    intro v g z h
    have e : ({ v with x := v.x + v.dist (v.charWidth W c) } : Viewer) = v.move (v.dist (W g c)) := by
      simp [Viewer.move, Viewer.charWidth, h]
    simp only [Viewer.showText, e]
    obtain ⟨h1, h2⟩ := ih (v.move (v.dist (W g c))) g z h
    constructor
    · rw [h1, Viewer.move_move]; simp [Viewer.dist_add]
    · simp [h2, Glyph.look, Viewer.glyph]

theorem show_append (a b : List ShowItem) : ∀ v : Viewer, Viewer.show W (a ++ b) v =
    ((Viewer.show W a v).1 ++ (Viewer.show W b (Viewer.show W a v).2).1, (Viewer.show W b (Viewer.show W a v).2).2) := by
  induction a with
  | nil => intro v; simp [Viewer.show]
  | cons i a ih =>
    intro v
    cases i <;> simp [Viewer.show, ih]

theorem show_adj (x : ℚ) (v : Viewer) : Viewer.show W [.adj x] v = ([], v.move (v.dist (-x))) := by
  simp [Viewer.show, Viewer.move, Viewer.dist_neg, sub_eq_add_neg]

theorem show_adj_cons (x : ℚ) (l : List ShowItem) (v : Viewer) :
    Viewer.show W (.adj x :: l) v = Viewer.show W l (v.move (v.dist (-x))) := by
  simp [Viewer.show, Viewer.move, Viewer.dist_neg, sub_eq_add_neg]

/-- Kerning positions in order and inside the text. -/
def KernOk (k : List (Nat × ℚ)) (n : Nat) : Prop := (k.map (·.1)).Pairwise (· ≤ ·) ∧ ∀ e ∈ k, e.1 ≤ n

theorem KernOk.tail {e : Nat × ℚ} {k : List (Nat × ℚ)} {n : Nat} (h : KernOk (e :: k) n) : KernOk k n :=
  ⟨(List.pairwise_cons.mp h.1).2, fun e he => h.2 e (List.mem_cons_of_mem _ he)⟩

theorem drop_take_append_drop {α} (s : List α) (a b : Nat) (h : a ≤ b) : (s.take b).drop a ++ s.drop b = s.drop a := by
  rw [List.drop_take]
  have : s.drop b = (s.drop a).drop (b - a) := by rw [List.drop_drop]; congr 1; omega
  rw [this, List.take_append_drop]

theorem encodeLoop_show (f : FontRef) (s : List Char) : ∀ (k : List (Nat × ℚ)) (prev : Nat) (v : Viewer) (g z),
    KernOk k s.length → (∀ e ∈ k, prev ≤ e.1) → v.font = some (g, z) →
    (Viewer.show W ((encodeKerningLoop s 1 prev k).map (Piece.item f)) v).2 =
      v.move (v.dist (((s.drop prev).map (W g)).sum + (k.map (·.2)).sum)) ∧
    (Viewer.show W ((encodeKerningLoop s 1 prev k).map (Piece.item f)) v).1.map Glyph.look =
      (s.drop prev).map fun c => (c, f, v.font, v.color, v.lineY) := by
  intro k
  induction k with
  | nil =>
    intro prev v g z _ _ h
    obtain ⟨h1, h2⟩ := showText_spec (W := W) f (s.drop prev) v g z h
    simp only [encodeKerningLoop, List.map_cons, List.map_nil, Piece.item, Viewer.show, List.append_nil, h1, h2,
      List.sum_nil, add_zero, and_self]
  | cons e k ih =>
    intro prev v g z hk hp h
    obtain ⟨i, a⟩ := e
    simp only [encodeKerningLoop, List.map_cons, Piece.item, Nat.mul_one]
    rw [Viewer.show]
    simp only [show_adj_cons]
    obtain ⟨h1, h2⟩ := showText_spec (W := W) f ((s.take i).drop prev) v g z h
    have hi : prev ≤ i := hp (i, a) List.mem_cons_self
    have hpi : ∀ e ∈ k, i ≤ e.1 := by
      intro e he
      exact (List.pairwise_cons.mp hk.1).1 e.1 (List.mem_map_of_mem he)
    rw [h1]
    simp only [Viewer.dist_move, neg_neg, Viewer.move_move]
    obtain ⟨g1, g2⟩ := ih i (v.move (v.dist (((s.take i).drop prev).map (W g)).sum + v.dist a)) g z hk.tail hpi h
    constructor
    · rw [g1, Viewer.move_move]
      congr 1
      have e1 : ((s.drop prev).map (W g)).sum = (((s.take i).drop prev).map (W g)).sum + ((s.drop i).map (W g)).sum := by
        rw [← drop_take_append_drop s prev i hi, List.map_append, List.sum_append]
      simp only [Viewer.dist_move, List.sum_cons, e1, Viewer.dist_add]
      ring
    · rw [List.map_append, h2, g2]
      simp only [Viewer.move_font, Viewer.move_color, Viewer.move_lineY]
      rw [← List.map_append, drop_take_append_drop s prev i hi]

theorem encodeKerning_show (f : FontRef) (s : List Char) (k : List (Nat × ℚ)) (v : Viewer) (g z)
    (hk : KernOk k s.length) (h : v.font = some (g, z)) :
    (Viewer.show W ((encodeKerning s k 1).map (Piece.item f)) v).2 =
      v.move (v.dist ((s.map (W g)).sum + (k.map (·.2)).sum)) ∧
    (Viewer.show W ((encodeKerning s k 1).map (Piece.item f)) v).1.map Glyph.look =
      s.map fun c => (c, f, v.font, v.color, v.lineY) := by
  unfold encodeKerning
  split
  · have := encodeLoop_show (W := W) f s [] 0 v g z ⟨by simp, by simp⟩ (by simp) h
    simpa [encodeKerningLoop] using this
  · rename_i a rest
    simp only [List.map_cons, Piece.item, show_adj_cons, neg_neg]
    obtain ⟨h1, h2⟩ := encodeLoop_show (W := W) f s rest 0 (v.move (v.dist a)) g z hk.tail (by simp) h
    rw [h1, h2]
    constructor
    · rw [Viewer.move_move]
      congr 1
      simp only [List.drop_zero, Viewer.dist_move, List.sum_cons, Viewer.dist_add]
      ring
    · simp
  · have := encodeLoop_show (W := W) f s k 0 v g z hk (by simp) h
    simpa using this

/-! ### Well-formed words -/

/-- The recorded width is the sum of character widths and kerning. -/
structure Slug.WF (env : Env) (s : Slug) : Prop where
  ne : s.txt ≠ []
  kern : KernOk s.kern s.txt.length
  width : s.width = ((s.txt.map (env.metrics s.state.font).charwidth).sum + (s.kern.map (·.2)).sum) / 1000 * s.state.size

/-- Segments lead from state to state. -/
def SegsWF (env : Env) : List (Slug × Command) → State → Prop
  | [], _ => False
  | [(s, c)], fin => s.WF env ∧ c.apply s.state = fin
  | (s, c) :: (s', c') :: rest, fin => s.WF env ∧ c.apply s.state = s'.state ∧ SegsWF env ((s', c') :: rest) fin

@[inherit_doc Slug.WF] def Box.WF (env : Env) : Box → Prop
  | .slug s => s.WF env
  | .mixed segs st => SegsWF env segs st

/-- Boxes lead from state to state. -/
def BoxesWF (env : Env) : List Box → State → Prop
  | [], _ => True
  | [b], fin => b.WF env ∧ b.state = fin
  | b :: b' :: rest, fin => b.WF env ∧ b.state = b'.preState ∧ BoxesWF env (b' :: rest) fin

/-- The trailing space is the space of the state's font. -/
def TailOk (env : Env) (t : TrailingSpace) (st : State) : Prop :=
  t.widthExclKern = (env.metrics st.font).charwidth ' ' / 1000 * st.size ∧ t.size = st.size

@[inherit_doc Slug.WF] structure Word.WF (env : Env) (w : Word) : Prop where
  boxes : BoxesWF env w.boxes w.state
  tail : ∀ t ∈ w.tail, TailOk env t w.state

@[inherit_doc Slug.WF] def WordLike.WF (env : Env) : WordLike → Prop
  | .box b => b.WF env
  | .word w => w.WF env
  | .withCmd w _ => w.WF env

/-! ### Display -/

/-- The viewer went from `v` to `v'` on the same line, showing `gs`: the styled characters `cs`, ending in state `st`
and `d` further right. -/
structure Shown (v : Viewer) (gs : List Glyph) (v' : Viewer) (cs : List (Char × State)) (st : State) (d : ℚ) : Prop where
  looks : gs.map Glyph.look = cs.map (lookOf v.lineY)
  st : v'.In st
  x : v'.x = v.x + d
  lineX : v'.lineX = v.lineX
  lineY : v'.lineY = v.lineY
  leading : v'.leading = v.leading

theorem Shown.trans {v1 v2 v3 : Viewer} {g1 g2 c1 c2 s1 s2 d1 d2} (h1 : Shown v1 g1 v2 c1 s1 d1) (h2 : Shown v2 g2 v3 c2 s2 d2) :
    Shown v1 (g1 ++ g2) v3 (c1 ++ c2) s2 (d1 + d2) := by
  refine ⟨?_, h2.st, ?_, h2.lineX.trans h1.lineX, h2.lineY.trans h1.lineY, h2.leading.trans h1.leading⟩
  · rw [List.map_append, List.map_append, h1.looks, h2.looks, h1.lineY]
  · rw [h2.x, h1.x, add_assoc]

theorem Shown.refl {v : Viewer} {st : State} (h : v.In st) : Shown v [] v [] st 0 :=
  ⟨rfl, h, by simp, rfl, rfl, rfl⟩

mutual
theorem Command.shown (W : FontRef → Char → ℚ) : ∀ (c : Command) (v : Viewer) (st : State), v.In st →
    Shown v (Viewer.run W c.ops v).1 (Viewer.run W c.ops v).2 [] (c.apply st) 0
  | .noop, v, st, h => by rw [Command.ops, Command.apply]; exact Shown.refl h
  | .setFont f z, v, st, h => by
    rw [Command.ops, Command.apply]
    exact ⟨rfl, ⟨rfl, h.2⟩, by simp [Viewer.run, Viewer.step], rfl, rfl, rfl⟩
  | .setColor c, v, st, h => by
    rw [Command.ops, Command.apply]
    exact ⟨rfl, ⟨h.1, rfl⟩, by simp [Viewer.run, Viewer.step], rfl, rfl, rfl⟩
  | .setLineSpacing _, v, st, h => by rw [Command.ops, Command.apply]; exact Shown.refl h
  | .setHyphens _, v, st, h => by rw [Command.ops, Command.apply]; exact Shown.refl h
  | .chain l, v, st, h => by rw [Command.ops, Command.apply]; exact opsAll_shown W l v st h
theorem opsAll_shown (W : FontRef → Char → ℚ) : ∀ (l : List Command) (v : Viewer) (st : State), v.In st →
    Shown v (Viewer.run W (opsAll l) v).1 (Viewer.run W (opsAll l) v).2 [] (applyAll l st) 0
  | [], v, st, h => by rw [opsAll, applyAll]; exact Shown.refl h
  | c :: cs, v, st, h => by
    rw [opsAll, applyAll, Viewer.run_append]
    have h1 := Command.shown W c v st h
    have := h1.trans (opsAll_shown W cs _ _ h1.st)
    simpa using this
end

theorem Slug.shown {env : Env} {s : Slug} (hs : s.WF env) (v : Viewer) (hv : v.In s.state) :
    Shown v (Viewer.show env.widths s.toItems v).1 (Viewer.show env.widths s.toItems v).2 s.styled s.state s.width := by
  obtain ⟨h1, h2⟩ := encodeKerning_show (W := env.widths) s.state.font s.txt s.kern v _ _ hs.kern hv.1
  rw [Slug.toItems]
  refine ⟨?_, ?_, ?_, ?_, ?_, ?_⟩
  · rw [h2, Slug.styled, List.map_map]
    congr 1
    funext c
    simp [lookOf, hv.1, hv.2]
  · rw [h1]; exact hv
  · rw [h1, Viewer.move_x, hs.width, Viewer.dist_of hv.1]
    rfl
  · rw [h1]; rfl
  · rw [h1]; rfl
  · rw [h1]; rfl

/-- What happens when operators are run and then pending items are shown. -/
def runShow (W : FontRef → Char → ℚ) (ops : List TextOp) (line : List ShowItem) (v : Viewer) : List Glyph × Viewer :=
  let (g1, v1) := Viewer.run W ops v
  let (g2, v2) := Viewer.show W line v1
  (g1 ++ g2, v2)

theorem runShow_nil (W : FontRef → Char → ℚ) (line : List ShowItem) (v : Viewer) :
    runShow W [] line v = Viewer.show W line v := by simp [runShow, Viewer.run]

theorem runShow_cons_tj (W : FontRef → Char → ℚ) (items : List ShowItem) (ops : List TextOp) (line : List ShowItem) (v : Viewer) :
    runShow W (.tj items :: ops) line v =
      ((Viewer.show W items v).1 ++ (runShow W ops line (Viewer.show W items v).2).1, (runShow W ops line (Viewer.show W items v).2).2) := by
  simp [runShow, Viewer.run, Viewer.step]

theorem runShow_append (W : FontRef → Char → ℚ) (a b : List TextOp) (line : List ShowItem) (v : Viewer) :
    runShow W (a ++ b) line v =
      ((Viewer.run W a v).1 ++ (runShow W b line (Viewer.run W a v).2).1, (runShow W b line (Viewer.run W a v).2).2) := by
  simp [runShow, Viewer.run_append]

theorem runShow_line_append (W : FontRef → Char → ℚ) (a : List TextOp) (l1 l2 : List ShowItem) (v : Viewer) :
    runShow W a (l1 ++ l2) v =
      ((runShow W a l1 v).1 ++ (Viewer.show W l2 (runShow W a l1 v).2).1, (Viewer.show W l2 (runShow W a l1 v).2).2) := by
  simp [runShow, show_append]

/-- Encoding into a line with pending items shows the pending items first. -/
def Continues (W : FontRef → Char → ℚ) (enc : List ShowItem → List TextOp × List ShowItem)
    (R : Viewer → List Glyph → Viewer → Prop) (pre : State) : Prop :=
  ∀ line v gs v1, Viewer.show W line v = (gs, v1) → v1.In pre →
    ∃ g2 v2, runShow W (enc line).1 (enc line).2 v = (gs ++ g2, v2) ∧ R v1 g2 v2

theorem segments_shown {env : Env} : ∀ (segs : List (Slug × Command)) (fin pre : State), SegsWF env segs fin →
    (∀ e ∈ segs.head?, e.1.state = pre) →
    Continues env.widths (encodeSegments segs)
      (fun v g v' => Shown v g v' (segs.flatMap fun e => e.1.styled) fin ((segs.map fun e => e.1.width).sum)) pre
  | [], _, _, h, _ => absurd h (by simp [SegsWF])
  | [(s, c)], fin, pre, h, hp => by
    intro line v gs v1 hv hin
    obtain ⟨hs, hc⟩ := h
    have hst : s.state = pre := hp (s, c) (by simp)
    have h1 := s.shown hs v1 (by rw [hst]; exact hin)
    have h2 := c.shown env.widths _ _ h1.st
    have h3 := h1.trans h2
    rw [hc] at h3
    refine ⟨_, _, ?_, by simpa using h3⟩
    simp only [encodeSegments, List.append_nil]
    rw [runShow_cons_tj, show_append, hv]
    simp [runShow, Viewer.show]
  | (s, c) :: (s', c') :: rest, fin, pre, h, hp => by
    intro line v gs v1 hv hin
    obtain ⟨hs, hc, hr⟩ := h
    have hst : s.state = pre := hp (s, c) (by simp)
    have h1 := s.shown hs v1 (by rw [hst]; exact hin)
    have h2 := c.shown env.widths _ _ h1.st
    have h3 := h1.trans h2
    rw [hc] at h3
    obtain ⟨g2, v2, h4, h5⟩ := segments_shown ((s', c') :: rest) fin s'.state hr (by simp) []
      (Viewer.run env.widths c.ops (Viewer.show env.widths s.toItems v1).2).2 [] _ rfl h3.st
    have h6 := h3.trans h5
    refine ⟨(Viewer.show env.widths s.toItems v1).1 ++ (Viewer.run env.widths c.ops (Viewer.show env.widths s.toItems v1).2).1 ++ g2,
      v2, ?_, ?_⟩
    rotate_left
    · simp only [List.append_nil, add_zero] at h6
      simpa [List.flatMap_cons] using h6
    · rw [encodeSegments]
      dsimp only
      rw [List.cons_append, runShow_cons_tj, show_append, hv]
      simp only [runShow_append]
      simp only [List.nil_append] at h4
      rw [h4]
      simp

theorem Box.shown {env : Env} {b : Box} (hb : b.WF env) :
    Continues env.widths b.encodeInto (fun v g v' => Shown v g v' b.styled b.state b.width) b.preState := by
  cases b with
  | slug s =>
    intro line v gs v1 hv hin
    simp only [Box.encodeInto, runShow_nil, show_append, hv]
    exact ⟨_, _, rfl, s.shown hb v1 hin⟩
  | mixed segs st =>
    apply segments_shown segs st _ hb
    intro e he
    cases segs with
    | nil => simp at he
    | cons a l => obtain ⟨s, c⟩ := a; simp at he; subst he; rfl

theorem boxes_shown {env : Env} : ∀ (bs : List Box) (fin pre : State), BoxesWF env bs fin →
    (bs = [] → pre = fin) → (∀ b ∈ bs.head?, b.preState = pre) →
    Continues env.widths (encodeBoxes bs)
      (fun v g v' => Shown v g v' (bs.flatMap Box.styled) fin ((bs.map Box.width).sum)) pre
  | [], fin, pre, h, hn, hp => by
    intro line v gs v1 hv hin
    refine ⟨[], v1, by simp [encodeBoxes, runShow_nil, hv], ?_⟩
    rw [← hn rfl]
    simpa using Shown.refl hin
  | [b], fin, pre, h, hn, hp => by
    intro line v gs v1 hv hin
    obtain ⟨hb, hf⟩ := h
    obtain ⟨g2, v2, h1, h2⟩ := Box.shown hb line v gs v1 hv (by rw [hp b (by simp)]; exact hin)
    refine ⟨g2, v2, ?_, ?_⟩
    · simpa [encodeBoxes] using h1
    · rw [hf] at h2; simpa using h2
  | b :: b' :: rest, fin, pre, h, hn, hp => by
    intro line v gs v1 hv hin
    obtain ⟨hb, hf, hr⟩ := h
    obtain ⟨g2, v2, h1, h2⟩ := Box.shown hb line v gs v1 hv (by rw [hp b (by simp)]; exact hin)
    -- run the first box's operators, with its pending items
    have hsplit : runShow env.widths (b.encodeInto line).1 (b.encodeInto line).2 v =
      ((Viewer.run env.widths (b.encodeInto line).1 v).1 ++
        (Viewer.show env.widths (b.encodeInto line).2 (Viewer.run env.widths (b.encodeInto line).1 v).2).1,
       (Viewer.show env.widths (b.encodeInto line).2 (Viewer.run env.widths (b.encodeInto line).1 v).2).2) := rfl
    rw [hsplit] at h1
    obtain ⟨e1, e2⟩ := Prod.mk.injEq .. ▸ h1
    obtain ⟨g3, v3, h3, h4⟩ := boxes_shown (b' :: rest) fin b'.preState hr (by simp) (by simp) (b.encodeInto line).2
      (Viewer.run env.widths (b.encodeInto line).1 v).2 _ _ rfl (by rw [e2, ← hf]; exact h2.st)
    rw [e2] at h4
    refine ⟨g2 ++ g3, v3, ?_, ?_⟩
    · rw [encodeBoxes]
      simp only [runShow_append]
      rw [h3]
      dsimp only
      rw [← List.append_assoc, ← List.append_assoc, e1]
    · have := h2.trans h4
      simpa using this

theorem tail_shown {env : Env} {t : TrailingSpace} {st : State} (ht : TailOk env t st) (v : Viewer) (hv : v.In st) :
    Shown v (Viewer.show env.widths (t.toItems st) v).1 (Viewer.show env.widths (t.toItems st) v).2 [(' ', st)] st t.width := by
  obtain ⟨h1, h2⟩ := ht
  have e : Viewer.show env.widths (t.toItems st) v =
      Viewer.show env.widths [.txt st.font [' ']] (v.move (v.dist t.kern)) := by
    rw [TrailingSpace.toItems]
    split
    · simp [show_adj_cons]
    · rename_i hk
      simp only [ne_eq, not_not] at hk
      simp [hk]
  rw [e]
  obtain ⟨h3, h4⟩ := showText_spec (W := env.widths) st.font [' '] (v.move (v.dist t.kern)) st.font st.size hv.1
  simp only [Viewer.show, List.append_nil]
  refine ⟨?_, ?_, ?_, ?_, ?_, ?_⟩
  · rw [h4]; simp [lookOf, hv.1, hv.2]
  · rw [h3]; exact hv
  · rw [h3]
    simp only [Viewer.move_x, Viewer.dist_move, List.map_cons, List.map_nil, List.sum_cons, List.sum_nil, add_zero,
      Viewer.dist_of hv.1, TrailingSpace.width, h1, h2, Env.widths]
    ring
  · rw [h3]; rfl
  · rw [h3]; rfl
  · rw [h3]; rfl

theorem Word.shown {env : Env} {w : Word} (hw : w.WF env) :
    Continues env.widths w.encodeInto (fun v g v' => Shown v g v' w.styled w.state w.width) w.preState := by
  intro line v gs v1 hv hin
  obtain ⟨g2, v2, h1, h2⟩ := boxes_shown w.boxes w.state w.preState hw.boxes
    (by intro h; simp [Word.preState, h])
    (by intro b hb; cases h : w.boxes with
      | nil => rw [h] at hb; simp at hb
      | cons a l => rw [h] at hb; simp at hb; subst hb; simp [Word.preState, h])
    line v gs v1 hv hin
  rw [Word.encodeInto]
  cases ht : w.tail with
  | none =>
    refine ⟨g2, v2, by simpa [ht] using h1, ?_⟩
    have e1 : w.styled = w.boxes.flatMap Box.styled := by simp [Word.styled, ht]
    have e2 : w.width = (w.boxes.map Box.width).sum := by simp [Word.width, Word.prunedWidth, Word.prunableSpace, ht]
    rw [e1, e2]; exact h2
  | some t =>
    have h3 := tail_shown (hw.tail t (by simp [ht])) v2 h2.st
    refine ⟨g2 ++ (Viewer.show env.widths (t.toItems w.state) v2).1, (Viewer.show env.widths (t.toItems w.state) v2).2, ?_, ?_⟩
    · simp only [runShow_line_append, h1]
      simp
    · have e1 : w.styled = w.boxes.flatMap Box.styled ++ [(' ', w.state)] := by simp [Word.styled, ht]
      have e2 : w.width = (w.boxes.map Box.width).sum + t.width := by
        simp [Word.width, Word.prunedWidth, Word.prunableSpace, ht]
      rw [e1, e2]; exact h2.trans h3

theorem WordLike.shown {env : Env} : ∀ {w : WordLike}, w.WF env →
    Continues env.widths w.encodeInto (fun v g v' => Shown v g v' w.styled w.state w.width) w.preState
  | .box b, hw => Box.shown hw
  | .word w, hw => Word.shown hw
  | .withCmd w c, hw => by
    intro line v gs v1 hv hin
    obtain ⟨g2, v2, h1, h2⟩ := WordLike.shown (w := w) hw line v gs v1 hv hin
    have h3 := c.shown env.widths _ _ h2.st
    refine ⟨g2 ++ (Viewer.run env.widths c.ops v2).1, (Viewer.run env.widths c.ops v2).2, ?_, ?_⟩
    · have hsplit : runShow env.widths (w.encodeInto line).1 (w.encodeInto line).2 v =
        ((Viewer.run env.widths (w.encodeInto line).1 v).1 ++
          (Viewer.show env.widths (w.encodeInto line).2 (Viewer.run env.widths (w.encodeInto line).1 v).2).1,
         (Viewer.show env.widths (w.encodeInto line).2 (Viewer.run env.widths (w.encodeInto line).1 v).2).2) := rfl
      rw [hsplit] at h1
      obtain ⟨e1, e2⟩ := Prod.mk.injEq .. ▸ h1
      simp only [WordLike.encodeInto]
      rw [List.append_assoc, runShow_append]
      rw [List.singleton_append, runShow_cons_tj, e2]
      simp only [runShow, Viewer.show, List.append_nil]
      rw [← List.append_assoc, e1, List.append_assoc]
    · have := h2.trans h3
      simp only [List.append_nil, add_zero] at this
      exact this

/-- Words that lead from state to state. -/
def WordsWF (env : Env) : List WordLike → State → State → Prop
  | [], pre, fin => pre = fin
  | w :: ws, pre, fin => w.WF env ∧ w.preState = pre ∧ WordsWF env ws w.state fin

theorem encodeWords_shown {env : Env} : ∀ (ws : List WordLike) (pre fin : State), WordsWF env ws pre fin →
    ∀ line v gs v1, Viewer.show env.widths line v = (gs, v1) → v1.In pre →
    ∃ g2 v2, Viewer.run env.widths (encodeWords ws line) v = (gs ++ g2, v2) ∧
      Shown v1 g2 v2 (ws.flatMap WordLike.styled) fin ((ws.map WordLike.width).sum)
  | [], pre, fin, h, line, v, gs, v1, hv, hin => by
    refine ⟨[], v1, ?_, ?_⟩
    · simp [encodeWords, Viewer.run, Viewer.step, hv]
    · cases h; simpa using Shown.refl hin
  | w :: ws, pre, fin, h, line, v, gs, v1, hv, hin => by
    obtain ⟨hw, hp, hr⟩ := h
    obtain ⟨g2, v2, h1, h2⟩ := WordLike.shown hw line v gs v1 hv (by rw [hp]; exact hin)
    have hsplit : runShow env.widths (w.encodeInto line).1 (w.encodeInto line).2 v =
      ((Viewer.run env.widths (w.encodeInto line).1 v).1 ++
        (Viewer.show env.widths (w.encodeInto line).2 (Viewer.run env.widths (w.encodeInto line).1 v).2).1,
       (Viewer.show env.widths (w.encodeInto line).2 (Viewer.run env.widths (w.encodeInto line).1 v).2).2) := rfl
    rw [hsplit] at h1
    obtain ⟨e1, e2⟩ := Prod.mk.injEq .. ▸ h1
    obtain ⟨g3, v3, h3, h4⟩ := encodeWords_shown ws w.state fin hr (w.encodeInto line).2
      (Viewer.run env.widths (w.encodeInto line).1 v).2 _ _ rfl (by rw [e2]; exact h2.st)
    rw [e2] at h4
    refine ⟨g2 ++ g3, v3, ?_, ?_⟩
    · simp only [encodeWords, Viewer.run_append, h3]
      rw [← List.append_assoc, ← List.append_assoc, ← e1]
    · simpa using h2.trans h4

end Pdfje
