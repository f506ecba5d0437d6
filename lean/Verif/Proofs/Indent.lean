import Verif.Proofs.Parse
/-
Indenting the first word of a line moves the line.
-/

namespace Pdfje

variable {env : Env}

/-! ### First words have no kerning before them -/

theorem kern_none_pos (t : Char × Char → ℚ) (s : List Char) : ∀ e ∈ kern t s none, e.1 ≠ 0 := by
  rintro ⟨i, k⟩ h rfl
  obtain ⟨a, b, -, h, -⟩ := (mem_kern t s none 0 k).1 h
  rcases h with ⟨-, h⟩ | ⟨j, h, -⟩
  · simp at h
  · omega

theorem Slug.new_noInit (s : List Char) (st : State) : (Slug.new env s st none).hasInitKern = false := by
  have := kern_none_pos (env.metrics st.font).kerning s
  simp only [Slug.hasInitKern, Slug.new]
  cases e : Pdfje.kern (env.metrics st.font).kerning s none with
  | nil => rfl
  | cons a l =>
    obtain ⟨i, k⟩ := a
    rw [e] at this
    have := this (i, k) List.mem_cons_self
    cases i with
    | zero => exact absurd rfl this
    | succ i => rfl

theorem slugsOf_noInit (st : State) (parts : List (List Char)) (l : List Slug) (h : slugsOf env st parts none = some l) :
    ∀ s ∈ l.head?, s.hasInitKern = false := by
  cases parts with
  | nil => simp [slugsOf] at h; subst h; simp
  | cons p ps =>
    simp only [slugsOf] at h
    split at h
    · simp at h
    · simp only [Option.map_eq_some_iff] at h
      obtain ⟨l', -, rfl⟩ := h
      intro s hs
      simp at hs; subst hs
      exact Slug.new_noInit p st

theorem intoSyllables_nil (U : Unicode) (s : List Char) (h : List Char → List (List Char)) (hc : Cuts h)
    (e : intoSyllables U s h = some []) : s = [] := by
  obtain ⟨parts, h1, h2, -⟩ := intoSyllables_spec U s hc
  rw [h1] at e; simp at e; subst e
  simpa using h2.symm

theorem Word.new_noInit (henv : env.Ok) (s : List Char) (st : State) (w : Word) (h : Word.new env s st none = some w) :
    w.hasInitKern = false := by
  unfold Word.new at h
  unfold TrailingSpace.parse at h
  by_cases e : s.getLast? = some ' '
  · simp only [e, if_true] at h
    split at h
    · simp at h
    · rename_i parts hp
      simp only [Option.map_eq_some_iff] at h
      obtain ⟨l, hl, rfl⟩ := h
      cases l with
      | nil =>
        have hparts : parts = [] := by
          cases parts with
          | nil => rfl
          | cons p ps => simp only [slugsOf] at hl; split at hl <;> simp at hl
        subst hparts
        have := intoSyllables_nil _ _ _ (henv.cuts _) hp
        simp only [Word.hasInitKern, List.map_nil, this]
        simp [TrailingSpace.make]
      | cons a l => exact slugsOf_noInit st parts _ hl a (by simp)
  · simp only [e, if_false] at h
    split at h
    · simp at h
    · rename_i parts hp
      simp only [Option.map_eq_some_iff] at h
      obtain ⟨l, hl, rfl⟩ := h
      cases l with
      | nil => rfl
      | cons a l => exact slugsOf_noInit st parts _ hl a (by simp)

theorem makeWords_noInit (henv : env.Ok) (st : State) (ms : List (List Char)) (ws : List Word)
    (h : makeWords env st ms none = some ws) : ∀ w ∈ ws.head?, w.hasInitKern = false := by
  cases ms with
  | nil => simp [makeWords] at h; subst h; simp
  | cons m ms =>
    simp only [makeWords] at h
    split at h
    · simp at h
    · rename_i x hx
      simp only [Option.map_eq_some_iff] at h
      obtain ⟨l, -, rfl⟩ := h
      intro w hw
      simp at hw; subst hw
      exact Word.new_noInit henv m st x hx

theorem parseSimple_noInit (henv : env.Ok) (txt : List Char) (st : State) (ws : List Word) (r : List Char ⊕ Word)
    (h : parseSimple env txt st none = some (ws, r)) :
    (∀ w ∈ ws.head?, w.hasInitKern = false) ∧ (ws = [] → ∀ w, r = .inr w → w.hasInitKern = false) := by
  unfold parseSimple at h
  split at h
  · simp at h; obtain ⟨rfl, rfl⟩ := h; simp
  · rename_i ms left hne e
    split at h
    · simp at h
    · rename_i ws' hm
      have hn := makeWords_noInit henv st _ _ hm
      split at h
      · simp at h; obtain ⟨rfl, rfl⟩ := h
        exact ⟨hn, by simp⟩
      · split at h
        · rename_i w hw
          simp only [Option.some.injEq, Prod.mk.injEq] at h
          obtain ⟨rfl, rfl⟩ := h
          obtain ⟨ys, rfl⟩ := List.getLast?_eq_some_iff.1 hw
          simp only [List.dropLast_append_cons, List.dropLast_singleton, List.append_nil]
          cases ys with
          | nil => 
            refine ⟨by simp, ?_⟩
            intro _ w' hw'
            simp at hw'; subst hw'
            exact hn w (by simp)
          | cons y ys =>
            refine ⟨?_, by simp⟩
            intro w hw; exact hn w (by simpa using hw)
        · simp at h

theorem completeWord_noInit (henv : env.Ok) (it : List Passage) (head : List Char) (st : State) (w left rest)
    (h : completeWord env it head st none = some (w, left, rest)) : w.hasInitKern = false := by
  unfold completeWord at h
  split at h
  · simp only [Option.map_eq_some_iff, Prod.mk.injEq] at h
    obtain ⟨w', h, rfl, -⟩ := h
    exact Word.new_noInit henv head st w' h
  · rename_i parts sp left' rest' _ _
    simp only [Option.some.injEq, Prod.mk.injEq] at h
    obtain ⟨rfl, -⟩ := h
    obtain ⟨-, c, l, e⟩ := segmentsLoop_text (env := env) parts (Slug.new env head st none) [] st (Slug.new env head st none).last
    simp only [Word.hasInitKern, e, Box.hasInitKern]
    exact Slug.new_noInit head st

theorem addCmd_noInit (w : WordLike) (c : Command) : (w.addCmd c).hasInitKern = w.hasInitKern := by cases c <;> rfl

theorem parse_noInit (henv : env.Ok) (it : List Passage) (st : State) (txt : List Char) (ws : List WordLike)
    (h : parse env it st txt = some ws) : ∀ w ∈ ws.head?, w.hasInitKern = false := by
  have pre : ∀ (ws : List Word) (x : WordLike) (more : List WordLike), (∀ w ∈ ws.head?, w.hasInitKern = false) →
      (ws = [] → x.hasInitKern = false) → ∀ w ∈ (ws.map WordLike.word ++ x :: more).head?, w.hasInitKern = false := by
    intro ws x more h1 h2 w hw
    cases ws with
    | nil => simp at hw; subst hw; exact h2 rfl
    | cons y ys =>
      simp at hw; subst hw
      exact h1 y (by simp)
  rw [parse.eq_def] at h
  split at h
  · simp at h; subst h; simp
  · split at h
    · simp at h
    · rename_i ws' last hp
      obtain ⟨h1, h2⟩ := parseSimple_noInit henv _ _ _ _ hp
      cases it with
      | nil => simp only [Option.some.injEq] at h; subst h; exact pre ws' _ _ h1 (fun e => h2 e last rfl)
      | cons p it' =>
        simp only [Option.map_eq_some_iff] at h
        obtain ⟨more, -, rfl⟩ := h
        exact pre ws' _ _ h1 (fun e => by rw [addCmd_noInit]; exact h2 e last rfl)
    · rename_i ws' head hp
      obtain ⟨h1, h2⟩ := parseSimple_noInit henv _ _ _ _ hp
      split at h
      · simp at h
      · rename_i last _ hc
        simp only [Option.some.injEq] at h; subst h
        exact pre ws' _ _ h1 (fun _ => completeWord_noInit henv _ _ _ _ _ _ hc)
      · rename_i last left rest hc
        have hl := completeWord_noInit henv _ _ _ _ _ _ hc
        split at h
        · simp only [Option.map_eq_some_iff] at h
          obtain ⟨more, -, rfl⟩ := h
          exact pre ws' _ _ h1 (fun _ => hl)
        · cases rest with
          | nil => simp only [Option.some.injEq] at h; subst h; exact pre ws' _ _ h1 (fun _ => hl)
          | cons p it' =>
            simp only [Option.map_eq_some_iff] at h
            obtain ⟨more, -, rfl⟩ := h
            exact pre ws' _ _ h1 (fun _ => by rw [addCmd_noInit]; exact hl)

theorem intoWords_noInit (henv : env.Ok) (it : List Passage) (st : State) (cmd : Command) (ws : List WordLike)
    (h : intoWords env it st = some (cmd, ws)) : ∀ w ∈ ws.head?, w.hasInitKern = false := by
  unfold intoWords at h
  split at h
  · simp at h; obtain ⟨-, rfl⟩ := h; simp
  · simp only [Option.map_eq_some_iff, Prod.mk.injEq] at h
    obtain ⟨ws', h, -, rfl⟩ := h
    exact parse_noInit henv _ _ _ _ h

/-! ### Shifting the start of a line -/

/-- The second encoding is the first one with an adjustment in front. -/
def Prefixed (k : ℚ) (e1 e2 : List TextOp × List ShowItem) : Prop :=
  (e1.1 = [] ∧ e2.1 = [] ∧ e2.2 = .adj k :: e1.2) ∨
  (∃ items ops, e1.1 = .tj items :: ops ∧ e2.1 = .tj (.adj k :: items) :: ops ∧ e2.2 = e1.2)

theorem encodeSegments_prefixed (k : ℚ) (segs : List (Slug × Command)) (line : List ShowItem) :
    Prefixed k (encodeSegments segs line) (encodeSegments segs (.adj k :: line)) := by
  cases segs with
  | nil => exact Or.inl ⟨rfl, rfl, rfl⟩
  | cons a l => obtain ⟨s, c⟩ := a; exact Or.inr ⟨_, _, rfl, rfl, rfl⟩

theorem Box.encodeInto_prefixed (k : ℚ) (b : Box) (line : List ShowItem) : Prefixed k (b.encodeInto line) (b.encodeInto (.adj k :: line)) := by
  cases b with
  | slug s => exact Or.inl ⟨rfl, rfl, rfl⟩
  | mixed segs st => exact encodeSegments_prefixed k segs line

theorem encodeBoxes_step {k : ℚ} {bs : List Box} (ih : ∀ line, Prefixed k (encodeBoxes bs line) (encodeBoxes bs (.adj k :: line)))
    {e1 e2 : List TextOp × List ShowItem} (h : Prefixed k e1 e2) :
    Prefixed k (e1.1 ++ (encodeBoxes bs e1.2).1, (encodeBoxes bs e1.2).2) (e2.1 ++ (encodeBoxes bs e2.2).1, (encodeBoxes bs e2.2).2) := by
  rcases h with ⟨h1, h2, h3⟩ | ⟨items, ops, h1, h2, h3⟩
  · rw [h1, h2, h3]
    exact ih _
  · right
    exact ⟨items, _, by rw [h1]; rfl, by rw [h2, h3]; rfl, by rw [h3]⟩

theorem encodeBoxes_prefixed (k : ℚ) : ∀ (bs : List Box) (line : List ShowItem), Prefixed k (encodeBoxes bs line) (encodeBoxes bs (.adj k :: line))
  | [], line => Or.inl ⟨rfl, rfl, rfl⟩
  | b :: bs, line => encodeBoxes_step (encodeBoxes_prefixed k bs) (b.encodeInto_prefixed k line)

theorem Prefixed.tail {k : ℚ} {e1 e2 : List TextOp × List ShowItem} (h : Prefixed k e1 e2) (l : List ShowItem) :
    Prefixed k (e1.1, e1.2 ++ l) (e2.1, e2.2 ++ l) := by
  rcases h with ⟨h1, h2, h3⟩ | ⟨items, ops, h1, h2, h3⟩
  · exact Or.inl ⟨h1, h2, by simp [h3]⟩
  · exact Or.inr ⟨items, ops, h1, h2, by simp [h3]⟩

theorem Slug.indent_items {s : Slug} (h : s.hasInitKern = false) (a : ℚ) (ha : a ≠ 0) :
    (s.indent a).toItems = .adj (-(a / s.state.size * 1000)) :: s.toItems := by
  obtain ⟨txt, k, w, st⟩ := s
  simp only [Slug.indent, if_neg ha, Slug.toItems]
  cases k with
  | nil => simp [encodeKerning, encodeKerningLoop, Piece.item]
  | cons e k =>
    obtain ⟨i, x⟩ := e
    cases i with
    | zero => simp [Slug.hasInitKern] at h
    | succ i => simp [encodeKerning, Piece.item]

theorem Box.indent_prefixed {b : Box} (hb : b.WF env) (h : b.hasInitKern = false) (a : ℚ) (ha : a ≠ 0) :
    Prefixed (-(a / b.preState.size * 1000)) (b.encodeInto []) ((b.indent a).encodeInto []) := by
  cases b with
  | slug s =>
    left
    refine ⟨rfl, rfl, ?_⟩
    simp [Box.indent, Box.encodeInto, Slug.indent_items h a ha, Box.preState]
  | mixed segs st =>
    cases segs with
    | nil => exact absurd hb (by simp [Box.WF, SegsWF])
    | cons e l =>
      obtain ⟨s, c⟩ := e
      right
      refine ⟨s.toItems, c.ops ++ (encodeSegments l []).1, rfl, ?_, ?_⟩
      · simp [Box.indent, ha, Box.encodeInto, encodeSegments, Slug.indent_items h a ha, Box.preState]
      · simp [Box.indent, ha, Box.encodeInto, encodeSegments]

theorem Word.indent_prefixed {w : Word} (hw : w.WF env) (h : w.hasInitKern = false) (hne : w.styled ≠ []) (a : ℚ) (ha : a ≠ 0)
    (hz : w.preState.size ≠ 0) :
    Prefixed (-(a / w.preState.size * 1000)) (w.encodeInto []) ((w.indent a).encodeInto []) := by
  obtain ⟨bs, t, st⟩ := w
  simp only [Word.indent, if_neg ha]
  cases bs with
  | nil =>
    cases t with
    | none => simp [Word.styled] at hne
    | some t =>
      left
      simp [Word.hasInitKern] at h
      simp only [Word.preState] at hz
      have hk : a / st.size * 1000 ≠ 0 := by
        apply mul_ne_zero (div_ne_zero ha hz) (by norm_num)
      simp [Word.encodeInto, encodeBoxes, TrailingSpace.toItems, TrailingSpace.stretch, h, Word.preState, hk]
  | cons b bs =>
    have hb := Box.indent_prefixed (boxesWF_head hw.boxes) h a ha
    have := encodeBoxes_step (encodeBoxes_prefixed _ bs) hb
    cases t with
    | none => exact this
    | some t => exact this.tail _

theorem WordLike.indent_prefixed (a : ℚ) (ha : a ≠ 0) : ∀ {w : WordLike}, w.WF env → w.hasInitKern = false → w.styled ≠ [] →
    w.preState.size ≠ 0 → Prefixed (-(a / w.preState.size * 1000)) (w.encodeInto []) ((w.indent a).encodeInto [])
  | .box b, hw, h, _, _ => Box.indent_prefixed hw h a ha
  | .word w, hw, h, hne, hz => Word.indent_prefixed hw h hne a ha hz
  | .withCmd w c, hw, h, hne, hz => by
    have := WordLike.indent_prefixed a ha (w := w) hw h hne hz
    simp only [WordLike.indent, if_neg ha, WordLike.encodeInto, WordLike.preState]
    rcases this with ⟨h1, h2, h3⟩ | ⟨items, ops, h1, h2, h3⟩
    · right
      exact ⟨_, c.ops, by rw [h1]; rfl, by rw [h2, h3]; rfl, rfl⟩
    · right
      exact ⟨items, _, by rw [h1, List.cons_append]; rfl, by rw [h2, h3]; rfl, rfl⟩

theorem WordLike.encodeInto_prefixed (k : ℚ) : ∀ (w : WordLike) (line : List ShowItem),
    Prefixed k (w.encodeInto line) (w.encodeInto (.adj k :: line))
  | .box b, line => b.encodeInto_prefixed k line
  | .word w, line => by
    have := encodeBoxes_prefixed k w.boxes line
    simp only [WordLike.encodeInto, Word.encodeInto]
    cases w.tail with
    | none => exact this
    | some t => exact this.tail _
  | .withCmd w c, line => by
    have := WordLike.encodeInto_prefixed k w line
    simp only [WordLike.encodeInto]
    rcases this with ⟨h1, h2, h3⟩ | ⟨items, ops, h1, h2, h3⟩
    · right
      exact ⟨_, c.ops, by rw [h1]; rfl, by rw [h2, h3]; rfl, rfl⟩
    · right
      exact ⟨items, _, by rw [h1, List.cons_append]; rfl, by rw [h2, h3]; rfl, rfl⟩

theorem encodeWords_prefixed (k : ℚ) : ∀ (ws : List WordLike) (line : List ShowItem),
    ∃ items ops, encodeWords ws line = .tj items :: ops ∧ encodeWords ws (.adj k :: line) = .tj (.adj k :: items) :: ops
  | [], line => ⟨line, [], rfl, rfl⟩
  | w :: ws, line => by
    simp only [encodeWords]
    rcases w.encodeInto_prefixed k line with ⟨h1, h2, h3⟩ | ⟨items, ops, h1, h2, h3⟩
    · rw [h1, h2, h3]
      exact encodeWords_prefixed k ws _
    · exact ⟨items, ops ++ encodeWords ws (w.encodeInto line).2, by rw [h1]; rfl, by rw [h2, h3]; rfl⟩

theorem indentFirst_run {ws : List WordLike} {w : WordLike} (hw : w.WF env) (h : w.hasInitKern = false) (hne : w.styled ≠ [])
    (hz : w.preState.size ≠ 0) (a : ℚ) (v : Viewer) (hv : v.In w.preState) (W : FontRef → Char → ℚ) :
    Viewer.run W (encodeWords (indentFirst (w :: ws) a) []) v = Viewer.run W (encodeWords (w :: ws) []) (v.move a) := by
  by_cases ha : a = 0
  · subst ha
    have : w.indent 0 = w := by
      cases w with
      | box b => rcases b with s | ⟨_ | ⟨x, l⟩, st⟩ <;> simp [WordLike.indent, Box.indent, Slug.indent]
      | word w => simp [WordLike.indent, Word.indent]
      | withCmd w c => simp [WordLike.indent]
    simp [indentFirst, this]
  · simp only [indentFirst]
    have key : ∀ items ops, Viewer.run W (.tj (.adj (-(a / w.preState.size * 1000)) :: items) :: ops) v =
        Viewer.run W (.tj items :: ops) (v.move a) := by
      intro items ops
      have e : v.dist (-(-(a / w.preState.size * 1000))) = a := by
        rw [Viewer.dist_of hv.1, neg_neg]; field_simp
      simp only [Viewer.run, Viewer.step, show_adj_cons, e]
    simp only [encodeWords]
    rcases WordLike.indent_prefixed a ha hw h hne hz with ⟨h1, h2, h3⟩ | ⟨items, ops, h1, h2, h3⟩
    · rw [h1, h2, h3]
      obtain ⟨items, ops, e1, e2⟩ := encodeWords_prefixed (-(a / w.preState.size * 1000)) ws (w.encodeInto []).2
      simp only [List.nil_append, e1, e2]
      exact key _ _
    · rw [h1, h2, h3]
      simp only [List.cons_append]
      exact key _ _

end Pdfje
