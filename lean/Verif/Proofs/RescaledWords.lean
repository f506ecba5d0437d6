import Verif.Proofs.Rescaled
/-
Words and text that is split into words commute with a change of the unit of length and of colours.
-/

namespace Pdfje

variable (σ : Change)

/-! ### Slugs and boxes -/

/-- A piece of text. Kerning is relative to the font size. -/
def Slug.via (s : Slug) : Slug := ⟨s.txt, s.kern, σ.factor * s.width, s.state.via σ⟩

theorem slugNew_via (env : Env) (s : List Char) (st : State) (prev : Option Char) : Slug.new (env.via σ) s (st.via σ) prev = (Slug.new env s st prev).via σ := by
  simp only [Slug.new, Slug.via, State.via, metrics_via, Slug.mk.injEq, true_and, and_true]
  ring

theorem withHyphen_via (env : Env) (s : Slug) : (s.via σ).withHyphen (env.via σ) = (s.withHyphen env).via σ := by
  have hk : (s.via σ).hyphenKern (env.via σ) = s.hyphenKern env := by
    simp only [Slug.hyphenKern, Slug.via, State.via, metrics_via]
    rfl
  simp only [Slug.withHyphen, hk]
  simp only [Slug.via, State.via, metrics_via, Slug.mk.injEq, true_and, and_true]
  ring

theorem withoutInitKern_via (s : Slug) : (s.via σ).withoutInitKern = s.withoutInitKern.via σ := by
  obtain ⟨txt, kern, width, st⟩ := s
  match kern with
  | [] => rfl
  | (0, k) :: rest =>
    simp only [Slug.withoutInitKern, Slug.via, State.via, Slug.mk.injEq, true_and, and_true]
    ring
  | (n + 1, k) :: rest => rfl

theorem slugIndent_via (s : Slug) (a : ℚ) : (s.via σ).indent (σ.factor * a) = (s.indent a).via σ := by
  unfold Slug.indent
  have h : (σ.factor * a = 0) = (a = 0) := by simp [σ.ne]
  simp only [h]
  split
  · rfl
  · simp only [Slug.via, State.via, Slug.mk.injEq, true_and, and_true, List.cons.injEq, Prod.mk.injEq]
    exact ⟨by rw [mul_div_mul_left _ _ σ.ne], by ring⟩

theorem toItems_via (s : Slug) : (s.via σ).toItems = s.toItems.map (ShowItem.via σ) := by
  simp only [Slug.toItems, List.map_map]
  refine List.map_congr_left fun a _ => ?_
  cases a <;> rfl

/-- The segments of a box. -/
def segVia (e : Slug × Command) : Slug × Command := (e.1.via σ, e.2.via σ)

@[inherit_doc Slug.via] def Box.via : Box → Box
  | .slug s => .slug (s.via σ)
  | .mixed segs st => .mixed (segs.map (segVia σ)) (st.via σ)

theorem boxState_via (b : Box) : (b.via σ).state = b.state.via σ := by cases b <;> rfl

theorem boxPreState_via (b : Box) : (b.via σ).preState = b.preState.via σ := by
  match b with
  | .slug s => rfl
  | .mixed [] st => rfl
  | .mixed (e :: segs) st => rfl

theorem boxWidth_via (b : Box) : (b.via σ).width = σ.factor * b.width := by
  cases b with
  | slug s => rfl
  | mixed segs st =>
    simp only [Box.via, Box.width, List.map_map]
    induction segs with
    | nil => simp
    | cons e segs ih =>
      rw [List.map_cons, List.map_cons, List.sum_cons, List.sum_cons, ih, mul_add]
      rfl

theorem boxesWidth_via (bs : List Box) : ((bs.map (Box.via σ)).map Box.width).sum = σ.factor * (bs.map Box.width).sum := by
  induction bs with
  | nil => simp
  | cons b bs ih => simp only [List.map_cons, List.sum_cons, ih, boxWidth_via, mul_add]

theorem boxLast_via (b : Box) : (b.via σ).last = b.last := by
  cases b with
  | slug s => rfl
  | mixed segs st =>
    simp only [Box.via, Box.last, List.getLast?_map]
    cases segs.getLast? <;> rfl

theorem boxWithHyphen_via (env : Env) (b : Box) : (b.via σ).withHyphen (env.via σ) = (b.withHyphen env).via σ := by
  cases b with
  | slug s => exact congrArg Box.slug (withHyphen_via σ env s)
  | mixed segs st =>
    have hl := boxLast_via σ (.mixed segs st)
    simp only [Box.via] at hl
    simp only [Box.via, Box.withHyphen, hl, List.map_append, List.map_cons, List.map_nil, segVia, slugNew_via, Command.via]

theorem boxHasInitKern_via (b : Box) : (b.via σ).hasInitKern = b.hasInitKern := by
  match b with
  | .slug s => rfl
  | .mixed [] st => rfl
  | .mixed (e :: segs) st => rfl

theorem boxWithoutInitKern_via (b : Box) : (b.via σ).withoutInitKern = b.withoutInitKern.via σ := by
  match b with
  | .slug s => exact congrArg Box.slug (withoutInitKern_via σ s)
  | .mixed [] st => rfl
  | .mixed ((s, c) :: segs) st => simp [Box.via, Box.withoutInitKern, segVia, withoutInitKern_via]

theorem zero_via (a : ℚ) : (σ.factor * a = 0) = (a = 0) := by simp [σ.ne]

theorem boxIndent_via (a : ℚ) (b : Box) : (b.via σ).indent (σ.factor * a) = (b.indent a).via σ := by
  match b with
  | .slug s => exact congrArg Box.slug (slugIndent_via σ s a)
  | .mixed [] st => rfl
  | .mixed ((s, c) :: segs) st =>
    simp only [Box.via, Box.indent, segVia, List.map_cons, zero_via, slugIndent_via]
    split <;> rfl

theorem encodeSegments_via : ∀ (segs : List (Slug × Command)) (line : List ShowItem),
    encodeSegments (segs.map (segVia σ)) (line.map (ShowItem.via σ)) = ((encodeSegments segs line).1.map (TextOp.via σ), (encodeSegments segs line).2.map (ShowItem.via σ))
  | [], _ => rfl
  | (s, c) :: rest, line => by
    rw [List.map_cons, segVia, encodeSegments, encodeSegments]
    have h := encodeSegments_via rest []
    rw [List.map_nil] at h
    simp only [h, toItems_via, commandOps_via]
    simp [TextOp.via]

theorem boxEncode_via (b : Box) (line : List ShowItem) : (b.via σ).encodeInto (line.map (ShowItem.via σ)) = ((b.encodeInto line).1.map (TextOp.via σ), (b.encodeInto line).2.map (ShowItem.via σ)) := by
  cases b with
  | slug s => simp [Box.via, Box.encodeInto, toItems_via]
  | mixed segs st => exact encodeSegments_via σ segs line

/-! ### Trailing spaces and words -/

@[inherit_doc Slug.via] def TrailingSpace.via (t : TrailingSpace) : TrailingSpace := ⟨σ.factor * t.widthExclKern, t.kern, σ.factor * t.size⟩

theorem tailWidth_via (t : TrailingSpace) : (t.via σ).width = σ.factor * t.width := by
  simp only [TrailingSpace.width, TrailingSpace.via]; ring

theorem tailStretch_via (t : TrailingSpace) (a : ℚ) (st : State) : (t.via σ).stretch (σ.factor * a) (st.via σ) = (t.stretch a st).via σ := by
  simp only [TrailingSpace.stretch, TrailingSpace.via, State.via, mul_div_mul_left _ _ σ.ne]

theorem tailMake_via (env : Env) (st : State) (prev : Option Char) : TrailingSpace.make (env.via σ) (st.via σ) prev = (TrailingSpace.make env st prev).via σ := by
  simp only [TrailingSpace.make, TrailingSpace.via, State.via, metrics_via, TrailingSpace.mk.injEq, and_true]
  ring

theorem tailParse_via (env : Env) (s : List Char) (st : State) (prev : Option Char) :
    TrailingSpace.parse (env.via σ) s (st.via σ) prev = ((TrailingSpace.parse env s st prev).1, (TrailingSpace.parse env s st prev).2.map (TrailingSpace.via σ)) := by
  unfold TrailingSpace.parse
  split
  · simp only [tailMake_via, Option.map_some]
  · rfl

/-- A word. -/
def Word.via (w : Word) : Word := ⟨w.boxes.map (Box.via σ), w.tail.map (TrailingSpace.via σ), w.state.via σ⟩

theorem slugsOf_via (env : Env) (st : State) : ∀ (ps : List (List Char)) (prev : Option Char),
    slugsOf (env.via σ) (st.via σ) ps prev = (slugsOf env st ps prev).map fun l => l.map (Slug.via σ)
  | [], _ => rfl
  | p :: ps, prev => by
    rw [slugsOf, slugsOf]
    cases p.getLast? with
    | none => rfl
    | some c =>
      simp only [slugsOf_via env st ps, Option.map_map, slugNew_via]
      rfl

theorem wordNew_via (env : Env) (s : List Char) (st : State) (prev : Option Char) : Word.new (env.via σ) s (st.via σ) prev = (Word.new env s st prev).map (Word.via σ) := by
  unfold Word.new
  simp only [tailParse_via, unicode_via, hyph_via]
  rw [show (st.via σ).hyphens = st.hyphens from rfl]
  cases intoSyllables env.unicode (TrailingSpace.parse env s st prev).1 (env.hyph st.hyphens) with
  | none => rfl
  | some parts =>
    simp only [slugsOf_via, Option.map_map]
    congr 1
    funext l
    simp [Word.via, Box.via, Function.comp_def]

theorem wordPreState_via (w : Word) : (w.via σ).preState = w.preState.via σ := by
  obtain ⟨bs, t, st⟩ := w
  cases bs with
  | nil => rfl
  | cons b bs => exact boxPreState_via σ b

theorem wordLast_via (w : Word) : (w.via σ).last = w.last := by
  obtain ⟨bs, t, st⟩ := w
  cases t with
  | some t => rfl
  | none =>
    simp only [Word.last, Word.via, Option.map_none, List.getLast?_map]
    cases bs.getLast? with
    | none => rfl
    | some b => exact boxLast_via σ b

theorem wordHasInitKern_via (w : Word) : (w.via σ).hasInitKern = w.hasInitKern := by
  obtain ⟨bs, t, st⟩ := w
  cases bs with
  | nil => cases t <;> rfl
  | cons b bs => exact boxHasInitKern_via σ b

theorem wordWithoutInitKern_via (w : Word) : (w.via σ).withoutInitKern = w.withoutInitKern.via σ := by
  obtain ⟨bs, t, st⟩ := w
  cases bs with
  | nil =>
    cases t with
    | none => rfl
    | some t =>
      simp only [Word.withoutInitKern, Word.via, List.map_nil, Option.map_some, TrailingSpace.via]
      split <;> rfl
  | cons b bs =>
    simp only [Word.withoutInitKern, Word.via, List.map_cons, boxHasInitKern_via, boxWithoutInitKern_via]
    split <;> rfl

theorem wordPrunedWidth_via (w : Word) : (w.via σ).prunedWidth = σ.factor * w.prunedWidth := boxesWidth_via σ w.boxes

theorem wordPrunable_via (w : Word) : (w.via σ).prunableSpace = σ.factor * w.prunableSpace := by
  obtain ⟨bs, t, st⟩ := w
  cases t with
  | none => simp [Word.prunableSpace, Word.via]
  | some t => exact tailWidth_via σ t

theorem wordWidth_via (w : Word) : (w.via σ).width = σ.factor * w.width := by
  rw [Word.width, Word.width, wordPrunedWidth_via, wordPrunable_via, mul_add]

theorem lt_via (a b : ℚ) : (σ.factor * a < σ.factor * b) = (a < b) := by simp [mul_lt_mul_iff_right₀ σ.pos]

theorem le_via (a b : ℚ) : (σ.factor * a ≤ σ.factor * b) = (a ≤ b) := by simp [mul_le_mul_iff_right₀ σ.pos]

theorem hyphenateLoop_via (env : Env) : ∀ (rest : List Box) (b : Box) (space : ℚ),
    hyphenateLoop (env.via σ) (b.via σ) (rest.map (Box.via σ)) (σ.factor * space) =
      (hyphenateLoop env b rest space).map fun x => (x.1.map (Box.via σ), x.2.1.via σ, x.2.2.1.map (Box.via σ), x.2.2.2.via σ)
  | [], _, _ => rfl
  | n :: rest, b, space => by
    rw [List.map_cons, hyphenateLoop, hyphenateLoop]
    simp only [boxWidth_via, boxWithHyphen_via, ← mul_sub, lt_via, boxState_via]
    split
    · rfl
    · rw [hyphenateLoop_via env rest n]
      cases hyphenateLoop env n rest (space - b.width) <;> rfl

theorem wordHyphenate_via (env : Env) (w : Word) (space : ℚ) :
    (w.via σ).hyphenate (env.via σ) (σ.factor * space) = (w.hyphenate env space).map fun x => (x.1.map (Word.via σ), x.2.via σ) := by
  have hk := wordWithoutInitKern_via σ w
  obtain ⟨bs, t, st⟩ := w
  cases bs with
  | nil => simp only [Word.hyphenate, Option.map_some, Option.map_none, ← hk]; rfl
  | cons b bs =>
    simp only [Word.hyphenate, Option.map_some, ← hk, Word.via, List.map_cons, boxWithHyphen_via, boxWidth_via, lt_via, hyphenateLoop_via]
    split
    · simp only [Word.via, List.map_cons] at hk
      rw [hk]
      rfl
    · cases hyphenateLoop env b bs space with
      | none => rfl
      | some x => simp [Word.via, boxWithoutInitKern_via]

theorem wordMinimal_via (env : Env) (w : Word) : (w.via σ).minimalBox (env.via σ) = ((w.minimalBox env).1.via σ, (w.minimalBox env).2.map (Word.via σ)) := by
  obtain ⟨bs, t, st⟩ := w
  match bs with
  | [] => rfl
  | [b] => rfl
  | b :: b2 :: rest => simp [Word.minimalBox, Word.via, boxWithHyphen_via, boxState_via, boxWithoutInitKern_via]

theorem wordIndent_via (w : Word) (a : ℚ) : (w.via σ).indent (σ.factor * a) = (w.indent a).via σ := by
  obtain ⟨bs, t, st⟩ := w
  unfold Word.indent
  simp only [zero_via]
  split
  · rfl
  · cases bs with
    | nil =>
      cases t with
      | none => rfl
      | some t => simp [Word.via, tailStretch_via]
    | cons b bs => simp [Word.via, boxIndent_via]

theorem wordExtend_via (w : Word) (a : ℚ) : (w.via σ).extendTail (σ.factor * a) = (w.extendTail a).via σ := by
  obtain ⟨bs, t, st⟩ := w
  cases t with
  | none => rfl
  | some t =>
    simp only [Word.extendTail, Word.via, Option.map_some, zero_via, tailStretch_via]
    split <;> rfl

theorem wordStretch_via (w : Word) (a : ℚ) : (w.via σ).stretchTail a = (w.stretchTail a).via σ := by
  obtain ⟨bs, t, st⟩ := w
  cases t with
  | none => rfl
  | some t =>
    have : (t.via σ).stretch (a * (t.via σ).widthExclKern) (st.via σ) = (t.stretch (a * t.widthExclKern) st).via σ := by
      rw [← tailStretch_via]
      congr 1
      simp only [TrailingSpace.via]
      ring
    simp only [Word.stretchTail, Word.via, Option.map_some, this]
    split <;> rfl

theorem wordPruned_via (w : Word) : (w.via σ).pruned = w.pruned.via σ := by
  obtain ⟨bs, t, st⟩ := w
  cases t <;> rfl

theorem encodeBoxes_via : ∀ (bs : List Box) (line : List ShowItem),
    encodeBoxes (bs.map (Box.via σ)) (line.map (ShowItem.via σ)) = ((encodeBoxes bs line).1.map (TextOp.via σ), (encodeBoxes bs line).2.map (ShowItem.via σ))
  | [], _ => rfl
  | b :: bs, line => by
    rw [List.map_cons, encodeBoxes, encodeBoxes]
    simp only [boxEncode_via, encodeBoxes_via bs, List.map_append]

theorem wordEncode_via (w : Word) (line : List ShowItem) : (w.via σ).encodeInto (line.map (ShowItem.via σ)) = ((w.encodeInto line).1.map (TextOp.via σ), (w.encodeInto line).2.map (ShowItem.via σ)) := by
  obtain ⟨bs, t, st⟩ := w
  simp only [Word.encodeInto, Word.via, encodeBoxes_via]
  cases t with
  | none => rfl
  | some t =>
    simp only [Option.map_some, List.map_append, TrailingSpace.toItems]
    by_cases h : t.kern = 0 <;> simp [h, TrailingSpace.via, ShowItem.via, State.via]

/-! ### Boxes, words, and these with commands -/

@[inherit_doc Word.via] def WordLike.via : WordLike → WordLike
  | .box b => .box (b.via σ)
  | .word w => .word (w.via σ)
  | .withCmd w c => .withCmd w.via (c.via σ)

theorem addCmd_via (w : WordLike) (c : Command) : (w.via σ).addCmd (c.via σ) = (w.addCmd c).via σ := by cases c <;> rfl

theorem wlState_via : ∀ w : WordLike, (w.via σ).state = w.state.via σ
  | .box b => boxState_via σ b
  | .word _ => rfl
  | .withCmd w c => by rw [WordLike.via, WordLike.state, WordLike.state, wlState_via w, apply_via]

theorem wlPreState_via : ∀ w : WordLike, (w.via σ).preState = w.preState.via σ
  | .box b => boxPreState_via σ b
  | .word w => wordPreState_via σ w
  | .withCmd w _ => wlPreState_via w

theorem wlTail_via : ∀ w : WordLike, (w.via σ).tail = w.tail.map (TrailingSpace.via σ)
  | .box _ => rfl
  | .word _ => rfl
  | .withCmd w _ => wlTail_via w

theorem wlBoxes_via : ∀ w : WordLike, (w.via σ).boxes = w.boxes.map (Box.via σ)
  | .box _ => rfl
  | .word _ => rfl
  | .withCmd w _ => wlBoxes_via w

theorem wlWidth_via : ∀ w : WordLike, (w.via σ).width = σ.factor * w.width
  | .box b => boxWidth_via σ b
  | .word w => wordWidth_via σ w
  | .withCmd w _ => wlWidth_via w

theorem wlPrunedWidth_via : ∀ w : WordLike, (w.via σ).prunedWidth = σ.factor * w.prunedWidth
  | .box b => boxWidth_via σ b
  | .word w => wordPrunedWidth_via σ w
  | .withCmd w _ => wlPrunedWidth_via w

theorem wlPrunable_via : ∀ w : WordLike, (w.via σ).prunableSpace = σ.factor * w.prunableSpace
  | .box b => by simp [WordLike.via, WordLike.prunableSpace]
  | .word w => wordPrunable_via σ w
  | .withCmd w _ => wlPrunable_via w

theorem wlPruned_via : ∀ w : WordLike, (w.via σ).pruned = w.pruned.via σ
  | .box b => rfl
  | .word w => congrArg WordLike.word (wordPruned_via σ w)
  | .withCmd w c => by rw [WordLike.via, WordLike.pruned, wlPruned_via w]; rfl

theorem wlIndent_via (a : ℚ) : ∀ w : WordLike, (w.via σ).indent (σ.factor * a) = (w.indent a).via σ
  | .box b => congrArg WordLike.box (boxIndent_via σ a b)
  | .word w => congrArg WordLike.word (wordIndent_via σ w a)
  | .withCmd w c => by
    rw [WordLike.via, WordLike.indent, WordLike.indent, wlIndent_via a w]
    simp only [zero_via]
    split <;> rfl

theorem wlExtend_via (a : ℚ) : ∀ w : WordLike, (w.via σ).extendTail (σ.factor * a) = (w.extendTail a).via σ
  | .box b => rfl
  | .word w => congrArg WordLike.word (wordExtend_via σ w a)
  | .withCmd w c => by
    rw [WordLike.via, WordLike.extendTail, WordLike.extendTail, wlExtend_via a w, wlTail_via]
    simp only [ne_eq, zero_via, Option.isSome_map]
    split <;> rfl

theorem wlStretch_via (a : ℚ) : ∀ w : WordLike, (w.via σ).stretchTail a = (w.stretchTail a).via σ
  | .box b => rfl
  | .word w => congrArg WordLike.word (wordStretch_via σ w a)
  | .withCmd w c => by
    rw [WordLike.via, WordLike.stretchTail, WordLike.stretchTail, wlStretch_via a w, wlTail_via]
    simp only [Option.isSome_map]
    split <;> rfl

theorem wlHyphenate_via (env : Env) (space : ℚ) : ∀ w : WordLike, (w.via σ).hyphenate (env.via σ) (σ.factor * space) =
    (w.hyphenate env space).map fun x => (x.1.map (WordLike.via σ), x.2.via σ)
  | .box b => rfl
  | .word w => by
    rw [WordLike.via, WordLike.hyphenate, WordLike.hyphenate, wordHyphenate_via]
    simp only [Option.map_map]
    congr 1
    funext x
    simp [WordLike.via, Function.comp_def]
  | .withCmd w c => by
    rw [WordLike.via, WordLike.hyphenate, WordLike.hyphenate, wlHyphenate_via env space w]
    simp only [Option.map_map]
    congr 1
    funext x
    simp [addCmd_via]

theorem wlMinimal_via (env : Env) : ∀ w : WordLike, (w.via σ).minimalBox (env.via σ) = ((w.minimalBox env).1.via σ, (w.minimalBox env).2.map (WordLike.via σ))
  | .box b => rfl
  | .word w => by
    rw [WordLike.via, WordLike.minimalBox, WordLike.minimalBox, wordMinimal_via]
    simp [WordLike.via, Function.comp_def]
  | .withCmd w c => by
    rw [WordLike.via, WordLike.minimalBox, WordLike.minimalBox, wlMinimal_via env w]
    match w.minimalBox env with
    | (a, none) => simp [addCmd_via]
    | (a, some b) => simp [addCmd_via]

theorem wlEncode_via : ∀ (w : WordLike) (line : List ShowItem), (w.via σ).encodeInto (line.map (ShowItem.via σ)) = ((w.encodeInto line).1.map (TextOp.via σ), (w.encodeInto line).2.map (ShowItem.via σ))
  | .box b, line => boxEncode_via σ b line
  | .word w, line => wordEncode_via σ w line
  | .withCmd w c, line => by
    rw [WordLike.via, WordLike.encodeInto, WordLike.encodeInto]
    simp only [wlEncode_via w, commandOps_via]
    simp [TextOp.via]

theorem encodeWords_via : ∀ (ws : List WordLike) (line : List ShowItem), encodeWords (ws.map (WordLike.via σ)) (line.map (ShowItem.via σ)) = (encodeWords ws line).map (TextOp.via σ)
  | [], _ => rfl
  | w :: ws, line => by
    rw [List.map_cons, encodeWords, encodeWords]
    simp only [wlEncode_via, encodeWords_via ws, List.map_append]

theorem indentFirst_via (ws : List WordLike) (a : ℚ) : indentFirst (ws.map (WordLike.via σ)) (σ.factor * a) = (indentFirst ws a).map (WordLike.via σ) := by
  cases ws with
  | nil => rfl
  | cons w ws => simp [indentFirst, wlIndent_via]

end Pdfje
