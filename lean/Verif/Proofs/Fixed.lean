import Verif.Proofs.TextLines
import Verif.Proofs.Tame
import Verif.Props.Optimum
/-
Words that start and end in one state, at every syllable.
-/

namespace Pdfje

variable {env : Env}

/-- The box starts and ends in state `s`. -/
def Box.Fixed (s : State) (b : Box) : Prop := b.preState = s ∧ b.state = s

/-- The word and all its syllables start and end in state `s`. -/
def WordLike.Fixed (s : State) : WordLike → Prop
  | .box b => b.Fixed s
  | .word w => w.state = s ∧ ∀ b ∈ w.boxes, b.Fixed s
  | .withCmd w c => w.Fixed s ∧ c.apply s = s

@[inherit_doc WordLike.Fixed] abbrev FixedAll (s : State) (ws : List WordLike) : Prop := ∀ w ∈ ws, w.Fixed s

variable {s : State}

theorem Box.withoutInitKern_states (b : Box) : b.withoutInitKern.preState = b.preState ∧ b.withoutInitKern.state = b.state := by
  cases b with
  | slug x => exact ⟨x.withoutInitKern_state, x.withoutInitKern_state⟩
  | mixed segs st =>
    cases segs with
    | nil => exact ⟨rfl, rfl⟩
    | cons e segs => exact ⟨e.1.withoutInitKern_state, rfl⟩

theorem Box.indent_states (b : Box) (a : ℚ) : (b.indent a).preState = b.preState ∧ (b.indent a).state = b.state := by
  cases b with
  | slug x => exact ⟨x.indent_state a, x.indent_state a⟩
  | mixed segs st =>
    cases segs with
    | nil => exact ⟨rfl, rfl⟩
    | cons e segs =>
      simp only [Box.indent]
      split
      · exact ⟨rfl, rfl⟩
      · exact ⟨e.1.indent_state a, rfl⟩

theorem Box.withHyphen_states (b : Box) : (b.withHyphen env).preState = b.preState ∧ (b.withHyphen env).state = b.state := by
  cases b with
  | slug x => exact ⟨rfl, rfl⟩
  | mixed segs st => cases segs <;> exact ⟨rfl, rfl⟩

theorem Box.Fixed.withoutInitKern {b : Box} (h : b.Fixed s) : b.withoutInitKern.Fixed s :=
  ⟨b.withoutInitKern_states.1.trans h.1, b.withoutInitKern_states.2.trans h.2⟩

theorem Box.Fixed.indent {b : Box} (h : b.Fixed s) (a : ℚ) : (b.indent a).Fixed s :=
  ⟨(b.indent_states a).1.trans h.1, (b.indent_states a).2.trans h.2⟩

theorem Box.Fixed.withHyphen {b : Box} (h : b.Fixed s) : (b.withHyphen env).Fixed s :=
  ⟨b.withHyphen_states.1.trans h.1, b.withHyphen_states.2.trans h.2⟩

theorem WordLike.Fixed.post : ∀ {w : WordLike}, w.Fixed s → w.state = s
  | .box _, h => h.2
  | .word _, h => h.1
  | .withCmd w c, h => by simp only [WordLike.state]; rw [WordLike.Fixed.post h.1, h.2]

theorem Word.fixed_pre {w : Word} (h : (WordLike.word w).Fixed s) : w.preState = s := by
  simp only [Word.preState]
  split
  · exact h.1
  · rename_i b l e; exact (h.2 b (by simp [e])).1

theorem WordLike.Fixed.pre : ∀ {w : WordLike}, w.Fixed s → w.preState = s
  | .box _, h => h.1
  | .word _, h => Word.fixed_pre h
  | .withCmd w c, h => WordLike.Fixed.pre (w := w) h.1

theorem WordLike.Fixed.boxes : ∀ {w : WordLike}, w.Fixed s → ∀ b ∈ w.boxes, b.Fixed s
  | .box _, h, b, hb => by simp [WordLike.boxes] at hb; subst hb; exact h
  | .word _, h, b, hb => h.2 b hb
  | .withCmd w c, h, b, hb => WordLike.Fixed.boxes (w := w) h.1 b hb

theorem Word.withoutInitKern_fixed {w : Word} (h : (WordLike.word w).Fixed s) : (WordLike.word w.withoutInitKern).Fixed s := by
  unfold Word.withoutInitKern
  split
  · rename_i b l e
    have hb := h.2
    rw [e] at hb
    split
    · refine ⟨h.1, ?_⟩
      intro x hx
      rcases List.mem_cons.1 hx with rfl | hx
      · exact (hb b (by simp)).withoutInitKern
      · exact hb x (by simp [hx])
    · exact h
  · rename_i e
    split
    · split
      · exact ⟨h.1, h.2⟩
      · exact h
    · exact h

theorem WordLike.addCmd_fixed {w : WordLike} {c : Command} (h : w.Fixed s) (hc : c.apply s = s) : (w.addCmd c).Fixed s := by
  unfold WordLike.addCmd
  split
  · exact h
  · exact ⟨h, hc⟩

theorem hyphenateLoop_fixed {b : Box} {rest : List Box} {space : ℚ} {fit : List Box} {n : Box} {r : List Box} {st : State}
    (h : hyphenateLoop env b rest space = some (fit, n, r, st)) (hb : ∀ x ∈ b :: rest, x.Fixed s) :
    (∀ x ∈ fit, x.Fixed s) ∧ (∀ x ∈ n :: r, x.Fixed s) ∧ st = s := by
  induction rest generalizing b space fit with
  | nil => simp [hyphenateLoop] at h
  | cons next rest ih =>
    simp only [hyphenateLoop] at h
    split at h
    · simp only [Option.some.injEq, Prod.mk.injEq] at h
      obtain ⟨rfl, rfl, rfl, rfl⟩ := h
      refine ⟨?_, fun x hx => hb x (List.mem_cons_of_mem _ hx), (hb b (by simp)).2⟩
      intro x hx
      rw [List.mem_singleton] at hx; subst hx
      exact (hb b (by simp)).withHyphen
    · rw [Option.map_eq_some_iff] at h
      obtain ⟨⟨fit', n', r', st'⟩, h1, h2⟩ := h
      simp only [Prod.mk.injEq] at h2
      obtain ⟨rfl, rfl, rfl, rfl⟩ := h2
      obtain ⟨i1, i2, i3⟩ := ih h1 (fun x hx => hb x (List.mem_cons_of_mem _ hx))
      refine ⟨?_, i2, i3⟩
      intro x hx
      rcases List.mem_cons.1 hx with rfl | hx
      · exact hb x (by simp)
      · exact i1 x hx

theorem Word.hyphenate_fixed {w b : Word} {a : Option Word} {space : ℚ} (h : w.hyphenate env space = some (a, b)) (hw : (WordLike.word w).Fixed s) :
    (∀ x ∈ a, (WordLike.word x).Fixed s) ∧ (WordLike.word b).Fixed s := by
  have hb := hw.2
  unfold Word.hyphenate at h
  split at h
  · simp only [Option.some.injEq, Prod.mk.injEq] at h
    obtain ⟨rfl, rfl⟩ := h
    exact ⟨by simp, Word.withoutInitKern_fixed hw⟩
  · rename_i b0 rest e
    split at h
    · simp only [Option.some.injEq, Prod.mk.injEq] at h
      obtain ⟨rfl, rfl⟩ := h
      exact ⟨by simp, Word.withoutInitKern_fixed hw⟩
    · rw [Option.map_eq_some_iff] at h
      obtain ⟨⟨fit, n, r, st⟩, h1, h2⟩ := h
      simp only [Prod.mk.injEq] at h2
      obtain ⟨rfl, rfl⟩ := h2
      obtain ⟨i1, i2, i3⟩ := hyphenateLoop_fixed h1 (by rw [e] at hb; exact hb)
      refine ⟨?_, hw.1, ?_⟩
      · rintro x ⟨⟩
        exact ⟨i3, i1⟩
      · intro x hx
        rcases List.mem_cons.1 hx with rfl | hx
        · exact (i2 n (by simp)).withoutInitKern
        · exact i2 x (by simp [hx])

theorem WordLike.hyphenate_fixed : ∀ {w b : WordLike} {a : Option WordLike} {space : ℚ}, w.hyphenate env space = some (a, b) → w.Fixed s →
    (∀ x ∈ a, x.Fixed s) ∧ b.Fixed s
  | .box x, b, a, space, h, hw => by
    simp only [WordLike.hyphenate, Option.some.injEq, Prod.mk.injEq] at h
    obtain ⟨rfl, rfl⟩ := h
    exact ⟨by simp, hw⟩
  | .word w, b, a, space, h, hw => by
    simp only [WordLike.hyphenate, Option.map_eq_some_iff] at h
    obtain ⟨⟨a', b'⟩, h1, h2⟩ := h
    simp only [Prod.mk.injEq] at h2
    obtain ⟨rfl, rfl⟩ := h2
    obtain ⟨i1, i2⟩ := Word.hyphenate_fixed h1 hw
    refine ⟨?_, i2⟩
    intro x hx
    cases a' with
    | none => simp at hx
    | some y => simp at hx; subst hx; exact i1 y rfl
  | .withCmd w c, b, a, space, h, hw => by
    simp only [WordLike.hyphenate, Option.map_eq_some_iff] at h
    obtain ⟨⟨a', b'⟩, h1, h2⟩ := h
    simp only [Prod.mk.injEq] at h2
    obtain ⟨rfl, rfl⟩ := h2
    obtain ⟨i1, i2⟩ := WordLike.hyphenate_fixed h1 hw.1
    exact ⟨i1, WordLike.addCmd_fixed i2 hw.2⟩

theorem Word.minimalBox_fixed {w a : Word} {b : Option Word} (h : w.minimalBox env = (a, b)) (hw : (WordLike.word w).Fixed s) :
    (WordLike.word a).Fixed s ∧ ∀ x ∈ b, (WordLike.word x).Fixed s := by
  have hb := hw.2
  unfold Word.minimalBox at h
  split at h
  · rename_i b0 b2 rest e
    rw [e] at hb
    simp only [Prod.mk.injEq] at h
    obtain ⟨rfl, rfl⟩ := h
    refine ⟨⟨(hb b0 (by simp)).2, ?_⟩, ?_⟩
    · intro x hx
      rw [List.mem_singleton] at hx; subst hx
      exact (hb b0 (by simp)).withHyphen
    · rintro x ⟨⟩
      refine ⟨hw.1, ?_⟩
      intro x hx
      rcases List.mem_cons.1 hx with rfl | hx
      · exact (hb b2 (by simp)).withoutInitKern
      · exact hb x (by simp [hx])
  · simp only [Prod.mk.injEq] at h
    obtain ⟨rfl, rfl⟩ := h
    exact ⟨hw, by simp⟩

theorem WordLike.minimalBox_fixed : ∀ {w a : WordLike} {b : Option WordLike}, w.minimalBox env = (a, b) → w.Fixed s →
    a.Fixed s ∧ ∀ x ∈ b, x.Fixed s
  | .box x, a, b, h, hw => by
    simp only [WordLike.minimalBox, Prod.mk.injEq] at h
    obtain ⟨rfl, rfl⟩ := h
    exact ⟨hw, by simp⟩
  | .word w, a, b, h, hw => by
    simp only [WordLike.minimalBox, Prod.mk.injEq] at h
    obtain ⟨rfl, rfl⟩ := h
    obtain ⟨i1, i2⟩ := Word.minimalBox_fixed (w := w) rfl hw
    refine ⟨i1, ?_⟩
    intro x hx
    rw [Option.mem_def, Option.map_eq_some_iff] at hx
    obtain ⟨y, hy, rfl⟩ := hx
    exact i2 y hy
  | .withCmd w c, a, b, h, hw => by
    simp only [WordLike.minimalBox] at h
    split at h
    · rename_i a' e
      simp only [Prod.mk.injEq] at h
      obtain ⟨rfl, rfl⟩ := h
      exact ⟨WordLike.addCmd_fixed (WordLike.minimalBox_fixed e hw.1).1 hw.2, by simp⟩
    · rename_i a' b' e
      simp only [Prod.mk.injEq] at h
      obtain ⟨rfl, rfl⟩ := h
      obtain ⟨i1, i2⟩ := WordLike.minimalBox_fixed e hw.1
      refine ⟨i1, ?_⟩
      rintro x ⟨⟩
      exact WordLike.addCmd_fixed (i2 b' rfl) hw.2

theorem WordLike.pruned_fixed : ∀ {w : WordLike}, w.Fixed s → w.pruned.Fixed s
  | .box _, h => h
  | .word w, h => by
    simp only [WordLike.pruned, Word.pruned]
    split
    · exact ⟨h.1, h.2⟩
    · exact h
  | .withCmd w c, h => ⟨WordLike.pruned_fixed h.1, h.2⟩

theorem Word.indent_fixed {w : Word} (a : ℚ) (h : (WordLike.word w).Fixed s) : (WordLike.word (w.indent a)).Fixed s := by
  unfold Word.indent
  split
  · exact h
  · split
    · rename_i b rest e
      have hb := h.2
      rw [e] at hb
      refine ⟨h.1, ?_⟩
      intro x hx
      rcases List.mem_cons.1 hx with rfl | hx
      · exact (hb b (by simp)).indent a
      · exact hb x (by simp [hx])
    · split
      · exact ⟨h.1, h.2⟩
      · exact h

theorem WordLike.indent_fixed (a : ℚ) : ∀ {w : WordLike}, w.Fixed s → (w.indent a).Fixed s
  | .box _, h => h.indent a
  | .word _, h => Word.indent_fixed a h
  | .withCmd w c, h => by
    simp only [WordLike.indent]
    split
    · exact h
    · exact ⟨WordLike.indent_fixed a h.1, h.2⟩

theorem WordLike.extendTail_fixed (a : ℚ) : ∀ {w : WordLike}, w.Fixed s → (w.extendTail a).Fixed s
  | .box _, h => h
  | .word w, h => by
    simp only [WordLike.extendTail, Word.extendTail]
    split
    · split
      · exact h
      · exact ⟨h.1, h.2⟩
    · exact h
  | .withCmd w c, h => by
    simp only [WordLike.extendTail]
    split
    · exact ⟨WordLike.extendTail_fixed a h.1, h.2⟩
    · exact h

theorem WordLike.stretchTail_fixed (a : ℚ) : ∀ {w : WordLike}, w.Fixed s → (w.stretchTail a).Fixed s
  | .box _, h => h
  | .word w, h => by
    simp only [WordLike.stretchTail, Word.stretchTail]
    split
    · split
      · exact h
      · exact ⟨h.1, h.2⟩
    · exact h
  | .withCmd w c, h => by
    simp only [WordLike.stretchTail]
    split
    · exact ⟨WordLike.stretchTail_fixed a h.1, h.2⟩
    · exact h

theorem indentFirst_fixed {ws : List WordLike} (a : ℚ) (h : FixedAll s ws) : FixedAll s (indentFirst ws a) := by
  cases ws with
  | nil => exact h
  | cons w ws =>
    intro x hx
    rcases List.mem_cons.1 hx with rfl | hx
    · exact WordLike.indent_fixed a (h w (by simp))
    · exact h x (by simp [hx])

/-! ### First-fit -/

theorem takeLine_fixed {ws : List WordLike} {width : ℚ} {r : Option (List WordLike)} {line : TLine}
    (h : takeLine env ws width = some (r, line)) (hw : FixedAll s ws) : FixedAll s line.words ∧ ∀ ws' ∈ r, FixedAll s ws' := by
  cases (takeLine_ending h).1 with
  | all h1 h2 => rw [h1, h2]; exact ⟨hw, by simp⟩
  | cut content rest w a b k h1 h2 h3 h4 h5 =>
    subst h1
    obtain ⟨i1, i2⟩ := WordLike.hyphenate_fixed h5 (hw w (by simp))
    rw [h2, h3]
    refine ⟨?_, ?_⟩
    · intro x hx
      rcases List.mem_append.1 hx with hx | hx
      · exact hw x (by simp [hx])
      · rw [List.mem_singleton] at hx; subst hx; exact i1 x rfl
    · rintro l ⟨⟩ x hx
      rcases List.mem_cons.1 hx with rfl | hx
      · exact i2
      · exact hw x (by simp [hx])
  | word content rest l w b h1 h2 h3 h4 h5 h6 =>
    subst h1
    obtain ⟨-, i2⟩ := WordLike.hyphenate_fixed h6 (hw w (by simp))
    rw [h2]
    refine ⟨?_, ?_⟩
    · rcases h3 with h3 | ⟨h3, -⟩ <;> rw [h3] <;> intro x hx <;> rcases List.mem_append.1 hx with hx | hx
      · exact hw x (by simp [hx])
      · rw [List.mem_singleton] at hx; subst hx; exact WordLike.pruned_fixed (hw l (by simp))
      · exact hw x (by simp [hx])
      · rw [List.mem_singleton] at hx; subst hx; exact hw x (by simp)
    · rintro l ⟨⟩ x hx
      rcases List.mem_cons.1 hx with rfl | hx
      · exact i2
      · exact hw x (by simp [hx])
  | forced rest w d a h1 h2 h3 h4 h5 h6 =>
    subst h1
    obtain ⟨-, i2⟩ := WordLike.hyphenate_fixed h4 (hw w (by simp))
    obtain ⟨j1, j2⟩ := WordLike.minimalBox_fixed (w := d) (env := env) rfl i2
    rw [h2]
    refine ⟨?_, ?_⟩
    · intro x hx
      rw [List.mem_singleton] at hx; subst hx; rw [← h5]; exact j1
    · intro l hl x hx
      rcases h6 with ⟨-, ⟨e, -⟩ | ⟨e, -⟩⟩ | ⟨b, e1, e⟩
      · rw [e] at hl; cases hl; exact hw x (by simp [hx])
      · rw [e] at hl; cases hl
      · rw [e] at hl; cases hl
        rcases List.mem_cons.1 hx with rfl | hx
        · exact j2 x e1
        · exact hw x (by simp [hx])

theorem Left.fixed {ws a : List WordLike} (h : Left env ws a) (hw : FixedAll s ws) : FixedAll s a := by
  induction h with
  | refl => exact hw
  | step _ h ih => exact (takeLine_fixed h ih).2 _ rfl

theorem TLine.justify_fixed {l : TLine} (h : FixedAll s l.words) : FixedAll s l.justify.words := by
  unfold TLine.justify
  split
  · exact h
  · intro x hx
    simp only [List.mem_map] at hx
    obtain ⟨y, hy, rfl⟩ := hx
    exact WordLike.extendTail_fixed _ (h y hy)

theorem firstfit_fixed {ws : List WordLike} {cols : Cols} {lead : ℚ} {avoid : Bool} {align : Align} {ae : Bool} {out : List ShapedText}
    (h : firstfitShape env cols lead avoid align ws ae = some out) (hw : FixedAll s ws) :
    ∀ chunk ∈ out, ∀ line ∈ chunk.lines, FixedAll s line.words := by
  obtain ⟨raw, -, hc, rfl⟩ := firstfit_chunks h
  intro chunk hch line hl
  obtain ⟨i, hi⟩ := List.mem_iff_getElem?.1 hch
  obtain ⟨k, hk⟩ := List.mem_iff_getElem?.1 hl
  obtain ⟨l0, a, r, rfl, hl, ht, hr⟩ := firstfit_line hc hi hk
  have := (takeLine_fixed ht (hl.fixed hw)).1
  unfold setLine
  split
  · exact TLine.justify_fixed this
  · exact this

/-! ### Optimal line breaks -/

/-- A fragment that starts and ends in state `s`. -/
structure Fragment.Fixed (s : State) (f : Fragment) : Prop where
  txt : f.txt.Fixed s
  onBreak : ∀ x ∈ f.onBreak, x.Fixed s
  cmd : f.cmd.apply s = s

theorem chunkFrags_fixed (stretch shrink : ℚ) : ∀ (bs : List Box) (width : ℚ), (∀ b ∈ bs, b.Fixed s) →
    ∀ e ∈ chunkFrags env stretch shrink width bs, e.1.Fixed s
  | [], _, _, e, he => by simp [chunkFrags] at he
  | b :: bs, width, h, e, he => by
    rcases List.mem_cons.1 he with rfl | he
    · exact ⟨h b (by simp), by rintro x ⟨⟩; exact (h b (by simp)).withHyphen, rfl⟩
    · exact chunkFrags_fixed stretch shrink bs _ (fun x hx => h x (by simp [hx])) e he

theorem endFrag_fixed {justify : Bool} {last : Option Box} {tail : Option TrailingSpace} {st : State} {cmd : Command} {width stretch shrink : ℚ}
    {f : Fragment × KBox} {width' stretch' shrink' : ℚ} (hb : ∀ b ∈ last, b.Fixed s) (hs : st = s) (hc : cmd.apply s = s)
    (h : endFrag justify last tail st cmd width stretch shrink = some (f, width', stretch', shrink')) : f.1.Fixed s := by
  unfold endFrag at h
  split at h
  · simp only [Option.some.injEq, Prod.mk.injEq] at h
    obtain ⟨rfl, -⟩ := h
    refine ⟨⟨hs, ?_⟩, ?_, hc⟩
    · intro b hb'; simp at hb'; exact hb b hb'
    · intro x hx
      rw [Option.mem_def, Option.map_eq_some_iff] at hx
      obtain ⟨y, hy, rfl⟩ := hx
      exact hb y hy
  · split at h
    · simp at h
    · rename_i b
      simp only [Option.some.injEq, Prod.mk.injEq] at h
      obtain ⟨rfl, -⟩ := h
      exact ⟨hb b rfl, by rintro x ⟨⟩; exact hb b rfl, hc⟩

theorem WordLike.stripCmd_fixed {w : WordLike} (h : w.Fixed s) : w.stripCmd.1.Fixed s ∧ w.stripCmd.2.apply s = s := by
  cases w with
  | box b => exact ⟨h, rfl⟩
  | word w => exact ⟨h, rfl⟩
  | withCmd w c => exact h

theorem fragsLoop_fixed (justify : Bool) : ∀ (ws : List WordLike) (width stretch shrink : ℚ) (fbs : List (Fragment × KBox)),
    FixedAll s ws → fragsLoop env justify ws width stretch shrink = some fbs → ∀ e ∈ fbs, e.1.Fixed s
  | [], width, stretch, shrink, fbs, hw, h => by
    simp only [fragsLoop, Option.some.injEq] at h
    subst h; simp
  | word :: ws, width, stretch, shrink, fbs, hw, h => by
    obtain ⟨k1, k2⟩ := WordLike.stripCmd_fixed (hw word (by simp))
    simp only [fragsLoop] at h
    split at h
    · simp at h
    · rename_i f width' stretch' shrink' he
      rw [Option.map_eq_some_iff] at h
      obtain ⟨more, h1, rfl⟩ := h
      intro e hm
      rcases List.mem_append.1 hm with hm | hm
      · exact chunkFrags_fixed _ _ _ _ (fun b hb => k1.boxes b (List.dropLast_subset _ hb)) e hm
      · rcases List.mem_cons.1 hm with rfl | hm
        · exact endFrag_fixed (fun b hb => k1.boxes b (List.mem_of_getLast? hb)) k1.post k2 he
        · exact fragsLoop_fixed justify ws _ _ _ more (fun w hx => hw w (by simp [hx])) h1 e hm

theorem lineWords_fixed {fs : List Fragment} (h : ∀ f ∈ fs, f.Fixed s) : FixedAll s (lineWords fs) := by
  have hword : ∀ f ∈ fs, f.word.Fixed s := fun f hf => WordLike.addCmd_fixed (h f hf).txt (h f hf).cmd
  rcases List.eq_nil_or_concat fs with rfl | ⟨init, f, rfl⟩
  · intro x hx; simp [lineWords] at hx
  · rw [List.concat_eq_append] at *
    rcases lineWords_cases init f with ⟨t, e1, e2⟩ | ⟨e1, h0, e2⟩ | ⟨e1, init', g, h0, e2⟩
    · rw [e2]
      intro x hx
      rcases List.mem_append.1 hx with hx | hx
      · obtain ⟨y, hy, rfl⟩ := List.mem_map.1 hx
        exact hword y (by simp [hy])
      · rw [List.mem_singleton] at hx; subst hx
        exact WordLike.addCmd_fixed ((h f (by simp)).onBreak t e1) (h f (by simp)).cmd
    · rw [e2]; intro x hx; simp at hx
    · rw [e2]
      subst h0
      intro x hx
      rcases List.mem_append.1 hx with hx | hx
      · obtain ⟨y, hy, rfl⟩ := List.mem_map.1 hx
        exact hword y (by simp [hy])
      · rw [List.mem_singleton] at hx; subst hx
        exact WordLike.addCmd_fixed (hword g (by simp)) (h f (by simp)).cmd

theorem optimum_fixed {ws : List WordLike} {cols : Cols} {lead : ℚ}
    (hl : 0 < lead) (hc : ∀ i, 0 ≤ (cols i).2) {avoid : Bool} {align : Align} {p : OptParams} {ae : Bool} {out : List ShapedText}
    (h : optimumShape env cols lead avoid align p ws ae = some out) (hw : FixedAll s ws) :
    ∀ chunk ∈ out, ∀ line ∈ chunk.lines, FixedAll s line.words := by
  by_cases hws : ws = []
  · subst hws
    rcases optimumShape_nil h with ⟨rfl, -⟩ | ⟨rfl, -⟩ <;> simp [FixedAll]
  · intro chunk hch line hl'
    obtain ⟨i, hi⟩ := List.mem_iff_getElem?.1 hch
    obtain ⟨k, hk⟩ := List.mem_iff_getElem?.1 hl'
    obtain ⟨fbs, W, tol, brs, n, a, br, hI⟩ := optimum_line hl hc hws h hi hk
    have hf := fragsLoop_fixed _ ws _ _ _ fbs hw hI.boxes
    have : FixedAll s (lineWords (((fbs.map (·.1)).take br.pos).drop a)) := lineWords_fixed (fun f hf' => by
      have := List.mem_of_mem_take (List.mem_of_mem_drop hf')
      obtain ⟨e, he, rfl⟩ := List.mem_map.1 this
      exact hf e he)
    rw [hI.set_, optLine]
    split
    · intro x hx
      simp only [TLine.stretch, List.mem_map] at hx
      obtain ⟨y, hy, rfl⟩ := hx
      exact WordLike.stretchTail_fixed _ (this y hy)
    · exact this

/-! ### Words from text -/

theorem slugsOf_fixed : ∀ (parts : List (List Char)) (prev : Option Char) (l : List Slug), slugsOf env s parts prev = some l → ∀ x ∈ l, x.state = s
  | [], _, l, h => by simp [slugsOf] at h; subst h; simp
  | part :: rest, prev, l, h => by
    simp only [slugsOf] at h
    split at h
    · simp at h
    · rw [Option.map_eq_some_iff] at h
      obtain ⟨l', h1, rfl⟩ := h
      intro x hx
      rcases List.mem_cons.1 hx with rfl | hx
      · rfl
      · exact slugsOf_fixed rest _ l' h1 x hx

theorem Word.new_fixed {txt : List Char} {prev : Option Char} {w : Word} (h : Word.new env txt s prev = some w) : (WordLike.word w).Fixed s := by
  simp only [Word.new] at h
  split at h
  · simp at h
  · rw [Option.map_eq_some_iff] at h
    obtain ⟨l, h1, rfl⟩ := h
    refine ⟨rfl, ?_⟩
    intro b hb
    obtain ⟨x, hx, rfl⟩ := List.mem_map.1 hb
    exact ⟨slugsOf_fixed _ _ l h1 x hx, slugsOf_fixed _ _ l h1 x hx⟩

theorem makeWords_fixed : ∀ (l : List (List Char)) (prev : Option Char) (ws : List Word), makeWords env s l prev = some ws →
    ∀ w ∈ ws, (WordLike.word w).Fixed s
  | [], _, ws, h => by simp [makeWords] at h; subst h; simp
  | x :: l, prev, ws, h => by
    simp only [makeWords] at h
    split at h
    · simp at h
    · rename_i w e
      rw [Option.map_eq_some_iff] at h
      obtain ⟨ws', h1, rfl⟩ := h
      intro y hy
      rcases List.mem_cons.1 hy with rfl | hy
      · exact Word.new_fixed e
      · exact makeWords_fixed l _ ws' h1 y hy

theorem parseSimple_fixed {txt : List Char} {prev : Option Char} {ws : List Word} {r : List Char ⊕ Word}
    (h : parseSimple env txt s prev = some (ws, r)) : (∀ w ∈ ws, (WordLike.word w).Fixed s) ∧ ∀ w, r = .inr w → (WordLike.word w).Fixed s := by
  unfold parseSimple at h
  split at h
  · simp only [Option.some.injEq, Prod.mk.injEq] at h
    obtain ⟨rfl, rfl⟩ := h
    exact ⟨by simp, by simp⟩
  · split at h
    · simp at h
    · rename_i ws' e
      have hf := makeWords_fixed _ _ ws' e
      split at h
      · simp only [Option.some.injEq, Prod.mk.injEq] at h
        obtain ⟨rfl, rfl⟩ := h
        exact ⟨hf, by simp⟩
      · split at h
        · rename_i w e2
          simp only [Option.some.injEq, Prod.mk.injEq] at h
          obtain ⟨rfl, rfl⟩ := h
          refine ⟨fun x hx => hf x (List.dropLast_subset _ hx), ?_⟩
          rintro x ⟨⟩
          exact hf _ (List.mem_of_getLast? e2)
        · simp at h

theorem takeParts_cmds : ∀ (it : List Passage) parts sp left rest, takeParts it = (parts, sp, left, rest) →
    (∀ p ∈ it, p.cmd.apply s = s) → (∀ e ∈ parts, e.1.apply s = s) ∧ ∀ p ∈ rest, p.cmd.apply s = s
  | [], parts, sp, left, rest, h, _ => by
    simp only [takeParts, Prod.mk.injEq] at h
    obtain ⟨rfl, -, -, rfl⟩ := h
    simp
  | p :: ps, parts, sp, left, rest, h, hp => by
    simp only [takeParts] at h
    split at h
    · split at h <;>
      · simp only [Prod.mk.injEq] at h
        obtain ⟨rfl, -, -, rfl⟩ := h
        exact ⟨by simpa using hp p (by simp), fun q hq => hp q (by simp [hq])⟩
    · simp only [Prod.mk.injEq] at h
      obtain ⟨rfl, -, -, rfl⟩ := h
      obtain ⟨i1, i2⟩ := takeParts_cmds ps _ _ _ _ rfl (fun q hq => hp q (by simp [hq]))
      exact ⟨by simpa using ⟨hp p (by simp), fun a b hab => i1 (a, b) hab⟩, i2⟩

theorem segmentsLoop_fixed : ∀ (parts : List (Command × List Char)) (seg : Slug) (cmds : List Command) (prev : Option Char),
    (∀ e ∈ parts, e.1.apply s = s) → seg.state = s →
    (segmentsLoop env parts seg cmds s prev).2.1 = s ∧ ∃ c l, (segmentsLoop env parts seg cmds s prev).1 = (seg, c) :: l
  | [], seg, cmds, prev, _, _ => ⟨rfl, _, _, rfl⟩
  | (cmd, txt) :: parts, seg, cmds, prev, hp, hs => by
    have hc := hp (cmd, txt) (by simp)
    simp only at hc
    simp only [segmentsLoop, hc]
    split
    · refine ⟨(segmentsLoop_fixed parts _ [] _ (fun e he => hp e (by simp [he])) rfl).1, _, _, rfl⟩
    · exact segmentsLoop_fixed parts seg _ _ (fun e he => hp e (by simp [he])) hs

theorem completeWord_fixed {it : List Passage} {head : List Char} {prev : Option Char} {w : Word} {left : Option (List Char)} {rest : List Passage}
    (h : completeWord env it head s prev = some (w, left, rest)) (hp : ∀ p ∈ it, p.cmd.apply s = s) :
    (WordLike.word w).Fixed s ∧ ∀ p ∈ rest, p.cmd.apply s = s := by
  unfold completeWord at h
  split at h
  · rw [Option.map_eq_some_iff] at h
    obtain ⟨w', h1, h2⟩ := h
    simp only [Prod.mk.injEq] at h2
    obtain ⟨rfl, rfl, rfl⟩ := h2
    exact ⟨Word.new_fixed h1, by simp⟩
  · rename_i parts sp left' rest' hne ht
    simp only [Option.some.injEq, Prod.mk.injEq] at h
    obtain ⟨rfl, rfl, rfl⟩ := h
    obtain ⟨i1, i2⟩ := takeParts_cmds it _ _ _ _ ht hp
    obtain ⟨j1, c, l, j2⟩ := segmentsLoop_fixed (env := env) parts (Slug.new env head s prev) [] (Slug.new env head s prev).last i1 rfl
    refine ⟨⟨j1, ?_⟩, i2⟩
    intro b hb
    rw [List.mem_singleton] at hb; subst hb
    refine ⟨?_, j1⟩
    rw [j2]
    rfl

theorem parse_fixed : ∀ (n : Nat) (it : List Passage) (txt : List Char) (ws : List WordLike), it.length < n →
    (∀ p ∈ it, p.cmd.apply s = s) → parse env it s txt = some ws → FixedAll s ws
  | 0, _, _, _, hn, _, _ => by omega
  | n + 1, it, txt, ws, hn, hp, h => by
    have two : ∀ (a : List Word) (x : WordLike) (b : List WordLike), (∀ w ∈ a, (WordLike.word w).Fixed s) → x.Fixed s → FixedAll s b →
        FixedAll s (a.map WordLike.word ++ x :: b) := by
      intro a x b ha hx hb w hw
      rcases List.mem_append.1 hw with hw | hw
      · obtain ⟨y, hy, rfl⟩ := List.mem_map.1 hw
        exact ha y hy
      · rcases List.mem_cons.1 hw with rfl | hw
        · exact hx
        · exact hb w hw
    rw [parse] at h
    split at h
    · simp only [Option.some.injEq] at h; subst h; intro x hx; simp at hx
    · split at h
      · simp at h
      · rename_i e
        obtain ⟨k1, k2⟩ := parseSimple_fixed e
        split at h
        · simp only [Option.some.injEq] at h; subst h
          exact two _ _ [] k1 (k2 _ rfl) (by intro x hx; simp at hx)
        · rename_i p it'
          rw [Option.map_eq_some_iff] at h
          obtain ⟨more, h1, rfl⟩ := h
          have hc := hp p (by simp)
          rw [hc] at h1
          exact two _ _ more k1 (WordLike.addCmd_fixed (k2 _ rfl) hc)
            (parse_fixed n _ _ more (by simp at hn; omega) (fun q hq => hp q (by simp [hq])) h1)
      · rename_i e
        obtain ⟨k1, -⟩ := parseSimple_fixed e
        split at h
        · simp at h
        · rename_i hc
          simp only [Option.some.injEq] at h; subst h
          exact two _ _ [] k1 (completeWord_fixed hc hp).1 (by intro x hx; simp at hx)
        · rename_i last left rest hc
          have hlt := completeWord_lt _ _ _ _ _ _ _ _ hc
          obtain ⟨j1, j2⟩ := completeWord_fixed hc hp
          have hst : last.state = s := j1.1
          split at h
          · rw [Option.map_eq_some_iff] at h
            obtain ⟨more, h1, rfl⟩ := h
            rw [hst] at h1
            exact two _ _ more k1 j1 (parse_fixed n _ _ more (by omega) j2 h1)
          · split at h
            · simp only [Option.some.injEq] at h; subst h
              exact two _ _ [] k1 j1 (by intro x hx; simp at hx)
            · rename_i p it' _
              rw [Option.map_eq_some_iff] at h
              obtain ⟨more, h1, rfl⟩ := h
              have hcc := j2 p (by simp)
              rw [hst, hcc] at h1
              exact two _ _ more k1 (WordLike.addCmd_fixed j1 hcc)
                (parse_fixed n _ _ more (by simp at hlt; omega) (fun q hq => j2 q (by simp [hq])) h1)

/-- After the first text of the group, no style changes. -/
def SteadyGroup : List Passage → State → Prop
  | [], _ => True
  | p :: g, st => if p.txt = [] then SteadyGroup g (p.cmd.apply st) else ∀ q ∈ g, q.cmd.apply (p.cmd.apply st) = p.cmd.apply st

theorem foldCommands_steady : ∀ (g : List Passage) (st : State) (buffer : List Command), SteadyGroup g st → ∀ cmd txt st' rest,
    foldCommands g st buffer = (cmd, some txt, st', rest) → ∀ q ∈ rest, q.cmd.apply st' = st'
  | [], st, buffer, _, cmd, txt, st', rest, h => by simp [foldCommands] at h
  | p :: g, st, buffer, hg, cmd, txt, st', rest, h => by
    simp only [foldCommands] at h
    simp only [SteadyGroup] at hg
    split at h
    · rename_i hne
      rw [if_neg hne] at hg
      simp only [Prod.mk.injEq] at h
      obtain ⟨-, -, rfl, rfl⟩ := h
      exact hg
    · rename_i hne
      rw [if_pos (by simpa using hne)] at hg
      exact foldCommands_steady g _ _ hg cmd txt st' rest h

/-- The words of a group in which the style does not change after the first text. -/
theorem intoWords_fixed {g : List Passage} {st : State} {cmd : Command} {ws : List WordLike} (hg : SteadyGroup g st)
    (h : intoWords env g st = some (cmd, ws)) : ∃ s, FixedAll s ws := by
  unfold intoWords at h
  split at h
  · simp only [Option.some.injEq, Prod.mk.injEq] at h
    rw [← h.2]
    exact ⟨st, by intro x hx; simp at hx⟩
  · rename_i c txt st' rest e
    rw [Option.map_eq_some_iff] at h
    obtain ⟨ws', h1, h2⟩ := h
    simp only [Prod.mk.injEq] at h2
    obtain ⟨rfl, rfl⟩ := h2
    exact ⟨st', parse_fixed _ _ _ _ (Nat.lt_succ_self _) (foldCommands_steady g st [] hg _ _ _ _ e) h1⟩

end Pdfje
