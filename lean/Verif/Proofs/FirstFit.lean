import Verif.Proofs.Cut
import Verif.Spec.Lines
/-
First-fit line breaking.
-/

namespace Pdfje

variable {env : Env}

/-! ### Hyphens -/

theorem hyphen_new_nonneg (hh : HyphenOk env) (st : State) (hs : 0 ≤ st.size) (prev : Option Char) :
    0 ≤ (Slug.new env ['-'] st prev).width := by
  simp only [Slug.new]
  apply mul_nonneg _ hs
  simp only [Metrics.width, List.map_cons, List.map_nil, List.sum_cons, List.sum_nil, add_zero]
  have h := hh st.font
  rw [← add_div]
  apply div_nonneg _ (by norm_num)
  cases prev with
  | none => simpa [Pdfje.kern, pairwise, enumerateFrom] using h.1
  | some c =>
    by_cases h0 : (env.metrics st.font).kerning (c, '-') = 0
    · simpa [Pdfje.kern, pairwise, enumerateFrom, h0] using h.1
    · simpa [Pdfje.kern, pairwise, enumerateFrom, h0] using h.2 c

theorem Box.withHyphen_le (hh : HyphenOk env) (b : Box) (hs : 0 ≤ b.state.size) : b.width ≤ (b.withHyphen env).width := by
  cases b with
  | slug s =>
    simp only [Box.width, Box.withHyphen, Slug.withHyphen]
    have h := hh s.state.font
    have hs' : 0 ≤ s.state.size := hs
    have : 0 ≤ (env.metrics s.state.font).charwidth '-' + s.hyphenKern env := by
      unfold Slug.hyphenKern
      cases s.last with
      | none => simpa using h.1
      | some c => exact h.2 c
    have := mul_nonneg (div_nonneg this (by norm_num : (0:ℚ) ≤ 1000)) hs'
    linarith
  | mixed segs st =>
    simp only [Box.width, Box.withHyphen, List.map_append, List.sum_append, List.map_cons, List.map_nil, List.sum_cons, List.sum_nil]
    have := hyphen_new_nonneg hh st hs (Box.last (.mixed segs st))
    linarith

/-! ### Lists of words -/

theorem WordsWF.split {a b : List WordLike} : ∀ {s t : State}, WordsWF env (a ++ b) s t → ∃ m, WordsWF env a s m ∧ WordsWF env b m t := by
  induction a with
  | nil => intro s t h; exact ⟨s, rfl, h⟩
  | cons w l ih =>
    intro s t h
    obtain ⟨h1, h2, h3⟩ := h
    obtain ⟨m, h4, h5⟩ := ih h3
    exact ⟨m, ⟨h1, h2, h4⟩, h5⟩

theorem WordsWF.same {w r : WordLike} {rest : List WordLike} {s t : State} (h : WordsWF env (w :: rest) s t) (hs : SameText env w r) :
    WordsWF env (r :: rest) s t := ⟨hs.wf, by rw [hs.pre]; exact h.2.1, by rw [hs.post]; exact h.2.2⟩

theorem WordsWF.single {w : WordLike} {s t : State} (h1 : w.WF env) (h2 : w.preState = s) (h3 : w.state = t) : WordsWF env [w] s t :=
  ⟨h1, h2, h3⟩

/-! ### Boundaries -/

/-- The number of characters. -/
def textLen (ws : List WordLike) : Nat := (ws.flatMap WordLike.styled).length

theorem textLen_append (a b : List WordLike) : textLen (a ++ b) = textLen a + textLen b := by simp [textLen]
theorem textLen_cons (a : WordLike) (b : List WordLike) : textLen (a :: b) = a.styled.length + textLen b := by simp [textLen]

theorem Boundary.le {ws : List WordLike} {n : Nat} (h : Boundary ws n) : n ≤ textLen ws := by
  obtain ⟨x, y, rfl, rfl⟩ := h
  rw [textLen_append]; simp [textLen]

theorem Boundary.zero (ws : List WordLike) : Boundary ws 0 := ⟨ws, [], by simp, by simp⟩
theorem Boundary.all (ws : List WordLike) : Boundary ws (textLen ws) := ⟨[], ws, by simp, rfl⟩

theorem boundary_cons (w : WordLike) (ws : List WordLike) (n : Nat) : Boundary (w :: ws) n ↔ n = textLen (w :: ws) ∨ Boundary ws n := by
  constructor
  · rintro ⟨x, y, e, rfl⟩
    cases x with
    | nil => left; rw [List.nil_append] at e; rw [← e]; rfl
    | cons a x =>
      simp only [List.cons_append, List.cons.injEq] at e
      exact Or.inr ⟨x, y, e.2, rfl⟩
  · rintro (rfl | ⟨x, y, rfl, rfl⟩)
    · exact .all _
    · exact ⟨w :: x, y, rfl, rfl⟩

theorem boundary_append (x y : List WordLike) {n : Nat} (h : n ≤ textLen y) : Boundary (x ++ y) n ↔ Boundary y n := by
  induction x with
  | nil => rfl
  | cons w x ih =>
    rw [List.cons_append, boundary_cons, ih]
    constructor
    · rintro (rfl | h')
      · rw [textLen_cons, textLen_append] at h
        have : textLen (w :: (x ++ y)) = textLen y := by rw [textLen_cons, textLen_append]; omega
        rw [this]; exact .all _
      · exact h'
    · exact Or.inr

/-- What is left after a line: text, states and well-formedness. -/
structure LineOk (env : Env) (ws : List WordLike) (pre fin : State) (r : Option (List WordLike)) (line : List WordLike) : Prop where
  ok : ∃ mid piece, WordsWF env line pre mid ∧ WordsWF env (r.getD []) mid fin ∧
    ws.flatMap WordLike.styled = piece ++ (r.getD []).flatMap WordLike.styled ∧
    ((Boundary ws (textLen (r.getD [])) ∧ (line.flatMap WordLike.styled = piece ∨ ∃ st, piece = line.flatMap WordLike.styled ++ [(' ', st)])) ∨
      (¬ Boundary ws (textLen (r.getD [])) ∧ ∃ st, line.flatMap WordLike.styled = piece ++ [('-', st)]))
  /-- the boundaries of what is left are those of the words -/
  left : ∀ n < textLen (r.getD []), Boundary (r.getD []) n ↔ Boundary ws n
  /-- progress, if all words have text -/
  less : (∀ w ∈ ws, w.styled ≠ []) → r = none ∨ textLen (r.getD []) < textLen ws
  ne : (∀ w ∈ ws, w.styled ≠ []) → ∀ w ∈ r.getD [], w.styled ≠ []

/-- The number of pieces a list of words can be cut into, and of words. -/
def weight (ws : List WordLike) : Nat := (ws.map fun w => w.boxes.length + 1).sum

theorem fillLine_eq : ∀ (ws : List WordLike) (space : ℚ), ∀ content space' r, fillLine ws space = (content, space', r) →
    ws = content ++ (match r with | none => [] | some (w, rest) => w :: rest) ∧
    space' = space - (content.map WordLike.width).sum ∧
    (∀ w rest, r = some (w, rest) → space' < w.prunedWidth) ∧
    (∀ a l b, content = a ++ l :: b → (a.map WordLike.width).sum + l.prunedWidth ≤ space)
  | [], space, content, space', r, h => by
    simp only [fillLine, Prod.mk.injEq] at h
    obtain ⟨rfl, rfl, rfl⟩ := h
    simp
  | w :: ws, space, content, space', r, h => by
    simp only [fillLine] at h
    split at h
    · rename_i hlt
      simp only [Prod.mk.injEq] at h
      obtain ⟨rfl, rfl, rfl⟩ := h
      refine ⟨rfl, by simp, ?_, by simp⟩
      rintro w' rest' e
      simp only [Option.some.injEq, Prod.mk.injEq] at e
      rw [← e.1]; exact hlt
    · rename_i hlt
      obtain ⟨i1, i2, i3, i4⟩ := fillLine_eq ws (space - w.width) _ _ _ rfl
      generalize fillLine ws (space - w.width) = x at *
      obtain ⟨c, s, r0⟩ := x
      simp only [Prod.mk.injEq] at h
      obtain ⟨rfl, rfl, rfl⟩ := h
      simp only at i1 i2 i3 i4
      refine ⟨by rw [i1]; rfl, by rw [i2]; simp; ring, i3, ?_⟩
      intro a l b e
      cases a with
      | nil =>
        simp only [List.nil_append, List.cons.injEq] at e
        rw [← e.1]
        simp only [List.map_nil, List.sum_nil, zero_add]
        exact not_lt.1 hlt
      | cons x a =>
        simp only [List.cons_append, List.cons.injEq] at e
        have := i4 a l b e.2
        rw [← e.1]
        simp only [List.map_cons, List.sum_cons]
        linarith

/-- How a line was ended. -/
inductive Ending (env : Env) (ws : List WordLike) (width : ℚ) (r : Option (List WordLike)) (line : TLine) : Prop
  /-- all words are on it -/
  | all : r = none → line.words = ws → line.width = (ws.map WordLike.width).sum → line.space = 0 →
      (∀ a l b, ws = a ++ l :: b → (a.map WordLike.width).sum + l.prunedWidth ≤ width) → Ending env ws width r line
  /-- it ends with the first part of a word -/
  | cut (content rest : List WordLike) (w a b : WordLike) (k : Nat) : ws = content ++ w :: rest → r = some (b :: rest) →
      line.words = content ++ [a] → width - (content.map WordLike.width).sum < w.prunedWidth →
      w.hyphenate env (width - (content.map WordLike.width).sum) = some (some a, b) →
      CutAt env w a b (width - (content.map WordLike.width).sum) k → Ending env ws width r line
  /-- it ends before a word; the space of the word before it is dropped -/
  | word (content rest : List WordLike) (l w b : WordLike) : ws = content ++ l :: w :: rest → r = some (b :: rest) →
      (line.words = content ++ [l.pruned] ∨ line.words = content ++ [l] ∧ l.prunableSpace = 0) →
      (content.map WordLike.width).sum + l.prunedWidth ≤ width →
      width - ((content ++ [l]).map WordLike.width).sum < w.prunedWidth →
      w.hyphenate env (width - ((content ++ [l]).map WordLike.width).sum) = some (none, b) →
      (w.boxes.length ≤ 1 ∨ ∀ x ∈ w.boxes.head?, width - ((content ++ [l]).map WordLike.width).sum < (x.withHyphen env).width) →
      Ending env ws width r line
  /-- nothing fits: the first piece of the first word is on it -/
  | forced (rest : List WordLike) (w d a : WordLike) : ws = w :: rest → line.words = [a] → width < w.prunedWidth →
      w.hyphenate env width = some (none, d) → (d.minimalBox env).1 = a →
      (((d.minimalBox env).2 = none ∧ (r = some rest ∧ rest ≠ [] ∨ r = none ∧ rest = [])) ∨
        ∃ b, (d.minimalBox env).2 = some b ∧ r = some (b :: rest)) →
      Ending env ws width r line

theorem WordLike.sum_pruned (content : List WordLike) (l : WordLike) :
    ((content ++ [l.pruned]).map WordLike.width).sum = ((content ++ [l]).map WordLike.width).sum - l.prunableSpace := by
  simp only [List.map_append, List.sum_append, List.map_cons, List.map_nil, List.sum_cons, List.sum_nil, WordLike.pruned_width,
    WordLike.width_eq l]
  ring

theorem takeLine_ending {ws : List WordLike} {width : ℚ} {r : Option (List WordLike)} {line : TLine}
    (h : takeLine env ws width = some (r, line)) :
    Ending env ws width r line ∧ line.width = (line.words.map WordLike.width).sum ∧ (r.isSome → line.space = width - line.width) := by
  unfold takeLine at h
  split at h
  · rename_i content space e
    obtain ⟨h1, h2, -, h4⟩ := fillLine_eq _ _ _ _ _ e
    simp only [List.append_nil] at h1
    subst h1
    simp only [Option.some.injEq, Prod.mk.injEq] at h
    obtain ⟨rfl, rfl⟩ := h
    exact ⟨.all rfl rfl (by simp [h2]) rfl h4, by simp [h2], by simp⟩
  · rename_i content space word rest e
    obtain ⟨h1, h2, h3, h4⟩ := fillLine_eq _ _ _ _ _ e
    simp only at h1
    have hlt := h3 word rest rfl
    unfold endLine at h
    split at h
    · simp at h
    · rename_i last dangling eh
      simp only [Option.some.injEq, Prod.mk.injEq] at h
      obtain ⟨rfl, rfl⟩ := h
      rw [h2] at eh hlt
      rcases WordLike.hyphenate_cut eh with ⟨_, e2, -⟩ | ⟨a, b, k, e2, hc⟩
      · simp at e2
      · simp only [Prod.mk.injEq, Option.some.injEq] at e2
        obtain ⟨rfl, rfl⟩ := e2
        refine ⟨.cut content rest word last dangling k h1 rfl rfl hlt eh hc, ?_, ?_⟩
        · simp [h2]; ring
        · simp
    · rename_i dangling eh
      split at h
      · rename_i l el
        obtain ⟨c0, rfl⟩ := List.getLast?_eq_some_iff.1 el
        have hfit := h4 c0 l [] rfl
        rw [h2] at eh hlt
        have hb : word.boxes.length ≤ 1 ∨ ∀ x ∈ word.boxes.head?, width - ((c0 ++ [l]).map WordLike.width).sum < (x.withHyphen env).width := by
          rcases WordLike.hyphenate_cut eh with ⟨_, e2, hb⟩ | ⟨a, b, k, e2, hc⟩
          · exact hb
          · simp at e2
        split at h
        · simp only [Option.some.injEq, Prod.mk.injEq, List.dropLast_concat] at h
          obtain ⟨rfl, rfl⟩ := h
          refine ⟨.word c0 rest l word dangling (by simpa using h1) rfl (Or.inl rfl) hfit hlt eh hb, ?_, ?_⟩
          · simp only [WordLike.sum_pruned, h2]; ring
          · simp
        · rename_i hp
          simp only [Option.some.injEq, Prod.mk.injEq] at h
          obtain ⟨rfl, rfl⟩ := h
          refine ⟨.word c0 rest l word dangling (by simpa using h1) rfl (Or.inr ⟨rfl, not_not.1 hp⟩) hfit hlt eh hb, ?_, ?_⟩
          · simp only [h2]; ring
          · simp
      · rename_i el
        rw [List.getLast?_eq_none_iff] at el
        subst el
        simp only [List.nil_append] at h1
        simp only [List.map_nil, List.sum_nil, sub_zero] at h2
        subst h2
        split at h
        · rename_i w leftover em
          simp only [Option.some.injEq, Prod.mk.injEq] at h
          obtain ⟨rfl, rfl⟩ := h
          refine ⟨.forced rest word dangling w h1 rfl hlt eh (by rw [em]) (Or.inr ⟨leftover, by rw [em], rfl⟩), by simp, by simp⟩
        · rename_i w em
          split at h
          · simp only [Option.some.injEq, Prod.mk.injEq] at h
            obtain ⟨rfl, rfl⟩ := h
            refine ⟨.forced [] word dangling w h1 rfl hlt eh (by rw [em]) (Or.inl ⟨by rw [em], Or.inr ⟨rfl, rfl⟩⟩), by simp, by simp⟩
          · simp only [Option.some.injEq, Prod.mk.injEq] at h
            obtain ⟨rfl, rfl⟩ := h
            refine ⟨.forced _ word dangling w h1 rfl hlt eh (by rw [em]) (Or.inl ⟨by rw [em], Or.inl ⟨rfl, by simp⟩⟩), by simp, by simp⟩

/-! ### Syllables left -/

/-- The states of the syllables. -/
def WordLike.boxStates (w : WordLike) : List State := w.boxes.map Box.state

theorem Box.withoutInitKern_state' (b : Box) : b.withoutInitKern.state = b.state := by
  rcases b with s | ⟨_ | ⟨x, l⟩, st⟩
  · simp only [Box.withoutInitKern, Box.state, Slug.withoutInitKern]; split <;> rfl
  · rfl
  · rfl

theorem WordLike.withoutInitKern_boxStates (w : WordLike) : w.withoutInitKern.boxStates = w.boxStates := by
  induction w with
  | box b => simp [WordLike.boxStates, WordLike.boxes, WordLike.withoutInitKern]
  | word w =>
    obtain ⟨bs, t, st⟩ := w
    cases bs with
    | nil =>
      cases t with
      | none => rfl
      | some t => simp only [WordLike.boxStates, WordLike.boxes, WordLike.withoutInitKern, Word.withoutInitKern]; split <;> rfl
    | cons b bs =>
      simp only [WordLike.boxStates, WordLike.boxes, WordLike.withoutInitKern, Word.withoutInitKern]
      split
      · simp
      · rfl
  | withCmd w c ih => exact ih

theorem hyphenateLoop_rest : ∀ (rest : List Box) (b : Box) (space : ℚ) fit n r st, hyphenateLoop env b rest space = some (fit, n, r, st) →
    (n :: r) <:+ rest
  | [], _, _, _, _, _, _, h => by simp [hyphenateLoop] at h
  | next :: rest, b, space, fit, n, r, st, h => by
    simp only [hyphenateLoop] at h
    split at h
    · simp only [Option.some.injEq, Prod.mk.injEq] at h
      obtain ⟨-, rfl, rfl, -⟩ := h
      exact List.suffix_refl _
    · simp only [Option.map_eq_some_iff, Prod.exists, Prod.mk.injEq] at h
      obtain ⟨fit', n', r', st', h, -, rfl, rfl, -⟩ := h
      exact (hyphenateLoop_rest rest next _ _ _ _ _ h).trans (List.suffix_cons _ _)

theorem WordLike.hyphenate_none_boxStates {space : ℚ} : ∀ {w d : WordLike}, w.hyphenate env space = some (none, d) → d.boxStates = w.boxStates := by
  intro w
  induction w with
  | box b => intro d h; simp [WordLike.hyphenate] at h; rw [← h]
  | word w =>
    intro d h
    simp only [WordLike.hyphenate, Option.map_eq_some_iff, Prod.exists, Prod.mk.injEq, Option.map_eq_none_iff] at h
    obtain ⟨a, b, h, rfl, rfl⟩ := h
    rw [Word.hyphenate_none h]
    exact WordLike.withoutInitKern_boxStates (.word w)
  | withCmd w c ih =>
    intro d h
    simp only [WordLike.hyphenate, Option.map_eq_some_iff, Prod.exists, Prod.mk.injEq] at h
    obtain ⟨a, b, h, rfl, rfl⟩ := h
    have := ih h
    simp only [WordLike.boxStates, WordLike.addCmd_boxes] at *
    exact this

theorem WordLike.hyphenate_some_boxStates {space : ℚ} : ∀ {w a b : WordLike}, w.hyphenate env space = some (some a, b) →
    b.boxStates <:+ w.boxStates ∧ b.boxStates.length < w.boxStates.length := by
  intro w
  induction w with
  | box b => intro a d h; simp [WordLike.hyphenate] at h
  | word w =>
    intro a d h
    simp only [WordLike.hyphenate, Option.map_eq_some_iff, Prod.exists, Prod.mk.injEq] at h
    obtain ⟨a', b', h, ha, rfl⟩ := h
    obtain ⟨bs, t, st⟩ := w
    unfold Word.hyphenate at h
    split at h
    · simp only [Option.some.injEq, Prod.mk.injEq] at h
      rw [← h.1] at ha; simp at ha
    · rename_i b rest eb
      simp only at eb; subst eb
      split at h
      · simp only [Option.some.injEq, Prod.mk.injEq] at h
        rw [← h.1] at ha; simp at ha
      · simp only [Option.map_eq_some_iff, Prod.exists, Prod.mk.injEq] at h
        obtain ⟨fit, n, r, st', h1, h2, rfl⟩ := h
        obtain ⟨p, rfl⟩ := hyphenateLoop_rest _ _ _ _ _ _ _ h1
        simp only [WordLike.boxStates, WordLike.boxes, List.map_cons, Box.withoutInitKern_state', List.map_append, List.length_cons,
          List.length_append, List.length_map]
        exact ⟨⟨b.state :: p.map Box.state, by simp⟩, by omega⟩
  | withCmd w c ih =>
    intro a d h
    simp only [WordLike.hyphenate, Option.map_eq_some_iff, Prod.exists, Prod.mk.injEq] at h
    obtain ⟨a', b, h, rfl, rfl⟩ := h
    have := ih h
    simp only [WordLike.boxStates, WordLike.addCmd_boxes] at *
    exact this

theorem WordLike.minimalBox_some_boxStates : ∀ {w b : WordLike}, (w.minimalBox env).2 = some b →
    b.boxStates <:+ w.boxStates ∧ b.boxStates.length < w.boxStates.length := by
  intro w
  induction w with
  | box b => intro d h; simp [WordLike.minimalBox] at h
  | word w =>
    intro d h
    obtain ⟨bs, t, st⟩ := w
    match bs with
    | [] => simp [WordLike.minimalBox, Word.minimalBox] at h
    | [b] => simp [WordLike.minimalBox, Word.minimalBox] at h
    | b :: b2 :: rest =>
      simp only [WordLike.minimalBox, Word.minimalBox, Option.map_some, Option.some.injEq] at h
      subst h
      simp only [WordLike.boxStates, WordLike.boxes, List.map_cons, Box.withoutInitKern_state', List.length_cons]
      exact ⟨List.suffix_cons _ _, by omega⟩
  | withCmd w c ih =>
    intro d h
    simp only [WordLike.minimalBox] at h
    split at h
    · simp at h
    · rename_i a b e
      simp only [Option.some.injEq] at h
      subst h
      have := ih (b := b) (by rw [e])
      simp only [WordLike.boxStates, WordLike.addCmd_boxes] at *
      exact this

theorem weight_eq (ws : List WordLike) : weight ws = (ws.map fun w => w.boxStates.length + 1).sum := by
  simp [weight, WordLike.boxStates]

theorem weight_append (a b : List WordLike) : weight (a ++ b) = weight a + weight b := by simp [weight]
theorem weight_cons (a : WordLike) (b : List WordLike) : weight (a :: b) = a.boxStates.length + 1 + weight b := by
  simp [weight, WordLike.boxStates]

theorem Ending.weight_lt {ws : List WordLike} {width : ℚ} {r : List WordLike} {line : TLine} (h : Ending env ws width (some r) line) :
    weight r < weight ws := by
  cases h with
  | all h => simp at h
  | cut content rest w a b k h1 h2 h3 h4 h5 h6 =>
    simp only [Option.some.injEq] at h2
    have := (WordLike.hyphenate_some_boxStates h5).2
    rw [h1, h2, weight_append, weight_cons, weight_cons]; omega
  | word content rest l w b h1 h2 h3 h4 h5 h6 h7 =>
    simp only [Option.some.injEq] at h2
    have := WordLike.hyphenate_none_boxStates h6
    rw [h1, h2, weight_append, weight_cons, weight_cons, weight_cons, this]; omega
  | forced rest w d a h1 h2 h3 h4 h5 h6 =>
    have hd := WordLike.hyphenate_none_boxStates h4
    rcases h6 with ⟨h6, h7⟩ | ⟨b, h6, h7⟩
    · rcases h7 with ⟨h7, -⟩ | ⟨h7, -⟩
      · simp only [Option.some.injEq] at h7
        rw [h1, h7, weight_cons]; omega
      · simp at h7
    · simp only [Option.some.injEq] at h7
      have := (WordLike.minimalBox_some_boxStates h6).2
      rw [hd] at this
      rw [h1, h7, weight_cons, weight_cons]; omega

theorem sizesOk_of {w b : WordLike} (h : b.boxStates <:+ w.boxStates) (hw : SizesOk w) : SizesOk b := by
  intro x hx
  have : x.state ∈ w.boxStates := h.mem (List.mem_map_of_mem hx)
  obtain ⟨y, hy, e⟩ := List.mem_map.1 this
  rw [← e]; exact hw y hy

theorem Ending.sizes {ws : List WordLike} {width : ℚ} {r : List WordLike} {line : TLine} (h : Ending env ws width (some r) line)
    (hs : ∀ w ∈ ws, SizesOk w) : ∀ w ∈ r, SizesOk w := by
  cases h with
  | all h => simp at h
  | cut content rest w a b k h1 h2 h3 h4 h5 h6 =>
    simp only [Option.some.injEq] at h2
    subst h1 h2
    intro x hx
    rcases List.mem_cons.1 hx with rfl | hx
    · exact sizesOk_of (WordLike.hyphenate_some_boxStates h5).1 (hs w (by simp))
    · exact hs x (by simp [hx])
  | word content rest l w b h1 h2 h3 h4 h5 h6 h7 =>
    simp only [Option.some.injEq] at h2
    subst h1 h2
    intro x hx
    rcases List.mem_cons.1 hx with rfl | hx
    · exact sizesOk_of (by rw [WordLike.hyphenate_none_boxStates h6]) (hs w (by simp))
    · exact hs x (by simp [hx])
  | forced rest w d a h1 h2 h3 h4 h5 h6 =>
    have hd := WordLike.hyphenate_none_boxStates h4
    subst h1
    rcases h6 with ⟨h6, h7⟩ | ⟨b, h6, h7⟩
    · rcases h7 with ⟨h7, -⟩ | ⟨h7, -⟩
      · simp only [Option.some.injEq] at h7
        subst h7
        intro x hx; exact hs x (by simp [hx])
      · simp at h7
    · simp only [Option.some.injEq] at h7
      subst h7
      intro x hx
      rcases List.mem_cons.1 hx with rfl | hx
      · exact sizesOk_of (by rw [← hd]; exact (WordLike.minimalBox_some_boxStates h6).1) (hs w (by simp))
      · exact hs x (by simp [hx])

theorem takeLine_isSome (hh : HyphenOk env) {ws : List WordLike} (hs : ∀ w ∈ ws, SizesOk w) (width : ℚ) :
    ∃ r line, takeLine env ws width = some (r, line) := by
  unfold takeLine
  split
  · exact ⟨_, _, rfl⟩
  · rename_i content space word rest e
    obtain ⟨h1, h2, h3, h4⟩ := fillLine_eq _ _ _ _ _ e
    simp only at h1
    have hsz : SizesOk word := hs word (by simp [h1])
    obtain ⟨⟨x, d⟩, hx⟩ := WordLike.hyphenate_isSome (fun b hb => Box.withHyphen_le hh b (hsz b hb)) (h3 word rest rfl)
    unfold endLine
    rw [hx]
    cases x with
    | some a => exact ⟨_, _, rfl⟩
    | none =>
      simp only
      repeat' split
      all_goals exact ⟨_, _, rfl⟩

/-- Boundaries after a cut at the end of `x`, when `w` has the text of `b`. -/
theorem boundary_same (x : List WordLike) {w b : WordLike} (h : b.styled = w.styled) (rest : List WordLike) :
    textLen (b :: rest) = textLen (w :: rest) ∧ Boundary (x ++ w :: rest) (textLen (b :: rest)) ∧
      ∀ n < textLen (b :: rest), Boundary (b :: rest) n ↔ Boundary (x ++ w :: rest) n := by
  have e : textLen (b :: rest) = textLen (w :: rest) := by rw [textLen_cons, textLen_cons, h]
  refine ⟨e, by rw [e, boundary_append _ _ le_rfl]; exact .all _, ?_⟩
  intro n hn
  rw [boundary_append _ _ (by omega), boundary_cons, boundary_cons, e]

/-- Boundaries after a cut inside `w`. -/
theorem boundary_inside (x : List WordLike) {w b : WordLike} {l : List (Char × State)} (h : w.styled = l ++ b.styled) (hl : l ≠ [])
    (hb : b.styled ≠ []) (rest : List WordLike) :
    textLen (b :: rest) < textLen (w :: rest) ∧ ¬ Boundary (x ++ w :: rest) (textLen (b :: rest)) ∧
      ∀ n < textLen (b :: rest), Boundary (b :: rest) n ↔ Boundary (x ++ w :: rest) n := by
  have h1 := List.length_pos_iff.2 hl
  have h2 := List.length_pos_iff.2 hb
  have e : textLen (b :: rest) < textLen (w :: rest) := by rw [textLen_cons, textLen_cons, h]; simp; omega
  refine ⟨e, ?_, ?_⟩
  · rw [boundary_append _ _ e.le, boundary_cons]
    rintro (h | h)
    · omega
    · have := h.le
      rw [textLen_cons] at this; omega
  · intro n hn
    rw [boundary_append _ _ (by omega), boundary_cons, boundary_cons]
    constructor
    · rintro (rfl | h)
      · omega
      · exact Or.inr h
    · rintro (rfl | h)
      · omega
      · exact Or.inr h

theorem Ending.lineOk {ws : List WordLike} {width : ℚ} {r : Option (List WordLike)} {line : TLine} {pre fin : State}
    (h : Ending env ws width r line) (hw : WordsWF env ws pre fin) : LineOk env ws pre fin r line.words := by
  cases h with
  | all h1 h2 h3 h4 h5 =>
    subst h1
    rw [h2]
    exact ⟨⟨fin, _, hw, rfl, by simp, Or.inl ⟨.zero _, Or.inl rfl⟩⟩, by simp [textLen], fun _ => Or.inl rfl, by simp⟩
  | cut content rest w a b k h1 h2 h3 h4 h5 h6 =>
    subst h1 h2
    obtain ⟨m, hc, hw1, hw2, hw3⟩ := hw.split
    have sp := WordLike.hyphenate_some hw1 h5
    obtain ⟨l, st, s1, s2, s3, s4⟩ := sp.styled
    obtain ⟨b1, b2, b3⟩ := boundary_inside content s1 s3 s4 rest
    refine ⟨⟨b.preState, content.flatMap WordLike.styled ++ l, ?_, ⟨sp.wf2, rfl, by rw [sp.post]; exact hw3⟩, ?_, Or.inr ⟨b2, st, ?_⟩⟩,
      b3, fun _ => Or.inr ?_, ?_⟩
    · rw [h3]
      exact hc.append (WordsWF.single sp.wf1 (by rw [sp.pre, hw2]) sp.mid)
    · simp [s1]
    · rw [h3]; simp [s2]
    · rw [textLen_append]; simp only [Option.getD_some]; omega
    · intro hn x hx
      rcases List.mem_cons.1 hx with rfl | hx
      · exact s4
      · exact hn x (by simp [hx])
  | word content rest l w b h1 h2 h3 h4 h5 h6 h7 =>
    subst h1 h2
    obtain ⟨m, hc, hl1, hl2, hw⟩ := hw.split
    have sm := WordLike.hyphenate_none hw.1 h6
    have ec : content ++ l :: w :: rest = (content ++ [l]) ++ w :: rest := by simp
    obtain ⟨b1, b2, b3⟩ := boundary_same (content ++ [l]) sm.styled rest
    rw [← ec] at b2 b3
    refine ⟨?_, b3, ?_, ?_⟩
    · rcases h3 with h3 | ⟨h3, -⟩
      · refine ⟨l.state, (content ++ [l]).flatMap WordLike.styled, ?_, hw.same sm, by simp [sm.styled], Or.inl ⟨b2, ?_⟩⟩
        · rw [h3]
          exact hc.append (WordsWF.single (WordLike.pruned_wf hl1) (by rw [WordLike.pruned_preState, hl2]) (WordLike.pruned_state l))
        · rw [h3]
          rcases WordLike.pruned_styled l with h | ⟨st, h⟩
          · exact Or.inl (by simp [h])
          · exact Or.inr ⟨st, by simp [h]⟩
      · refine ⟨l.state, (content ++ [l]).flatMap WordLike.styled, ?_, hw.same sm, by simp [sm.styled], Or.inl ⟨b2, ?_⟩⟩
        · rw [h3]
          exact hc.append (WordsWF.single hl1 hl2 rfl)
        · rw [h3]; exact Or.inl rfl
    · intro hn
      have := List.length_pos_iff.2 (hn l (by simp))
      simp only [Option.getD_some]
      rw [textLen_append, textLen_cons l, ← b1]; right; omega
    · intro hn x hx
      rcases List.mem_cons.1 hx with rfl | hx
      · rw [sm.styled]; exact hn w (by simp)
      · exact hn x (by simp [hx])
  | forced rest w d a h1 h2 h3 h4 h5 h6 =>
    subst h1
    have sm := WordLike.hyphenate_none hw.1 h4
    rw [h2]
    rcases h6 with ⟨h6, h7⟩ | ⟨b, h6, h7⟩
    · obtain ⟨sn, -⟩ := WordLike.minimalBox_none (w := d) (w' := a) sm.wf (Prod.ext h5 h6)
      have hr : r.getD [] = rest := by rcases h7 with ⟨rfl, -⟩ | ⟨rfl, rfl⟩ <;> rfl
      refine ⟨⟨w.state, w.styled, WordsWF.single sn.wf (by rw [sn.pre, sm.pre, hw.2.1]) (by rw [sn.post, sm.post]),
        by rw [hr]; exact hw.2.2, by rw [hr]; simp, Or.inl ⟨?_, Or.inl (by simp [sn.styled, sm.styled])⟩⟩, ?_, ?_, ?_⟩
      · rw [hr, boundary_cons]; exact Or.inr (.all _)
      · intro n hn
        rw [hr] at hn ⊢
        rw [boundary_cons]
        constructor
        · exact Or.inr
        · rintro (rfl | h)
          · rw [textLen_cons] at hn; omega
          · exact h
      · intro hn
        have := List.length_pos_iff.2 (hn w (by simp))
        rw [hr, textLen_cons]; right; omega
      · intro hn x hx
        rw [hr] at hx
        exact hn x (by simp [hx])
    · subst h7
      have sp := WordLike.minimalBox_some (w := d) (a := a) (b := b) sm.wf (Prod.ext h5 h6)
      obtain ⟨l, st, s1, s2, s3, s4⟩ := sp.styled
      rw [sm.styled] at s1
      obtain ⟨b1, b2, b3⟩ := boundary_inside [] s1 s3 s4 rest
      refine ⟨⟨b.preState, l, WordsWF.single sp.wf1 (by rw [sp.pre, sm.pre, hw.2.1]) sp.mid, ⟨sp.wf2, rfl, ?_⟩, by simp [s1],
        Or.inr ⟨b2, st, by simp [s2]⟩⟩, b3, fun _ => Or.inr (by simpa using b1), ?_⟩
      · rw [sp.post, sm.post]; exact hw.2.2
      · intro hn x hx
        rcases List.mem_cons.1 hx with rfl | hx
        · exact s4
        · exact hn x (by simp [hx])

end Pdfje
