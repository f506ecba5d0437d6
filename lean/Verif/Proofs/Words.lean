import Verif.Proofs.Display
import Verif.Proofs.Fonts
/-
Operations on words: they keep words well-formed, and do to the text what they should.
-/

namespace Pdfje

variable {env : Env}

theorem kern_ok (t : Char × Char → ℚ) (s : List Char) (prev : Option Char) : KernOk (kern t s prev) s.length := by
  constructor
  · rw [List.pairwise_map]
    exact (kern_sorted t s prev).imp fun h => le_of_lt h
  · rintro ⟨i, k⟩ h
    obtain ⟨a, b, hb, -⟩ := (mem_kern t s prev i k).1 h
    have := (List.getElem?_eq_some_iff.1 hb).1
    exact le_of_lt this

/-! ### Slugs -/

theorem Slug.new_wf (env : Env) (s : List Char) (st : State) (prev : Option Char) (h : s ≠ []) :
    (Slug.new env s st prev).WF env := by
  refine ⟨h, kern_ok _ _ _, ?_⟩
  simp only [Slug.new, Metrics.width]
  ring

@[simp] theorem Slug.new_state (env : Env) (s : List Char) (st : State) (prev : Option Char) :
    (Slug.new env s st prev).state = st := rfl
@[simp] theorem Slug.new_styled (env : Env) (s : List Char) (st : State) (prev : Option Char) :
    (Slug.new env s st prev).styled = s.map fun c => (c, st) := rfl
@[simp] theorem Slug.new_txt (env : Env) (s : List Char) (st : State) (prev : Option Char) :
    (Slug.new env s st prev).txt = s := rfl

@[simp] theorem Slug.withHyphen_state (s : Slug) : (s.withHyphen env).state = s.state := rfl
@[simp] theorem Slug.withHyphen_styled (s : Slug) : (s.withHyphen env).styled = s.styled ++ [('-', s.state)] := by
  simp [Slug.styled, Slug.withHyphen]

theorem KernOk.snoc {k : List (Nat × ℚ)} {n : Nat} (h : KernOk k n) (x : ℚ) : KernOk (k ++ [(n, x)]) (n + 1) := by
  constructor
  · rw [List.map_append, List.pairwise_append]
    refine ⟨h.1, by simp, ?_⟩
    intro a ha b hb
    simp at hb; subst hb
    obtain ⟨e, he, rfl⟩ := List.mem_map.1 ha
    exact h.2 e he
  · intro e he
    rcases List.mem_append.1 he with he | he
    · exact Nat.le_succ_of_le (h.2 e he)
    · simp at he; subst he; simp

theorem KernOk.mono {k : List (Nat × ℚ)} {n m : Nat} (h : KernOk k n) (hm : n ≤ m) : KernOk k m :=
  ⟨h.1, fun e he => (h.2 e he).trans hm⟩

theorem Slug.withHyphen_wf {s : Slug} (h : s.WF env) : (s.withHyphen env).WF env := by
  simp only [Slug.withHyphen]
  generalize s.hyphenKern env = k
  by_cases hk : k = 0
  · subst hk
    simp only [ne_eq, not_true_eq_false, if_false]
    refine ⟨by simp, h.kern.mono (by simp), ?_⟩
    simp only [h.width, List.map_append, List.sum_append, List.map_cons, List.map_nil, List.sum_cons, List.sum_nil]
    ring
  · simp only [ne_eq, hk, not_false_eq_true, if_true]
    refine ⟨by simp, by simpa using h.kern.snoc k, ?_⟩
    simp only [h.width, List.map_append, List.sum_append, List.map_cons, List.map_nil, List.sum_cons, List.sum_nil]
    ring

@[simp] theorem Slug.withoutInitKern_state (s : Slug) : s.withoutInitKern.state = s.state := by
  unfold Slug.withoutInitKern; split <;> rfl
@[simp] theorem Slug.withoutInitKern_txt (s : Slug) : s.withoutInitKern.txt = s.txt := by
  unfold Slug.withoutInitKern; split <;> rfl
@[simp] theorem Slug.withoutInitKern_styled (s : Slug) : s.withoutInitKern.styled = s.styled := by
  simp [Slug.styled]

theorem Slug.withoutInitKern_wf {s : Slug} (h : s.WF env) : s.withoutInitKern.WF env := by
  unfold Slug.withoutInitKern
  split
  · rename_i k rest hk
    refine ⟨h.ne, ?_, ?_⟩
    · have := h.kern; rw [hk] at this; exact this.tail
    · simp only [h.width, hk, List.map_cons, List.sum_cons]; ring
  · exact h

@[simp] theorem Slug.indent_state (s : Slug) (a : ℚ) : (s.indent a).state = s.state := by
  unfold Slug.indent; split <;> rfl
@[simp] theorem Slug.indent_txt (s : Slug) (a : ℚ) : (s.indent a).txt = s.txt := by
  unfold Slug.indent; split <;> rfl
@[simp] theorem Slug.indent_styled (s : Slug) (a : ℚ) : (s.indent a).styled = s.styled := by
  simp [Slug.styled]
theorem Slug.indent_width (s : Slug) (a : ℚ) : (s.indent a).width = s.width + a := by
  unfold Slug.indent; split
  · rename_i h; simp [h]
  · rfl

theorem Slug.indent_wf {s : Slug} (h : s.WF env) (hz : s.state.size ≠ 0) (a : ℚ) : (s.indent a).WF env := by
  unfold Slug.indent
  split
  · exact h
  · refine ⟨h.ne, ⟨?_, ?_⟩, ?_⟩
    · simp only [List.map_cons, List.pairwise_cons]; exact ⟨by simp, h.kern.1⟩
    · intro e he
      simp only [List.mem_cons] at he
      rcases he with rfl | he
      · simp
      · exact h.kern.2 e he
    · simp only [h.width, List.map_cons, List.sum_cons]
      field_simp
      ring

/-! ### Boxes -/

theorem segsWF_ne {segs : List (Slug × Command)} {fin : State} (h : SegsWF env segs fin) : segs ≠ [] := by
  intro e; subst e; exact h

theorem segsWF_head {s s' : Slug} {c : Command} {rest : List (Slug × Command)} {fin : State} (hs : s.WF env → s'.WF env)
    (e : s'.state = s.state) (h : SegsWF env ((s, c) :: rest) fin) : SegsWF env ((s', c) :: rest) fin := by
  cases rest with
  | nil => exact ⟨hs h.1, by rw [e]; exact h.2⟩
  | cons a l => obtain ⟨s2, c2⟩ := a; exact ⟨hs h.1, by rw [e]; exact h.2.1, h.2.2⟩

theorem segsWF_cons {s : Slug} {c : Command} {rest : List (Slug × Command)} {fin : State} (hs : s.WF env)
    (hr : SegsWF env rest fin) (hc : ∀ e ∈ rest.head?, c.apply s.state = e.1.state) : SegsWF env ((s, c) :: rest) fin := by
  cases rest with
  | nil => exact absurd hr (by simp [SegsWF])
  | cons a l => obtain ⟨s2, c2⟩ := a; exact ⟨hs, hc (s2, c2) (by simp), hr⟩

theorem segsWF_snoc {s : Slug} (hs : s.WF env) : ∀ {segs : List (Slug × Command)} {fin : State},
    SegsWF env segs fin → s.state = fin → SegsWF env (segs ++ [(s, .noop)]) fin
  | [], _, h, _ => absurd h (by simp [SegsWF])
  | [(s1, c1)], fin, h, e => ⟨h.1, by rw [h.2, e], hs, by simp [Command.apply, e]⟩
  | (s1, c1) :: (s2, c2) :: rest, fin, h, e => by
    have := segsWF_snoc hs (segs := (s2, c2) :: rest) h.2.2 e
    exact ⟨h.1, h.2.1, this⟩

theorem Box.styled_ne {b : Box} (h : b.WF env) : b.styled ≠ [] := by
  cases b with
  | slug s => have := h.ne; simpa [Box.styled, Slug.styled] using this
  | mixed segs st =>
    cases segs with
    | nil => exact absurd h (by simp [Box.WF, SegsWF])
    | cons a l =>
      obtain ⟨s, c⟩ := a
      have : s.WF env := by cases l with | nil => exact h.1 | cons b l => obtain ⟨s2, c2⟩ := b; exact h.1
      have := this.ne
      simp [Box.styled, Slug.styled, this]

theorem Box.withHyphen_wf {b : Box} (h : b.WF env) : (b.withHyphen env).WF env := by
  cases b with
  | slug s => exact Slug.withHyphen_wf h
  | mixed segs st => exact segsWF_snoc (Slug.new_wf env ['-'] st _ (by simp)) h rfl

@[simp] theorem Box.withHyphen_state (b : Box) : (b.withHyphen env).state = b.state := by cases b <;> rfl
@[simp] theorem Box.withHyphen_styled (b : Box) : (b.withHyphen env).styled = b.styled ++ [('-', b.state)] := by
  cases b with
  | slug s => simp [Box.styled, Box.withHyphen, Box.state]
  | mixed segs st => simp [Box.styled, Box.withHyphen, Box.state]
theorem Box.withHyphen_preState {b : Box} (h : b.WF env) : (b.withHyphen env).preState = b.preState := by
  cases b with
  | slug s => rfl
  | mixed segs st =>
    cases segs with
    | nil => exact absurd h (by simp [Box.WF, SegsWF])
    | cons a l => rfl

theorem Box.withoutInitKern_wf {b : Box} (h : b.WF env) : b.withoutInitKern.WF env := by
  cases b with
  | slug s => exact Slug.withoutInitKern_wf h
  | mixed segs st =>
    cases segs with
    | nil => exact h
    | cons a l => exact segsWF_head Slug.withoutInitKern_wf (by simp) h

@[simp] theorem Box.withoutInitKern_state (b : Box) : b.withoutInitKern.state = b.state := by
  rcases b with s | ⟨_ | ⟨a, l⟩, st⟩ <;> simp [Box.withoutInitKern, Box.state]
@[simp] theorem Box.withoutInitKern_preState (b : Box) : b.withoutInitKern.preState = b.preState := by
  rcases b with s | ⟨_ | ⟨a, l⟩, st⟩ <;> simp [Box.withoutInitKern, Box.preState]
@[simp] theorem Box.withoutInitKern_styled (b : Box) : b.withoutInitKern.styled = b.styled := by
  rcases b with s | ⟨_ | ⟨a, l⟩, st⟩ <;> simp [Box.withoutInitKern, Box.styled]

theorem Box.indent_wf {b : Box} (h : b.WF env) (hz : NonZero b.styled) (a : ℚ) : (b.indent a).WF env := by
  have key : ∀ s : Slug, s.WF env → NonZero s.styled → s.state.size ≠ 0 := by
    intro s hs hz
    obtain ⟨c, t, e⟩ := List.exists_cons_of_ne_nil hs.ne
    exact hz (c, s.state) (by simp [Slug.styled, e])
  cases b with
  | slug s => exact Slug.indent_wf h (key s h hz) a
  | mixed segs st =>
    cases segs with
    | nil => exact h
    | cons x l =>
      obtain ⟨s, c⟩ := x
      simp only [Box.indent]
      split
      · exact h
      · apply segsWF_head (fun hs => Slug.indent_wf hs (key s hs ?_) a) (by simp) h
        intro e he
        exact hz e (by simp [Box.styled, he])

@[simp] theorem Box.indent_state (b : Box) (a : ℚ) : (b.indent a).state = b.state := by
  rcases b with s | ⟨_ | ⟨x, l⟩, st⟩ <;> simp only [Box.indent] <;> try split
  all_goals simp [Box.state]
@[simp] theorem Box.indent_preState (b : Box) (a : ℚ) : (b.indent a).preState = b.preState := by
  rcases b with s | ⟨_ | ⟨x, l⟩, st⟩ <;> simp only [Box.indent] <;> try split
  all_goals simp [Box.preState]
@[simp] theorem Box.indent_styled (b : Box) (a : ℚ) : (b.indent a).styled = b.styled := by
  rcases b with s | ⟨_ | ⟨x, l⟩, st⟩ <;> simp only [Box.indent] <;> try split
  all_goals simp [Box.styled]
theorem Box.indent_width {b : Box} (h : b.WF env) (a : ℚ) : (b.indent a).width = b.width + a := by
  rcases b with s | ⟨_ | ⟨x, l⟩, st⟩
  · exact s.indent_width a
  · exact absurd h (by simp [Box.WF, SegsWF])
  · simp only [Box.indent]
    split
    · rename_i e; simp [e]
    · simp only [Box.width, List.map_cons, List.sum_cons, Slug.indent_width]; ring

/-! ### Lists of boxes -/

theorem boxesWF_cons {b : Box} {rest : List Box} {fin : State} (hb : b.WF env) (h0 : rest = [] → b.state = fin)
    (h1 : ∀ b' ∈ rest.head?, b.state = b'.preState) (hr : BoxesWF env rest fin) : BoxesWF env (b :: rest) fin := by
  cases rest with
  | nil => exact ⟨hb, h0 rfl⟩
  | cons b' l => exact ⟨hb, h1 b' (by simp), hr⟩

theorem boxesWF_head {b : Box} {rest : List Box} {fin : State} (h : BoxesWF env (b :: rest) fin) : b.WF env := by
  cases rest with
  | nil => exact h.1
  | cons b' l => exact h.1

theorem boxesWF_tail {b : Box} {rest : List Box} {fin : State} (h : BoxesWF env (b :: rest) fin) : BoxesWF env rest fin := by
  cases rest with
  | nil => trivial
  | cons b' l => exact h.2.2

theorem boxesWF_replace {b c : Box} {rest : List Box} {fin : State} (hc : c.WF env) (e : c.state = b.state)
    (h : BoxesWF env (b :: rest) fin) : BoxesWF env (c :: rest) fin := by
  cases rest with
  | nil => exact ⟨hc, by rw [e]; exact h.2⟩
  | cons b' l => exact ⟨hc, by rw [e]; exact h.2.1, h.2.2⟩

theorem boxesWF_mem {bs : List Box} : ∀ {fin : State}, BoxesWF env bs fin → ∀ b ∈ bs, b.WF env := by
  induction bs with
  | nil => intro _ _ b hb; simp at hb
  | cons a l ih =>
    intro fin h b hb
    rcases List.mem_cons.1 hb with rfl | hb
    · exact boxesWF_head h
    · exact ih (boxesWF_tail h) b hb

/-! ### Words -/

@[simp] theorem Word.withoutInitKern_state (w : Word) : w.withoutInitKern.state = w.state := by
  unfold Word.withoutInitKern; repeat' split
  all_goals rfl

@[simp] theorem Word.withoutInitKern_styled (w : Word) : w.withoutInitKern.styled = w.styled := by
  obtain ⟨bs, t, st⟩ := w
  unfold Word.withoutInitKern
  cases bs with
  | cons b rest =>
    dsimp only; split
    · simp [Word.styled]
    · rfl
  | nil =>
    cases t with
    | none => rfl
    | some t => dsimp only; split <;> rfl

@[simp] theorem Word.withoutInitKern_preState (w : Word) : w.withoutInitKern.preState = w.preState := by
  obtain ⟨bs, t, st⟩ := w
  unfold Word.withoutInitKern
  cases bs with
  | cons b rest => dsimp only; split <;> simp [Word.preState]
  | nil =>
    cases t with
    | none => rfl
    | some t => dsimp only; split <;> rfl

theorem Word.withoutInitKern_wf {w : Word} (h : w.WF env) : w.withoutInitKern.WF env := by
  obtain ⟨bs, t, st⟩ := w
  obtain ⟨hb, ht⟩ := h
  unfold Word.withoutInitKern
  cases bs with
  | cons b rest =>
    dsimp only; split
    · exact ⟨boxesWF_replace (Box.withoutInitKern_wf (boxesWF_head hb)) (by simp) hb, ht⟩
    · exact ⟨hb, ht⟩
  | nil =>
    cases t with
    | none => exact ⟨hb, ht⟩
    | some t =>
      dsimp only; split
      · refine ⟨hb, ?_⟩
        intro t' h'
        simp at h'; subst h'
        exact ht t (by simp)
      · exact ⟨hb, ht⟩

theorem TailOk.stretch {t : TrailingSpace} {st : State} (h : TailOk env t st) (a : ℚ) : TailOk env (t.stretch a st) st := h

theorem TailOk.stretch_width {t : TrailingSpace} {st : State} (h : TailOk env t st) (hz : st.size ≠ 0) (a : ℚ) :
    (t.stretch a st).width = t.width + a := by
  simp only [TrailingSpace.stretch, TrailingSpace.width, h.2]
  field_simp
  ring

theorem TrailingSpace.make_ok (st : State) (prev : Option Char) : TailOk env (TrailingSpace.make env st prev) st :=
  ⟨rfl, rfl⟩

@[simp] theorem Word.indent_state (w : Word) (a : ℚ) : (w.indent a).state = w.state := by
  unfold Word.indent; repeat' split
  all_goals rfl
@[simp] theorem Word.indent_styled (w : Word) (a : ℚ) : (w.indent a).styled = w.styled := by
  obtain ⟨bs, t, st⟩ := w
  unfold Word.indent; split
  · rfl
  · cases bs with
    | cons b rest => simp [Word.styled]
    | nil => cases t <;> rfl
@[simp] theorem Word.indent_preState (w : Word) (a : ℚ) : (w.indent a).preState = w.preState := by
  obtain ⟨bs, t, st⟩ := w
  unfold Word.indent; split
  · rfl
  · cases bs with
    | cons b rest => simp [Word.preState]
    | nil => cases t <;> rfl

theorem Word.indent_wf {w : Word} (h : w.WF env) (hz : NonZero w.styled) (a : ℚ) : (w.indent a).WF env := by
  obtain ⟨bs, t, st⟩ := w
  obtain ⟨hb, ht⟩ := h
  unfold Word.indent
  split
  · exact ⟨hb, ht⟩
  · cases bs with
    | cons b rest =>
      refine ⟨boxesWF_replace (Box.indent_wf (boxesWF_head hb) ?_ a) (by simp) hb, ht⟩
      intro e he
      exact hz e (by simp [Word.styled, he])
    | nil =>
      cases t with
      | none => exact ⟨hb, ht⟩
      | some t =>
        refine ⟨hb, ?_⟩
        intro t' h'
        simp at h'; subst h'
        exact (ht t (by simp)).stretch a

theorem Word.indent_width {w : Word} (h : w.WF env) (hne : w.styled ≠ []) (hz : NonZero w.styled) (a : ℚ) :
    (w.indent a).width = w.width + a := by
  obtain ⟨bs, t, st⟩ := w
  obtain ⟨hb, ht⟩ := h
  unfold Word.indent
  split
  · rename_i e; simp [e]
  · cases bs with
    | cons b rest =>
      simp only [Word.width, Word.prunedWidth, Word.prunableSpace, List.map_cons, List.sum_cons,
        Box.indent_width (boxesWF_head hb)]
      ring
    | nil =>
      cases t with
      | none => simp [Word.styled] at hne
      | some t =>
        have hz' : st.size ≠ 0 := hz (' ', st) (by simp [Word.styled])
        simp only [Word.width, Word.prunedWidth, Word.prunableSpace, (ht t (by simp)).stretch_width hz']
        ring

@[simp] theorem Word.extendTail_styled (w : Word) (a : ℚ) : (w.extendTail a).styled = w.styled := by
  obtain ⟨bs, t, st⟩ := w
  cases t with
  | none => rfl
  | some t => simp only [Word.extendTail]; split <;> rfl
@[simp] theorem Word.extendTail_state (w : Word) (a : ℚ) : (w.extendTail a).state = w.state := by
  unfold Word.extendTail; repeat' split
  all_goals rfl
@[simp] theorem Word.extendTail_preState (w : Word) (a : ℚ) : (w.extendTail a).preState = w.preState := by
  unfold Word.extendTail; repeat' split
  all_goals rfl
theorem Word.extendTail_wf {w : Word} (h : w.WF env) (a : ℚ) : (w.extendTail a).WF env := by
  unfold Word.extendTail
  split
  · rename_i t ht
    split
    · exact h
    · refine ⟨h.boxes, ?_⟩
      intro t' h'
      simp at h'; subst h'
      exact (h.tail t (by simp [ht])).stretch a
  · exact h

theorem Word.extendTail_width {w : Word} (h : w.WF env) (hz : NonZero w.styled) (a : ℚ) :
    (w.extendTail a).width = if w.tail.isSome then w.width + a else w.width := by
  obtain ⟨bs, t, st⟩ := w
  cases t with
  | none => rfl
  | some t =>
    simp only [Word.extendTail, Option.isSome_some, if_true]
    split
    · rename_i e; simp [e]
    · have hz' : st.size ≠ 0 := hz (' ', st) (by simp [Word.styled])
      simp only [Word.width, Word.prunedWidth, Word.prunableSpace, (h.tail t (by simp)).stretch_width hz']
      ring

@[simp] theorem Word.stretchTail_styled (w : Word) (a : ℚ) : (w.stretchTail a).styled = w.styled := by
  obtain ⟨bs, t, st⟩ := w
  cases t with
  | none => rfl
  | some t => simp only [Word.stretchTail]; split <;> rfl
@[simp] theorem Word.stretchTail_state (w : Word) (a : ℚ) : (w.stretchTail a).state = w.state := by
  unfold Word.stretchTail; repeat' split
  all_goals rfl
@[simp] theorem Word.stretchTail_preState (w : Word) (a : ℚ) : (w.stretchTail a).preState = w.preState := by
  unfold Word.stretchTail; repeat' split
  all_goals rfl
theorem Word.stretchTail_wf {w : Word} (h : w.WF env) (a : ℚ) : (w.stretchTail a).WF env := by
  unfold Word.stretchTail
  split
  · rename_i t ht
    split
    · exact h
    · refine ⟨h.boxes, ?_⟩
      intro t' h'
      simp at h'; subst h'
      exact (h.tail t (by simp [ht])).stretch _
  · exact h

theorem Word.pruned_wf {w : Word} (h : w.WF env) : w.pruned.WF env := by
  unfold Word.pruned
  split
  · exact ⟨h.boxes, by simp⟩
  · exact h
@[simp] theorem Word.pruned_state (w : Word) : w.pruned.state = w.state := by
  unfold Word.pruned; split <;> rfl
@[simp] theorem Word.pruned_preState (w : Word) : w.pruned.preState = w.preState := by
  unfold Word.pruned; split <;> rfl
theorem Word.pruned_width (w : Word) : w.pruned.width = w.prunedWidth := by
  obtain ⟨bs, t, st⟩ := w
  cases t <;> simp [Word.pruned, Word.width, Word.prunedWidth, Word.prunableSpace]
theorem Word.pruned_styled (w : Word) : w.styled = w.pruned.styled ∨ ∃ st, w.styled = w.pruned.styled ++ [(' ', st)] := by
  obtain ⟨bs, t, st⟩ := w
  cases t with
  | none => left; rfl
  | some t => right; exact ⟨st, by simp [Word.pruned, Word.styled]⟩

theorem Word.minimalBox_none {w w' : Word} (h : w.minimalBox env = (w', none)) : w' = w := by
  obtain ⟨bs, t, st⟩ := w
  unfold Word.minimalBox at h
  split at h
  · simp at h
  · simp at h; exact h.symm

theorem Word.minimalBox_some {w a b : Word} (hw : w.WF env) (h : w.minimalBox env = (a, some b)) :
    a.WF env ∧ b.WF env ∧ a.preState = w.preState ∧ a.state = b.preState ∧ b.state = w.state ∧
    ∃ l st, w.styled = l ++ b.styled ∧ a.styled = l ++ [('-', st)] ∧ l ≠ [] ∧ (b.styled ≠ []) := by
  obtain ⟨bs, t, st⟩ := w
  obtain ⟨hb, ht⟩ := hw
  unfold Word.minimalBox at h
  split at h
  · rename_i b1 b2 rest e
    simp only at e; subst e
    simp only [Prod.mk.injEq, Option.some.injEq] at h
    obtain ⟨rfl, rfl⟩ := h
    obtain ⟨h1, h2, h3⟩ := hb
    refine ⟨⟨⟨Box.withHyphen_wf h1, by simp⟩, by simp⟩,
      ⟨boxesWF_replace (Box.withoutInitKern_wf (boxesWF_head h3)) (by simp) h3, ht⟩, ?_, ?_, rfl, ?_⟩
    · simp [Word.preState, Box.withHyphen_preState h1]
    · simp [Word.preState, h2]
    · refine ⟨b1.styled, b1.state, by simp [Word.styled], by simp [Word.styled], Box.styled_ne h1, ?_⟩
      have := Box.styled_ne (boxesWF_head h3)
      simp [Word.styled, this]
  · simp at h

theorem hyphenateLoop_spec : ∀ (rest : List Box) (b : Box) (fin : State) (space : ℚ) (fit : List Box) (n : Box)
    (r : List Box) (st : State), BoxesWF env (b :: rest) fin → hyphenateLoop env b rest space = some (fit, n, r, st) →
    ∃ pre l, b :: rest = pre ++ [l] ++ n :: r ∧ fit = pre ++ [l.withHyphen env] ∧ st = l.state ∧
      BoxesWF env fit st ∧ BoxesWF env (n :: r) fin ∧ l.state = n.preState ∧ (∀ x ∈ fit.head?, x.preState = b.preState)
  | [], _, _, _, _, _, _, _, _, h => by simp [hyphenateLoop] at h
  | next :: rest, b, fin, space, fit, n, r, st, hb, h => by
    simp only [hyphenateLoop] at h
    obtain ⟨h1, h2, h3⟩ := hb
    split at h
    · simp only [Option.some.injEq, Prod.mk.injEq] at h
      obtain ⟨rfl, rfl, rfl, rfl⟩ := h
      refine ⟨[], b, by simp, by simp, rfl, ⟨Box.withHyphen_wf h1, by simp⟩, h3, h2, ?_⟩
      intro x hx
      simp at hx; subst hx
      exact Box.withHyphen_preState h1
    · simp only [Option.map_eq_some_iff, Prod.exists, Prod.mk.injEq] at h
      obtain ⟨fit', n', r', st', h, rfl, rfl, rfl, rfl⟩ := h
      obtain ⟨pre, l, e1, e2, e3, e4, e5, e6, e7⟩ := hyphenateLoop_spec rest next fin _ _ _ _ _ h3 h
      refine ⟨b :: pre, l, by simp [e1], by simp [e2], e3, ?_, e5, e6, by simp⟩
      apply boxesWF_cons h1 ?_ ?_ e4
      · intro e; simp [e2] at e
      · intro x hx
        rw [e7 x hx]; exact h2

theorem Word.hyphenate_none {w r : Word} {space : ℚ} (h : w.hyphenate env space = some (none, r)) : r = w.withoutInitKern := by
  unfold Word.hyphenate at h
  split at h
  · simp at h; exact h.symm
  · split at h
    · simp at h; exact h.symm
    · simp at h

theorem Word.hyphenate_some {w a b : Word} {space : ℚ} (hw : w.WF env) (h : w.hyphenate env space = some (some a, b)) :
    a.WF env ∧ b.WF env ∧ a.preState = w.preState ∧ a.state = b.preState ∧ b.state = w.state ∧
    ∃ l st, w.styled = l ++ b.styled ∧ a.styled = l ++ [('-', st)] ∧ l ≠ [] ∧ (b.styled ≠ []) := by
  obtain ⟨bs, t, st⟩ := w
  obtain ⟨hb, ht⟩ := hw
  unfold Word.hyphenate at h
  split at h
  · simp at h
  · rename_i b1 rest e
    simp only at e; subst e
    split at h
    · simp at h
    · simp only [Option.map_eq_some_iff, Prod.exists, Prod.mk.injEq, Option.some.injEq] at h
      obtain ⟨fit, n, r, st', h, rfl, rfl⟩ := h
      obtain ⟨pre, l, e1, e2, e3, e4, e5, e6, e7⟩ := hyphenateLoop_spec rest b1 st _ _ _ _ _ hb h
      refine ⟨⟨e4, by simp⟩, ⟨boxesWF_replace (Box.withoutInitKern_wf (boxesWF_head e5)) (by simp) e5, ht⟩, ?_, ?_, rfl, ?_⟩
      · cases fit with
        | nil => simp at e2
        | cons x xs => simp [Word.preState, e7 x (by simp)]
      · simp [Word.preState, e3, e6]
      · have hl : l.WF env := boxesWF_mem hb l (by rw [e1]; simp)
        refine ⟨pre.flatMap Box.styled ++ l.styled, l.state, ?_, ?_, ?_, ?_⟩
        · simp [Word.styled, e1]
        · simp [Word.styled, e2]
        · simp [Box.styled_ne hl]
        · have := Box.styled_ne (boxesWF_head e5)
          simp [Word.styled, this]

/-! ### Word-like -/

/-- `r` is well-formed and has the same text in the same states as `w`. -/
structure SameText (env : Env) (w r : WordLike) : Prop where
  wf : r.WF env
  styled : r.styled = w.styled
  pre : r.preState = w.preState
  post : r.state = w.state

/-- `w` is broken in `a`, which ends in a hyphen, and `b`. -/
structure SplitAs (env : Env) (w a b : WordLike) : Prop where
  wf1 : a.WF env
  wf2 : b.WF env
  pre : a.preState = w.preState
  mid : a.state = b.preState
  post : b.state = w.state
  styled : ∃ l st, w.styled = l ++ b.styled ∧ a.styled = l ++ [('-', st)] ∧ l ≠ [] ∧ b.styled ≠ []

theorem SameText.refl {w : WordLike} (h : w.WF env) : SameText env w w := ⟨h, rfl, rfl, rfl⟩

@[simp] theorem WordLike.addCmd_styled (w : WordLike) (c : Command) : (w.addCmd c).styled = w.styled := by
  cases c <;> rfl
@[simp] theorem WordLike.addCmd_state (w : WordLike) (c : Command) : (w.addCmd c).state = c.apply w.state := by
  cases c <;> rfl
@[simp] theorem WordLike.addCmd_preState (w : WordLike) (c : Command) : (w.addCmd c).preState = w.preState := by
  cases c <;> rfl
@[simp] theorem WordLike.addCmd_width (w : WordLike) (c : Command) : (w.addCmd c).width = w.width := by
  cases c <;> rfl
@[simp] theorem WordLike.addCmd_tail (w : WordLike) (c : Command) : (w.addCmd c).tail = w.tail := by
  cases c <;> rfl
@[simp] theorem WordLike.addCmd_boxes (w : WordLike) (c : Command) : (w.addCmd c).boxes = w.boxes := by
  cases c <;> rfl
theorem WordLike.addCmd_wf {w : WordLike} (h : w.WF env) (c : Command) : (w.addCmd c).WF env := by
  cases c <;> exact h

theorem SameText.addCmd {w r : WordLike} (h : SameText env w r) (c : Command) : SameText env (w.withCmd c) (r.addCmd c) :=
  ⟨WordLike.addCmd_wf h.wf c, by simp [h.styled, WordLike.styled], by simp [h.pre, WordLike.preState],
    by simp [h.post, WordLike.state]⟩
theorem SameText.withCmd {w r : WordLike} (h : SameText env w r) (c : Command) : SameText env (w.withCmd c) (r.withCmd c) :=
  ⟨h.wf, h.styled, h.pre, by simp [h.post, WordLike.state]⟩

theorem WordLike.withoutInitKern_same : ∀ {w : WordLike}, w.WF env → SameText env w w.withoutInitKern
  | .box b, h => ⟨Box.withoutInitKern_wf h, by simp [WordLike.withoutInitKern, WordLike.styled],
      by simp [WordLike.withoutInitKern, WordLike.preState], by simp [WordLike.withoutInitKern, WordLike.state]⟩
  | .word w, h => ⟨Word.withoutInitKern_wf h, by simp [WordLike.withoutInitKern, WordLike.styled],
      by simp [WordLike.withoutInitKern, WordLike.preState], by simp [WordLike.withoutInitKern, WordLike.state]⟩
  | .withCmd w c, h => (WordLike.withoutInitKern_same (w := w) h).withCmd c

theorem WordLike.indent_same (a : ℚ) : ∀ {w : WordLike}, w.WF env → NonZero w.styled → SameText env w (w.indent a)
  | .box b, h, hz => ⟨Box.indent_wf h hz a, by simp [WordLike.indent, WordLike.styled],
      by simp [WordLike.indent, WordLike.preState], by simp [WordLike.indent, WordLike.state]⟩
  | .word w, h, hz => ⟨Word.indent_wf h hz a, by simp [WordLike.indent, WordLike.styled],
      by simp [WordLike.indent, WordLike.preState], by simp [WordLike.indent, WordLike.state]⟩
  | .withCmd w c, h, hz => by
    simp only [WordLike.indent]
    split
    · exact .refl h
    · exact (WordLike.indent_same a (w := w) h hz).withCmd c

theorem WordLike.indent_width (a : ℚ) : ∀ {w : WordLike}, w.WF env → w.styled ≠ [] → NonZero w.styled →
    (w.indent a).width = w.width + a
  | .box b, h, _, _ => Box.indent_width h a
  | .word w, h, hne, hz => Word.indent_width h hne hz a
  | .withCmd w c, h, hne, hz => by
    simp only [WordLike.indent]
    split
    · rename_i e; simp [e]
    · exact WordLike.indent_width a (w := w) h hne hz

theorem WordLike.extendTail_same (a : ℚ) : ∀ {w : WordLike}, w.WF env → SameText env w (w.extendTail a)
  | .box b, h => .refl h
  | .word w, h => ⟨Word.extendTail_wf h a, by simp [WordLike.extendTail, WordLike.styled],
      by simp [WordLike.extendTail, WordLike.preState], by simp [WordLike.extendTail, WordLike.state]⟩
  | .withCmd w c, h => by
    simp only [WordLike.extendTail]
    split
    · exact (WordLike.extendTail_same a (w := w) h).withCmd c
    · exact .refl h

theorem WordLike.extendTail_width (a : ℚ) : ∀ {w : WordLike}, w.WF env → NonZero w.styled →
    (w.extendTail a).width = if w.tail.isSome then w.width + a else w.width
  | .box b, h, _ => by simp [WordLike.extendTail, WordLike.tail]
  | .word w, h, hz => Word.extendTail_width h hz a
  | .withCmd w c, h, hz => by
    simp only [WordLike.extendTail]
    split
    · exact WordLike.extendTail_width a (w := w) h hz
    · rename_i hn
      simp only [ne_eq, not_and_or, not_not] at hn
      rcases hn with hn | hn
      · simp [WordLike.tail, hn]
      · simp [hn]

theorem WordLike.stretchTail_same (a : ℚ) : ∀ {w : WordLike}, w.WF env → SameText env w (w.stretchTail a)
  | .box b, h => .refl h
  | .word w, h => ⟨Word.stretchTail_wf h a, by simp [WordLike.stretchTail, WordLike.styled],
      by simp [WordLike.stretchTail, WordLike.preState], by simp [WordLike.stretchTail, WordLike.state]⟩
  | .withCmd w c, h => by
    simp only [WordLike.stretchTail]
    split
    · exact (WordLike.stretchTail_same a (w := w) h).withCmd c
    · exact .refl h

theorem WordLike.pruned_wf : ∀ {w : WordLike}, w.WF env → w.pruned.WF env
  | .box _, h => h
  | .word _, h => Word.pruned_wf h
  | .withCmd w _, h => WordLike.pruned_wf (w := w) h
theorem WordLike.pruned_state : ∀ w : WordLike, w.pruned.state = w.state
  | .box _ => rfl
  | .word w => w.pruned_state
  | .withCmd w c => by simp [WordLike.pruned, WordLike.state, w.pruned_state]
theorem WordLike.pruned_preState : ∀ w : WordLike, w.pruned.preState = w.preState
  | .box _ => rfl
  | .word w => w.pruned_preState
  | .withCmd w c => by simp [WordLike.pruned, WordLike.preState, w.pruned_preState]
theorem WordLike.pruned_width : ∀ w : WordLike, w.pruned.width = w.prunedWidth
  | .box _ => rfl
  | .word w => w.pruned_width
  | .withCmd w c => by simp [WordLike.pruned, WordLike.width, WordLike.prunedWidth, w.pruned_width]
theorem WordLike.width_eq : ∀ w : WordLike, w.width = w.prunedWidth + w.prunableSpace
  | .box _ => by simp [WordLike.width, WordLike.prunedWidth, WordLike.prunableSpace]
  | .word w => rfl
  | .withCmd w c => WordLike.width_eq w
theorem WordLike.pruned_styled : ∀ w : WordLike, w.styled = w.pruned.styled ∨ ∃ st, w.styled = w.pruned.styled ++ [(' ', st)]
  | .box _ => Or.inl rfl
  | .word w => w.pruned_styled
  | .withCmd w _ => w.pruned_styled

theorem SplitAs.addCmd {w a b : WordLike} (h : SplitAs env w a b) (c : Command) : SplitAs env (w.withCmd c) a (b.addCmd c) :=
  ⟨h.wf1, WordLike.addCmd_wf h.wf2 c, h.pre, by simp [h.mid], by simp [h.post, WordLike.state], by
    obtain ⟨l, st, h1, h2, h3, h4⟩ := h.styled
    exact ⟨l, st, by rw [WordLike.addCmd_styled]; exact h1, h2, h3, by simpa using h4⟩⟩

theorem WordLike.minimalBox_none : ∀ {w w' : WordLike}, w.WF env → w.minimalBox env = (w', none) → SameText env w w' ∧ w'.width = w.width
  | .box b, w', h, e => by simp [WordLike.minimalBox] at e; subst e; exact ⟨.refl h, rfl⟩
  | .word w, w', h, e => by
    simp only [WordLike.minimalBox, Prod.mk.injEq, Option.map_eq_none_iff] at e
    have := Word.minimalBox_none (w := w) (w' := (w.minimalBox env).1) (Prod.ext rfl e.2)
    rw [← e.1, this]; exact ⟨.refl h, rfl⟩
  | .withCmd w c, w', h, e => by
    simp only [WordLike.minimalBox] at e
    split at e
    · rename_i a e'
      simp at e; subst e
      obtain ⟨h1, h2⟩ := WordLike.minimalBox_none (w := w) h e'
      exact ⟨h1.addCmd c, by rw [WordLike.addCmd_width]; exact h2⟩
    · simp at e

theorem WordLike.minimalBox_some : ∀ {w a b : WordLike}, w.WF env → w.minimalBox env = (a, some b) → SplitAs env w a b
  | .box b, _, _, h, e => by simp [WordLike.minimalBox] at e
  | .word w, a, b, h, e => by
    simp only [WordLike.minimalBox, Prod.mk.injEq, Option.map_eq_some_iff] at e
    obtain ⟨rfl, b', hb, rfl⟩ := e
    obtain ⟨h1, h2, h3, h4, h5, h6⟩ := Word.minimalBox_some (a := (w.minimalBox env).1) h (Prod.ext rfl hb)
    exact ⟨h1, h2, h3, h4, h5, h6⟩
  | .withCmd w c, a, b, h, e => by
    simp only [WordLike.minimalBox] at e
    split at e
    · simp at e
    · rename_i a' b' e'
      simp at e
      obtain ⟨rfl, rfl⟩ := e
      exact (WordLike.minimalBox_some (w := w) h e').addCmd c

theorem WordLike.hyphenate_none {space : ℚ} : ∀ {w r : WordLike}, w.WF env → w.hyphenate env space = some (none, r) → SameText env w r
  | .box b, w', h, e => by simp [WordLike.hyphenate] at e; subst e; exact .refl h
  | .word w, w', h, e => by
    simp only [WordLike.hyphenate, Option.map_eq_some_iff, Prod.mk.injEq, Prod.exists, Option.map_eq_none_iff] at e
    obtain ⟨a, b, e1, rfl, rfl⟩ := e
    rw [Word.hyphenate_none e1]
    exact WordLike.withoutInitKern_same (w := .word w) h
  | .withCmd w c, w', h, e => by
    simp only [WordLike.hyphenate, Option.map_eq_some_iff, Prod.mk.injEq, Prod.exists] at e
    obtain ⟨a, b, e1, rfl, rfl⟩ := e
    exact (WordLike.hyphenate_none (w := w) h e1).addCmd c

theorem WordLike.hyphenate_some {space : ℚ} : ∀ {w a b : WordLike}, w.WF env → w.hyphenate env space = some (some a, b) →
    SplitAs env w a b
  | .box b, _, _, h, e => by simp [WordLike.hyphenate] at e
  | .word w, a, b, h, e => by
    simp only [WordLike.hyphenate, Option.map_eq_some_iff, Prod.mk.injEq, Prod.exists] at e
    obtain ⟨a', b', e1, ⟨a2, rfl, rfl⟩, rfl⟩ := e
    obtain ⟨h1, h2, h3, h4, h5, h6⟩ := Word.hyphenate_some h e1
    exact ⟨h1, h2, h3, h4, h5, h6⟩
  | .withCmd w c, a, b, h, e => by
    simp only [WordLike.hyphenate, Option.map_eq_some_iff, Prod.mk.injEq, Prod.exists] at e
    obtain ⟨a', b', e1, rfl, rfl⟩ := e
    exact (WordLike.hyphenate_some (w := w) h e1).addCmd c

/-! ### Hyphenating to a width -/

/-- What `hyphenateLoop` does to boxes: `k` boxes fit with a hyphen, `k + 1` do not. -/
theorem hyphenateLoop_fit : ∀ (rest : List Box) (b : Box) (space : ℚ) (fit : List Box) (n : Box) (r : List Box) (st : State),
    hyphenateLoop env b rest space = some (fit, n, r, st) → (b.withHyphen env).width ≤ space →
    ∃ pre l, b :: rest = pre ++ [l] ++ n :: r ∧ fit = pre ++ [l.withHyphen env] ∧ st = l.state ∧
      (fit.map Box.width).sum ≤ space ∧ space < ((pre ++ [l]).map Box.width).sum + (n.withHyphen env).width
  | [], _, _, _, _, _, _, h, _ => by simp [hyphenateLoop] at h
  | next :: rest, b, space, fit, n, r, st, h, hs => by
    simp only [hyphenateLoop] at h
    split at h
    · rename_i hlt
      simp only [Option.some.injEq, Prod.mk.injEq] at h
      obtain ⟨rfl, rfl, rfl, rfl⟩ := h
      refine ⟨[], b, by simp, by simp, rfl, by simpa using hs, ?_⟩
      simp; linarith
    · rename_i hge
      simp only [Option.map_eq_some_iff, Prod.exists, Prod.mk.injEq] at h
      obtain ⟨fit', n', r', st', h, rfl, rfl, rfl, rfl⟩ := h
      obtain ⟨pre, l, e1, e2, e3, e4, e5⟩ := hyphenateLoop_fit rest next _ _ _ _ _ h (by linarith)
      refine ⟨b :: pre, l, by simp [e1], by simp [e2], e3, ?_, ?_⟩
      · simp only [List.map_cons, List.sum_cons]; linarith
      · simp only [List.cons_append, List.map_cons, List.sum_cons]; linarith

theorem hyphenateLoop_none : ∀ (rest : List Box) (b : Box) (space : ℚ), hyphenateLoop env b rest space = none →
    (b.withHyphen env).width ≤ space → (∀ x ∈ b :: rest, x.width ≤ (x.withHyphen env).width) →
    ((b :: rest).map Box.width).sum ≤ space
  | [], b, space, _, hs, hx => by
    have := hx b List.mem_cons_self
    simp; linarith
  | next :: rest, b, space, h, hs, hx => by
    simp only [hyphenateLoop] at h
    split at h
    · simp at h
    · rename_i hge
      simp only [Option.map_eq_none_iff] at h
      have := hyphenateLoop_none rest next _ h (by linarith) (fun x hx' => hx x (List.mem_cons_of_mem _ hx'))
      simp only [List.map_cons, List.sum_cons] at this ⊢
      linarith

/-! ### Syllables -/

/-- The text of runs of word characters with the gaps before them. -/
def runsText (l : List (List Char × List Char)) : List Char := l.flatMap fun e => e.1 ++ e.2

theorem wordRuns_text (U : Unicode) (s : List Char) : runsText (wordRuns U s).1 ++ (wordRuns U s).2 = s := by
  induction s with
  | nil => rfl
  | cons c s ih =>
    simp only [wordRuns]
    generalize wordRuns U s = r at *
    obtain ⟨l, gap⟩ := r
    split
    · split
      · rename_i run rest gap' e
        simp only [Prod.mk.injEq] at e; obtain ⟨rfl, rfl⟩ := e
        simp only [runsText, List.flatMap_cons, List.nil_append] at ih ⊢
        rw [List.append_assoc, List.cons_append]
        rw [List.append_assoc] at ih; rw [ih]
      · rename_i rest gap' e h
        simp only [Prod.mk.injEq] at h; obtain ⟨rfl, rfl⟩ := h
        simp only [runsText, List.flatMap_cons] at ih ⊢
        simp [ih]
    · split
      · rename_i g run rest gap' e
        simp only [Prod.mk.injEq] at e; obtain ⟨rfl, rfl⟩ := e
        simp only [runsText, List.flatMap_cons] at ih ⊢
        simp [← ih]
      · rename_i gap' e
        simp only [Prod.mk.injEq] at e; obtain ⟨rfl, rfl⟩ := e
        simp only [runsText, List.flatMap_nil, List.nil_append] at ih ⊢
        rw [ih]

theorem wordRuns_ne (U : Unicode) (s : List Char) : ∀ e ∈ (wordRuns U s).1, e.2 ≠ [] := by
  induction s with
  | nil => simp [wordRuns]
  | cons c s ih =>
    simp only [wordRuns]
    generalize wordRuns U s = r at *
    obtain ⟨l, gap⟩ := r
    split
    · split
      · rename_i run rest gap' e
        simp only [Prod.mk.injEq] at e; obtain ⟨rfl, rfl⟩ := e
        intro e he
        rcases List.mem_cons.1 he with rfl | he
        · simp
        · exact ih e (List.mem_cons_of_mem _ he)
      · rename_i rest gap' e h
        simp only [Prod.mk.injEq] at h; obtain ⟨rfl, rfl⟩ := h
        intro e he
        rcases List.mem_cons.1 he with rfl | he
        · simp
        · exact ih e he
    · split
      · rename_i g run rest gap' e
        simp only [Prod.mk.injEq] at e; obtain ⟨rfl, rfl⟩ := e
        intro e he
        rcases List.mem_cons.1 he with rfl | he
        · exact ih (g, run) List.mem_cons_self
        · exact ih e (List.mem_cons_of_mem _ he)
      · simp

theorem dropLast_append_getLastD {α} (l : List (List α)) (h : l ≠ []) : l.dropLast.flatten ++ l.getLastD [] = l.flatten := by
  obtain ⟨a, x, rfl⟩ : ∃ a x, l = a ++ [x] := ⟨l.dropLast, l.getLast h, (List.dropLast_append_getLast h).symm⟩
  simp

theorem syllablesLoop_spec {h : List Char → List (List Char)} (hc : Cuts h) : ∀ (runs : List (List Char × List Char)) (leftover : List Char),
    (∀ e ∈ runs, e.2 ≠ []) → ∃ out left, syllablesLoop h runs leftover = some (out, left) ∧
      out.flatten ++ left = leftover ++ runsText runs ∧ ∀ p ∈ out, p ≠ []
  | [], leftover, _ => ⟨[], leftover, rfl, by simp [runsText], by simp⟩
  | (gap, run) :: rest, leftover, hr => by
    have hrun : run ≠ [] := hr (gap, run) List.mem_cons_self
    simp only [syllablesLoop]
    cases e : h run with
    | nil => have := (hc run).1; rw [e] at this; simp at this; exact absurd this hrun
    | cons p ps =>
      have hp : ∀ x ∈ (p :: ps).dropLast, x ≠ [] := by rw [← e]; exact (hc run).2
      obtain ⟨out, left, h1, h2, h3⟩ := syllablesLoop_spec hc rest
        (((leftover ++ gap ++ p) :: ps).getLastD []) (fun e he => hr e (List.mem_cons_of_mem _ he))
      simp only [h1]
      refine ⟨_, _, rfl, ?_, ?_⟩
      · rw [List.flatten_append, List.append_assoc, h2, ← List.append_assoc, dropLast_append_getLastD _ (by simp)]
        have := (hc run).1; rw [e] at this
        simp only [List.flatten_cons] at this
        simp only [List.flatten_cons, runsText, List.flatMap_cons, List.append_assoc]
        rw [← this]; simp
      · intro x hx
        rcases List.mem_append.1 hx with hx | hx
        · cases ps with
          | nil => simp at hx
          | cons q ps =>
            rw [List.dropLast_cons_cons] at hx hp
            rcases List.mem_cons.1 hx with rfl | hx
            · have := hp p List.mem_cons_self
              simp [this]
            · exact hp x (List.mem_cons_of_mem _ hx)
        · exact h3 x hx

theorem intoSyllables_spec (U : Unicode) (s : List Char) {h : List Char → List (List Char)} (hc : Cuts h) :
    ∃ parts, intoSyllables U s h = some parts ∧ parts.flatten = s ∧ ∀ p ∈ parts, p ≠ [] := by
  obtain ⟨out, left, h1, h2, h3⟩ := syllablesLoop_spec hc (wordRuns U s).1 [] (wordRuns_ne U s)
  have ht := wordRuns_text U s
  simp only [intoSyllables, h1]
  split
  · rename_i e
    refine ⟨out, rfl, ?_, h3⟩
    simp only [List.append_eq_nil_iff] at e
    rw [e.1] at h2; rw [e.2] at ht
    simp only [List.nil_append, List.append_nil] at h2 ht
    rw [h2, ht]
  · rename_i e
    refine ⟨_, rfl, ?_, ?_⟩
    · simp only [List.flatten_append, List.flatten_cons, List.flatten_nil, List.append_nil]
      rw [← List.append_assoc, h2, List.nil_append, ht]
    · intro p hp
      rcases List.mem_append.1 hp with hp | hp
      · exact h3 p hp
      · simp at hp; subst hp; exact e

theorem syllablesLoop_never : ∀ (runs : List (List Char × List Char)) (leftover : List Char),
    syllablesLoop (fun s => [s]) runs leftover = some ([], leftover ++ runsText runs)
  | [], leftover => by simp [syllablesLoop, runsText]
  | (gap, run) :: rest, leftover => by
    simp only [syllablesLoop, List.getLastD_cons, List.getLastD_nil, List.dropLast_singleton]
    rw [syllablesLoop_never rest]
    simp [runsText]

theorem intoSyllables_never (U : Unicode) (s : List Char) :
    intoSyllables U s (fun s => [s]) = some (if s = [] then [] else [s]) := by
  simp only [intoSyllables, syllablesLoop_never, List.nil_append, wordRuns_text]

/-! ### New words -/

theorem slugsOf_spec (st : State) : ∀ (parts : List (List Char)) (prev : Option Char), (∀ p ∈ parts, p ≠ []) →
    ∃ l, slugsOf env st parts prev = some l ∧ l.flatMap Slug.styled = parts.flatten.map (fun c => (c, st)) ∧
      (∀ s ∈ l, s.WF env ∧ s.state = st) ∧ l.length = parts.length
  | [], prev, _ => ⟨[], rfl, rfl, by simp, rfl⟩
  | p :: parts, prev, h => by
    have hp : p ≠ [] := h p List.mem_cons_self
    obtain ⟨c, hc⟩ : ∃ c, p.getLast? = some c := by
      cases e : p.getLast? with
      | none => exact absurd (List.getLast?_eq_none_iff.1 e) hp
      | some c => exact ⟨c, rfl⟩
    obtain ⟨l, h1, h2, h3, h4⟩ := slugsOf_spec st parts (some c) (fun x hx => h x (List.mem_cons_of_mem _ hx))
    refine ⟨Slug.new env p st prev :: l, by simp [slugsOf, hc, h1], by simp [h2], ?_, by simp [h4]⟩
    intro s hs
    rcases List.mem_cons.1 hs with rfl | hs
    · exact ⟨Slug.new_wf env p st prev hp, rfl⟩
    · exact h3 s hs

theorem boxesWF_slugs {st : State} : ∀ {l : List Slug}, (∀ s ∈ l, s.WF env ∧ s.state = st) → BoxesWF env (l.map Box.slug) st
  | [], _ => trivial
  | s :: l, h => by
    have hs := h s List.mem_cons_self
    apply boxesWF_cons (b := .slug s) hs.1 (fun _ => hs.2) ?_ (boxesWF_slugs fun x hx => h x (List.mem_cons_of_mem _ hx))
    intro b hb
    cases l with
    | nil => simp at hb
    | cons s' l =>
      simp at hb; subst hb
      have := h s' (by simp)
      simp [Box.state, Box.preState, hs.2, this.2]

theorem Word.new_spec (henv : env.Ok) (s : List Char) (st : State) (prev : Option Char) :
    ∃ w, Word.new env s st prev = some w ∧ w.styled = s.map (fun c => (c, st)) ∧ w.WF env ∧ w.state = st ∧ w.preState = st := by
  unfold Word.new
  have key : ∀ (s : List Char) (tail : Option TrailingSpace), (∀ t ∈ tail, TailOk env t st) →
      ∃ w : Word, (match intoSyllables env.unicode s (env.hyph st.hyphens) with
        | none => none
        | some parts => (slugsOf env st parts prev).map fun l => (⟨l.map Box.slug, tail, st⟩ : Word)) = some w ∧
      w.styled = s.map (fun c => (c, st)) ++ (match tail with | some _ => [(' ', st)] | none => []) ∧
      w.WF env ∧ w.state = st ∧ w.preState = st := by
    intro s tail ht
    obtain ⟨parts, h1, h2, h3⟩ := intoSyllables_spec env.unicode s (henv.cuts st.hyphens)
    obtain ⟨l, h4, h5, h6, -⟩ := slugsOf_spec (env := env) st parts prev h3
    refine ⟨⟨l.map Box.slug, tail, st⟩, by simp [h1, h4], ?_, ⟨boxesWF_slugs h6, ht⟩, rfl, ?_⟩
    · rw [h2] at h5
      simp only [Word.styled, List.flatMap_map, ← h5]
      rfl
    · cases l with
      | nil => rfl
      | cons a l => exact (h6 a (by simp)).2
  unfold TrailingSpace.parse
  by_cases e : s.getLast? = some ' '
  · simp only [e, if_true]
    obtain ⟨w, h1, h2, h3⟩ := key s.dropLast (some (.make env st (match s.dropLast.getLast? with | some c => some c | none => prev)))
      (by intro t ht; simp at ht; subst ht; exact TrailingSpace.make_ok _ _)
    refine ⟨w, h1, ?_, h3⟩
    rw [h2]
    have : s = s.dropLast ++ [' '] := by
      obtain ⟨ys, rfl⟩ := List.getLast?_eq_some_iff.1 e
      simp
    conv_rhs => rw [this]
    simp
  · simp only [e, if_false]
    obtain ⟨w, h1, h2, h3⟩ := key s none (by simp)
    refine ⟨w, h1, ?_, h3⟩
    simpa using h2

end Pdfje
