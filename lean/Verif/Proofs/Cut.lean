import Verif.Proofs.Built
/-
Cutting a word at a width.
-/

namespace Pdfje

theorem Word.hyphenate_cut {env : Env} {w : Word} {space : ℚ} {r} (h : w.hyphenate env space = some r) :
    (∃ b, r = (none, b) ∧ ∀ x ∈ w.boxes.head?, space < (x.withHyphen env).width) ∨
    ∃ a b k, r = (some a, b) ∧ CutAt env (.word w) (.word a) (.word b) space k := by
  obtain ⟨bs, t, st⟩ := w
  unfold Word.hyphenate at h
  split at h
  · rename_i e
    simp only at e; subst e
    left
    exact ⟨_, (Option.some.inj h).symm, by simp⟩
  · rename_i b rest e
    simp only at e; subst e
    split at h
    · rename_i hlt
      left
      exact ⟨_, (Option.some.inj h).symm, by simpa using hlt⟩
    · rename_i hlt
      right
      simp only [Option.map_eq_some_iff, Prod.exists] at h
      obtain ⟨fit, n, r', st', h1, rfl⟩ := h
      obtain ⟨pre, l, e1, rfl, rfl, h4, h5⟩ := hyphenateLoop_fit rest b space fit n r' st' h1 (not_lt.1 hlt)
      have ek : (pre ++ [l] ++ n :: r').take (pre.length + 1) = pre ++ [l] :=
        List.take_left' (by simp)
      have ed : (pre ++ [l] ++ n :: r').drop (pre.length + 1) = n :: r' :=
        List.drop_left' (by simp)
      refine ⟨_, _, pre.length + 1, rfl, ⟨by omega, ?_, ⟨l.state, ?_⟩, ?_, rfl, ⟨(pre ++ [l]).flatMap Box.styled, ?_, ?_⟩, ?_, ?_⟩⟩
      · simp only [WordLike.boxes, e1]; simp
      · simp only [WordLike.boxes, e1, ek]
        simp [WordLike.styled, Word.styled]
      · simp only [WordLike.boxes, e1, ed]
        simp
      · simp only [WordLike.styled, Word.styled, e1]
        simp
      · simp [WordLike.styled, Word.styled]
      · simpa [WordLike.width, Word.width, Word.prunedWidth, Word.prunableSpace] using h4
      · intro x hx
        simp only [WordLike.boxes, e1] at hx ⊢
        rw [ek]
        rw [List.getElem?_append_right (by simp)] at hx
        simp at hx
        subst hx
        exact h5

theorem WordLike.hyphenate_cut {env : Env} {space : ℚ} : ∀ {w : WordLike} {r}, w.hyphenate env space = some r →
    (∃ b, r = (none, b) ∧ (w.boxes.length ≤ 1 ∨ ∀ x ∈ w.boxes.head?, space < (x.withHyphen env).width)) ∨
    (∃ a b k, r = (some a, b) ∧ CutAt env w a b space k) := by
  intro w
  induction w with
  | box b => intro r h; exact Or.inl ⟨_, (Option.some.inj h).symm, Or.inl (by simp [WordLike.boxes])⟩
  | word w =>
    intro r h
    simp only [WordLike.hyphenate, Option.map_eq_some_iff, Prod.exists] at h
    obtain ⟨a', b', e, rfl⟩ := h
    rcases Word.hyphenate_cut e with ⟨b, e2, hb⟩ | ⟨a, b, k, e2, hc⟩
    · simp only [Prod.mk.injEq] at e2
      obtain ⟨rfl, rfl⟩ := e2
      exact Or.inl ⟨.word b', rfl, Or.inr hb⟩
    · simp only [Prod.mk.injEq] at e2
      obtain ⟨rfl, rfl⟩ := e2
      exact Or.inr ⟨.word a, .word b', k, rfl, hc⟩
  | withCmd w c ih =>
    intro r h
    simp only [WordLike.hyphenate, Option.map_eq_some_iff, Prod.exists] at h
    obtain ⟨a', b', e, rfl⟩ := h
    rcases ih e with ⟨b, e2, h2⟩ | ⟨a, b, k, e2, h2⟩
    · simp only [Prod.mk.injEq] at e2
      obtain ⟨rfl, rfl⟩ := e2
      exact Or.inl ⟨b'.addCmd c, rfl, h2⟩
    · simp only [Prod.mk.injEq] at e2
      obtain ⟨rfl, rfl⟩ := e2
      refine Or.inr ⟨a, b'.addCmd c, k, rfl, ⟨h2.pos, h2.lt, h2.first, ?_, ?_, ?_, h2.fits, h2.most⟩⟩
      · have : (b'.addCmd c).boxes = b'.boxes := by cases c <;> rfl
        rw [this]; exact h2.rest
      · have : (b'.addCmd c).tail = b'.tail := by cases c <;> rfl
        rw [this]; exact h2.tail
      · rw [WordLike.addCmd_styled]; exact h2.whole

theorem WordLike.hyphenate_isSome {env : Env} {space : ℚ} : ∀ {w : WordLike}, (∀ b ∈ w.boxes, b.width ≤ (b.withHyphen env).width) →
    space < w.prunedWidth → ∃ r, w.hyphenate env space = some r := by
  intro w
  induction w with
  | box b => intro _ _; exact ⟨_, rfl⟩
  | word w =>
    intro hy hns
    cases e : w.hyphenate env space with
    | none =>
      exfalso
      obtain ⟨bs, t, st⟩ := w
      unfold Word.hyphenate at e
      split at e
      · simp at e
      · rename_i b rest eb
        simp only at eb; subst eb
        split at e
        · simp at e
        · rename_i hlt
          rw [Option.map_eq_none_iff] at e
          have := hyphenateLoop_none rest b space e (not_lt.1 hlt) hy
          simp only [WordLike.prunedWidth, Word.prunedWidth] at hns
          linarith
    | some r => exact ⟨_, by simp [WordLike.hyphenate, e]; rfl⟩
  | withCmd w c ih =>
    intro hy hns
    obtain ⟨r, h⟩ := ih hy hns
    exact ⟨_, by simp [WordLike.hyphenate, h]; rfl⟩

end Pdfje
