import Verif.Proofs.ParseGaps
import Verif.Proofs.FragGaps
import Verif.Proofs.Fresh
import Verif.Proofs.FirstLine
/-
Indented and justified words: kerning changes before the first character, and before spaces.
-/

namespace Pdfje

variable {env : Env}

/-! ### Indented words -/

/-- The same text, with other kerning before the first character. -/
def Reheaded (a b : List Gap) : Prop := ∃ k c st l k', a = (k, c, st) :: l ∧ b = (k', c, st) :: l

theorem reheaded_self {a : List Gap} (h : a ≠ []) : Reheaded a a := by
  match a, h with
  | (k, c, st) :: l, _ => exact ⟨k, c, st, l, k, rfl, rfl⟩

theorem Reheaded.append {a b : List Gap} (h : Reheaded a b) (l : List Gap) : Reheaded (a ++ l) (b ++ l) := by
  obtain ⟨k, c, st, l', k', rfl, rfl⟩ := h
  exact ⟨k, c, st, l' ++ l, k', rfl, rfl⟩

theorem gapsFrom_cons_ne {k : List (Nat × ℚ)} {st : State} {x : ℚ} : ∀ (s : List Char) {i : Nat}, i ≠ 0 → gapsFrom ((0, x) :: k) st i s = gapsFrom k st i s
  | [], _, _ => rfl
  | c :: s, i, h => by simp only [gapsFrom]; rw [kernAt_cons_ne h.symm, gapsFrom_cons_ne s (Nat.succ_ne_zero i)]

theorem Slug.indent_gaps {s : Slug} (h : s.Strict) (h0 : ∀ e ∈ s.kern, e.1 ≠ 0) (a : ℚ) : (s.indent a).Strict ∧ Reheaded s.gaps (s.indent a).gaps := by
  unfold Slug.indent
  split
  · exact ⟨h, reheaded_self (Slug.gaps_ne h)⟩
  · obtain ⟨txt, k, w, st⟩ := s
    obtain ⟨h1, h2, h3⟩ := h
    simp only at h1 h2 h3 h0
    refine ⟨⟨h1, ?_, ?_⟩, ?_⟩
    · simp only [List.map_cons, List.pairwise_cons]
      refine ⟨?_, h2⟩
      intro i hi
      obtain ⟨e, he, rfl⟩ := List.mem_map.1 hi
      exact Nat.pos_of_ne_zero (h0 e he)
    · intro e he
      rcases List.mem_cons.1 he with rfl | he
      · exact List.length_pos_iff.2 h1
      · exact h3 e he
    · cases txt with
      | nil => exact absurd rfl h1
      | cons c s =>
        simp only [Slug.gaps, gapsFrom]
        rw [gapsFrom_cons_ne s (by omega)]
        exact ⟨_, c, st, _, _, rfl, rfl⟩

/-- Text that starts without kerning has none at its first character. -/
theorem Slug.Fresh.noInit {Q : State → Prop} {s : Slug} (h : s.Fresh env Q) (hz : ∀ y ∈ s.gaps.head?, y.1 = 0) : ∀ e ∈ s.kern, e.1 ≠ 0 := by
  obtain ⟨txt, st, prev, -, rfl⟩ := h
  rintro ⟨i, k⟩ he hi
  simp only at hi
  subst hi
  rw [Slug.new_gaps] at hz
  have he' : (0, k) ∈ _root_.Pdfje.kern (env.metrics st.font).kerning txt prev := he
  rw [mem_kern] at he'
  obtain ⟨a, b, h1, h2 | ⟨j, h2, -⟩, h3, h4⟩ := he'
  · obtain ⟨-, rfl⟩ := h2
    cases txt with
    | nil => simp at h1
    | cons c txt =>
      simp only [List.getElem?_cons_zero, Option.some.injEq] at h1
      subst h1
      have := hz _ rfl
      simp only [Env.kernAfter, Env.kernOf] at this
      rw [h3] at this
      exact h4 this
  · omega

theorem Box.indent_gaps {Q : State → Prop} {b : Box} (h : b.Strict) (hf : b.Fresh env Q) (hz : ∀ y ∈ b.gaps.head?, y.1 = 0) (a : ℚ) :
    (b.indent a).Strict ∧ Reheaded b.gaps (b.indent a).gaps := by
  cases b with
  | slug s => exact s.indent_gaps h ((hf.2 s (by simp [Box.slugs])).noInit hz) a
  | mixed segs st =>
    cases segs with
    | nil => exact absurd rfl h.1
    | cons e segs =>
      obtain ⟨s, c⟩ := e
      simp only [Box.indent]
      split
      · exact ⟨h, reheaded_self (Box.gaps_ne h)⟩
      · have hs := h.2 (s, c) (by simp)
        have hz' : ∀ y ∈ s.gaps.head?, y.1 = 0 := by
          intro y hy
          apply hz y
          simp only [Box.gaps, List.flatMap_cons]
          rw [List.head?_append_of_ne_nil _ (Slug.gaps_ne hs)]
          exact hy
        obtain ⟨g1, g2⟩ := s.indent_gaps hs ((hf.2 s (by simp [Box.slugs])).noInit hz') a
        refine ⟨⟨by simp, ?_⟩, ?_⟩
        · intro e he
          rcases List.mem_cons.1 he with rfl | he
          · exact g1
          · exact h.2 e (List.mem_cons_of_mem _ he)
        · simp only [Box.gaps, List.flatMap_cons]
          exact g2.append _

theorem WordLike.indent_gaps {Q : State → Prop} (a : ℚ) : ∀ {w : WordLike}, w.Strict → w.Fresh env Q → w.gaps ≠ [] → (∀ y ∈ w.gaps.head?, y.1 = 0) →
    (w.indent a).Strict ∧ ((w.indent a).IsWord ↔ w.IsWord) ∧ Reheaded w.gaps (w.indent a).gaps
  | .box b, h, hf, hne, hz => by
    obtain ⟨g1, g2⟩ := b.indent_gaps (h b (by simp [WordLike.boxes])) hf hz a
    exact ⟨by simpa [WordLike.Strict, WordLike.boxes, WordLike.indent] using g1, Iff.rfl, g2⟩
  | .withCmd w c, h, hf, hne, hz => by
    obtain ⟨g1, g2, g3⟩ := WordLike.indent_gaps a (w := w) h hf.1 hne hz
    simp only [WordLike.indent]
    split
    · exact ⟨h, Iff.rfl, reheaded_self hne⟩
    · exact ⟨g1, g2, g3⟩
  | .word ⟨bs, t, st⟩, h, hf, hne, hz => by
    simp only [WordLike.indent, Word.indent]
    split
    · exact ⟨h, Iff.rfl, reheaded_self hne⟩
    · cases bs with
      | nil =>
        cases t with
        | none => exact absurd rfl hne
        | some t => exact ⟨h, Iff.rfl, ⟨_, ' ', st, [], _, rfl, rfl⟩⟩
      | cons b bs =>
        have hb := h b (by simp [WordLike.boxes])
        have hz' : ∀ y ∈ b.gaps.head?, y.1 = 0 := by
          intro y hy
          apply hz y
          simp only [WordLike.gaps, List.flatMap_cons, List.append_assoc]
          rw [List.head?_append_of_ne_nil _ (Box.gaps_ne hb)]
          exact hy
        obtain ⟨g1, g2⟩ := b.indent_gaps hb (hf.2 b (by simp)) hz' a
        refine ⟨?_, Iff.rfl, ?_⟩
        · intro x hx
          simp only [WordLike.boxes] at hx
          rcases List.mem_cons.1 hx with rfl | hx
          · exact g1
          · exact h x (by simp only [WordLike.boxes]; exact List.mem_cons_of_mem _ hx)
        · simp only [WordLike.gaps, List.flatMap_cons, List.append_assoc]
          exact g2.append _

theorem indentFirst_gaps {Q : State → Prop} {ws : List WordLike} (a : ℚ) (hs : Sound ws) (hf : ∀ w ∈ ws, w.Fresh env Q) (hz : ∀ y ∈ (gapsOf ws).head?, y.1 = 0) :
    Sound (indentFirst ws a) ∧ (gapsOf ws = [] ∧ gapsOf (indentFirst ws a) = [] ∨ Reheaded (gapsOf ws) (gapsOf (indentFirst ws a))) := by
  cases ws with
  | nil => exact ⟨hs, .inl ⟨rfl, rfl⟩⟩
  | cons w ws =>
    obtain ⟨h1, h2, h3⟩ := hs w (by simp)
    have hz' : ∀ y ∈ w.gaps.head?, y.1 = 0 := by
      intro y hy
      apply hz y
      rw [gapsOf_cons, List.head?_append_of_ne_nil _ h3]
      exact hy
    obtain ⟨g1, g2, g3⟩ := WordLike.indent_gaps (env := env) a h1 (hf w (by simp)) h3 hz'
    simp only [indentFirst]
    refine ⟨?_, .inr ?_⟩
    · intro x hx
      rcases List.mem_cons.1 hx with rfl | hx
      · refine ⟨g1, g2.2 h2, ?_⟩
        obtain ⟨k, c, st, l, k', -, e⟩ := g3
        rw [e]; simp
      · exact hs x (List.mem_cons_of_mem _ hx)
    · rw [gapsOf_cons, gapsOf_cons]
      exact g3.append _

theorem Reheaded.chain {R : Gap → Gap → Prop} (hR : Blind R) {a b : List Gap} (h : Reheaded a b) (ha : a.IsChain R) : b.IsChain R := by
  obtain ⟨k, c, st, l, k', rfl, rfl⟩ := h
  cases l with
  | nil => exact .singleton _
  | cons y l =>
    cases ha with
    | cons_cons h1 h2 => exact .cons_cons (hR _ _ k' h1) h2

/-! ### Justified lines -/

/-- The same character, with the same kerning unless it is a space and the line is justified. -/
def Stretched (j : Bool) (a b : Gap) : Prop := b.2 = a.2 ∧ (j = false ∨ b.2.1 ≠ ' ' → b.1 = a.1)

theorem stretched_self {j : Bool} : ∀ l : List Gap, List.Forall₂ (Stretched j) l l
  | [] => .nil
  | _ :: l => .cons ⟨rfl, fun _ => rfl⟩ (stretched_self l)

theorem stretched_append {j : Bool} {a b a' b' : List Gap} (h1 : List.Forall₂ (Stretched j) a a') (h2 : List.Forall₂ (Stretched j) b b') :
    List.Forall₂ (Stretched j) (a ++ b) (a' ++ b') := by
  induction h1 with
  | nil => exact h2
  | cons h _ ih => exact .cons h ih

theorem WordLike.extendTail_gaps (a : ℚ) : ∀ (w : WordLike), List.Forall₂ (Stretched true) w.gaps (w.extendTail a).gaps ∧ (w.extendTail a).boxes = w.boxes
  | .box b => ⟨stretched_self _, rfl⟩
  | .withCmd w c => by
    simp only [WordLike.extendTail]
    split
    · exact WordLike.extendTail_gaps a w
    · exact ⟨stretched_self _, rfl⟩
  | .word ⟨bs, t, st⟩ => by
    simp only [WordLike.extendTail, Word.extendTail]
    split
    · split
      · exact ⟨stretched_self _, rfl⟩
      · exact ⟨stretched_append (stretched_self _) (.cons ⟨rfl, by simp⟩ .nil), rfl⟩
    · exact ⟨stretched_self _, rfl⟩

theorem WordLike.stretchTail_gaps (a : ℚ) : ∀ (w : WordLike), List.Forall₂ (Stretched true) w.gaps (w.stretchTail a).gaps ∧ (w.stretchTail a).boxes = w.boxes
  | .box b => ⟨stretched_self _, rfl⟩
  | .withCmd w c => by
    simp only [WordLike.stretchTail]
    split
    · exact WordLike.stretchTail_gaps a w
    · exact ⟨stretched_self _, rfl⟩
  | .word ⟨bs, t, st⟩ => by
    simp only [WordLike.stretchTail, Word.stretchTail]
    split
    · split
      · exact ⟨stretched_self _, rfl⟩
      · exact ⟨stretched_append (stretched_self _) (.cons ⟨rfl, by simp⟩ .nil), rfl⟩
    · exact ⟨stretched_self _, rfl⟩

theorem gapsOf_stretched {f : WordLike → WordLike} (h : ∀ w, List.Forall₂ (Stretched true) w.gaps (f w).gaps) : ∀ ws : List WordLike, List.Forall₂ (Stretched true) (gapsOf ws) (gapsOf (ws.map f))
  | [] => .nil
  | w :: ws => by
    rw [List.map_cons, gapsOf_cons, gapsOf_cons]
    exact stretched_append (h w) (gapsOf_stretched h ws)

theorem TLine.justify_gaps (l : TLine) : List.Forall₂ (Stretched true) l.gaps l.justify.gaps ∧ ((∀ w ∈ l.words, w.Strict) → ∀ w ∈ l.justify.words, w.Strict) := by
  unfold TLine.justify
  split
  · exact ⟨stretched_self _, id⟩
  · refine ⟨?_, ?_⟩
    · exact gapsOf_stretched (f := fun w => w.extendTail (l.space / tailSizes l.words * w.state.size)) (fun w => (w.extendTail_gaps _).1) l.words
    · intro h w hw
      obtain ⟨x, hx, rfl⟩ := List.mem_map.1 hw
      intro b hb
      rw [(x.extendTail_gaps _).2] at hb
      exact h x hx b hb

theorem TLine.stretch_gaps (l : TLine) (a : ℚ) : List.Forall₂ (Stretched true) l.gaps (l.stretch a).gaps ∧ ((∀ w ∈ l.words, w.Strict) → ∀ w ∈ (l.stretch a).words, w.Strict) := by
  unfold TLine.stretch
  refine ⟨gapsOf_stretched (fun w => (w.stretchTail_gaps _).1) l.words, ?_⟩
  intro h w hw
  obtain ⟨x, hx, rfl⟩ := List.mem_map.1 hw
  intro b hb
  rw [(x.stretchTail_gaps _).2] at hb
  exact h x hx b hb

end Pdfje
