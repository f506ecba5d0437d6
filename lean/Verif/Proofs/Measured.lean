import Verif.Proofs.Fresh
import Verif.Spec.Sets
/-
Widths of words, from the lengths of their texts.
-/

namespace Pdfje

variable {env : Env} {Q : State → Prop}

theorem enumerate_sum (t : Char × Char → ℚ) : ∀ (l : List (Char × Char)) (n : Nat),
    (((enumerateFrom n l).filterMap fun (i, pair) => if t pair = 0 then none else some (i, t pair)).map (·.2)).sum = (l.map t).sum
  | [], _ => rfl
  | p :: l, n => by
    have ih := enumerate_sum t l (n + 1)
    rw [enumerateFrom, List.filterMap_cons]
    by_cases h : t p = 0
    · simp only [h, if_true, List.map_cons, List.sum_cons, zero_add]
      exact ih
    · simp only [h, if_false, List.map_cons, List.sum_cons]
      rw [ih]

theorem kern_total (t : Char × Char → ℚ) (s : List Char) (prev : Option Char) : ((kern t s prev).map (·.2)).sum = ((pairwise (prev.toList ++ s)).map t).sum :=
  enumerate_sum t _ _

theorem pairs_bounds {m : Metrics} {M : ℚ} (hm : m.Proper M) : ∀ (s : List Char) (a : Char),
    0 ≤ (s.map m.charwidth).sum + ((pairwise (a :: s)).map m.kerning).sum ∧ (s.map m.charwidth).sum + ((pairwise (a :: s)).map m.kerning).sum ≤ s.length * M
  | [], a => by simp [pairwise]
  | b :: s, a => by
    obtain ⟨h1, h2⟩ := pairs_bounds hm s b
    obtain ⟨k1, k2⟩ := hm.pair a b
    have e : pairwise (a :: b :: s) = (a, b) :: pairwise (b :: s) := rfl
    rw [e]
    simp only [List.map_cons, List.sum_cons, List.length_cons, Nat.cast_add, Nat.cast_one]
    constructor <;> linarith

theorem text_bounds {m : Metrics} {M : ℚ} (hm : m.Proper M) (s : List Char) (prev : Option Char) :
    0 ≤ m.width s + ((kern m.kerning s prev).map (·.2)).sum / 1000 ∧ m.width s + ((kern m.kerning s prev).map (·.2)).sum / 1000 ≤ s.length * M / 1000 := by
  rw [kern_total, Metrics.width, ← add_div]
  have key : 0 ≤ (s.map m.charwidth).sum + ((pairwise (prev.toList ++ s)).map m.kerning).sum ∧
      (s.map m.charwidth).sum + ((pairwise (prev.toList ++ s)).map m.kerning).sum ≤ s.length * M := by
    cases prev with
    | some a => exact pairs_bounds hm s a
    | none =>
      cases s with
      | nil => simp [pairwise]
      | cons b s =>
        obtain ⟨h1, h2⟩ := pairs_bounds hm s b
        obtain ⟨k1, k2⟩ := hm.char b
        simp only [Option.toList_none, List.nil_append, List.map_cons, List.sum_cons, List.length_cons, Nat.cast_add, Nat.cast_one]
        constructor <;> linarith
  exact ⟨div_nonneg key.1 (by norm_num), div_le_div_of_nonneg_right key.2 (by norm_num)⟩

/-- States with proper metrics and a size up to `S`. -/
def State.Proper (env : Env) (M S : ℚ) (st : State) : Prop := (env.metrics st.font).Proper M ∧ 0 < st.size ∧ st.size ≤ S

variable {M S : ℚ}

theorem scaled {x n M z S : ℚ} (h : 0 ≤ x ∧ x ≤ n * M / 1000) (hz : 0 < z ∧ z ≤ S) : 0 ≤ x * z ∧ x * z ≤ n * (M / 1000 * S) := by
  refine ⟨mul_nonneg h.1 hz.1.le, ?_⟩
  calc x * z ≤ x * S := mul_le_mul_of_nonneg_left hz.2 h.1
    _ ≤ n * M / 1000 * S := mul_le_mul_of_nonneg_right h.2 (le_trans hz.1.le hz.2)
    _ = n * (M / 1000 * S) := by ring

theorem Slug.new_bounds {st : State} (hs : st.Proper env M S) (txt : List Char) (prev : Option Char) :
    0 ≤ (Slug.new env txt st prev).width ∧ (Slug.new env txt st prev).width ≤ txt.length * (M / 1000 * S) :=
  scaled (text_bounds hs.1 txt prev) hs.2

theorem Slug.Fresh.bounds {x : Slug} (h : x.Fresh env (State.Proper env M S)) :
    (0 ≤ x.width ∧ x.width ≤ x.txt.length * (M / 1000 * S)) ∧ x.state.Proper env M S := by
  obtain ⟨txt, st, prev, hs, rfl⟩ := h
  exact ⟨Slug.new_bounds hs txt prev, hs⟩

theorem sum_bounds {K : ℚ} : ∀ {l : List Slug}, (∀ x ∈ l, 0 ≤ x.width ∧ x.width ≤ x.txt.length * K) →
    0 ≤ (l.map Slug.width).sum ∧ (l.map Slug.width).sum ≤ ((l.map fun x => x.txt.length).sum : ℕ) * K
  | [], _ => by simp
  | x :: l, h => by
    obtain ⟨h1, h2⟩ := sum_bounds (l := l) fun y hy => h y (by simp [hy])
    obtain ⟨k1, k2⟩ := h x (by simp)
    simp only [List.map_cons, List.sum_cons, Nat.cast_add]
    constructor <;> linarith

theorem Box.width_slugs (b : Box) : b.width = (b.slugs.map Slug.width).sum := by
  cases b with
  | slug s => simp [Box.width, Box.slugs]
  | mixed segs st => simp [Box.width, Box.slugs, Function.comp_def]

theorem Box.length_slugs (b : Box) : (b.slugs.map fun x => x.txt.length).sum = b.styled.length := by
  cases b with
  | slug s => simp [Box.slugs, Box.styled, Slug.styled]
  | mixed segs st => simp [Box.slugs, Box.styled, Slug.styled, Function.comp_def, List.length_flatMap]

theorem Box.Fresh.bounds {b : Box} (h : b.Fresh env (State.Proper env M S)) : 0 ≤ b.width ∧ b.width ≤ b.styled.length * (M / 1000 * S) := by
  rw [b.width_slugs, ← b.length_slugs]
  exact sum_bounds fun x hx => (h.2 x hx).bounds.1

/-- With its hyphen, a box is wider by the hyphen. -/
theorem Box.withHyphen_bounds {b : Box} (hs : b.state.Proper env M S) :
    b.width ≤ (b.withHyphen env).width ∧ (b.withHyphen env).width ≤ b.width + M / 1000 * S := by
  cases b with
  | slug x =>
    have key : 0 ≤ (env.metrics x.state.font).charwidth '-' + x.hyphenKern env ∧ (env.metrics x.state.font).charwidth '-' + x.hyphenKern env ≤ M := by
      unfold Slug.hyphenKern
      split
      · exact hs.1.pair _ _
      · rw [add_zero]; exact hs.1.char _
    have := scaled (x := ((env.metrics x.state.font).charwidth '-' + x.hyphenKern env) / 1000) (n := 1) (M := M)
      ⟨div_nonneg key.1 (by norm_num), by rw [one_mul]; exact div_le_div_of_nonneg_right key.2 (by norm_num)⟩ hs.2
    simp only [Box.withHyphen, Box.width, Slug.withHyphen]
    rw [one_mul] at this
    simp only [Box.state] at this
    constructor <;> linarith
  | mixed segs st =>
    have := Slug.new_bounds (env := env) hs ['-'] (Box.last (.mixed segs st))
    simp only [Box.state, List.length_singleton, Nat.cast_one, one_mul] at this
    simp only [Box.withHyphen, Box.width, List.map_append, List.sum_append, List.map_cons, List.map_nil, List.sum_cons, List.sum_nil, add_zero]
    constructor <;> linarith

theorem Box.indent_width_le (b : Box) (a : ℚ) : (b.indent a).width = b.width + a ∨ (b.indent a).width = b.width := by
  cases b with
  | slug x => exact .inl (x.indent_width a)
  | mixed segs st =>
    cases segs with
    | nil => exact .inr rfl
    | cons e segs =>
      simp only [Box.indent]
      split
      · exact .inr rfl
      · left
        simp only [Box.width, List.map_cons, List.sum_cons, Slug.indent_width]
        ring

/-- The boxes of an indented word are its boxes, the first of them indented. -/
theorem WordLike.indent_boxes (a : ℚ) : ∀ (w : WordLike), ∀ b ∈ (w.indent a).boxes, ∃ b0 ∈ w.boxes, b = b0 ∨ b = b0.indent a
  | .box b0, b, hb => by
    simp only [WordLike.indent, WordLike.boxes, List.mem_singleton] at hb
    subst hb
    exact ⟨b0, by simp [WordLike.boxes], .inr rfl⟩
  | .word w, b, hb => by
    simp only [WordLike.indent, WordLike.boxes, Word.indent] at hb
    split at hb
    · exact ⟨b, hb, .inl rfl⟩
    · split at hb
      · rename_i b0 rest e
        simp only [WordLike.boxes, e]
        rcases List.mem_cons.1 hb with rfl | hb
        · exact ⟨b0, by simp, .inr rfl⟩
        · exact ⟨b, by simp [hb], .inl rfl⟩
      · split at hb <;> exact ⟨b, hb, .inl rfl⟩
  | .withCmd w c, b, hb => by
    simp only [WordLike.indent] at hb
    split at hb
    · exact ⟨b, hb, .inl rfl⟩
    · exact WordLike.indent_boxes a w b hb

theorem WordLike.indent_state (a : ℚ) : ∀ (w : WordLike), (w.indent a).state = w.state
  | .box b => (b.indent_states a).2
  | .word w => by
    simp only [WordLike.indent, WordLike.state, Word.indent]
    split
    · rfl
    · split
      · rfl
      · split <;> rfl
  | .withCmd w c => by
    simp only [WordLike.indent]
    split
    · rfl
    · simp only [WordLike.state]; rw [WordLike.indent_state a w]

theorem Box.length_le {w : WordLike} : ∀ b ∈ w.boxes, b.styled.length ≤ w.styled.length := by
  induction w with
  | box b0 => intro b hb; simp only [WordLike.boxes, List.mem_singleton] at hb; subst hb; exact le_rfl
  | word w =>
    intro b hb
    simp only [WordLike.styled, Word.styled, List.length_append]
    have : b.styled.length ≤ (w.boxes.flatMap Box.styled).length := by
      rw [List.length_flatMap]
      exact List.single_le_sum (by simp) _ (List.mem_map_of_mem hb)
    omega
  | withCmd w c ih => exact ih

/-- Bounds of the pieces of the words of a paragraph. -/
theorem pieces_bounds {ws : List WordLike} {n : Nat} (hf : ∀ w ∈ ws, w.Fresh env (State.Proper env M S)) (hn : ∀ w ∈ ws, w.styled.length ≤ n) (hM : 0 ≤ M / 1000 * S) (a : ℚ) :
    ∀ w ∈ indentFirst ws a, ∀ x ∈ w.pieceWidths env, min 0 a ≤ x ∧ x ≤ (n + 1) * (M / 1000 * S) + max 0 a := by
  have box : ∀ w ∈ ws, ∀ b0 ∈ w.boxes, ∀ b, b = b0 ∨ b = b0.indent a →
      (min 0 a ≤ b.width ∧ b.width ≤ n * (M / 1000 * S) + max 0 a) ∧ b.state.Proper env M S := by
    intro w hw b0 hb0 b hb
    have hfr := (hf w hw).boxes b0 hb0
    obtain ⟨h1, h2⟩ := hfr.bounds
    have h3 : (b0.styled.length : ℚ) ≤ n := by exact_mod_cast le_trans (Box.length_le b0 hb0) (hn w hw)
    have h4 := mul_le_mul_of_nonneg_right h3 hM
    have e1 := min_le_left 0 a
    have e2 := le_max_left 0 a
    have e3 := min_le_right 0 a
    have e4 := le_max_right 0 a
    rcases hb with rfl | rfl
    · exact ⟨⟨by linarith, by linarith⟩, hfr.1⟩
    · refine ⟨?_, by rw [(b0.indent_states a).2]; exact hfr.1⟩
      rcases b0.indent_width_le a with e | e <;> rw [e]
      · constructor <;> [exact le_trans (min_le_right _ _) (by linarith); linarith]
      · constructor <;> linarith
  intro w hw x hx
  have hboxes : ∀ b ∈ w.boxes, (min 0 a ≤ b.width ∧ b.width ≤ n * (M / 1000 * S) + max 0 a) ∧ b.state.Proper env M S := by
    intro b hb
    cases ws with
    | nil => simp [indentFirst] at hw
    | cons w0 ws =>
      rcases List.mem_cons.1 hw with rfl | hw
      · obtain ⟨b0, hb0, e⟩ := WordLike.indent_boxes a w0 b hb
        exact box w0 (by simp) b0 hb0 b e
      · exact box w (by simp [hw]) b hb b (.inl rfl)
  simp only [WordLike.pieceWidths, List.mem_append, List.mem_map] at hx
  rcases hx with ⟨b, hb, rfl⟩ | ⟨b, hb, rfl⟩
  · obtain ⟨⟨h1, h2⟩, h3⟩ := hboxes b (List.dropLast_subset _ hb)
    obtain ⟨k1, k2⟩ := Box.withHyphen_bounds h3
    constructor
    · linarith
    · rw [add_mul, one_mul]; linarith
  · obtain ⟨⟨h1, h2⟩, -⟩ := hboxes b (List.mem_of_getLast? (Option.mem_toList.1 hb))
    constructor
    · linarith
    · rw [add_mul, one_mul]; linarith

end Pdfje
