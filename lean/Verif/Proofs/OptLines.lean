import Verif.Proofs.Frags
import Verif.Proofs.Greedy
import Verif.Proofs.Optimal
/-
Lines made of fragments: text, states and widths.
-/

namespace Pdfje

variable {env : Env}

/-! ### One line -/

theorem lineWords_concat (init : List Fragment) (f : Fragment) : lineWords (init ++ [f]) =
    match f.onBreak with
    | some t => init.map Fragment.word ++ [t.addCmd f.cmd]
    | none =>
      match (init.map Fragment.word).getLast? with
      | some l => (init.map Fragment.word).dropLast ++ [l.addCmd f.cmd]
      | none => [] := by
  unfold lineWords
  simp only [List.getLast?_concat, List.dropLast_concat]
  rfl

/-- The three ways in which a line ends. -/
theorem lineWords_cases (init : List Fragment) (f : Fragment) :
    (∃ t, f.onBreak = some t ∧ lineWords (init ++ [f]) = init.map Fragment.word ++ [t.addCmd f.cmd]) ∨
    (f.onBreak = none ∧ init = [] ∧ lineWords (init ++ [f]) = []) ∨
    (f.onBreak = none ∧ ∃ init' g, init = init' ++ [g] ∧ lineWords (init ++ [f]) = init'.map Fragment.word ++ [g.word.addCmd f.cmd]) := by
  rw [lineWords_concat]
  cases h : f.onBreak with
  | some t => exact Or.inl ⟨t, rfl, rfl⟩
  | none =>
    right
    rcases List.eq_nil_or_concat init with h0 | ⟨init', g, h0⟩
    · left; subst h0; exact ⟨rfl, rfl, rfl⟩
    · right
      rw [List.concat_eq_append] at h0
      refine ⟨rfl, init', g, h0, ?_⟩
      simp [h0]

theorem fragWords_styled (fs : List Fragment) : (fs.map Fragment.word).flatMap WordLike.styled = fragText fs := by
  simp only [fragText, List.flatMap_map]
  congr 1
  funext f
  exact WordLike.addCmd_styled _ _

/-- The text of a line. -/
theorem lineWords_styled (init : List Fragment) (f : Fragment) {inner : Bool} (hf : FragKind env f inner) :
    (inner = true → ∃ st, (lineWords (init ++ [f])).flatMap WordLike.styled = fragText (init ++ [f]) ++ [('-', st)]) ∧
    (inner = false → (lineWords (init ++ [f])).flatMap WordLike.styled = fragText (init ++ [f]) ∨
      ∃ st, fragText (init ++ [f]) = (lineWords (init ++ [f])).flatMap WordLike.styled ++ [(' ', st)]) := by
  have hsplit : fragText (init ++ [f]) = fragText init ++ f.txt.styled := by simp [fragText]
  rw [hsplit]
  rcases lineWords_cases init f with ⟨t, h1, h2⟩ | ⟨h1, h0, h2⟩ | ⟨h1, init', g, h0, h2⟩
  · rw [h2, List.flatMap_append, fragWords_styled]
    cases hf with
    | inner b hb =>
      cases h1
      obtain ⟨st, e⟩ := Box.withHyphen_styled' (env := env) b
      refine ⟨fun _ => ⟨st, ?_⟩, by simp⟩
      simp [WordLike.addCmd, WordLike.styled, e]
    | spaced b t' st c hb hs ht =>
      cases h1
      refine ⟨by simp, fun _ => Or.inr ⟨st, ?_⟩⟩
      simp [WordLike.addCmd_styled, WordLike.styled, Word.styled]
    | space t' st c ht => simp at h1
    | plain b c hb =>
      cases h1
      refine ⟨by simp, fun _ => Or.inl ?_⟩
      simp [WordLike.addCmd_styled, WordLike.styled]
  · cases hf with
    | inner b hb => simp at h1
    | spaced b t' st c hb hs ht => simp at h1
    | plain b c hb => simp at h1
    | space t' st c ht =>
      refine ⟨by simp, fun _ => Or.inr ⟨st, ?_⟩⟩
      rw [h2]
      subst h0
      simp [fragText, WordLike.styled, Word.styled]
  · cases hf with
    | inner b hb => simp at h1
    | spaced b t' st c hb hs ht => simp at h1
    | plain b c hb => simp at h1
    | space t' st c ht =>
      refine ⟨by simp, fun _ => Or.inr ⟨st, ?_⟩⟩
      rw [h2]
      subst h0
      rw [List.flatMap_append, fragWords_styled]
      simp only [List.flatMap_cons, List.flatMap_nil, List.append_nil, WordLike.addCmd_styled]
      simp [fragText, WordLike.styled, Word.styled, Fragment.word, WordLike.addCmd_styled]

/-- The words of a line lead from state to state. -/
theorem lineWords_wf (init : List Fragment) (f : Fragment) {inner : Bool} (hf : FragKind env f inner) {s t : State}
    (h : WordsWF env ((init ++ [f]).map Fragment.word) s t) : ∃ t', WordsWF env (lineWords (init ++ [f])) s t' := by
  rw [List.map_append] at h
  obtain ⟨m, h1, h2⟩ := h.split
  rcases lineWords_cases init f with ⟨x, e1, e2⟩ | ⟨e1, h0, e2⟩ | ⟨e1, init', g, h0, e2⟩
  · rw [e2]
    have key : x.WF env ∧ x.preState = f.txt.preState := by
      cases hf with
      | inner b hb => cases e1; exact ⟨Box.withHyphen_wf hb, Box.withHyphen_preState hb⟩
      | spaced b t' st c hb hs ht => cases e1; exact ⟨hb, rfl⟩
      | space t' st c ht => simp at e1
      | plain b c hb => cases e1; exact ⟨hb, rfl⟩
    have hm : f.txt.preState = m := by
      have := h2.2.1
      rw [← this]
      simp only [Fragment.word]
      cases f.cmd <;> rfl
    refine ⟨f.cmd.apply x.state, h1.append' ?_⟩
    rw [← hm, ← key.2]
    exact WordLike.addCmd_wordsWF key.1 f.cmd
  · rw [e2]; exact ⟨s, rfl⟩
  · rw [e2]
    subst h0
    rw [List.map_append] at h1
    obtain ⟨m', h3, h4⟩ := h1.split
    refine ⟨f.cmd.apply g.word.state, h3.append' ?_⟩
    have : g.word.preState = m' := h4.2.1
    rw [← this]
    exact WordLike.addCmd_wordsWF h4.1 f.cmd

/-- The width of a line. -/
theorem lineWords_width (init : List Fragment) (f : Fragment) :
    totalWidth (lineWords (init ++ [f])) = (init.map fun g => g.txt.width).sum + f.breakWidth := by
  have hw : ∀ l : List Fragment, ((l.map Fragment.word).map WordLike.width).sum = (l.map fun g => g.txt.width).sum := by
    intro l
    rw [List.map_map]
    congr 1
    apply List.map_congr_left
    intro g _
    exact WordLike.addCmd_width _ _
  unfold totalWidth
  rcases lineWords_cases init f with ⟨x, e1, e2⟩ | ⟨e1, h0, e2⟩ | ⟨e1, init', g, h0, e2⟩
  · rw [e2, List.map_append, List.sum_append, hw]
    simp [Fragment.breakWidth, e1, WordLike.addCmd_width]
  · rw [e2]; subst h0; simp [Fragment.breakWidth, e1]
  · rw [e2, List.map_append, List.sum_append, hw]
    subst h0
    simp [Fragment.breakWidth, e1, WordLike.addCmd_width, Fragment.word]

/-- The spaces on a line. -/
theorem lineWords_space (init : List Fragment) (f : Fragment) {inner : Bool} (hf : FragKind env f inner) :
    totalSpace (lineWords (init ++ [f])) = (init.map fun g => g.txt.spaceWidth).sum := by
  have ha : ∀ (w : WordLike) c, (w.addCmd c).spaceWidth = w.spaceWidth := by
    intro w c; cases c <;> rfl
  have hw : ∀ l : List Fragment, ((l.map Fragment.word).map WordLike.spaceWidth).sum = (l.map fun g => g.txt.spaceWidth).sum := by
    intro l
    rw [List.map_map]
    congr 1
    apply List.map_congr_left
    intro g _
    exact ha _ _
  unfold totalSpace
  rcases lineWords_cases init f with ⟨x, e1, e2⟩ | ⟨e1, h0, e2⟩ | ⟨e1, init', g, h0, e2⟩
  · rw [e2, List.map_append, List.sum_append, hw]
    have : x.spaceWidth = 0 := by
      cases hf with
      | inner b hb => cases e1; rfl
      | spaced b t' st c hb hs ht => cases e1; rfl
      | space t' st c ht => simp at e1
      | plain b c hb => cases e1; rfl
    simp [ha, this]
  · rw [e2]; subst h0; simp
  · rw [e2, List.map_append, List.sum_append, hw]
    subst h0
    simp [ha, Fragment.word]

/-- Every word on a line with a space comes from a fragment. -/
theorem lineWords_tailState (init : List Fragment) (f : Fragment) {inner : Bool} (hf : FragKind env f inner) :
    ∀ w ∈ lineWords (init ++ [f]), w.tailState = none ∨ ∃ g ∈ init, w.tailState = g.txt.tailState := by
  have ha : ∀ (w : WordLike) c, (w.addCmd c).tailState = w.tailState := by
    intro w c; cases c <;> rfl
  intro w hw
  rcases lineWords_cases init f with ⟨x, e1, e2⟩ | ⟨e1, h0, e2⟩ | ⟨e1, init', g, h0, e2⟩
  · rw [e2, List.mem_append, List.mem_map, List.mem_singleton] at hw
    rcases hw with ⟨g, hg, rfl⟩ | rfl
    · exact Or.inr ⟨g, hg, ha _ _⟩
    · left
      rw [ha]
      cases hf with
      | inner b hb => cases e1; rfl
      | spaced b t' st c hb hs ht => cases e1; rfl
      | space t' st c ht => simp at e1
      | plain b c hb => cases e1; rfl
  · rw [e2] at hw; simp at hw
  · rw [e2, List.mem_append, List.mem_map, List.mem_singleton] at hw
    subst h0
    rcases hw with ⟨g, hg, rfl⟩ | rfl
    · exact Or.inr ⟨g, by simp [hg], ha _ _⟩
    · exact Or.inr ⟨g, by simp, by rw [ha]; exact ha _ _⟩

/-! ### All lines -/

theorem seg_concat {α} (fs : List α) {a b : Nat} (h : a < b) (hb : b ≤ fs.length) :
    ∃ f, fs[b - 1]? = some f ∧ (fs.take b).drop a = (fs.take (b - 1)).drop a ++ [f] := by
  have h1 : b - 1 < fs.length := by omega
  refine ⟨fs[b - 1], List.getElem?_eq_getElem h1, ?_⟩
  have : fs.take b = fs.take (b - 1) ++ [fs[b - 1]] := by
    obtain ⟨c, rfl⟩ : ∃ c, b = c + 1 := ⟨b - 1, by omega⟩
    simp only [Nat.add_sub_cancel] at h1 ⊢
    rw [List.take_succ, List.getElem?_eq_getElem h1]; rfl
  rw [this, List.drop_append_of_le_length]
  rw [List.length_take]; omega

theorem seg_kind {ws : List WordLike} {fs : List Fragment} (hs : FragSeq env ws fs) {b : Nat} {f : Fragment} (hb : 0 < b)
    (hf : fs[b - 1]? = some f) : ∃ inner, FragKind env f inner ∧ (inner = true ↔ ¬ Boundary ws (fragText (fs.drop b)).length) := by
  have h1 := hs.drop (b - 1)
  rw [List.drop_eq_getElem_cons (List.getElem?_eq_some_iff.1 hf).1, (List.getElem?_eq_some_iff.1 hf).2,
    show b - 1 + 1 = b by omega] at h1
  exact h1.1

theorem last_ge {ps : List Nat} : ∀ {a n : Nat}, (a :: ps).Pairwise (· < ·) → (a :: ps).getLast? = some n → ∀ x ∈ a :: ps, x ≤ n := by
  induction ps with
  | nil => intro a n _ h x hx; simp at h hx; omega
  | cons b ps ih =>
    intro a n hp hl x hx
    rw [List.getLast?_cons_cons] at hl
    have hb := ih (List.pairwise_cons.1 hp).2 hl
    rcases List.mem_cons.1 hx with rfl | hx
    · have := (List.pairwise_cons.1 hp).1 b (by simp)
      have := hb b (by simp)
      omega
    · exact hb x hx

/-- The text of the lines. -/
theorem raggedLines_text {ws : List WordLike} {fs : List Fragment} (hs : FragSeq env ws fs) : ∀ (brs : List KBreak) (prev : Nat),
    (prev :: brs.map KBreak.pos).Pairwise (· < ·) → (prev :: brs.map KBreak.pos).getLast? = some fs.length →
    LinesShow ws ((raggedLines fs prev brs).map TLine.styled) (fragText (fs.drop prev))
  | [], prev, _, hl => by
    simp only [List.map_nil, List.getLast?_singleton, Option.some.injEq] at hl
    subst hl
    simp only [raggedLines, List.map_nil, List.drop_length]
    exact .nil
  | br :: brs, prev, hp, hl => by
    have hle := last_ge hp hl br.pos (by simp)
    have hlt : prev < br.pos := (List.pairwise_cons.1 hp).1 br.pos (by simp)
    rw [List.map_cons, List.getLast?_cons_cons] at hl
    have ih := raggedLines_text hs brs br.pos (by simpa using (List.pairwise_cons.1 hp).2) hl
    obtain ⟨f, hf, e⟩ := seg_concat fs hlt hle
    obtain ⟨inner, hk, hb⟩ := seg_kind hs (by omega) hf
    have hsplit : fragText (fs.drop prev) = fragText ((fs.take br.pos).drop prev) ++ fragText (fs.drop br.pos) := by
      rw [← fragText_append, drop_take_append_drop fs prev br.pos hlt.le]
    obtain ⟨k1, k2⟩ := lineWords_styled ((fs.take (br.pos - 1)).drop prev) f hk
    rw [hsplit]
    simp only [raggedLines, List.map_cons]
    refine .cons _ _ _ _ ?_ ?_ ih
    · intro h
      have hi : inner = false := by
        cases inner with
        | false => rfl
        | true => exact absurd h (hb.1 rfl)
      rw [e]
      exact k2 hi
    · intro h
      rw [e]
      exact k1 (hb.2 h)

theorem raggedLines_get (fs : List Fragment) : ∀ (brs : List KBreak) (prev k : Nat) (line : TLine), (raggedLines fs prev brs)[k]? = some line →
    ∃ a br, (prev :: brs.map KBreak.pos)[k]? = some a ∧ brs[k]? = some br ∧ line = ⟨lineWords ((fs.take br.pos).drop a), br.width, 0⟩
  | [], _, _, _, h => by simp [raggedLines] at h
  | br :: brs, prev, 0, line, h => by
    simp only [raggedLines, List.getElem?_cons_zero, Option.some.injEq] at h
    exact ⟨prev, br, rfl, rfl, h.symm⟩
  | br :: brs, prev, k + 1, line, h => by
    simp only [raggedLines, List.getElem?_cons_succ] at h
    obtain ⟨a, b, h1, h2, h3⟩ := raggedLines_get fs brs br.pos k line h
    exact ⟨a, b, by simpa using h1, by simpa using h2, h3⟩

theorem raggedLines_length (fs : List Fragment) : ∀ (brs : List KBreak) (prev : Nat), (raggedLines fs prev brs).length = brs.length
  | [], _ => rfl
  | _ :: brs, _ => by simp [raggedLines, raggedLines_length fs brs]

/-- The start and end of a line. -/
theorem breaks_bounds {ps : List Nat} {prev n k a b : Nat} (hp : (prev :: ps).Pairwise (· < ·)) (hl : (prev :: ps).getLast? = some n)
    (ha : (prev :: ps)[k]? = some a) (hb : ps[k]? = some b) : a < b ∧ b ≤ n := by
  constructor
  · have hb' : (prev :: ps)[k + 1]? = some b := by simpa using hb
    rw [List.getElem?_eq_some_iff] at ha hb'
    obtain ⟨h1, rfl⟩ := ha
    obtain ⟨h2, rfl⟩ := hb'
    exact List.pairwise_iff_getElem.1 hp k (k + 1) h1 h2 (by omega)
  · exact last_ge hp hl b (by simpa using Or.inr (List.mem_of_getElem? hb))

/-- The words of every line lead from state to state. -/
theorem seg_wf {ws : List WordLike} {fs : List Fragment} (hs : FragSeq env ws fs) {s t : State} (hw : WordsWF env (fs.map Fragment.word) s t)
    {a b : Nat} (h : a < b) (hb : b ≤ fs.length) : ∃ s' t', WordsWF env (lineWords ((fs.take b).drop a)) s' t' := by
  obtain ⟨f, hf, e⟩ := seg_concat fs h hb
  obtain ⟨inner, hk, -⟩ := seg_kind hs (by omega) hf
  have e2 : fs.map Fragment.word = (fs.take b).map Fragment.word ++ (fs.drop b).map Fragment.word := by rw [← List.map_append, List.take_append_drop]
  rw [e2] at hw
  obtain ⟨m, h1, -⟩ := hw.split
  have e3 : fs.take b = (fs.take b).take a ++ (fs.take b).drop a := (List.take_append_drop _ _).symm
  rw [e3, List.map_append] at h1
  obtain ⟨m', -, h2⟩ := h1.split
  rw [e] at h2 ⊢
  exact ⟨m', lineWords_wf _ f hk h2⟩

/-! ### Widths -/

theorem FragMetrics.get {justify : Bool} : ∀ {fbs : List (Fragment × KBox)} {w s k : ℚ}, FragMetrics justify fbs w s k → ∀ i f b,
    fbs[i]? = some (f, b) →
    b.inclSpace = w + ((fbs.take (i + 1)).map fun e => e.1.txt.width).sum ∧
    b.inclHyphen = w + ((fbs.take i).map fun e => e.1.txt.width).sum + f.breakWidth ∧
    b.stretch = s + (if justify then ((fbs.take i).map fun e => e.1.txt.spaceWidth).sum * (1/2) else 0) ∧
    b.shrink = k + (if justify then ((fbs.take i).map fun e => e.1.txt.spaceWidth).sum * (1/3) else 0) ∧ b.noBreak = false
  | [], _, _, _, _, i, _, _, hi => by simp at hi
  | (f0, b0) :: r, w, s, k, h, 0, f, b, hi => by
    simp only [List.getElem?_cons_zero, Option.some.injEq, Prod.mk.injEq] at hi
    obtain ⟨rfl, rfl⟩ := hi
    obtain ⟨h1, h2, h3, h4, h5, -⟩ := h
    exact ⟨by simpa using h1, by simpa using h2, by simpa using h3, by simpa using h4, h5⟩
  | (f0, b0) :: r, w, s, k, h, i + 1, f, b, hi => by
    rw [List.getElem?_cons_succ] at hi
    obtain ⟨-, -, -, -, -, h6⟩ := h
    obtain ⟨i1, i2, i3, i4, i5⟩ := FragMetrics.get h6 i f b hi
    refine ⟨?_, ?_, ?_, ?_, i5⟩
    · rw [i1]; simp; ring
    · rw [i2]; simp; ring
    · rw [i3]
      cases justify <;> simp
      ring
    · rw [i4]
      cases justify <;> simp
      ring

theorem startWidth_metrics {justify : Bool} {fbs : List (Fragment × KBox)} {s k : ℚ} (h : FragMetrics justify fbs 0 s k) {a : Nat} (ha : a ≤ fbs.length) :
    startWidth (fbs.map (·.2)) a = ((fbs.take a).map fun e => e.1.txt.width).sum := by
  cases a with
  | zero => simp [startWidth]
  | succ a =>
    have h1 : a < fbs.length := by omega
    have h2 := (h.get a fbs[a].1 fbs[a].2 (List.getElem?_eq_getElem h1)).1
    simp only [startWidth, List.getElem?_map, List.getElem?_eq_getElem h1, Option.map_some]
    rw [h2, zero_add]

theorem take_sum_sub {α} (f : α → ℚ) (l : List α) {a b : Nat} (h : a ≤ b) :
    ((l.take b).map f).sum - ((l.take a).map f).sum = (((l.take b).drop a).map f).sum := by
  have : l.take b = l.take a ++ (l.take b).drop a := by
    conv_lhs => rw [← List.take_append_drop a (l.take b)]
    rw [List.take_take, min_eq_left h]
  conv_lhs => rw [this]
  simp

/-- The length, stretch and shrink that the algorithm uses for a line are those of its words. -/
theorem line_metrics {justify : Bool} {ws : List WordLike} {fbs : List (Fragment × KBox)} {s : ℚ} (hm : FragMetrics justify fbs 0 s 0)
    (hs : FragSeq env ws (fbs.map (·.1))) {a b : Nat} (h : a < b) (hb : b ≤ fbs.length) :
    ∃ x, (fbs.map (·.2))[b - 1]? = some x ∧
      x.inclHyphen - startWidth (fbs.map (·.2)) a = totalWidth (lineWords (((fbs.map (·.1)).take b).drop a)) ∧
      (justify = true → s = 0 →
        x.stretch - startStretch (fbs.map (·.2)) a = totalSpace (lineWords (((fbs.map (·.1)).take b).drop a)) * (1/2) ∧
        x.shrink - startShrink (fbs.map (·.2)) a = totalSpace (lineWords (((fbs.map (·.1)).take b).drop a)) * (1/3)) := by
  obtain ⟨f, hf, e⟩ := seg_concat (fbs.map (·.1)) h (by simpa using hb)
  obtain ⟨inner, hk, -⟩ := seg_kind hs (by omega) hf
  have h1 : b - 1 < fbs.length := by omega
  have h2 := List.getElem?_eq_getElem h1
  obtain ⟨g1, g2, g3, g4, g5⟩ := hm.get (b - 1) fbs[b - 1].1 fbs[b - 1].2 h2
  have hf' : fbs[b - 1].1 = f := by
    rw [List.getElem?_map, h2] at hf
    simpa using hf
  refine ⟨fbs[b - 1].2, by rw [List.getElem?_map, h2]; rfl, ?_, ?_⟩
  · rw [e, lineWords_width, g2, startWidth_metrics hm (by omega), zero_add, hf']
    rw [add_sub_right_comm, take_sum_sub _ _ (by omega)]
    simp [List.map_drop, List.map_take, Function.comp_def]
  · rintro rfl rfl
    rw [e, lineWords_space _ f hk]
    have key : ∀ c : ℚ, ((fbs.take (b - 1)).map fun e => e.1.txt.spaceWidth).sum * c - ((fbs.take a).map fun e => e.1.txt.spaceWidth).sum * c =
        ((((fbs.map (·.1)).take (b - 1)).drop a).map fun g => g.txt.spaceWidth).sum * c := by
      intro c
      rw [← sub_mul, take_sum_sub _ _ (by omega)]
      simp [List.map_drop, List.map_take, Function.comp_def]
    have hstart : startStretch (fbs.map (·.2)) a = ((fbs.take a).map fun e => e.1.txt.spaceWidth).sum * (1/2) ∧
        startShrink (fbs.map (·.2)) a = ((fbs.take a).map fun e => e.1.txt.spaceWidth).sum * (1/3) := by
      cases a with
      | zero => simp [startStretch, startShrink]
      | succ a =>
        have h3 : a + 1 < fbs.length := by omega
        obtain ⟨-, -, j3, j4, -⟩ := hm.get (a + 1) fbs[a + 1].1 fbs[a + 1].2 (List.getElem?_eq_getElem h3)
        simp only [startStretch, startShrink, List.getElem?_map, List.getElem?_eq_getElem h3, Option.map_some]
        rw [j3, j4]; simp
    rw [hstart.1, hstart.2, g3, g4, if_pos rfl, if_pos rfl, zero_add, zero_add]
    exact ⟨key _, key _⟩

end Pdfje
