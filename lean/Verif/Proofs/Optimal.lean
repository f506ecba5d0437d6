import Verif.Proofs.Breaks
/-
From the network to the result of the Knuth-Plass algorithm.
-/

namespace Pdfje

variable {p : FitParams} {bs : List KBox} {width : Nat → ℚ} {tol : Tol}

/-- The positions of the breaks that a node stands for. -/
def BreakNode.positions : BreakNode → List Nat
  | .root => []
  | .node pos _ _ _ _ _ _ _ _ prev => prev.positions ++ [pos]

/-- The breaks of lines that end at these positions. -/
def lineBreaks (p : FitParams) (bs : List KBox) (width : Nat → ℚ) : Nat → Nat → Nat → List Nat → List KBreak
  | _, _, _, [] => []
  | j, a, f, [b] => [⟨b, min (lineRatio p.ragged bs width j a b) 0,
      lastDemerits p f (min (lineRatio p.ragged bs width j a b) 0), startWidth bs b - startWidth bs a⟩]
  | j, a, f, b :: c :: rest => ⟨b, lineRatio p.ragged bs width j a b, lineDemerits p bs a b f (lineRatio p.ragged bs width j a b),
      startWidth bs b - startWidth bs a⟩ :: lineBreaks p bs width (j + 1) b (fitClass (lineRatio p.ragged bs width j a b)) (c :: rest)

section
variable (pos line : Nat) (r : ℚ) (f : Nat) (d m s t : ℚ) (hy : Bool) (prev : BreakNode)
theorem BreakNode.node_pos : (BreakNode.node pos line r f d m s t hy prev).pos = pos := rfl
theorem BreakNode.node_line : (BreakNode.node pos line r f d m s t hy prev).line = line := rfl
theorem BreakNode.node_fit : (BreakNode.node pos line r f d m s t hy prev).fit = f := rfl
theorem BreakNode.node_demerits : (BreakNode.node pos line r f d m s t hy prev).demerits = d := rfl
end

theorem Good.feasible {n : BreakNode} (h : Good p bs width tol n) : ∀ rest, Feasible p bs width tol n.line n.pos rest →
    Feasible p bs width tol 0 0 (n.positions ++ rest) := by
  induction n with
  | root => intro rest h; exact h
  | node pos line r f d m s t hy prev ih =>
    intro rest hr
    obtain ⟨h1, h2, h3, h4, h5, h6, h7, -⟩ := h
    rw [BreakNode.positions, List.append_assoc]
    apply ih h1
    cases rest with
    | nil => exact hr.elim
    | cons b rest =>
      subst h4 h5
      exact ⟨h2, h3, h6, h7, hr⟩

theorem Good.unbroken {n : BreakNode} (h : Good p bs width tol n) : ∀ rest, Unbroken p bs width n.line n.pos rest →
    Unbroken p bs width 0 0 (n.positions ++ rest) := by
  induction n with
  | root => intro rest h; exact h
  | node pos line r f d m s t hy prev ih =>
    intro rest hr
    obtain ⟨h1, h2, h3, h4, -, -, -, -, -, -, -, -, -, h5⟩ := h
    rw [BreakNode.positions, List.append_assoc]
    apply ih h1
    subst h4
    exact ⟨h5, hr⟩

theorem Good.total {n : BreakNode} (h : Good p bs width tol n) : ∀ rest, rest ≠ [] →
    totalDemerits p bs width 0 0 1 (n.positions ++ rest) = n.demerits + totalDemerits p bs width n.line n.pos n.fit rest := by
  induction n with
  | root => intro rest _; simp [BreakNode.positions, BreakNode.demerits, BreakNode.line, BreakNode.pos, BreakNode.fit]
  | node pos line r f d m s t hy prev ih =>
    intro rest hr
    obtain ⟨h1, h2, h3, h4, h5, h6, h7, h8, h9, -⟩ := h
    rw [BreakNode.positions, List.append_assoc, ih h1 _ (by simp)]
    cases rest with
    | nil => exact absurd rfl hr
    | cons b rest =>
      subst h4 h8 h9
      simp only [List.cons_append, List.nil_append, totalDemerits, BreakNode.node_demerits, BreakNode.node_line, BreakNode.node_pos,
        BreakNode.node_fit]
      rw [h5]; ring

theorem Good.unroll {n : BreakNode} (h : Good p bs width tol n) : ∀ rest, rest ≠ [] →
    lineBreaks p bs width 0 0 1 (n.positions ++ rest) = n.unroll ++ lineBreaks p bs width n.line n.pos n.fit rest := by
  induction n with
  | root => intro rest _; simp [BreakNode.positions, BreakNode.unroll, BreakNode.line, BreakNode.pos, BreakNode.fit]
  | node pos line r f d m s t hy prev ih =>
    intro rest hr
    obtain ⟨h1, h2, h3, h4, h5, h6, h7, h8, h9, h10, -⟩ := h
    rw [BreakNode.positions, List.append_assoc, ih h1 _ (by simp)]
    cases rest with
    | nil => exact absurd rfl hr
    | cons b rest =>
      subst h4 h8 h9 h10
      simp only [List.cons_append, List.nil_append, lineBreaks, BreakNode.unroll, List.append_assoc, BreakNode.node_line, BreakNode.node_pos,
        BreakNode.node_fit]
      congr 2
      · rw [KBreak.mk.injEq]
        refine ⟨rfl, h5.symm, ?_, ?_⟩
        · rw [h5]; ring
        · rw [h1.attrs.1]
      · rw [h5]

theorem minEnd_spec : ∀ (l : List EndNode), (minEnd l = none ↔ l = []) ∧
    ∀ e, minEnd l = some e → e ∈ l ∧ ∀ x ∈ l, e.demerits ≤ x.demerits
  | [] => by simp [minEnd]
  | a :: l => by
    obtain ⟨i1, i2⟩ := minEnd_spec l
    unfold minEnd
    cases h : minEnd l with
    | none =>
      have hl := i1.1 h
      subst hl
      simp
    | some f =>
      obtain ⟨j1, j2⟩ := i2 f h
      simp only
      split
      · rename_i hlt
        refine ⟨by simp, ?_⟩
        intro e he
        simp only [Option.some.injEq] at he
        subst he
        refine ⟨by simp [j1], ?_⟩
        intro x hx
        rcases List.mem_cons.1 hx with rfl | hx
        · exact hlt.le
        · exact j2 x hx
      · rename_i hlt
        refine ⟨by simp, ?_⟩
        intro e he
        simp only [Option.some.injEq] at he
        subst he
        refine ⟨by simp, ?_⟩
        intro x hx
        rcases List.mem_cons.1 hx with rfl | hx
        · exact le_refl _
        · exact (not_lt.1 hlt).trans (j2 x hx)

theorem mapM_ok {α β : Type} {f : α → Except FitError β} : ∀ (l : List α) (r : List β), l.mapM f = .ok r →
    (∀ x ∈ l, ∃ y ∈ r, f x = .ok y) ∧ (∀ y ∈ r, ∃ x ∈ l, f x = .ok y)
  | [], r, h => by
    simp only [List.mapM_nil, pure, Except.pure, Except.ok.injEq] at h
    subst h; simp
  | a :: l, r, h => by
    rw [List.mapM_cons, Except.bind_ok] at h
    obtain ⟨b, h1, h⟩ := h
    rw [Except.bind_ok] at h
    obtain ⟨bs, h2, h⟩ := h
    simp only [pure, Except.pure, Except.ok.injEq] at h
    subst h
    obtain ⟨i1, i2⟩ := mapM_ok l bs h2
    constructor
    · intro x hx
      rcases List.mem_cons.1 hx with rfl | hx
      · exact ⟨b, by simp, h1⟩
      · obtain ⟨y, hy, h⟩ := i1 x hx
        exact ⟨y, by simp [hy], h⟩
    · intro y hy
      rcases List.mem_cons.1 hy with rfl | hy
      · exact ⟨a, by simp, h1⟩
      · obtain ⟨x, hx, h⟩ := i2 y hy
        exact ⟨x, by simp [hx], h⟩

theorem mapM_error {α β : Type} {f : α → Except FitError β} {e : FitError} : ∀ (l : List α), l.mapM f = .error e → ∃ x ∈ l, f x = .error e
  | [], h => by simp [pure, Except.pure] at h
  | a :: l, h => by
    rw [List.mapM_cons, Except.bind_error] at h
    rcases h with h | ⟨b, -, h⟩
    · exact ⟨a, by simp, h⟩
    · rw [Except.bind_error] at h
      rcases h with h | ⟨b, -, h⟩
      · obtain ⟨x, hx, h⟩ := mapM_error l h
        exact ⟨x, by simp [hx], h⟩
      · simp [pure, Except.pure] at h

theorem startWidth_last {last : KBox} (hl : bs.getLast? = some last) : startWidth bs bs.length = last.inclSpace := by
  rw [List.getLast?_eq_getElem?] at hl
  have : 0 < bs.length := by
    cases bs with
    | nil => simp at hl
    | cons => simp
  obtain ⟨n, hn⟩ : ∃ n, bs.length = n + 1 := ⟨bs.length - 1, by omega⟩
  rw [hn] at hl ⊢
  simp only [Nat.add_sub_cancel] at hl
  simp [startWidth, hl]

/-- The end nodes. -/
theorem endOption_spec {k : Nat} {g : Network} (hi : Inv p bs width tol k g) (hk : k + 1 = bs.length) {last : KBox}
    (hl : bs.getLast? = some last) {n : BreakNode} (hn : n ∈ g) {o : Option EndNode}
    (h : endOption p width last bs.length n = .ok o) :
    (o = none ↔ ¬ -1 < lineRatio p.ragged bs width n.line n.pos bs.length) ∧
    ∀ e, o = some e → e.demerits = totalDemerits p bs width 0 0 1 (n.positions ++ [bs.length]) ∧
      e.unroll = lineBreaks p bs width 0 0 1 (n.positions ++ [bs.length]) ∧
      Feasible p bs width tol 0 0 (n.positions ++ [bs.length]) ∧ Unbroken p bs width 0 0 (n.positions ++ [bs.length]) := by
  unfold endOption at h
  rw [Except.bind_ok] at h
  obtain ⟨r, hr, h⟩ := h
  simp only [pure, Except.pure, Except.ok.injEq] at h
  have hg := (hi.good n hn).1
  have hp := (hi.good n hn).2
  have er := hg.ratio (b := bs.length) (by rw [← List.getLast?_eq_getElem?]; exact hl) hr
  have hmin : (-1 < min r 0) ↔ -1 < r := by
    rw [lt_min_iff]; constructor
    · exact fun h => h.1
    · intro h; exact ⟨h, by norm_num⟩
  subst er
  split at h
  · rename_i h1
    subst h
    refine ⟨by simpa using hmin.1 h1, ?_⟩
    intro e he
    simp only [Option.some.injEq] at he
    subst he
    have hf : Feasible p bs width tol 0 0 (n.positions ++ [bs.length]) := hg.feasible _ ⟨rfl, by omega, hmin.1 h1⟩
    have hd : mainDemerit 0 (min (lineRatio p.ragged bs width n.line n.pos bs.length) 0) +
        fitDiff p (fitness (min (lineRatio p.ragged bs width n.line n.pos bs.length) 0)) n.fit =
        lastDemerits p n.fit (min (lineRatio p.ragged bs width n.line n.pos bs.length) 0) := by
      unfold mainDemerit lastDemerits
      rw [fitDiff_eq, fitness_eq, add_zero]
    refine ⟨?_, ?_, hf, hg.unbroken _ ⟨fun c h1 h2 => hi.alive n hn c h1 (by omega), trivial⟩⟩
    · rw [hg.total _ (by simp)]
      simp only [totalDemerits]
      rw [hd]; ring
    · rw [hg.unroll _ (by simp)]
      simp only [EndNode.unroll, lineBreaks]
      congr 2
      rw [KBreak.mk.injEq]
      refine ⟨rfl, rfl, ?_, ?_⟩
      · rw [hd]; ring
      · rw [startWidth_last hl, hg.attrs.1]
  · rename_i h1
    subst h
    exact ⟨by simpa using fun h => h1 (hmin.2 h), by simp⟩

/-- Feasible breaks that do not run over positions at which they are too long are found by the search. -/
theorem Reach.follow : ∀ (ps : List Nat) (j a f : Nat) (d : ℚ), Reach p bs width tol j a f d → Feasible p bs width tol j a ps →
    Unbroken p bs width j a ps → ∃ j' a' f' d', Reach p bs width tol j' a' f' d' ∧ a' < bs.length ∧ -1 < lineRatio p.ragged bs width j' a' bs.length ∧
      (∀ c, a' < c → c < bs.length → Legal bs c → -1 ≤ lineRatio p.ragged bs width j' a' c) ∧
      d + totalDemerits p bs width j a f ps = d' + lastDemerits p f' (min (lineRatio p.ragged bs width j' a' bs.length) 0)
  | [], _, _, _, _, _, h, _ => h.elim
  | [b], j, a, f, d, hr, hf, hu => by
    obtain ⟨rfl, h1, h2⟩ := hf
    exact ⟨j, a, f, d, hr, h1, h2, hu.1, rfl⟩
  | b :: c :: rest, j, a, f, d, hr, hf, hu => by
    obtain ⟨h1, h2, h3, h4, h5⟩ := hf
    obtain ⟨j', a', f', d', i1, i2, i3, i4, i5⟩ := Reach.follow (c :: rest) (j + 1) b _ _ (.step hr h1 h2 h3 h4 hu.1) h5 hu.2
    refine ⟨j', a', f', d', i1, i2, i3, i4, ?_⟩
    rw [← i5, totalDemerits]; ring

/-- At every moment one of the breaks is being tried. -/
theorem Reach.at : ∀ (ps : List Nat) (j a f : Nat) (d : ℚ), Reach p bs width tol j a f d → Feasible p bs width tol j a ps →
    Unbroken p bs width j a ps → ∀ k, a ≤ k → k < bs.length → ∃ j' a' f' d', Reach p bs width tol j' a' f' d' ∧ a' ≤ k ∧
      ∀ c, a' < c → c ≤ k → Legal bs c → -1 ≤ lineRatio p.ragged bs width j' a' c
  | [], _, _, _, _, _, h, _ => h.elim
  | [b], j, a, f, d, hr, hf, hu => by
    intro k h1 h2
    exact ⟨j, a, f, d, hr, h1, fun c h3 h4 => hu.1 c h3 (by have := hf.1; omega)⟩
  | b :: c :: rest, j, a, f, d, hr, hf, hu => by
    intro k hk1 hk2
    obtain ⟨h1, h2, h3, h4, h5⟩ := hf
    by_cases hb : k < b
    · exact ⟨j, a, f, d, hr, hk1, fun c h3 h4 => hu.1 c h3 (by omega)⟩
    · exact Reach.at (c :: rest) (j + 1) b _ _ (.step hr h1 h2 h3 h4 hu.1) h5 hu.2 k (by omega) hk2

/-- What `optimum_fit` does. -/
theorem optimumFit_spec (hne : bs ≠ []) :
    (∀ brs, optimumFit p bs width tol = .ok brs → ∃ ps, Feasible p bs width tol 0 0 ps ∧ Unbroken p bs width 0 0 ps ∧ brs = lineBreaks p bs width 0 0 1 ps ∧
      ∀ qs, Feasible p bs width tol 0 0 qs → Unbroken p bs width 0 0 qs → totalDemerits p bs width 0 0 1 ps ≤ totalDemerits p bs width 0 0 1 qs) ∧
    (optimumFit p bs width tol = .error .noFeasibleBreaks → ∀ qs, Feasible p bs width tol 0 0 qs → ¬ Unbroken p bs width 0 0 qs) ∧
    (NoZero p bs width → optimumFit p bs width tol ≠ .error .zeroDivision) := by
  obtain ⟨last, hl⟩ : ∃ last, bs.getLast? = some last := by
    cases h : bs.getLast? with
    | none => rw [List.getLast?_eq_none_iff] at h; exact absurd h hne
    | some x => exact ⟨x, rfl⟩
  have hlen : 0 < bs.length := List.length_pos_iff.2 hne
  have ht := tryBoxes_spec (p := p) (width := width) (tol := tol) bs 0 [.root] Inv.start rfl
  have notNF : ∀ n : BreakNode, endOption p width last bs.length n ≠ .error .noFeasibleBreaks := by
    intro n e
    unfold endOption at e
    rw [Except.bind_error] at e
    rcases e with e | ⟨a, -, e⟩
    · unfold fitRatio ratioRagged ratioJustified at e
      simp only at e
      repeat' split at e
      all_goals simp at e
    · simp [pure, Except.pure] at e
  unfold optimumFit
  rw [hl]
  simp only
  refine ⟨?_, ?_, ?_⟩
  · intro brs h
    rw [Except.bind_ok] at h
    obtain ⟨g, h1, h⟩ := h
    rw [Except.bind_ok] at h
    obtain ⟨e, h2, h⟩ := h
    simp only [pure, Except.pure, Except.ok.injEq] at h
    subst h
    have hi := ht.1 g h1
    rw [show bs.length - 1 - 0 + 0 = bs.length - 1 by omega] at hi
    unfold optimalEnd at h2
    rw [Except.bind_ok] at h2
    obtain ⟨os, h3, h4⟩ := h2
    obtain ⟨m1, m2⟩ := mapM_ok _ _ h3
    split at h4
    · rename_i e' he
      simp only [Except.ok.injEq] at h4
      subst h4
      obtain ⟨k1, k2⟩ := (minEnd_spec _).2 _ he
      rw [List.mem_filterMap] at k1
      obtain ⟨o, ho, e1⟩ := k1
      simp only [id] at e1
      subst e1
      obtain ⟨n, hn, hn2⟩ := m2 _ ho
      obtain ⟨q1, q2, q3, q4⟩ := (endOption_spec hi (by omega) hl hn hn2).2 _ rfl
      refine ⟨_, q3, q4, q2, ?_⟩
      intro qs hq hu
      rw [← q1]
      obtain ⟨j, a, f, d, r1, r2, r3, r4, r5⟩ := Reach.follow qs 0 0 1 0 .start hq hu
      obtain ⟨n', s1, s2, s3⟩ := hi.complete j a f d r1 (by omega) (fun c h1 h2 => r4 c h1 (by omega))
      obtain ⟨o', t1, t2⟩ := m1 n' s1
      obtain ⟨u1, u2⟩ := endOption_spec hi (by omega) hl s1 t2
      simp only [BreakNode.key, Prod.mk.injEq] at s2
      cases o' with
      | none =>
        have := u1.1 rfl
        rw [s2.1, s2.2.1] at this
        exact absurd r3 this
      | some e' =>
        obtain ⟨v1, -, v3⟩ := u2 e' rfl
        have := k2 e' (List.mem_filterMap.2 ⟨_, t1, rfl⟩)
        refine this.trans ?_
        rw [v1, (hi.good n' s1).1.total _ (by simp)]
        simp only [totalDemerits, s2.1, s2.2.1, s2.2.2]
        rw [zero_add] at r5
        rw [r5]
        linarith
    · simp at h4
  · intro h qs hq hu
    rw [Except.bind_error] at h
    rcases h with h | ⟨g, h1, h⟩
    · obtain ⟨k, -, hk, hi⟩ := ht.2 h
      obtain ⟨j, a, f, d, r1, r2, r3⟩ := Reach.at qs 0 0 1 0 .start hq hu k (by omega) (by omega)
      obtain ⟨n, hn, -⟩ := hi.complete j a f d r1 r2 r3
      simp at hn
    · have hi := ht.1 g h1
      rw [show bs.length - 1 - 0 + 0 = bs.length - 1 by omega] at hi
      rw [Except.bind_error] at h
      rcases h with h | ⟨a, -, h⟩
      · unfold optimalEnd at h
        rw [Except.bind_error] at h
        rcases h with h | ⟨os, h3, h4⟩
        · obtain ⟨n, hn, h⟩ := mapM_error _ h
          exact notNF n h
        · obtain ⟨m1, m2⟩ := mapM_ok _ _ h3
          split at h4
          · simp at h4
          · rename_i he
            have hnil := (minEnd_spec _).1.1 he
            obtain ⟨j, a, f, d, r1, r2, r3, r4, r5⟩ := Reach.follow qs 0 0 1 0 .start hq hu
            obtain ⟨n', s1, s2, s3⟩ := hi.complete j a f d r1 (by omega) (fun c h1 h2 => r4 c h1 (by omega))
            obtain ⟨o', t1, t2⟩ := m1 n' s1
            obtain ⟨u1, u2⟩ := endOption_spec hi (by omega) hl s1 t2
            simp only [BreakNode.key, Prod.mk.injEq] at s2
            cases o' with
            | none =>
              have := u1.1 rfl
              rw [s2.1, s2.2.1] at this
              exact absurd r3 this
            | some e' =>
              have : e' ∈ os.filterMap id := List.mem_filterMap.2 ⟨_, t1, rfl⟩
              rw [hnil] at this
              simp at this
      · simp [pure, Except.pure] at h
  · intro hz h
    have hlast : last ∈ bs := List.mem_of_getLast? hl
    rw [Except.bind_error] at h
    rcases h with h | ⟨g, h1, h⟩
    · have key : ∀ (l : List KBox) (pos : Nat) (g : Network), (∀ x ∈ l, x ∈ bs) → tryBoxes p width tol pos l g ≠ .error .zeroDivision := by
        intro l
        induction l with
        | nil => intro pos g _; simp [tryBoxes]
        | cons box l ih =>
          intro pos g hm
          cases l with
          | nil => simp [tryBoxes]
          | cons next l =>
            rw [tryBoxes, ne_eq, Except.bind_error]
            rintro (h | ⟨g1, -, h⟩)
            · unfold tryBox at h
              split at h
              · simp at h
              · split at h
                · simp at h
                · have : ∀ (l h : Network), l.foldlM (tryNode p width tol pos box next) h ≠ .error .zeroDivision := by
                    intro l
                    induction l with
                    | nil => intro h; simp [pure, Except.pure]
                    | cons n l ih =>
                      intro h e
                      rw [List.foldlM_cons, Except.bind_error] at e
                      rcases e with e | ⟨a, -, e⟩
                      · unfold tryNode at e
                        rw [Except.bind_error] at e
                        rcases e with e | ⟨a, -, e⟩
                        · obtain ⟨r, hr⟩ := fitRatio_noZero hz (m := n.measure) (s := n.stretch) (t := n.shrink) (hm box (by simp)) n.line
                          rw [hr] at e; simp at e
                        · simp [pure, Except.pure] at e
                      · exact ih _ e
                  exact this _ _ h
            · exact ih (pos + 1) g1 (fun x hx => hm x (by simp [hx])) h
      exact key bs 1 [.root] (fun x hx => hx) h
    · rw [Except.bind_error] at h
      rcases h with h | ⟨a, -, h⟩
      · unfold optimalEnd at h
        rw [Except.bind_error] at h
        rcases h with h | ⟨os, h3, h4⟩
        · obtain ⟨n, hn, h⟩ := mapM_error _ h
          unfold endOption at h
          rw [Except.bind_error] at h
          rcases h with h | ⟨a, -, h⟩
          · obtain ⟨r, hr⟩ := fitRatio_noZero hz (m := n.measure) (s := n.stretch) (t := n.shrink) hlast n.line
            rw [hr] at h; simp at h
          · simp [pure, Except.pure] at h
        · split at h4 <;> simp at h4
      · simp [pure, Except.pure] at h

/-- If too long lines stay too long then feasible breaks never run over such positions. -/
theorem Feasible.unbroken (hm : Monotone' p bs width) : ∀ (ps : List Nat) (j a : Nat), Feasible p bs width tol j a ps → Unbroken p bs width j a ps
  | [], _, _, h => h.elim
  | [b], j, a, h => by
    obtain ⟨rfl, h1, h2⟩ := h
    refine ⟨?_, trivial⟩
    intro c h3 h4 h5
    by_contra hc
    have := hm j a c _ h3 h4 (le_refl _) h5 (not_le.1 hc)
    linarith
  | b :: c :: rest, j, a, h => by
    obtain ⟨h1, h2, h3, h4, h5⟩ := h
    refine ⟨?_, Feasible.unbroken hm _ _ _ h5⟩
    intro c h6 h7 h8
    by_contra hc
    have := hm j a c b h6 h7 h2.2.1.le h8 (not_le.1 hc)
    linarith

end Pdfje
