import Verif.Spec.Breaks
import Mathlib.Tactic.Linarith
import Mathlib.Tactic.Ring
/-
The Knuth-Plass algorithm finds an optimal sequence of breaks.
-/

namespace Pdfje

theorem Tol.allows_iff (tol : Tol) (r : ℚ) : tol.allows r = true ↔ tol.Within r := by cases tol <;> simp [Tol.allows, Tol.Within]

instance (tol : Tol) (r : ℚ) : Decidable (tol.Within r) := decidable_of_iff _ (tol.allows_iff r)

theorem Except.bind_ok {ε α β : Type} {x : Except ε α} {f : α → Except ε β} {y : β} :
    (x >>= f) = .ok y ↔ ∃ a, x = .ok a ∧ f a = .ok y := by
  cases x with
  | error e => simp [bind, Except.bind]
  | ok a => simp [bind, Except.bind]

theorem Except.bind_error {ε α β : Type} {x : Except ε α} {f : α → Except ε β} {e : ε} :
    (x >>= f) = .error e ↔ x = .error e ∨ ∃ a, x = .ok a ∧ f a = .error e := by
  cases x with
  | error e => simp [bind, Except.bind]
  | ok a => simp [bind, Except.bind]

/-! ### Ratios and demerits of the model and of the specification -/

theorem fitness_eq (r : ℚ) : fitness r = fitClass r := rfl

theorem fitDiff_eq (p : FitParams) (f g : Nat) : fitDiff p f g = classPenalty p g f := by
  unfold fitDiff classPenalty
  congr 1
  exact propext (by omega)

theorem ratioJustified_eq {m s t : ℚ} {b : KBox} {space r : ℚ} (h : ratioJustified m s t b space = .ok r) :
    r = justifiedRatio (b.inclHyphen - m) (b.stretch - s) (b.shrink - t) space := by
  unfold ratioJustified at h
  unfold justifiedRatio
  generalize b.inclHyphen - m = l at *
  generalize b.stretch - s = x at *
  generalize b.shrink - t = y at *
  simp only at h
  by_cases h1 : l = space
  · subst h1
    rw [if_pos rfl]
    simp only [lt_irrefl, if_false, sub_self, zero_div, ne_eq, not_true] at h
    split at h <;> simpa using h.symm
  · rw [if_neg h1]
    by_cases h2 : l < space
    · simp only [h2, if_true] at h ⊢
      by_cases h3 : x = 0
      · simp only [h3, ne_eq, not_true, if_false, h1, not_false_eq_true, if_true] at h ⊢
        split at h
        · simp at h
        · simpa using h.symm
      · simp only [ne_eq, h3, not_false_eq_true, if_true] at h ⊢
        simpa [h3] using h.symm
    · simp only [h2, if_false] at h ⊢
      by_cases h3 : y = 0
      · simp only [h3, ne_eq, not_true, if_false, h1, not_false_eq_true, if_true] at h ⊢
        split at h
        · simp at h
        · simpa using h.symm
      · simp only [ne_eq, h3, not_false_eq_true, if_true] at h ⊢
        simpa [h3] using h.symm

theorem ratioRagged_eq {m : ℚ} {b : KBox} {space r : ℚ} (h : ratioRagged m b space = .ok r) :
    r = raggedRatio (b.inclHyphen - m) b.stretch space := by
  unfold ratioRagged at h
  unfold raggedRatio
  simp only at h
  by_cases h1 : b.inclHyphen - m ≤ space
  · rw [if_pos h1]
    rw [if_pos (by linarith)] at h
    split at h
    · simp at h
    · simp only [Except.ok.injEq] at h
      rw [← h]; congr 1; ring
  · rw [if_neg h1]
    rw [if_neg (by intro h; apply h1; linarith)] at h
    simpa using h.symm

theorem fitRatio_eq {ragged : Bool} {bs : List KBox} {width : Nat → ℚ} {j a b : Nat} {x : KBox} {r : ℚ} (hx : bs[b - 1]? = some x)
    (h : fitRatio ragged (startWidth bs a) (startStretch bs a) (startShrink bs a) x (width j) = .ok r) :
    r = lineRatio ragged bs width j a b := by
  unfold fitRatio at h
  unfold lineRatio
  rw [hx]
  simp only
  split at h
  · rw [if_pos (by assumption)]; exact ratioRagged_eq h
  · rw [if_neg (by assumption)]; exact ratioJustified_eq h

theorem fitRatio_noZero {p : FitParams} {bs : List KBox} {width : Nat → ℚ} (hz : NoZero p bs width) {m s t : ℚ} {x : KBox}
    (hx : x ∈ bs) (j : Nat) : ∃ r, fitRatio p.ragged m s t x (width j) = .ok r := by
  unfold fitRatio
  split
  · rename_i h
    unfold ratioRagged
    simp only [hz.fill h x hx, if_false]
    split <;> exact ⟨_, rfl⟩
  · unfold ratioJustified
    simp only [hz.width j, if_false]
    by_cases h1 : (if x.inclHyphen - m < width j then x.stretch - s else x.shrink - t) = 0
    · by_cases h2 : x.inclHyphen - m = width j
      · exact ⟨0, by rw [if_neg (by simpa using h1), if_neg (by simpa using h2)]⟩
      · exact ⟨_, by rw [if_neg (by simpa using h1), if_pos h2]⟩
    · exact ⟨_, by rw [if_pos h1]⟩

/-! ### Soundness -/

/-- A node is what its attributes say: it stands for feasible breaks up to its position, with no line that runs over a
position at which it is too long. -/
def Good (p : FitParams) (bs : List KBox) (width : Nat → ℚ) (tol : Tol) : BreakNode → Prop
  | .root => True
  | .node pos line r f d m s t hy prev => Good p bs width tol prev ∧ prev.pos < pos ∧ Legal bs pos ∧ line = prev.line + 1 ∧
      r = lineRatio p.ragged bs width prev.line prev.pos pos ∧ -1 ≤ r ∧ tol.Within r ∧ f = fitClass r ∧
      d = prev.demerits + lineDemerits p bs prev.pos pos prev.fit r ∧
      m = startWidth bs pos ∧ s = startStretch bs pos ∧ t = startShrink bs pos ∧ hy = endsHyphen bs pos ∧
      ∀ c, prev.pos < c → c < pos → Legal bs c → -1 ≤ lineRatio p.ragged bs width prev.line prev.pos c

variable {p : FitParams} {bs : List KBox} {width : Nat → ℚ} {tol : Tol}

theorem Good.attrs {n : BreakNode} (h : Good p bs width tol n) : n.measure = startWidth bs n.pos ∧ n.stretch = startStretch bs n.pos ∧
    n.shrink = startShrink bs n.pos ∧ n.hyphenated = endsHyphen bs n.pos := by
  cases n with
  | root => exact ⟨rfl, rfl, rfl, rfl⟩
  | node => obtain ⟨-, -, -, -, -, -, -, -, -, h1, h2, h3, h4, -⟩ := h; exact ⟨h1, h2, h3, h4⟩

theorem Good.ratio {n : BreakNode} (h : Good p bs width tol n) {b : Nat} {x : KBox} {r : ℚ} (hx : bs[b - 1]? = some x)
    (hr : fitRatio p.ragged n.measure n.stretch n.shrink x (width n.line) = .ok r) :
    r = lineRatio p.ragged bs width n.line n.pos b := by
  obtain ⟨h1, h2, h3, -⟩ := h.attrs
  rw [h1, h2, h3] at hr
  exact fitRatio_eq hx hr

theorem Good.break {n : BreakNode} (h : Good p bs width tol n) {pos : Nat} {box next : KBox} {r : ℚ} (hlt : n.pos < pos)
    (hb : bs[pos - 1]? = some box) (hn : bs[pos]? = some next) (hnb : box.noBreak = false)
    (hr : fitRatio p.ragged n.measure n.stretch n.shrink box (width n.line) = .ok r) (h1 : -1 ≤ r) (h2 : tol.Within r)
    (hu : ∀ c, n.pos < c → c < pos → Legal bs c → -1 ≤ lineRatio p.ragged bs width n.line n.pos c) :
    Good p bs width tol (breakNode p pos box next n r) := by
  have hpos : 0 < pos := by omega
  have hlen : pos < bs.length := (List.getElem?_eq_some_iff.1 hn).1
  obtain ⟨k, rfl⟩ : ∃ k, pos = k + 1 := ⟨pos - 1, by omega⟩
  simp only [Nat.add_sub_cancel] at hb
  refine ⟨h, hlt, ⟨hpos, hlen, ?_⟩, rfl, h.ratio (b := k + 1) hb hr, h1, h2, fitness_eq r, ?_, ?_, ?_, ?_, ?_, hu⟩
  · intro x hx
    simp only [Nat.add_sub_cancel, hb, Option.some.injEq] at hx
    rw [← hx]; exact hnb
  · have e : endsHyphen bs (k + 1) = box.hyphenated := by simp [endsHyphen, hb]
    unfold lineDemerits mainDemerit consecutive
    rw [fitDiff_eq, fitness_eq, h.attrs.2.2.2, e]
    simp only [and_comm]
    ring
  · simp [startWidth, hb]
  · simp [startStretch, hn]
  · simp [startShrink, hn]
  · simp [endsHyphen, hb]

/-! ### Completeness -/

/-- There are breaks up to position `a`, where line `j` starts, after a line of class `f`, with demerits `d`, none of
which runs over a position at which it is too long. -/
inductive Reach (p : FitParams) (bs : List KBox) (width : Nat → ℚ) (tol : Tol) : Nat → Nat → Nat → ℚ → Prop
  | start : Reach p bs width tol 0 0 1 0
  | step {j a f d b} : Reach p bs width tol j a f d → a < b → Legal bs b → -1 ≤ lineRatio p.ragged bs width j a b →
      tol.Within (lineRatio p.ragged bs width j a b) →
      (∀ c, a < c → c < b → Legal bs c → -1 ≤ lineRatio p.ragged bs width j a c) →
      Reach p bs width tol (j + 1) b (fitClass (lineRatio p.ragged bs width j a b))
        (d + lineDemerits p bs a b f (lineRatio p.ragged bs width j a b))

theorem Reach.legal {j a f : Nat} {d : ℚ} (h : Reach p bs width tol j a f d) : a = 0 ∨ Legal bs a := by
  cases h with
  | start => exact Or.inl rfl
  | step _ _ h => exact Or.inr h

/-- The network after the breaks up to position `k`. -/
structure Inv (p : FitParams) (bs : List KBox) (width : Nat → ℚ) (tol : Tol) (k : Nat) (g : Network) : Prop where
  nodup : (g.map BreakNode.key).Nodup
  good : ∀ n ∈ g, Good p bs width tol n ∧ n.pos ≤ k
  alive : ∀ n ∈ g, ∀ c, n.pos < c → c ≤ k → Legal bs c → -1 ≤ lineRatio p.ragged bs width n.line n.pos c
  complete : ∀ j a f d, Reach p bs width tol j a f d → a ≤ k →
    (∀ c, a < c → c ≤ k → Legal bs c → -1 ≤ lineRatio p.ragged bs width j a c) → ∃ n ∈ g, n.key = (j, a, f) ∧ n.demerits ≤ d

theorem Inv.start : Inv p bs width tol 0 [.root] where
  nodup := by simp
  good := by intro n hn; simp only [List.mem_singleton] at hn; subst hn; exact ⟨trivial, le_refl 0⟩
  alive := by intro n _ c h1 h2; omega
  complete := by
    intro j a f d h ha _
    cases h with
    | start => exact ⟨.root, by simp, rfl, le_refl 0⟩
    | step => omega

theorem Network.add_mem (g : Network) (n m : BreakNode) (h : m ∈ g.add n) : m ∈ g ∨ m = n := by
  induction g with
  | nil => simp only [Network.add, List.mem_singleton] at h; exact Or.inr h
  | cons x g ih =>
    unfold Network.add at h
    split at h
    · split at h
      · rcases List.mem_cons.1 h with h | h
        · exact Or.inr h
        · exact Or.inl (List.mem_cons_of_mem _ h)
      · exact Or.inl h
    · rcases List.mem_cons.1 h with h | h
      · exact Or.inl (by rw [h]; exact List.mem_cons_self)
      · rcases ih h with h | h
        · exact Or.inl (List.mem_cons_of_mem _ h)
        · exact Or.inr h

theorem Network.add_self (g : Network) (n : BreakNode) : ∃ m ∈ g.add n, m.key = n.key ∧ m.demerits ≤ n.demerits := by
  induction g with
  | nil => exact ⟨n, by simp [Network.add], rfl, le_refl _⟩
  | cons x g ih =>
    unfold Network.add
    split
    · rename_i h
      split
      · exact ⟨n, by simp, rfl, le_refl _⟩
      · rename_i h2; exact ⟨x, by simp, h, not_lt.1 h2⟩
    · obtain ⟨m, h1, h2⟩ := ih
      exact ⟨m, List.mem_cons_of_mem _ h1, h2⟩

theorem Network.add_le (g : Network) (n m : BreakNode) (h : m ∈ g) : ∃ m' ∈ g.add n, m'.key = m.key ∧ m'.demerits ≤ m.demerits := by
  induction g with
  | nil => simp at h
  | cons x g ih =>
    unfold Network.add
    rcases List.mem_cons.1 h with rfl | h
    · split
      · rename_i h1
        split
        · rename_i h2; exact ⟨n, by simp, h1.symm, h2.le⟩
        · exact ⟨m, by simp, rfl, le_refl _⟩
      · exact ⟨m, by simp, rfl, le_refl _⟩
    · split
      · split <;> exact ⟨m, by simp [h], rfl, le_refl _⟩
      · obtain ⟨m', h1, h2⟩ := ih h
        exact ⟨m', List.mem_cons_of_mem _ h1, h2⟩

theorem Network.add_keep (g : Network) (n m : BreakNode) (h : m ∈ g) (hk : m.key ≠ n.key) : m ∈ g.add n := by
  induction g with
  | nil => simp at h
  | cons x g ih =>
    unfold Network.add
    rcases List.mem_cons.1 h with rfl | h
    · rw [if_neg hk]; simp
    · split
      · split <;> simp [h]
      · exact List.mem_cons_of_mem _ (ih h)

theorem Network.add_keys (g : Network) (n : BreakNode) :
    (g.add n).map BreakNode.key = if n.key ∈ g.map BreakNode.key then g.map BreakNode.key else g.map BreakNode.key ++ [n.key] := by
  induction g with
  | nil => simp [Network.add]
  | cons x g ih =>
    unfold Network.add
    by_cases h : x.key = n.key
    · rw [if_pos h]
      split <;> simp [h]
    · rw [if_neg h, List.map_cons, ih]
      have h' : ¬ n.key = x.key := fun e => h e.symm
      simp only [List.map_cons, List.mem_cons, h', false_or]
      split <;> simp

theorem Network.add_nodup {g : Network} {n : BreakNode} (h : (g.map BreakNode.key).Nodup) : ((g.add n).map BreakNode.key).Nodup := by
  rw [Network.add_keys]
  split
  · exact h
  · rename_i hn
    rw [List.nodup_append]
    refine ⟨h, by simp, ?_⟩
    intro a ha b hb
    simp only [List.mem_singleton] at hb
    subst hb
    rintro rfl
    exact hn ha

theorem breakNode_key (pos : Nat) (box next : KBox) (n : BreakNode) (r : ℚ) :
    (breakNode p pos box next n r).key = (n.line + 1, pos, fitClass r) := rfl

/-- One round over all nodes. -/
theorem fold_spec {pos : Nat} {box next : KBox} : ∀ (l h g' : Network), l.foldlM (tryNode p width tol pos box next) h = .ok g' →
    (h.map BreakNode.key).Nodup → (∀ n ∈ l, n.pos < pos) →
    (g'.map BreakNode.key).Nodup ∧
    (∀ n ∈ l, ∃ r, fitRatio p.ragged n.measure n.stretch n.shrink box (width n.line) = .ok r) ∧
    (∀ m ∈ g', m ∈ h ∨ ∃ n ∈ l, ∃ r, fitRatio p.ragged n.measure n.stretch n.shrink box (width n.line) = .ok r ∧ -1 ≤ r ∧
      tol.Within r ∧ m = breakNode p pos box next n r) ∧
    (∀ m ∈ h, m.pos < pos → (∀ n ∈ l, n.key = m.key → ∀ r,
      fitRatio p.ragged n.measure n.stretch n.shrink box (width n.line) = .ok r → -1 ≤ r) → m ∈ g') ∧
    (∀ m ∈ h, m.pos = pos → ∃ m' ∈ g', m'.key = m.key ∧ m'.demerits ≤ m.demerits) ∧
    (∀ n ∈ l, ∀ r, fitRatio p.ragged n.measure n.stretch n.shrink box (width n.line) = .ok r → -1 ≤ r → tol.Within r →
      ∃ m ∈ g', m.key = (breakNode p pos box next n r).key ∧ m.demerits ≤ (breakNode p pos box next n r).demerits) ∧
    (∀ n ∈ l, ∀ r, fitRatio p.ragged n.measure n.stretch n.shrink box (width n.line) = .ok r → r < -1 → ∀ m ∈ g', m.key ≠ n.key) := by
  intro l
  induction l with
  | nil =>
    intro h g' hf hd _
    simp only [List.foldlM_nil, pure, Except.pure, Except.ok.injEq] at hf
    subst hf
    exact ⟨hd, by simp, fun m hm => Or.inl hm, fun m hm _ _ => hm, fun m hm _ => ⟨m, hm, rfl, le_refl _⟩, by simp, by simp⟩
  | cons n l ih =>
    intro h g' hf hd hl
    rw [List.foldlM_cons, Except.bind_ok] at hf
    obtain ⟨h1, e1, e2⟩ := hf
    unfold tryNode at e1
    rw [Except.bind_ok] at e1
    obtain ⟨r, hr, e1⟩ := e1
    simp only [pure, Except.pure, Except.ok.injEq] at e1
    have hn : n.pos < pos := hl n (by simp)
    have hl' : ∀ m ∈ l, m.pos < pos := fun m hm => hl m (by simp [hm])
    have rdet : ∀ r', fitRatio p.ragged n.measure n.stretch n.shrink box (width n.line) = .ok r' → r' = r := by
      intro r' h'; rw [hr] at h'; simpa using h'.symm
    by_cases c1 : r < -1
    · rw [if_pos c1] at e1
      subst e1
      have hd1 : ((h.remove n).map BreakNode.key).Nodup := hd.sublist (List.Sublist.map _ List.filter_sublist)
      obtain ⟨i1, i0, i2, i3, i4, i5, i6⟩ := ih _ _ e2 hd1 hl'
      refine ⟨i1, ?_, ?_, ?_, ?_, ?_, ?_⟩
      · intro m hm
        rcases List.mem_cons.1 hm with rfl | hm
        · exact ⟨r, hr⟩
        · exact i0 m hm
      · intro m hm
        rcases i2 m hm with hm | ⟨x, hx, y⟩
        · exact Or.inl (List.mem_of_mem_filter hm)
        · exact Or.inr ⟨x, by simp [hx], y⟩
      · intro m hm hp hk
        refine i3 m ?_ hp (fun x hx => hk x (by simp [hx]))
        rw [Network.remove, List.mem_filter]
        refine ⟨hm, ?_⟩
        simp only [ne_eq, decide_not, Bool.not_eq_eq_eq_not, Bool.not_true, decide_eq_false_iff_not]
        intro hk'
        have := hk n (by simp) hk'.symm r hr
        linarith
      · intro m hm hp
        refine i4 m ?_ hp
        rw [Network.remove, List.mem_filter]
        refine ⟨hm, ?_⟩
        simp only [ne_eq, decide_not, Bool.not_eq_eq_eq_not, Bool.not_true, decide_eq_false_iff_not]
        intro hk'
        simp only [BreakNode.key, Prod.mk.injEq] at hk'
        omega
      · intro x hx r' hr' h1 h2
        rcases List.mem_cons.1 hx with rfl | hx
        · rw [rdet r' hr'] at h1; linarith
        · exact i5 x hx r' hr' h1 h2
      · intro x hx r' hr' h1 m hm hk
        rcases List.mem_cons.1 hx with rfl | hx
        · rcases i2 m hm with hm | ⟨y, -, r'', -, -, -, rfl⟩
          · rw [Network.remove, List.mem_filter] at hm
            simp [hk] at hm
          · rw [breakNode_key] at hk
            simp only [BreakNode.key, Prod.mk.injEq] at hk
            omega
        · exact i6 x hx r' hr' h1 m hm hk
    · rw [if_neg c1] at e1
      simp only [Tol.allows_iff] at e1
      by_cases c2 : tol.Within r
      · rw [if_pos c2] at e1
        subst e1
        obtain ⟨i1, i0, i2, i3, i4, i5, i6⟩ := ih _ _ e2 (Network.add_nodup hd) hl'
        refine ⟨i1, ?_, ?_, ?_, ?_, ?_, ?_⟩
        · intro m hm
          rcases List.mem_cons.1 hm with rfl | hm
          · exact ⟨r, hr⟩
          · exact i0 m hm
        · intro m hm
          rcases i2 m hm with hm | ⟨x, hx, y⟩
          · rcases Network.add_mem _ _ _ hm with hm | hm
            · exact Or.inl hm
            · exact Or.inr ⟨n, by simp, r, hr, not_lt.1 c1, c2, hm⟩
          · exact Or.inr ⟨x, by simp [hx], y⟩
        · intro m hm hp hk
          refine i3 m ?_ hp (fun x hx => hk x (by simp [hx]))
          apply Network.add_keep _ _ _ hm
          intro hk'
          rw [breakNode_key] at hk'
          simp only [BreakNode.key, Prod.mk.injEq] at hk'
          omega
        · intro m hm hp
          obtain ⟨m', h1, h2, h3⟩ := Network.add_le h (breakNode p pos box next n r) m hm
          have : m'.pos = pos := by
            have := h2
            simp only [BreakNode.key, Prod.mk.injEq] at this
            omega
          obtain ⟨m'', j1, j2, j3⟩ := i4 m' h1 this
          exact ⟨m'', j1, j2.trans h2, j3.trans h3⟩
        · intro x hx r' hr' h1 h2
          rcases List.mem_cons.1 hx with rfl | hx
          · rw [rdet r' hr']
            obtain ⟨m', k1, k2, k3⟩ := Network.add_self h (breakNode p pos box next x r)
            have : m'.pos = pos := by
              have := k2
              rw [breakNode_key] at this
              simp only [BreakNode.key, Prod.mk.injEq] at this
              omega
            obtain ⟨m'', j1, j2, j3⟩ := i4 m' k1 this
            exact ⟨m'', j1, j2.trans k2, j3.trans k3⟩
          · exact i5 x hx r' hr' h1 h2
        · intro x hx r' hr' h1
          rcases List.mem_cons.1 hx with rfl | hx
          · rw [rdet r' hr'] at h1; exact absurd h1 c1
          · exact i6 x hx r' hr' h1
      · rw [if_neg c2] at e1
        subst e1
        obtain ⟨i1, i0, i2, i3, i4, i5, i6⟩ := ih _ _ e2 hd hl'
        refine ⟨i1, ?_, ?_, ?_, i4, ?_, ?_⟩
        · intro m hm
          rcases List.mem_cons.1 hm with rfl | hm
          · exact ⟨r, hr⟩
          · exact i0 m hm
        · intro m hm
          rcases i2 m hm with hm | ⟨x, hx, y⟩
          · exact Or.inl hm
          · exact Or.inr ⟨x, by simp [hx], y⟩
        · intro m hm hp hk
          exact i3 m hm hp (fun x hx => hk x (by simp [hx]))
        · intro x hx r' hr' h1 h2
          rcases List.mem_cons.1 hx with rfl | hx
          · rw [rdet r' hr'] at h2; exact absurd h2 c2
          · exact i5 x hx r' hr' h1 h2
        · intro x hx r' hr' h1
          rcases List.mem_cons.1 hx with rfl | hx
          · rw [rdet r' hr'] at h1; exact absurd h1 c1
          · exact i6 x hx r' hr' h1

/-- Processing one box. -/
theorem Inv.step {k : Nat} {g g' : Network} (h : Inv p bs width tol k g) {box next : KBox} (hb : bs[k]? = some box)
    (hn : bs[k + 1]? = some next) (ht : tryBox p width tol (k + 1) box next g = .ok g') : Inv p bs width tol (k + 1) g' := by
  unfold tryBox at ht
  have hlen : k + 1 < bs.length := (List.getElem?_eq_some_iff.1 hn).1
  split at ht
  · rename_i hnb
    simp only [Except.ok.injEq] at ht
    subst ht
    refine ⟨h.nodup, fun n hn => ⟨(h.good n hn).1, by have := (h.good n hn).2; omega⟩, ?_, ?_⟩
    · intro n hn' c h1 h2 h3
      rcases Nat.lt_or_ge k c with hc | hc
      · obtain rfl : c = k + 1 := by omega
        have := h3.2.2 box (by simpa using hb)
        simp [this] at hnb
      · exact h.alive n hn' c h1 hc h3
    intro j a f d hr ha hal
    refine h.complete j a f d hr ?_ (fun c h1 h2 => hal c h1 (by omega))
    by_contra hk
    have : a = k + 1 := by omega
    subst this
    rcases hr.legal with h0 | h0
    · omega
    · have := h0.2.2 box (by simpa using hb)
      simp [this] at hnb
  · rename_i hnb
    split at ht
    · simp at ht
    · obtain ⟨i1, i0, i2, i3, i4, i5, i6⟩ := fold_spec g g g' ht h.nodup (fun n hn => by have := (h.good n hn).2; omega)
      refine ⟨i1, ?_, ?_, ?_⟩
      · intro n hn'
        rcases i2 n hn' with hn' | ⟨x, hx, r, hr, h1, h2, rfl⟩
        · exact ⟨(h.good n hn').1, by have := (h.good n hn').2; omega⟩
        · have hx' := h.good x hx
          exact ⟨hx'.1.break (by omega) (by simpa using hb) hn (by simpa using hnb) hr h1 h2
            (fun c j1 j2 => h.alive x hx c j1 (by omega)), le_refl _⟩
      · intro n hn' c h1 h2 h3
        rcases i2 n hn' with hg | ⟨x, hx, r, hr, -, -, rfl⟩
        · rcases Nat.lt_or_ge k c with hc | hc
          · obtain rfl : c = k + 1 := by omega
            obtain ⟨r, hr⟩ := i0 n hg
            rw [← (h.good n hg).1.ratio (b := k + 1) (by simpa using hb) hr]
            by_contra hlt
            exact i6 n hg r hr (not_le.1 hlt) n hn' rfl
          · exact h.alive n hg c h1 hc h3
        · have : (breakNode p (k + 1) box next x r).pos = k + 1 := rfl
          omega
      · intro j a f d hr ha hal
        have hlegal : Legal bs (k + 1) := ⟨by omega, hlen, by
          intro x hx
          simp only [Nat.add_sub_cancel, hb, Option.some.injEq] at hx
          rw [← hx]; simpa using hnb⟩
        by_cases hk : a ≤ k
        · obtain ⟨n, h1, h2, h3⟩ := h.complete j a f d hr hk (fun c h1 h2 => hal c h1 (by omega))
          have hg := h.good n h1
          refine ⟨n, i3 n h1 (by omega) ?_, h2, h3⟩
          intro x hx hkey r hr'
          have hgx := h.good x hx
          rw [hgx.1.ratio (b := k + 1) (by simpa using hb) hr']
          simp only [BreakNode.key, Prod.mk.injEq] at hkey h2
          rw [hkey.1, hkey.2.1, h2.1, h2.2.1]
          exact hal (k + 1) (by omega) (le_refl _) hlegal
        · have hak : a = k + 1 := by omega
          subst hak
          cases hr with
          | step hr hlt hleg hge htol hal' =>
            rename_i j a f d
            obtain ⟨n, h1, h2, h3⟩ := h.complete j a f d hr (by omega) (fun c h1 h2 => hal' c h1 (by omega))
            have hg := h.good n h1
            obtain ⟨r, hr'⟩ := i0 n h1
            have er := hg.1.ratio (b := k + 1) (by simpa using hb) hr'
            simp only [BreakNode.key, Prod.mk.injEq] at h2
            rw [h2.1, h2.2.1] at er
            obtain ⟨m, j1, j2, j3⟩ := i5 n h1 r hr' (by rw [er]; exact hge) (by rw [er]; exact htol)
            refine ⟨m, j1, ?_, ?_⟩
            · rw [j2, breakNode_key, h2.1, er]
            · refine j3.trans ?_
              have hgb := hg.1.break (pos := k + 1) (by omega) (by simpa using hb) hn (by simpa using hnb) hr' (by rw [er]; exact hge)
                (by rw [er]; exact htol) (fun c j1 j2 => h.alive n h1 c j1 (by omega))
              obtain ⟨-, -, -, -, -, -, -, -, hd, -⟩ := hgb
              refine le_of_eq_of_le hd ?_
              rw [h2.2.1, h2.2.2, er]
              linarith

/-- The loop over all boxes. -/
theorem tryBoxes_spec : ∀ (rest : List KBox) (k : Nat) (g : Network), Inv p bs width tol k g → bs.drop k = rest →
    (∀ g', tryBoxes p width tol (k + 1) rest g = .ok g' → Inv p bs width tol (bs.length - 1 - k + k) g') ∧
    (tryBoxes p width tol (k + 1) rest g = .error .noFeasibleBreaks → ∃ k', k ≤ k' ∧ k' + 1 < bs.length ∧ Inv p bs width tol k' [])
  | [], k, g, h, hr => by
    have hle := List.drop_eq_nil_iff.1 hr
    refine ⟨?_, by simp [tryBoxes]⟩
    intro g' hg
    simp only [tryBoxes, Except.ok.injEq] at hg
    rw [← hg, show bs.length - 1 - k + k = k by omega]; exact h
  | [x], k, g, h, hr => by
    have hlen := congrArg List.length hr
    simp only [List.length_drop, List.length_singleton] at hlen
    refine ⟨?_, by simp [tryBoxes]⟩
    intro g' hg
    simp only [tryBoxes, Except.ok.injEq] at hg
    rw [← hg, show bs.length - 1 - k + k = k by omega]; exact h
  | box :: next :: rest, k, g, h, hr => by
    have hb : bs[k]? = some box := by
      have := congrArg (·[0]?) hr
      simpa using this
    have hn : bs[k + 1]? = some next := by
      have := congrArg (·[1]?) hr
      simpa using this
    have hlen : k + 1 < bs.length := (List.getElem?_eq_some_iff.1 hn).1
    have hdrop : bs.drop (k + 1) = next :: rest := by
      rw [← List.drop_drop, hr]; rfl
    constructor
    · intro g' hg
      rw [tryBoxes, Except.bind_ok] at hg
      obtain ⟨g1, e1, e2⟩ := hg
      have := (tryBoxes_spec (next :: rest) (k + 1) g1 (h.step hb hn e1) hdrop).1 g' e2
      rwa [show bs.length - 1 - (k + 1) + (k + 1) = bs.length - 1 - k + k by omega] at this
    · intro hg
      rw [tryBoxes, Except.bind_error] at hg
      rcases hg with e1 | ⟨g1, e1, e2⟩
      · unfold tryBox at e1
        split at e1
        · simp at e1
        · split at e1
          · rename_i he
            have : g = [] := by simpa using he
            subst this
            exact ⟨k, le_refl _, hlen, h⟩
          · exfalso
            have : ∀ (l h : Network), l.foldlM (tryNode p width tol (k + 1) box next) h ≠ .error .noFeasibleBreaks := by
              intro l
              induction l with
              | nil => intro h; simp [pure, Except.pure]
              | cons n l ih =>
                intro h e
                rw [List.foldlM_cons, Except.bind_error] at e
                rcases e with e | ⟨a, -, e⟩
                · unfold tryNode at e
                  rw [Except.bind_error] at e
                  rcases e with e | ⟨a, -, e⟩
                  · unfold fitRatio ratioRagged ratioJustified at e
                    simp only at e
                    repeat' split at e
                    all_goals simp at e
                  · simp [pure, Except.pure] at e
                · exact ih _ e
            exact this _ _ e1
      · obtain ⟨k', h1, h2⟩ := (tryBoxes_spec (next :: rest) (k + 1) g1 (h.step hb hn e1) hdrop).2 e2
        exact ⟨k', by omega, h2⟩

end Pdfje
