import Verif.Proofs.RescaledLines
import Verif.Model.Optimum
/-
A change of the unit of length and of colours, through both algorithms of line breaking.
-/

namespace Pdfje

variable (σ : Change)

/-! ### First fit -/

/-- Two functions, which need not end, agree. -/
theorem eq_map_of {α β : Type} {a : Option β} {b : Option α} {g : α → β} (h1 : ∀ r, b = some r → a = some (g r)) (h2 : ∀ r, a = some r → b.map g = some r) : a = b.map g := by
  cases hb : b with
  | some r => exact h1 r hb
  | none =>
    cases ha : a with
    | none => rfl
    | some r => have := h2 r ha; rw [hb] at this; simp at this

/-- Lines of each column. -/
def chunksVia (l : List (List TLine)) : List (List TLine) := l.map fun x => x.map (TLine.via σ)

theorem shapeSimple_via (env : Env) (cols : Cols) (lead : ℚ) (i : Nat) (q : Option (List WordLike)) (ae : Bool) :
    shapeSimple (env.via σ) (colsVia σ cols) (σ.factor * lead) i (queueVia σ q) ae = (shapeSimple env cols lead i q ae).map (chunksVia σ) := by
  refine eq_map_of (fun r hr => ?_) (fun r hr => ?_)
  · refine shapeSimple.partial_correctness env cols lead (fun i q ae r => shapeSimple (env.via σ) (colsVia σ cols) (σ.factor * lead) i (queueVia σ q) ae = some (chunksVia σ r)) ?_ i q ae r hr
    clear hr r ae q i
    intro f ih i q ae out h
    rw [shapeSimple, colsVia, takeBox_via]
    split at h
    · simp at h
    · rename_i q' lines undo e
      rw [e]
      split at h
      · simp only [Option.some.injEq] at h
        subst h
        rfl
      · simp only [Option.bind_eq_bind, Option.bind_eq_some_iff, Option.some.injEq] at h
        obtain ⟨more, hm, rfl⟩ := h
        have := ih _ _ _ _ hm
        simp only [Option.map_some, boxVia, queueVia, Option.bind_eq_bind, Option.bind_eq_some_iff] at this ⊢
        exact ⟨_, this, rfl⟩
  · refine shapeSimple.partial_correctness (env.via σ) (colsVia σ cols) (σ.factor * lead)
      (fun i q' ae r => ∀ q, q' = queueVia σ q → (shapeSimple env cols lead i q ae).map (chunksVia σ) = some r) ?_ i _ ae r hr q rfl
    clear hr r ae q i
    intro f ih i q' ae out h q hq
    rw [shapeSimple]
    rw [hq, colsVia, takeBox_via] at h
    cases e : takeBox env q (cols i) ae lead with
    | none => rw [e] at h; simp at h
    | some x =>
      obtain ⟨q2, lines, undo⟩ := x
      rw [e] at h
      cases q2 with
      | none =>
        simp only [Option.map_some, boxVia, queueVia, Option.map_none, Option.some.injEq] at h
        subst h
        rfl
      | some ws =>
        simp only [Option.map_some, boxVia, queueVia, Option.bind_eq_bind, Option.bind_eq_some_iff, Option.some.injEq] at h
        obtain ⟨more, hm, rfl⟩ := h
        have := ih _ _ _ _ hm (some ws) rfl
        simp only [Option.map_eq_some_iff] at this ⊢
        obtain ⟨m, hm2, rfl⟩ := this
        exact ⟨lines :: m, by simp [hm2], rfl⟩

theorem avoidLoop_via (env : Env) (cols : Cols) (lead : ℚ) (i : Nat) (q : Option (List WordLike)) (prev : List TLine) (undo : Option (List WordLike)) :
    avoidLoop (env.via σ) (colsVia σ cols) (σ.factor * lead) i (queueVia σ q) (prev.map (TLine.via σ)) (queueVia σ undo) =
      (avoidLoop env cols lead i q prev undo).map (chunksVia σ) := by
  have hc : ∀ i, ((colsVia σ cols i).2 ≥ σ.factor * lead * 2) = ((cols i).2 ≥ lead * 2) := by
    intro i
    simp only [colsVia, Rescale.pt, ge_iff_le, mul_assoc, le_via]
  refine eq_map_of (fun r hr => ?_) (fun r hr => ?_)
  · refine avoidLoop.partial_correctness env cols lead (fun i q prev undo r =>
      avoidLoop (env.via σ) (colsVia σ cols) (σ.factor * lead) i (queueVia σ q) (prev.map (TLine.via σ)) (queueVia σ undo) = some (chunksVia σ r)) ?_ i q prev undo r hr
    clear hr r undo prev q i
    intro f ih i q prev undo out h
    rw [avoidLoop]
    simp only [hc, List.length_map]
    rw [colsVia, takeBox_via]
    split at h
    · simp at h
    · rename_i q' lines undo' e
      rw [e]
      split at h
      · simp only [Option.bind_eq_bind, Option.bind_eq_some_iff, Option.some.injEq] at h
        obtain ⟨more, hm, rfl⟩ := h
        have := ih _ _ _ _ _ hm
        simp only [Option.map_some, boxVia, queueVia, Option.bind_eq_bind, Option.bind_eq_some_iff] at this ⊢
        exact ⟨_, this, rfl⟩
      · simp only [Option.map_some, boxVia, queueVia, Option.map_none, List.length_map]
        split at h
        · rename_i hcond
          rw [if_pos hcond]
          split at h
          · simp at h
          · rename_i wu
            have hb := takeBox_via σ env (some wu) (cols i) false lead
            simp only [queueVia, Option.map_some] at hb
            simp only [Option.map_some, hb]
            split at h
            · simp at h
            · rename_i a linesNew undo2 e2
              simp only [e2, Option.map_some, boxVia, List.length_map]
              split at h
              · rename_i h1
                rw [if_pos h1]
                simp only [Option.some.injEq] at h
                subst h
                rfl
              · rename_i h1
                rw [if_neg h1]
                have := ih _ _ _ _ _ h
                simpa [queueVia, List.map_dropLast] using this
        · rename_i hcond
          rw [if_neg hcond]
          simp only [Option.some.injEq] at h
          subst h
          rfl
  · refine avoidLoop.partial_correctness (env.via σ) (colsVia σ cols) (σ.factor * lead)
      (fun i q' prev' undo' r => ∀ q prev undo, q' = queueVia σ q → prev' = prev.map (TLine.via σ) → undo' = queueVia σ undo →
        (avoidLoop env cols lead i q prev undo).map (chunksVia σ) = some r) ?_ i _ _ _ r hr q prev undo rfl rfl rfl
    clear hr r undo prev q i
    intro f ih i q' prev' undo' out h q prev undo hq hp hu
    subst hp hu hq
    rw [avoidLoop]
    simp only [hc, List.length_map] at h
    rw [colsVia, takeBox_via] at h
    cases e : takeBox env q (cols i) false lead with
    | none => rw [e] at h; simp at h
    | some x =>
      obtain ⟨q2, lines, undo2⟩ := x
      rw [e] at h
      cases q2 with
      | some ws =>
        simp only [Option.map_some, boxVia, queueVia, Option.bind_eq_bind, Option.bind_eq_some_iff, Option.some.injEq] at h
        obtain ⟨more, hm, rfl⟩ := h
        have := ih _ _ _ _ _ hm (some ws) lines undo2 rfl rfl rfl
        simp only [Option.map_eq_some_iff] at this ⊢
        obtain ⟨m, hm2, rfl⟩ := this
        exact ⟨prev :: m, by simp [hm2], rfl⟩
      | none =>
        simp only [Option.map_some, boxVia, queueVia, Option.map_none, List.length_map] at h ⊢
        split at h
        · rename_i hcond
          rw [if_pos hcond]
          cases undo with
          | none => simp at h
          | some wu =>
            have hb := takeBox_via σ env (some wu) (cols i) false lead
            simp only [queueVia, Option.map_some] at hb
            simp only [Option.map_some, hb] at h ⊢
            cases e2 : takeBox env (some wu) (cols i) false lead with
            | none => rw [e2] at h; simp at h
            | some y =>
              obtain ⟨a, linesNew, undo3⟩ := y
              simp only [e2, Option.map_some, boxVia, List.length_map] at h ⊢
              split at h
              · rename_i h1
                rw [if_pos h1]
                simp only [Option.some.injEq] at h
                subst h
                rfl
              · rename_i h1
                rw [if_neg h1]
                exact ih _ _ _ _ _ h (some wu) prev.dropLast undo3 rfl (by simp [List.map_dropLast]) rfl
        · rename_i hcond
          rw [if_neg hcond]
          simp only [Option.some.injEq] at h
          subst h
          rfl

theorem shapeAvoidOrphans_via (env : Env) (cols : Cols) (lead : ℚ) (q : Option (List WordLike)) (ae : Bool) :
    shapeAvoidOrphans (env.via σ) (colsVia σ cols) (σ.factor * lead) (queueVia σ q) ae = (shapeAvoidOrphans env cols lead q ae).map (chunksVia σ) := by
  unfold shapeAvoidOrphans
  rw [colsVia, takeBox_via]
  rcases takeBox env q (cols 0) ae lead with _ | ⟨q2, lines, undo⟩
  · rfl
  · simp only [Option.map_some, boxVia, List.length_map]
    have h1 : (queueVia σ q2).isSome = q2.isSome := by simp [queueVia]
    have h2 : (queueVia σ q2).isNone = q2.isNone := by simp [queueVia]
    rw [h1, h2]
    split
    · exact avoidLoop_via σ env cols lead 1 undo [] undo
    · split
      · rfl
      · exact avoidLoop_via σ env cols lead 1 q2 lines undo

theorem tailSizes_via (ws : List WordLike) : tailSizes (ws.map (WordLike.via σ)) = σ.factor * tailSizes ws := by
  unfold tailSizes
  induction ws with
  | nil => simp
  | cons w ws ih =>
    have ht : (w.via σ).tail.isSome = w.tail.isSome := by rw [wlTail_via]; simp
    simp only [List.map_cons, List.filter_cons, ht]
    split
    · simp only [List.map_cons, List.sum_cons, ih, wlState_via, mul_add]
      rfl
    · exact ih

theorem justify_via (l : TLine) : (l.via σ).justify = l.justify.via σ := by
  unfold TLine.justify
  have hw : (l.via σ).words = l.words.map (WordLike.via σ) := rfl
  simp only [hw, tailSizes_via, zero_via]
  split
  · rfl
  · simp only [TLine.via, List.map_map, mul_add, mul_zero, mul_div_mul_left _ _ σ.ne, TLine.mk.injEq, and_true]
    apply List.map_congr_left
    intro w _
    simp only [Function.comp]
    rw [wlState_via, show (w.state.via σ).size = σ.factor * w.state.size from rfl, ← wlExtend_via]
    congr 1
    ring

theorem firstfitShape_via (env : Env) (cols : Cols) (lead : ℚ) (ao : Bool) (align : Align) (ws : List WordLike) (ae : Bool) :
    firstfitShape (env.via σ) (colsVia σ cols) (σ.factor * lead) ao align (ws.map (WordLike.via σ)) ae =
      (firstfitShape env cols lead ao align ws ae).map fun l => l.map (ShapedText.via σ) := by
  unfold firstfitShape
  have h1 := shapeAvoidOrphans_via σ env cols lead (some ws) ae
  have h2 := shapeSimple_via σ env cols lead 0 (some ws) ae
  simp only [queueVia, Option.map_some] at h1 h2
  rw [h1, h2]
  have hh : ∀ ls : List (List TLine), ((chunksVia σ ls).map fun ls => if align = .justify then (⟨ls.map TLine.justify, σ.factor * lead, align, ls.length * (σ.factor * lead)⟩ : ShapedText)
      else ⟨ls, σ.factor * lead, align, ls.length * (σ.factor * lead)⟩) =
      (ls.map fun ls => if align = .justify then (⟨ls.map TLine.justify, lead, align, ls.length * lead⟩ : ShapedText) else ⟨ls, lead, align, ls.length * lead⟩).map (ShapedText.via σ) := by
    intro ls
    simp only [chunksVia, List.map_map]
    apply List.map_congr_left
    intro l _
    simp only [Function.comp, List.length_map]
    split
    · simp only [ShapedText.via, List.map_map, ShapedText.mk.injEq, true_and]
      refine ⟨?_, by ring⟩
      apply List.map_congr_left
      intro x _
      exact justify_via σ x
    · simp only [ShapedText.via, ShapedText.mk.injEq, true_and]
      ring
  cases ao
  · simp only [Bool.false_eq_true, if_false, Option.map_map]
    congr 1
    funext ls
    exact hh ls
  · simp only [if_true, Option.map_map]
    congr 1
    funext ls
    exact hh ls

/-! ### The optimum -/

/-- A possible break. -/
def KBox.via (b : KBox) : KBox := ⟨σ.factor * b.measure, σ.factor * b.stretch, σ.factor * b.shrink, σ.factor * b.inclSpace, σ.factor * b.inclHyphen, b.hyphenated, b.noBreak⟩

@[inherit_doc KBox.via] def BreakNode.via : BreakNode → BreakNode
  | .root => .root
  | .node pos line ratio fit demerits measure stretch shrink hyphenated prev =>
    .node pos line ratio fit demerits (σ.factor * measure) (σ.factor * stretch) (σ.factor * shrink) hyphenated prev.via

@[inherit_doc KBox.via] def EndNode.via (e : EndNode) : EndNode := ⟨e.pos, e.ratio, e.demerits, σ.factor * e.measure, e.prev.via σ⟩

@[inherit_doc KBox.via] def KBreak.via (b : KBreak) : KBreak := { b with width := σ.factor * b.width }

theorem fitRatio_via (ragged : Bool) (m s k : ℚ) (b : KBox) (space : ℚ) :
    fitRatio ragged (σ.factor * m) (σ.factor * s) (σ.factor * k) (b.via σ) (σ.factor * space) = fitRatio ragged m s k b space := by
  unfold fitRatio
  split
  · unfold ratioRagged
    have h0 : (0 ≤ σ.factor * space - (b.via σ).inclHyphen + σ.factor * m) = (0 ≤ space - b.inclHyphen + m) := by
      have := le_via σ 0 (space - b.inclHyphen + m)
      rw [mul_zero] at this
      rw [← this]
      congr 1
      simp only [KBox.via]; ring
    have h1 : (σ.factor * space - (b.via σ).inclHyphen + σ.factor * m) / (b.via σ).stretch = (space - b.inclHyphen + m) / b.stretch := by
      rw [show σ.factor * space - (b.via σ).inclHyphen + σ.factor * m = σ.factor * (space - b.inclHyphen + m) by simp only [KBox.via]; ring,
        show (b.via σ).stretch = σ.factor * b.stretch from rfl, mul_div_mul_left _ _ σ.ne]
    simp only [h0, h1]
    rw [show (b.via σ).stretch = σ.factor * b.stretch from rfl]
    simp only [zero_via]
  · unfold ratioJustified
    have he : ∀ a b : ℚ, (σ.factor * a = σ.factor * b) = (a = b) := by intro a b; simp [σ.ne]
    have h2 : ∀ (c : Prop) [Decidable c] (x y : ℚ), (if c then σ.factor * x else σ.factor * y) = σ.factor * (if c then x else y) := by
      intro c _ x y; split <;> rfl
    simp only [KBox.via, ← mul_sub, lt_via, ne_eq, he, h2, zero_via, mul_div_mul_left _ _ σ.ne]

section
variable {σ}

theorem BreakNode.via_line (n : BreakNode) : (n.via σ).line = n.line := by cases n <;> rfl
theorem BreakNode.via_key (n : BreakNode) : (n.via σ).key = n.key := by cases n <;> rfl
theorem BreakNode.via_fit (n : BreakNode) : (n.via σ).fit = n.fit := by cases n <;> rfl
theorem BreakNode.via_dem (n : BreakNode) : (n.via σ).demerits = n.demerits := by cases n <;> rfl
theorem BreakNode.via_hyph (n : BreakNode) : (n.via σ).hyphenated = n.hyphenated := by cases n <;> rfl
theorem BreakNode.via_measure (n : BreakNode) : (n.via σ).measure = σ.factor * n.measure := by cases n <;> simp [BreakNode.via, BreakNode.measure]
theorem BreakNode.via_stretch (n : BreakNode) : (n.via σ).stretch = σ.factor * n.stretch := by cases n <;> simp [BreakNode.via, BreakNode.stretch]
theorem BreakNode.via_shrink (n : BreakNode) : (n.via σ).shrink = σ.factor * n.shrink := by cases n <;> simp [BreakNode.via, BreakNode.shrink]

end

theorem breakNode_via (p : FitParams) (pos : Nat) (box next : KBox) (n : BreakNode) (r : ℚ) :
    breakNode p pos (box.via σ) (next.via σ) (n.via σ) r = (breakNode p pos box next n r).via σ := by
  simp only [breakNode, BreakNode.via, BreakNode.via_line, BreakNode.via_fit, BreakNode.via_dem, consecutive, BreakNode.via_hyph]
  rfl

theorem networkAdd_via (g : Network) (n : BreakNode) : Network.add (g.map (BreakNode.via σ)) (n.via σ) = (g.add n).map (BreakNode.via σ) := by
  induction g with
  | nil => rfl
  | cons m g ih =>
    rw [List.map_cons, Network.add, Network.add]
    simp only [BreakNode.via_key, BreakNode.via_dem, ih]
    split
    · split <;> rfl
    · rfl

theorem networkRemove_via (g : Network) (n : BreakNode) : Network.remove (g.map (BreakNode.via σ)) (n.via σ) = (g.remove n).map (BreakNode.via σ) := by
  unfold Network.remove
  rw [List.filter_map]
  congr 1
  apply List.filter_congr
  intro m _
  simp [BreakNode.via_key]

theorem tryNode_via (p : FitParams) (width : Nat → ℚ) (tol : Tol) (pos : Nat) (box next : KBox) (g : Network) (n : BreakNode) :
    tryNode p (fun i => σ.factor * width i) tol pos (box.via σ) (next.via σ) (g.map (BreakNode.via σ)) (n.via σ) =
      (tryNode p width tol pos box next g n).map fun g => g.map (BreakNode.via σ) := by
  unfold tryNode
  rw [BreakNode.via_line, BreakNode.via_measure, BreakNode.via_stretch, BreakNode.via_shrink, fitRatio_via]
  rcases fitRatio p.ragged n.measure n.stretch n.shrink box (width n.line) with e | r
  · rfl
  · simp only [bind, Except.bind, pure, Except.pure, Except.map, breakNode_via, networkAdd_via, networkRemove_via, Except.ok.injEq]
    split
    · rfl
    · split <;> rfl

theorem tryFold_via (p : FitParams) (width : Nat → ℚ) (tol : Tol) (pos : Nat) (box next : KBox) : ∀ (ns : List BreakNode) (g : Network),
    (ns.map (BreakNode.via σ)).foldlM (tryNode p (fun i => σ.factor * width i) tol pos (box.via σ) (next.via σ)) (g.map (BreakNode.via σ)) =
      (ns.foldlM (tryNode p width tol pos box next) g).map fun g => g.map (BreakNode.via σ)
  | [], _ => rfl
  | n :: ns, g => by
    rw [List.map_cons, List.foldlM_cons, List.foldlM_cons, tryNode_via]
    rcases tryNode p width tol pos box next g n with e | g'
    · rfl
    · exact tryFold_via p width tol pos box next ns g'

theorem tryBox_via (p : FitParams) (width : Nat → ℚ) (tol : Tol) (pos : Nat) (box next : KBox) (g : Network) :
    tryBox p (fun i => σ.factor * width i) tol pos (box.via σ) (next.via σ) (g.map (BreakNode.via σ)) =
      (tryBox p width tol pos box next g).map fun g => g.map (BreakNode.via σ) := by
  unfold tryBox
  rw [show (box.via σ).noBreak = box.noBreak from rfl]
  have : (List.map (BreakNode.via σ) g).isEmpty = List.isEmpty g := by cases g <;> rfl
  rw [this]
  split
  · rfl
  · split
    · rfl
    · exact tryFold_via σ p width tol pos box next g g

theorem tryBoxes_via (p : FitParams) (width : Nat → ℚ) (tol : Tol) : ∀ (bs : List KBox) (pos : Nat) (g : Network),
    tryBoxes p (fun i => σ.factor * width i) tol pos (bs.map (KBox.via σ)) (g.map (BreakNode.via σ)) =
      (tryBoxes p width tol pos bs g).map fun g => g.map (BreakNode.via σ)
  | [], _, _ => rfl
  | [_], _, _ => rfl
  | box :: next :: rest, pos, g => by
    rw [List.map_cons, List.map_cons, tryBoxes, tryBoxes, tryBox_via]
    rcases tryBox p width tol pos box next g with e | g'
    · rfl
    · exact tryBoxes_via p width tol (next :: rest) (pos + 1) g'

theorem endOption_via (p : FitParams) (width : Nat → ℚ) (box : KBox) (pos : Nat) (n : BreakNode) :
    endOption p (fun i => σ.factor * width i) (box.via σ) pos (n.via σ) = (endOption p width box pos n).map fun o => o.map (EndNode.via σ) := by
  unfold endOption
  rw [BreakNode.via_line, BreakNode.via_measure, BreakNode.via_stretch, BreakNode.via_shrink, fitRatio_via, BreakNode.via_fit, BreakNode.via_dem]
  rcases fitRatio p.ragged n.measure n.stretch n.shrink box (width n.line) with e | r
  · rfl
  · simp only [bind, Except.bind, pure, Except.pure, Except.map, Except.ok.injEq]
    split <;> rfl

theorem minEnd_via : ∀ es : List EndNode, minEnd (es.map (EndNode.via σ)) = (minEnd es).map (EndNode.via σ)
  | [] => rfl
  | e :: es => by
    rw [List.map_cons, minEnd, minEnd, minEnd_via es]
    cases minEnd es with
    | none => rfl
    | some f =>
      simp only [Option.map_some]
      rw [show (f.via σ).demerits = f.demerits from rfl, show (e.via σ).demerits = e.demerits from rfl]
      split <;> rfl

theorem optimalEnd_via (p : FitParams) (width : Nat → ℚ) (g : Network) (box : KBox) (pos : Nat) :
    optimalEnd p (fun i => σ.factor * width i) (g.map (BreakNode.via σ)) (box.via σ) pos = (optimalEnd p width g box pos).map (EndNode.via σ) := by
  unfold optimalEnd
  have hm : ∀ g : List BreakNode, (g.map (BreakNode.via σ)).mapM (endOption p (fun i => σ.factor * width i) (box.via σ) pos) =
      (g.mapM (endOption p width box pos)).map fun l => l.map fun o => o.map (EndNode.via σ) := by
    intro g
    induction g with
    | nil => rfl
    | cons n g ih =>
      rw [List.map_cons, List.mapM_cons, List.mapM_cons, endOption_via, ih]
      rcases endOption p width box pos n with e | o
      · rfl
      · rcases List.mapM (endOption p width box pos) g with e | l <;> rfl
  rw [hm]
  rcases List.mapM (endOption p width box pos) g with e | l
  · rfl
  · have hf : ((l.map fun o => o.map (EndNode.via σ)).filterMap id) = (l.filterMap id).map (EndNode.via σ) := by
      induction l with
      | nil => rfl
      | cons o l ih => cases o <;> simp_all
    simp only [bind, Except.bind, Except.map, hf, minEnd_via]
    cases minEnd (l.filterMap id) <;> rfl

theorem nodeUnroll_via : ∀ n : BreakNode, (n.via σ).unroll = n.unroll.map (KBreak.via σ)
  | .root => rfl
  | .node pos line r f d m s k h prev => by
    rw [BreakNode.via, BreakNode.unroll, BreakNode.unroll, nodeUnroll_via prev, BreakNode.via_dem, BreakNode.via_measure]
    simp [KBreak.via, mul_sub]

theorem endUnroll_via (e : EndNode) : (e.via σ).unroll = e.unroll.map (KBreak.via σ) := by
  unfold EndNode.unroll
  rw [show (e.via σ).prev = e.prev.via σ from rfl, nodeUnroll_via, BreakNode.via_dem, BreakNode.via_measure]
  simp [KBreak.via, EndNode.via, mul_sub]

theorem optimumFit_via (p : FitParams) (bs : List KBox) (width : Nat → ℚ) (tol : Tol) :
    optimumFit p (bs.map (KBox.via σ)) (fun i => σ.factor * width i) tol = (optimumFit p bs width tol).map fun l => l.map (KBreak.via σ) := by
  unfold optimumFit
  rw [List.getLast?_map]
  cases bs.getLast? with
  | none => rfl
  | some last =>
    simp only [Option.map_some, List.length_map]
    have := tryBoxes_via σ p width tol bs 1 [.root]
    rw [show ([.root] : List BreakNode).map (BreakNode.via σ) = [.root] from rfl] at this
    rw [this]
    rcases tryBoxes p width tol 1 bs [.root] with e | g
    · rfl
    · simp only [bind, Except.bind, Except.map, optimalEnd_via]
      rcases optimalEnd p width g last bs.length with e | x
      · rfl
      · simp only [pure, Except.pure, endUnroll_via]

theorem tryTolerances_via (p : FitParams) (bs : List KBox) (width : Nat → ℚ) : ∀ ts : List Tol,
    tryTolerances p (bs.map (KBox.via σ)) (fun i => σ.factor * width i) ts = (tryTolerances p bs width ts).map fun l => l.map (KBreak.via σ)
  | [] => rfl
  | t :: ts => by
    rw [tryTolerances, tryTolerances, optimumFit_via]
    rcases optimumFit p bs width t with e | l
    · cases e
      · exact tryTolerances_via p bs width ts
      · rfl
    · rfl

/-- A fragment. -/
def Fragment.via (f : Fragment) : Fragment := ⟨f.txt.via σ, f.onBreak.map (WordLike.via σ), f.cmd.via σ⟩

/-- A fragment with its box. -/
def fragVia (e : Fragment × KBox) : Fragment × KBox := (e.1.via σ, e.2.via σ)

theorem chunkFrags_via (env : Env) (s k : ℚ) : ∀ (bs : List Box) (w : ℚ),
    chunkFrags (env.via σ) (σ.factor * s) (σ.factor * k) (σ.factor * w) (bs.map (Box.via σ)) = (chunkFrags env s k w bs).map (fragVia σ)
  | [], _ => rfl
  | b :: bs, w => by
    rw [List.map_cons, chunkFrags, chunkFrags, boxWidth_via, boxWithHyphen_via, boxWidth_via, ← mul_add, chunkFrags_via env s k bs]
    simp [fragVia, Fragment.via, KBox.via, WordLike.via, Command.via, mul_add]

theorem endFrag_via (j : Bool) (last : Option Box) (tail : Option TrailingSpace) (st : State) (cmd : Command) (w s k : ℚ) :
    endFrag j (last.map (Box.via σ)) (tail.map (TrailingSpace.via σ)) (st.via σ) (cmd.via σ) (σ.factor * w) (σ.factor * s) (σ.factor * k) =
      (endFrag j last tail st cmd w s k).map fun x => (fragVia σ x.1, σ.factor * x.2.1, σ.factor * x.2.2.1, σ.factor * x.2.2.2) := by
  unfold endFrag
  cases tail with
  | some t =>
    have hk : (t.via σ).widthExclKern = σ.factor * t.widthExclKern := rfl
    cases last with
    | some b => cases j <;> simp [boxWidth_via, tailWidth_via, hk, fragVia, Fragment.via, KBox.via, WordLike.via, Word.via, mul_add, mul_assoc]
    | none => cases j <;> simp [tailWidth_via, hk, fragVia, Fragment.via, KBox.via, WordLike.via, Word.via, mul_add, mul_assoc]
  | none =>
    cases last with
    | none => rfl
    | some b => simp [boxWidth_via, boxLast_via, fragVia, Fragment.via, KBox.via, WordLike.via, mul_add]

theorem stripCmd_via (w : WordLike) : (w.via σ).stripCmd = (w.stripCmd.1.via σ, w.stripCmd.2.via σ) := by cases w <;> rfl

theorem fragsLoop_via (env : Env) (j : Bool) : ∀ (ws : List WordLike) (w s k : ℚ),
    fragsLoop (env.via σ) j (ws.map (WordLike.via σ)) (σ.factor * w) (σ.factor * s) (σ.factor * k) = (fragsLoop env j ws w s k).map fun l => l.map (fragVia σ)
  | [], _, _, _ => rfl
  | x :: ws, w, s, k => by
    rw [List.map_cons, fragsLoop, fragsLoop]
    simp only [stripCmd_via, wlBoxes_via, wlTail_via, wlState_via, ← List.map_dropLast, List.getLast?_map, boxesWidth_via, ← mul_add, endFrag_via, chunkFrags_via]
    rcases endFrag j x.stripCmd.1.boxes.getLast? x.stripCmd.1.tail x.stripCmd.1.state x.stripCmd.2 (w + (x.stripCmd.1.boxes.dropLast.map Box.width).sum) s k with _ | ⟨f, w', s', k'⟩
    · rfl
    · simp only [Option.map_some, fragsLoop_via env j ws, Option.map_map]
      congr 1
      funext l
      simp

theorem initStretch_via (env : Env) (j : Bool) (ws : List WordLike) : initStretch (env.via σ) j (ws.map (WordLike.via σ)) = σ.factor * initStretch env j ws := by
  unfold initStretch
  split
  · simp
  · cases ws with
    | nil => simp
    | cons w ws =>
      simp only [List.map_cons, wlState_via, State.via, metrics_via]
      ring

theorem intoBoxes_via (env : Env) (ws : List WordLike) (j : Bool) : intoBoxes (env.via σ) (ws.map (WordLike.via σ)) j = (intoBoxes env ws j).map fun l => l.map (fragVia σ) := by
  unfold intoBoxes
  rw [initStretch_via]
  have := fragsLoop_via σ env j ws 0 (initStretch env j ws) 0
  rwa [mul_zero] at this

theorem lineWords_via (fs : List Fragment) : lineWords (fs.map (Fragment.via σ)) = (lineWords fs).map (WordLike.via σ) := by
  unfold lineWords
  have hb : (fs.map (Fragment.via σ)).dropLast.map (fun f => f.txt.addCmd f.cmd) = (fs.dropLast.map fun f => f.txt.addCmd f.cmd).map (WordLike.via σ) := by
    rw [← List.map_dropLast, List.map_map, List.map_map]
    apply List.map_congr_left
    intro f _
    exact addCmd_via σ f.txt f.cmd
  have hl : (fs.map (Fragment.via σ)).getLast? = fs.getLast?.map (Fragment.via σ) := List.getLast?_map
  simp only [hl, hb]
  cases fs.getLast? with
  | none => rfl
  | some last =>
    simp only [Option.map_some]
    rw [show (last.via σ).onBreak = last.onBreak.map (WordLike.via σ) from rfl, show (last.via σ).cmd = last.cmd.via σ from rfl]
    cases last.onBreak with
    | some t => simp [addCmd_via]
    | none =>
      generalize (fs.dropLast.map fun f => f.txt.addCmd f.cmd) = body
      simp only [Option.map_none, List.getLast?_map]
      cases body.getLast? with
      | some l => simp [addCmd_via]
      | none => rfl

theorem raggedLines_via (fs : List Fragment) : ∀ (brs : List KBreak) (prev : Nat),
    raggedLines (fs.map (Fragment.via σ)) prev (brs.map (KBreak.via σ)) = (raggedLines fs prev brs).map (TLine.via σ)
  | [], _ => rfl
  | br :: brs, prev => by
    rw [List.map_cons, raggedLines, raggedLines, show (br.via σ).pos = br.pos from rfl, raggedLines_via fs brs, ← List.map_take, ← List.map_drop, lineWords_via]
    simp [TLine.via, KBreak.via]

theorem lineStretch_via (l : TLine) (a : ℚ) : (l.via σ).stretch a = (l.stretch a).via σ := by
  simp only [TLine.stretch, TLine.via, List.map_map, TLine.mk.injEq, and_true]
  apply List.map_congr_left
  intro w _
  exact wlStretch_via σ _ w

theorem intoLines_via (j : Bool) (brs : List KBreak) (fs : List Fragment) :
    intoLines j (brs.map (KBreak.via σ)) (fs.map (Fragment.via σ)) = (intoLines j brs fs).map (TLine.via σ) := by
  unfold intoLines
  rw [raggedLines_via]
  split
  · rw [List.zip_map, List.map_map, List.map_map]
    apply List.map_congr_left
    intro e _
    exact lineStretch_via σ e.2 e.1.adjust
  · rfl

/-- Columns. -/
def ColQueue.via (q : ColQueue) : ColQueue := ⟨fun i => σ.factor * q.width i, q.cap⟩

theorem queueNew_via (cols : Cols) (lead : ℚ) (ae : Bool) : ColQueue.new (colsVia σ cols) (σ.factor * lead) ae = (ColQueue.new cols lead ae).via σ := by
  unfold ColQueue.new ColQueue.via
  simp only [colsVia, Rescale.pt, lineCap, mul_div_mul_left _ _ σ.ne]

theorem queueCount_via (q : ColQueue) : ∀ c, (q.via σ).count c = q.count c
  | 0 => rfl
  | c + 1 => by rw [ColQueue.count, ColQueue.count, queueCount_via q c]; rfl

theorem queueFind_via (q : ColQueue) (i : Nat) : ∀ (fuel c : Nat) (acc : ℤ), (q.via σ).find i fuel c acc = q.find i fuel c acc
  | 0, _, _ => rfl
  | fuel + 1, c, acc => by
    rw [ColQueue.find, ColQueue.find, queueFind_via q i fuel]
    rfl

theorem queueLength_via (q : ColQueue) : (q.via σ).lineLength = fun i => σ.factor * q.lineLength i := by
  funext i
  simp only [ColQueue.lineLength, queueFind_via]
  rfl

theorem queueShorten_via (q : ColQueue) (i : Nat) : (q.via σ).shorten i = (q.shorten i).via σ := rfl

theorem queueRemove_via (q : ColQueue) : (q.via σ).removeFirst = q.removeFirst.via σ := rfl

theorem pySlice_map {α β : Type} (f : α → β) (l : List α) (a b : ℤ) : pySlice (l.map f) a b = (pySlice l a b).map f := by
  simp [pySlice, List.map_take, List.map_drop]

theorem linesPerColumn_via (q : ColQueue) (ls : List TLine) : ∀ (fuel c : Nat) (prev : ℤ),
    linesPerColumn (q.via σ) (ls.map (TLine.via σ)) fuel c prev = chunksVia σ (linesPerColumn q ls fuel c prev)
  | 0, _, _ => rfl
  | fuel + 1, c, prev => by
    rw [linesPerColumn, linesPerColumn, queueCount_via, pySlice_map, linesPerColumn_via q ls fuel]
    simp only [List.map_eq_nil_iff]
    split <;> rfl

theorem groupLines_via (q : ColQueue) (ls : List TLine) : groupLines (q.via σ) (ls.map (TLine.via σ)) = chunksVia σ (groupLines q ls) := by
  unfold groupLines
  rw [linesPerColumn_via, List.length_map]

theorem breakLines_via (p : OptParams) (j : Bool) (fbs : List (Fragment × KBox)) (q : ColQueue) :
    breakLines p j (fbs.map (fragVia σ)) (q.via σ) = (breakLines p j fbs q).map fun l => l.map (TLine.via σ) := by
  unfold breakLines findBreaks
  have h1 : (fbs.map (fragVia σ)).map (·.2) = (fbs.map (·.2)).map (KBox.via σ) := by simp [fragVia]
  have h2 : (fbs.map (fragVia σ)).map (·.1) = (fbs.map (·.1)).map (Fragment.via σ) := by simp [fragVia]
  rw [h1, h2, queueLength_via, tryTolerances_via]
  simp only [Option.map_map]
  congr 1
  funext brs
  exact intoLines_via σ j brs _

theorem orphaned_via (q : ColQueue) (gs : List (List TLine)) : orphaned (q.via σ) (chunksVia σ gs) = orphaned q gs := by
  unfold orphaned chunksVia
  rw [← List.map_reverse, List.length_map]
  match gs.reverse with
  | [] => rfl
  | [_] => rfl
  | a :: b :: _ =>
    simp only [List.map_cons, List.length_map]
    rfl

theorem orphanLoop_via (p : OptParams) (j : Bool) (fbs : List (Fragment × KBox)) (q : ColQueue) (gs : List (List TLine)) :
    orphanLoop p j (fbs.map (fragVia σ)) (q.via σ) (chunksVia σ gs) = (orphanLoop p j fbs q gs).map (chunksVia σ) := by
  have hlen : ∀ gs : List (List TLine), (chunksVia σ gs).length = gs.length := fun gs => by simp [chunksVia]
  have hlast : ∀ gs : List (List TLine), (chunksVia σ gs).getLast? = gs.getLast?.map fun l => l.map (TLine.via σ) := fun gs => by simp [chunksVia, List.getLast?_map]
  refine eq_map_of (fun r hr => ?_) (fun r hr => ?_)
  · refine orphanLoop.partial_correctness p j fbs (fun q gs r => orphanLoop p j (fbs.map (fragVia σ)) (q.via σ) (chunksVia σ gs) = some (chunksVia σ r)) ?_ q gs r hr
    clear hr r gs q
    intro f ih q gs out h
    rw [orphanLoop, orphaned_via]
    cases ho : orphaned q gs with
    | none => rw [ho] at h; simp at h
    | some o =>
      cases o with
      | false => rw [ho] at h; simp only [Option.some.injEq] at h ⊢; rw [h]
      | true =>
        rw [ho] at h
        simp only [queueShorten_via, hlen, breakLines_via] at h ⊢
        cases hb : breakLines p j fbs (q.shorten (gs.length - 2)) with
        | none => rw [hb] at h; simp at h
        | some lines =>
          rw [hb] at h
          simp only [Option.map_some, groupLines_via, hlast, hlen] at h ⊢
          cases hg : (groupLines (q.shorten (gs.length - 2)) lines).getLast? with
          | none => rw [hg] at h; simp at h
          | some last =>
            rw [hg] at h
            simp only [Option.map_some, List.length_map] at h ⊢
            split at h
            · rename_i hc
              rw [if_pos hc]
              simp only [Option.some.injEq] at h
              rw [h]
            · rename_i hc
              rw [if_neg hc]
              exact ih _ _ _ h
  · refine orphanLoop.partial_correctness p j (fbs.map (fragVia σ)) (fun q' gs' r => ∀ q gs, q' = q.via σ → gs' = chunksVia σ gs →
      (orphanLoop p j fbs q gs).map (chunksVia σ) = some r) ?_ _ _ r hr q gs rfl rfl
    clear hr r gs q
    intro f ih q' gs' out h q gs hq hgs
    subst hq hgs
    rw [orphanLoop]
    rw [orphaned_via] at h
    cases ho : orphaned q gs with
    | none => rw [ho] at h; simp at h
    | some o =>
      cases o with
      | false => rw [ho] at h; simpa only [Option.map_some] using h
      | true =>
        rw [ho] at h
        simp only [queueShorten_via, hlen, breakLines_via] at h ⊢
        cases hb : breakLines p j fbs (q.shorten (gs.length - 2)) with
        | none => rw [hb] at h; simp at h
        | some lines =>
          rw [hb] at h
          simp only [Option.map_some, groupLines_via, hlast, hlen] at h ⊢
          cases hg : (groupLines (q.shorten (gs.length - 2)) lines).getLast? with
          | none => rw [hg] at h; simp at h
          | some last =>
            rw [hg] at h
            simp only [Option.map_some, List.length_map] at h ⊢
            split at h
            · rename_i hc
              rw [if_pos hc]
              simpa only [Option.map_some] using h
            · rename_i hc
              rw [if_neg hc]
              exact ih _ _ _ h _ _ rfl rfl

theorem placeLines_via (p : OptParams) (j ao : Bool) (fbs : List (Fragment × KBox)) (q : ColQueue) (ls : List TLine) :
    placeLines p j ao (fbs.map (fragVia σ)) (q.via σ) (ls.map (TLine.via σ)) = (placeLines p j ao fbs q ls).map (chunksVia σ) := by
  unfold placeLines
  rw [groupLines_via]
  split
  · exact orphanLoop_via σ p j fbs q _
  · rfl

theorem chunksVia_cons (l : List TLine) (ls : List (List TLine)) : l.map (TLine.via σ) :: chunksVia σ ls = chunksVia σ (l :: ls) := rfl

theorem shapeFrom_via (p : OptParams) (j ao ae : Bool) (fbs : List (Fragment × KBox)) (q : ColQueue) :
    shapeFrom p j ao ae (fbs.map (fragVia σ)) (q.via σ) = (shapeFrom p j ao ae fbs q).map (chunksVia σ) := by
  unfold shapeFrom
  simp only [List.map_eq_nil_iff, breakLines_via, queueRemove_via, queueCount_via]
  split
  · simp [chunksVia, TLine.via]
  · cases breakLines p j fbs q with
    | none => rfl
    | some lines =>
      simp only [Option.map_some, List.length_map]
      split
      · cases breakLines p j fbs q.removeFirst with
        | none => rfl
        | some lines =>
          simp only [Option.map_some, placeLines_via, Option.map_map]
          rfl
      · exact placeLines_via σ p j ao fbs q lines

theorem optimumShape_via (env : Env) (cols : Cols) (lead : ℚ) (ao : Bool) (align : Align) (p : OptParams) (ws : List WordLike) (ae : Bool) :
    optimumShape (env.via σ) (colsVia σ cols) (σ.factor * lead) ao align p (ws.map (WordLike.via σ)) ae =
      (optimumShape env cols lead ao align p ws ae).map fun l => l.map (ShapedText.via σ) := by
  unfold optimumShape
  have hc : (fun i => colsVia σ cols (i + 1)) = colsVia σ (fun i => cols (i + 1)) := rfl
  simp only [zero_via, intoBoxes_via, queueNew_via, queueCount_via, hc]
  split
  · rfl
  · cases intoBoxes env ws (align = .justify) with
    | none => rfl
    | some fbs =>
      simp only [Option.map_some, shapeFrom_via]
      have hh : ∀ ls : List (List TLine), ((chunksVia σ ls).map fun ls => (⟨ls, σ.factor * lead, align, ls.length * (σ.factor * lead)⟩ : ShapedText)) =
          (ls.map fun ls => (⟨ls, lead, align, ls.length * lead⟩ : ShapedText)).map (ShapedText.via σ) := by
        intro ls
        simp only [chunksVia, List.map_map]
        apply List.map_congr_left
        intro l _
        simp only [Function.comp, ShapedText.via, List.length_map, ShapedText.mk.injEq, true_and]
        ring
      have hs : ∀ o : Option (List (List TLine)), ((o.map (chunksVia σ)).map fun ls => ls.map fun ls => (⟨ls, σ.factor * lead, align, ls.length * (σ.factor * lead)⟩ : ShapedText)) =
          (o.map fun ls => ls.map fun ls => (⟨ls, lead, align, ls.length * lead⟩ : ShapedText)).map fun l => l.map (ShapedText.via σ) := by
        intro o
        cases o with
        | none => rfl
        | some ls => simp only [Option.map_some, hh]
      split
      · rw [← hs]
        congr 1
        rw [Option.map_map, Option.map_map]
        rfl
      · rw [← hs]

end Pdfje
