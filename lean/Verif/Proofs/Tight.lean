import Verif.Proofs.IndentGaps
/-
Lines of paragraphs: their kerning.
-/

namespace Pdfje

variable {env : Env}

/-- The lines of chunks, as they come from text with these gaps. -/
structure LinesOf (env : Env) (ff j : Bool) (q : List Gap) (chunks : List ShapedText) : Prop where
  broken : ∃ ls, Broken env ff q ls ∧ List.Forall₂ (List.Forall₂ (Stretched j)) ls ((chunks.flatMap ShapedText.lines).map TLine.gaps)
  strict : ∀ c ∈ chunks, ∀ l ∈ c.lines, ∀ w ∈ l.words, w.Strict

theorem stretchedLines_self {j : Bool} : ∀ ls : List (List Gap), List.Forall₂ (List.Forall₂ (Stretched j)) ls ls
  | [] => .nil
  | l :: ls => .cons (stretched_self l) (stretchedLines_self ls)

theorem stretchedLines_map {j : Bool} {f : TLine → TLine} (h : ∀ l, List.Forall₂ (Stretched j) l.gaps (f l).gaps) : ∀ ls : List TLine,
    List.Forall₂ (List.Forall₂ (Stretched j)) (ls.map TLine.gaps) ((ls.map f).map TLine.gaps)
  | [] => .nil
  | l :: ls => .cons (h l) (stretchedLines_map h ls)

theorem firstfit_linesOf {cols : Cols} {lead : ℚ} {avoid : Bool} {align : Align} {ws : List WordLike} {ae : Bool} {out : List ShapedText} (hs : Sound ws)
    (h : firstfitShape env cols lead avoid align ws ae = some out) : LinesOf env true (align = .justify) (gapsOf ws) out := by
  unfold firstfitShape at h
  rw [Option.map_eq_some_iff] at h
  obtain ⟨chunks, h1, rfl⟩ := h
  obtain ⟨h2, h3⟩ := (shape_chunks cols lead avoid ws ae chunks h1).gaps hs
  by_cases hj : align = .justify
  · subst hj
    have e : (chunks.map fun ls => if Align.justify = .justify then (⟨ls.map TLine.justify, lead, .justify, ls.length * lead⟩ : ShapedText) else ⟨ls, lead, .justify, ls.length * lead⟩).flatMap
        ShapedText.lines = chunks.flatten.map TLine.justify := by
      simp only [if_true, List.map_flatten, List.flatMap_def, List.map_map]; rfl
    refine ⟨⟨_, h3, ?_⟩, ?_⟩
    · rw [e]
      exact stretchedLines_map (fun l => l.justify_gaps.1) _
    · intro c hc l hl w hw
      obtain ⟨ls, hls, rfl⟩ := List.mem_map.1 hc
      simp only [if_true] at hl
      obtain ⟨l', hl', rfl⟩ := List.mem_map.1 hl
      exact l'.justify_gaps.2 (h2 ls hls l' hl') w hw
  · have e : (chunks.map fun ls => if align = .justify then (⟨ls.map TLine.justify, lead, align, ls.length * lead⟩ : ShapedText) else ⟨ls, lead, align, ls.length * lead⟩).flatMap
        ShapedText.lines = chunks.flatten := by
      simp only [hj, if_false, List.flatMap_map]
      exact List.flatMap_id'
    refine ⟨⟨_, h3, ?_⟩, ?_⟩
    · rw [e]
      exact stretchedLines_self _
    · intro c hc l hl w hw
      obtain ⟨ls, hls, rfl⟩ := List.mem_map.1 hc
      simp only [hj, if_false] at hl
      exact h2 ls hls l hl w hw

theorem zip_stretched {brs : List KBreak} : ∀ {ls : List TLine}, brs.length = ls.length →
    List.Forall₂ (List.Forall₂ (Stretched true)) (ls.map TLine.gaps) (((brs.zip ls).map fun e => e.2.stretch e.1.adjust).map TLine.gaps) := by
  induction brs with
  | nil =>
    intro ls h
    cases ls with
    | nil => exact .nil
    | cons l ls => simp at h
  | cons b brs ih =>
    intro ls h
    cases ls with
    | nil => simp at h
    | cons l ls => exact .cons (l.stretch_gaps _).1 (ih (by simpa using h))

theorem optimum_linesOf {cols : Cols} {lead : ℚ} {avoid : Bool} {align : Align} {o : OptParams} {ws : List WordLike} {ae : Bool} {out : List ShapedText}
    (hl : 0 < lead) (hc : ∀ i, 0 ≤ (cols i).2) (hs : ∀ w ∈ ws, w.Strict) (hp : ∀ w ∈ ws, w.Plain) {pre fin : State} (hw : WordsWF env ws pre fin)
    (h : optimumShape env cols lead avoid align o ws ae = some out) : LinesOf env false (align = .justify) (gapsOf ws) out := by
  by_cases hws : ws = []
  · subst hws
    have key : ∀ q, shapeFrom o (align = .justify) avoid ae [] q = some [[⟨[], 0, 0⟩]] := by intro q; simp [shapeFrom]
    have hout : out.flatMap ShapedText.lines = [⟨[], 0, 0⟩] := by
      simp only [optimumShape, if_neg hl.ne', intoBoxes, fragsLoop, key, Option.map_some, ← apply_ite some, Option.some.injEq] at h
      split at h <;> · rw [← h]; rfl
    refine ⟨⟨[[]], .last [] [] [] [] rfl (.inl rfl) (.inl rfl), ?_⟩, ?_⟩
    · rw [hout]
      exact .cons .nil .nil
    · intro c hc' l hl' w hw'
      have : l ∈ out.flatMap ShapedText.lines := List.mem_flatMap.2 ⟨c, hc', hl'⟩
      rw [hout, List.mem_singleton] at this
      subst this
      simp at hw'
  · obtain ⟨fbs, chunks, h1, hne, ⟨s, q, lines, h2, -, h3, rfl⟩, rfl⟩ := optimumShape_laid hl hc hws h
    have hfr := fragsLoop_spec _ ws pre fin _ _ _ fbs hw hp h1
    obtain ⟨g1, g2⟩ := fragsLoop_gaps _ ws _ _ _ fbs hp hs h1
    obtain ⟨tol, -, brs, k1, rfl⟩ := breakLines_spec h3
    have hne' : fbs.map (·.2) ≠ [] := by simpa using hne
    obtain ⟨ps, k2, -, rfl, -⟩ := (optimumFit_spec hne').1 brs k1
    obtain ⟨i1, i2⟩ := Feasible.increasing ps 0 0 k2
    have hpos := lineBreaks_pos (p := o.fit !decide (align = .justify)) (bs := fbs.map (·.2)) (width := q.lineLength) ps 0 0 1
    have hps : ps ≠ [] := by
      rintro rfl
      simp only [List.getLast?_nil] at i2
      cases i2
    have hlast : (0 :: ps).getLast? = some (fbs.map (·.1)).length := by
      cases ps with
      | nil => exact absurd rfl hps
      | cons x ps => rw [List.getLast?_cons_cons]; simpa using i2
    have hbr : lineBreaks (o.fit !decide (align = .justify)) (fbs.map (·.2)) q.lineLength 0 0 1 ps ≠ [] := by
      intro e
      rw [e] at hpos
      exact hps hpos.symm
    obtain ⟨m1, m2⟩ := raggedLines_gaps hfr.seq (by intro f hf; obtain ⟨e, he, rfl⟩ := List.mem_map.1 hf; exact g2 e he) _ 0 hbr (by rw [hpos]; exact i1) (by rw [hpos]; exact hlast)
    rw [List.drop_zero, g1] at m1
    generalize lineBreaks (o.fit !decide (align = .justify)) (fbs.map (·.2)) q.lineLength 0 0 1 ps = brs at *
    have hgroups : ∀ ls : List TLine, ((List.replicate s [] ++ groupLines q ls).map fun ls => (⟨ls, lead, align, ls.length * lead⟩ : ShapedText)).flatMap ShapedText.lines = ls := by
      intro ls
      rw [List.flatMap_map]
      show List.flatMap (fun ls => ls) _ = ls
      rw [List.flatMap_id', List.flatten_append, (groupLines_spec h2.full ls).1]
      simp
    refine ⟨⟨_, m1, ?_⟩, ?_⟩
    · rw [hgroups]
      unfold intoLines
      by_cases hj : align = .justify
      · simp only [hj, decide_true, if_true]
        exact zip_stretched (by rw [raggedLines_length])
      · simp only [hj, decide_false, Bool.false_eq_true, if_false]
        exact stretchedLines_self _
    · intro c hc' l hl' w hw'
      have := List.mem_flatMap.2 ⟨c, hc', hl'⟩
      rw [hgroups] at this
      unfold intoLines at this
      split at this
      · obtain ⟨⟨b, l'⟩, he, rfl⟩ := List.mem_map.1 this
        exact (l'.stretch_gaps _).2 (m2 l' (List.of_mem_zip he).2) w hw'
      · exact m2 l this w hw'

end Pdfje
