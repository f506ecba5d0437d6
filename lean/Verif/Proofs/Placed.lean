import Verif.Proofs.Gaps
/-
Where the glyphs of words are.
-/

namespace Pdfje

variable {W : FontRef → Char → ℚ}

/-- `Shown`, with the places of the glyphs. -/
def PlacedAt (W : FontRef → Char → ℚ) (v : Viewer) (gs : List Glyph) (v' : Viewer) (cs : List (Char × State)) (st : State) (d : ℚ) (gaps : List Gap) : Prop :=
  Shown v gs v' cs st d ∧ Spaced W v.x gaps gs v'.x

theorem PlacedAt.trans {v1 v2 v3 : Viewer} {g1 g2 c1 c2 s1 s2 d1 d2 l1 l2} (h1 : PlacedAt W v1 g1 v2 c1 s1 d1 l1) (h2 : PlacedAt W v2 g2 v3 c2 s2 d2 l2) :
    PlacedAt W v1 (g1 ++ g2) v3 (c1 ++ c2) s2 (d1 + d2) (l1 ++ l2) := ⟨h1.1.trans h2.1, h1.2.trans h2.2⟩

theorem PlacedAt.refl {v : Viewer} {st : State} (h : v.In st) : PlacedAt W v [] v [] st 0 [] := ⟨.refl h, .nil _⟩

theorem Slug.placed {env : Env} {s : Slug} (hs : s.WF env) (ht : s.Strict) (v : Viewer) (hv : v.In s.state) :
    PlacedAt env.widths v (Viewer.show env.widths s.toItems v).1 (Viewer.show env.widths s.toItems v).2 s.styled s.state s.width s.gaps :=
  ⟨s.shown hs v hv, s.spaced hs ht v hv⟩

theorem Command.placed (W : FontRef → Char → ℚ) (c : Command) (v : Viewer) (st : State) (h : v.In st) :
    PlacedAt W v (Viewer.run W c.ops v).1 (Viewer.run W c.ops v).2 [] (c.apply st) 0 [] := by
  have h1 := c.shown W v st h
  refine ⟨h1, ?_⟩
  rw [List.map_eq_nil_iff.1 h1.looks, h1.x, add_zero]
  exact .nil _

theorem segments_placed {env : Env} : ∀ (segs : List (Slug × Command)) (fin pre : State), SegsWF env segs fin → (∀ e ∈ segs, e.1.Strict) →
    (∀ e ∈ segs.head?, e.1.state = pre) →
    Continues env.widths (encodeSegments segs)
      (fun v g v' => PlacedAt env.widths v g v' (segs.flatMap fun e => e.1.styled) fin ((segs.map fun e => e.1.width).sum) (segs.flatMap fun e => e.1.gaps)) pre
  | [], _, _, h, _, _ => absurd h (by simp [SegsWF])
  | [(s, c)], fin, pre, h, ht, hp => by
    intro line v gs v1 hv hin
    obtain ⟨hs, hc⟩ := h
    have hst : s.state = pre := hp (s, c) (by simp)
    have h1 := s.placed hs (ht (s, c) (by simp)) v1 (by rw [hst]; exact hin)
    have h2 := c.placed env.widths _ _ h1.1.st
    have h3 := h1.trans h2
    rw [hc] at h3
    refine ⟨_, _, ?_, by simpa using h3⟩
    simp only [encodeSegments, List.append_nil]
    rw [runShow_cons_tj, show_append, hv]
    simp [runShow, Viewer.show]
  | (s, c) :: (s', c') :: rest, fin, pre, h, ht, hp => by
    intro line v gs v1 hv hin
    obtain ⟨hs, hc, hr⟩ := h
    have hst : s.state = pre := hp (s, c) (by simp)
    have h1 := s.placed hs (ht (s, c) (by simp)) v1 (by rw [hst]; exact hin)
    have h2 := c.placed env.widths _ _ h1.1.st
    have h3 := h1.trans h2
    rw [hc] at h3
    obtain ⟨g2, v2, h4, h5⟩ := segments_placed ((s', c') :: rest) fin s'.state hr (fun e he => ht e (List.mem_cons_of_mem _ he)) (by simp) []
      (Viewer.run env.widths c.ops (Viewer.show env.widths s.toItems v1).2).2 [] _ rfl h3.1.st
    have h6 := h3.trans h5
    refine ⟨(Viewer.show env.widths s.toItems v1).1 ++ (Viewer.run env.widths c.ops (Viewer.show env.widths s.toItems v1).2).1 ++ g2,
      v2, ?_, ?_⟩
    rotate_left
    · simp only [List.append_nil, add_zero] at h6
      simpa [List.flatMap_cons] using h6
    · rw [encodeSegments]
      dsimp only
      rw [List.cons_append, runShow_cons_tj, show_append, hv]
      simp only [runShow_append]
      simp only [List.nil_append] at h4
      rw [h4]
      simp

theorem Box.placed {env : Env} {b : Box} (hb : b.WF env) (ht : b.Strict) :
    Continues env.widths b.encodeInto (fun v g v' => PlacedAt env.widths v g v' b.styled b.state b.width b.gaps) b.preState := by
  cases b with
  | slug s =>
    intro line v gs v1 hv hin
    simp only [Box.encodeInto, runShow_nil, show_append, hv]
    exact ⟨_, _, rfl, s.placed hb ht v1 hin⟩
  | mixed segs st =>
    apply segments_placed segs st _ hb ht.2
    intro e he
    cases segs with
    | nil => simp at he
    | cons a l => obtain ⟨s, c⟩ := a; simp at he; subst he; rfl

theorem boxes_placed {env : Env} : ∀ (bs : List Box) (fin pre : State), BoxesWF env bs fin → (∀ b ∈ bs, b.Strict) →
    (bs = [] → pre = fin) → (∀ b ∈ bs.head?, b.preState = pre) →
    Continues env.widths (encodeBoxes bs)
      (fun v g v' => PlacedAt env.widths v g v' (bs.flatMap Box.styled) fin ((bs.map Box.width).sum) (bs.flatMap Box.gaps)) pre
  | [], fin, pre, h, ht, hn, hp => by
    intro line v gs v1 hv hin
    refine ⟨[], v1, by simp [encodeBoxes, runShow_nil, hv], ?_⟩
    rw [← hn rfl]
    simpa using PlacedAt.refl hin
  | [b], fin, pre, h, ht, hn, hp => by
    intro line v gs v1 hv hin
    obtain ⟨hb, hf⟩ := h
    obtain ⟨g2, v2, h1, h2⟩ := Box.placed hb (ht b (by simp)) line v gs v1 hv (by rw [hp b (by simp)]; exact hin)
    refine ⟨g2, v2, ?_, ?_⟩
    · simpa [encodeBoxes] using h1
    · rw [hf] at h2; simpa using h2
  | b :: b' :: rest, fin, pre, h, ht, hn, hp => by
    intro line v gs v1 hv hin
    obtain ⟨hb, hf, hr⟩ := h
    obtain ⟨g2, v2, h1, h2⟩ := Box.placed hb (ht b (by simp)) line v gs v1 hv (by rw [hp b (by simp)]; exact hin)
    -- run the first box's operators, with its pending items
    have hsplit : runShow env.widths (b.encodeInto line).1 (b.encodeInto line).2 v =
      ((Viewer.run env.widths (b.encodeInto line).1 v).1 ++
        (Viewer.show env.widths (b.encodeInto line).2 (Viewer.run env.widths (b.encodeInto line).1 v).2).1,
       (Viewer.show env.widths (b.encodeInto line).2 (Viewer.run env.widths (b.encodeInto line).1 v).2).2) := rfl
    rw [hsplit] at h1
    obtain ⟨e1, e2⟩ := Prod.mk.injEq .. ▸ h1
    obtain ⟨g3, v3, h3, h4⟩ := boxes_placed (b' :: rest) fin b'.preState hr (fun e he => ht e (List.mem_cons_of_mem _ he)) (by simp) (by simp) (b.encodeInto line).2
      (Viewer.run env.widths (b.encodeInto line).1 v).2 _ _ rfl (by rw [e2, ← hf]; exact h2.1.st)
    rw [e2] at h4
    refine ⟨g2 ++ g3, v3, ?_, ?_⟩
    · rw [encodeBoxes]
      simp only [runShow_append]
      rw [h3]
      dsimp only
      rw [← List.append_assoc, ← List.append_assoc, e1]
    · have := h2.trans h4
      simpa using this

theorem tail_placed {env : Env} {t : TrailingSpace} {st : State} (ht : TailOk env t st) (v : Viewer) (hv : v.In st) :
    PlacedAt env.widths v (Viewer.show env.widths (t.toItems st) v).1 (Viewer.show env.widths (t.toItems st) v).2 [(' ', st)] st t.width
      [(t.kern, ' ', st)] := by
  refine ⟨tail_shown ht v hv, ?_⟩
  have e : Viewer.show env.widths (t.toItems st) v =
      Viewer.show env.widths [.txt st.font [' ']] (v.move (v.dist t.kern)) := by
    rw [TrailingSpace.toItems]
    split
    · simp [show_adj_cons]
    · rename_i hk
      simp only [ne_eq, not_not] at hk
      simp [hk]
  rw [e]
  have := showText_spaced (W := env.widths) st.font st [' '] (v.move (v.dist t.kern)) hv.1
  simp only [Viewer.show, List.append_nil, List.map_cons, List.map_nil] at this ⊢
  have h := Spaced.shift (W := env.widths) (x := v.x) (d := t.kern) (by simpa [Viewer.dist_of hv.1] using this)
  simpa [Viewer.dist_of hv.1] using h

theorem Word.placed {env : Env} {w : Word} (hw : w.WF env) (hs : ∀ b ∈ w.boxes, b.Strict) :
    Continues env.widths w.encodeInto (fun v g v' => PlacedAt env.widths v g v' w.styled w.state w.width (w.boxes.flatMap Box.gaps ++ tailGaps w.tail w.state)) w.preState := by
  intro line v gs v1 hv hin
  obtain ⟨g2, v2, h1, h2⟩ := boxes_placed w.boxes w.state w.preState hw.boxes hs
    (by intro h; simp [Word.preState, h])
    (by intro b hb; cases h : w.boxes with
      | nil => rw [h] at hb; simp at hb
      | cons a l => rw [h] at hb; simp at hb; subst hb; simp [Word.preState, h])
    line v gs v1 hv hin
  rw [Word.encodeInto]
  cases ht : w.tail with
  | none =>
    refine ⟨g2, v2, by simpa [ht] using h1, ?_⟩
    have e1 : w.styled = w.boxes.flatMap Box.styled := by simp [Word.styled, ht]
    have e2 : w.width = (w.boxes.map Box.width).sum := by simp [Word.width, Word.prunedWidth, Word.prunableSpace, ht]
    have e3 : tailGaps w.tail w.state = [] := by simp [tailGaps, ht]
    rw [ht] at e3
    rw [e1, e2, e3, List.append_nil]; exact h2
  | some t =>
    have h3 := tail_placed (hw.tail t (by simp [ht])) v2 h2.1.st
    refine ⟨g2 ++ (Viewer.show env.widths (t.toItems w.state) v2).1, (Viewer.show env.widths (t.toItems w.state) v2).2, ?_, ?_⟩
    · simp only [runShow_line_append, h1]
      simp
    · have e1 : w.styled = w.boxes.flatMap Box.styled ++ [(' ', w.state)] := by simp [Word.styled, ht]
      have e2 : w.width = (w.boxes.map Box.width).sum + t.width := by
        simp [Word.width, Word.prunedWidth, Word.prunableSpace, ht]
      rw [e1, e2]; exact h2.trans h3

theorem WordLike.placed {env : Env} : ∀ {w : WordLike}, w.WF env → w.Strict →
    Continues env.widths w.encodeInto (fun v g v' => PlacedAt env.widths v g v' w.styled w.state w.width w.gaps) w.preState
  | .box b, hw, hs => Box.placed hw (hs b (by simp [WordLike.boxes]))
  | .word w, hw, hs => Word.placed hw hs
  | .withCmd w c, hw, hs => by
    intro line v gs v1 hv hin
    obtain ⟨g2, v2, h1, h2⟩ := WordLike.placed (w := w) hw hs line v gs v1 hv hin
    have h3 := c.placed env.widths _ _ h2.1.st
    refine ⟨g2 ++ (Viewer.run env.widths c.ops v2).1, (Viewer.run env.widths c.ops v2).2, ?_, ?_⟩
    · have hsplit : runShow env.widths (w.encodeInto line).1 (w.encodeInto line).2 v =
        ((Viewer.run env.widths (w.encodeInto line).1 v).1 ++
          (Viewer.show env.widths (w.encodeInto line).2 (Viewer.run env.widths (w.encodeInto line).1 v).2).1,
         (Viewer.show env.widths (w.encodeInto line).2 (Viewer.run env.widths (w.encodeInto line).1 v).2).2) := rfl
      rw [hsplit] at h1
      obtain ⟨e1, e2⟩ := Prod.mk.injEq .. ▸ h1
      simp only [WordLike.encodeInto]
      rw [List.append_assoc, runShow_append]
      rw [List.singleton_append, runShow_cons_tj, e2]
      simp only [runShow, Viewer.show, List.append_nil]
      rw [← List.append_assoc, e1, List.append_assoc]
    · have := h2.trans h3
      simp only [List.append_nil, add_zero] at this
      exact this

theorem encodeWords_placed {env : Env} : ∀ (ws : List WordLike) (pre fin : State), WordsWF env ws pre fin → (∀ w ∈ ws, w.Strict) →
    ∀ line v gs v1, Viewer.show env.widths line v = (gs, v1) → v1.In pre →
    ∃ g2 v2, Viewer.run env.widths (encodeWords ws line) v = (gs ++ g2, v2) ∧
      PlacedAt env.widths v1 g2 v2 (ws.flatMap WordLike.styled) fin ((ws.map WordLike.width).sum) (ws.flatMap WordLike.gaps)
  | [], pre, fin, h, hs, line, v, gs, v1, hv, hin => by
    refine ⟨[], v1, ?_, ?_⟩
    · simp [encodeWords, Viewer.run, Viewer.step, hv]
    · cases h; simpa using PlacedAt.refl hin
  | w :: ws, pre, fin, h, hs, line, v, gs, v1, hv, hin => by
    obtain ⟨hw, hp, hr⟩ := h
    obtain ⟨g2, v2, h1, h2⟩ := WordLike.placed hw (hs w (by simp)) line v gs v1 hv (by rw [hp]; exact hin)
    have hsplit : runShow env.widths (w.encodeInto line).1 (w.encodeInto line).2 v =
      ((Viewer.run env.widths (w.encodeInto line).1 v).1 ++
        (Viewer.show env.widths (w.encodeInto line).2 (Viewer.run env.widths (w.encodeInto line).1 v).2).1,
       (Viewer.show env.widths (w.encodeInto line).2 (Viewer.run env.widths (w.encodeInto line).1 v).2).2) := rfl
    rw [hsplit] at h1
    obtain ⟨e1, e2⟩ := Prod.mk.injEq .. ▸ h1
    obtain ⟨g3, v3, h3, h4⟩ := encodeWords_placed ws w.state fin hr (fun e he => hs e (List.mem_cons_of_mem _ he)) (w.encodeInto line).2
      (Viewer.run env.widths (w.encodeInto line).1 v).2 _ _ rfl (by rw [e2]; exact h2.1.st)
    rw [e2] at h4
    refine ⟨g2 ++ g3, v3, ?_, ?_⟩
    · simp only [encodeWords, Viewer.run_append, h3]
      rw [← List.append_assoc, ← List.append_assoc, ← e1]
    · simpa using h2.trans h4

end Pdfje
