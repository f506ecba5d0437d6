import Verif.Proofs.Pages
/-
Automatic pages: what is written is what is on the tape.
-/

namespace Pdfje

/-! ### Pages one after the other -/

theorem writePages_pages (w : World) (s : StyleFull) (ps : List Filled) : ∀ r, (writePages w s ps r).err = none →
    (writePages w s ps r).pages.map (·.page) = ps := by
  induction ps with
  | nil => intro r _; rfl
  | cons p ps ih =>
    intro r h
    rw [writePages] at h ⊢
    cases hp : p.run w s r with
    | mk o r1 =>
      rw [hp] at h
      cases o with
      | none => cases h
      | some x =>
        simp only at h ⊢
        rw [List.map_cons, ih r1 h]

/-- Every page that is written is one of the pages given, and has their operators. -/
theorem writePages_run (w : World) (s : StyleFull) (ps : List Filled) : ∀ r, ∀ x ∈ (writePages w s ps r).pages,
    ∃ r0 r1, x.page.run w s r0 = (some (x.ops, x.bytes), r1) := by
  induction ps with
  | nil => intro r x h; cases h
  | cons p ps ih =>
    intro r x h
    rw [writePages] at h
    cases hp : p.run w s r with
    | mk o r1 =>
      rw [hp] at h
      cases o with
      | none => cases h
      | some y =>
        simp only [List.mem_cons] at h
        rcases h with rfl | h
        · exact ⟨r, r1, hp⟩
        · exact ih r1 x h

theorem PagesRun.andThen_none {a : PagesRun} {f : Res → PagesRun} (h : (a.andThen f).err = none) :
    a.err = none ∧ (f a.res).err = none ∧ (a.andThen f).pages = a.pages ++ (f a.res).pages := by
  unfold PagesRun.andThen at h ⊢
  cases ha : a.err with
  | some e => rw [ha] at h; cases h
  | none => rw [ha] at h; exact ⟨rfl, h, rfl⟩

/-! ### What blocks leave as it is -/

/-- A block never touches the columns before the current one. -/
theorem Fills.before {w : World} {s : StyleFull} {bs : List Block} {t t' : Tape} (h : Fills w s bs t t') :
    t.head ≤ t'.head ∧ ∀ i, i < t.head → t'.cells i = t.cells i := by
  induction h with
  | nil t => exact ⟨le_rfl, fun _ _ => rfl⟩
  | cons b bs t r r' filled t' hb hrest ih =>
    by_cases hne : filled = []
    · subst hne
      simpa [Tape.fill] using ih
    · rw [t.fill_ne hne] at ih
      have hpos : 0 < filled.length := List.length_pos_iff.2 hne
      simp only at ih
      refine ⟨by omega, fun i hi => ?_⟩
      rw [ih.2 i (by omega), t.write_before filled hi]

theorem Fills.append {w : World} {s : StyleFull} (bs cs : List Block) : ∀ {t t' : Tape}, Fills w s (bs ++ cs) t t' ↔
    ∃ u, Fills w s bs t u ∧ Fills w s cs u t' := by
  induction bs with
  | nil =>
    intro t t'
    exact ⟨fun h => ⟨t, .nil t, h⟩, by rintro ⟨u, h1, h2⟩; cases h1; exact h2⟩
  | cons b bs ih =>
    intro t t'
    constructor
    · intro h
      cases h with
      | cons _ _ _ r r' filled _ hb hrest =>
        obtain ⟨u, h1, h2⟩ := ih.1 hrest
        exact ⟨u, .cons b bs t r r' filled u hb h1, h2⟩
    · rintro ⟨u, h1, h2⟩
      cases h1 with
      | cons _ _ _ r r' filled _ hb hrest => exact .cons b _ t r r' filled _ hb (ih.2 ⟨u, hrest, h2⟩)

theorem PagesInv.ofNew {pages : Nat → Page} (hpages : ∀ n, (pages n).columns ≠ []) (t : Tape) (h : t.IsNew pages) :
    PagesInv pages 0 (fun n => PageFill.new (pages n)) t := by
  have hpos := offset_lt hpages 0
  refine ⟨fun n => by rw [Nat.zero_add]; rfl, by rw [h.head]; exact le_rfl, by rw [h.head]; exact hpos, ?_, ?_, ?_, ?_⟩
  · rw [h.head, Nat.zero_sub]; rfl
  · rw [h.head, PageFill.new]
    simp only
    rw [← h.cells 0, Tape.page]
    congr 1
    simp [offset]
  · intro n; rw [Nat.zero_add]
  · intro n; exact h.cells _

/-- A tape of empty columns. -/
theorem exists_newTape {pages : Nat → Page} (hpages : ∀ n, (pages n).columns ≠ []) : ∃ t : Tape, t.IsNew pages := by
  refine ⟨⟨columnsLeft fun n => PageFill.new (pages n), 0⟩, rfl, fun n => ?_⟩
  apply List.ext_getElem?
  intro j
  rw [Tape.page, slice_getElem?, List.getElem?_map]
  by_cases hj : j < (pages n).columns.length
  · rw [if_pos hj]
    have := flatNth_tape noColumn (fun n => (PageFill.new (pages n)).todo) (offset pages) rfl
      (fun n => by rw [offset]; simp [PageFill.new]) (fun n => by simp [PageFill.new, hpages]) n j (offset pages n + j + 1) (by omega)
      (by simpa [PageFill.new] using hj)
    simp only [columnsLeft]
    rw [this]
    simp only [PageFill.new, List.getElem?_map]
    rw [List.getElem?_eq_getElem hj]
    rfl
  · rw [if_neg hj, List.getElem?_eq_none (by omega)]
    rfl

theorem offset_mono {pages : Nat → Page} {a b : Nat} (h : a ≤ b) : offset pages a ≤ offset pages b := by
  induction h with
  | refl => exact le_rfl
  | step _ ih => exact ih.trans (by rw [offset]; omega)

/-- Two tapes that agree up to the end of a page agree on the page. -/
theorem Tape.page_congr {pages : Nat → Page} {t u : Tape} {n : Nat} (h : ∀ i, i < offset pages (n + 1) → t.cells i = u.cells i) :
    t.page pages n = u.page pages n := by
  unfold Tape.page
  refine slice_congr fun i h1 h2 => h i ?_
  rw [offset]; exact h2

/-- The loop over the blocks writes the pages of the tape that the blocks fill. -/
theorem autoLoop_spec {pages : Nat → Page} (hpages : ∀ n, (pages n).columns ≠ []) (w : World) (s : StyleFull) (bs : List Block) :
    ∀ (k : Nat) (doc : Nat → PageFill) (t : Tape) (r : Res), PagesInv pages k doc t → (autoLoop w s bs doc r).err = none →
    ∃ t', Fills w s bs t t' ∧ ∃ P, (autoLoop w s bs doc r).pages.length = P + 1 ∧
      offset pages (k + P) ≤ t'.head ∧ t'.head < offset pages (k + P + 1) ∧
      ∀ (j : Nat) (x : Written), (autoLoop w s bs doc r).pages[j]? = some x → x.page = ⟨pages (k + j), t'.page pages (k + j)⟩ := by
  induction bs with
  | nil =>
    intro k doc t r h herr
    refine ⟨t, .nil t, 0, ?_⟩
    rw [autoLoop] at herr ⊢
    have hp := writePages_pages w s _ r herr
    have hlen : (writePages w s [⟨(doc 0).base, (doc 0).done ++ (doc 0).todo⟩] r).pages.length = 1 := by
      rw [← List.length_map (f := (·.page)), hp]; rfl
    refine ⟨hlen, h.lo, h.hi, fun j x hx => ?_⟩
    have hj : j = 0 := by
      have := (List.getElem?_eq_some_iff.1 hx).1
      omega
    subst hj
    have : ((writePages w s [⟨(doc 0).base, (doc 0).done ++ (doc 0).todo⟩] r).pages.map (·.page))[0]? = some x.page := by
      rw [List.getElem?_map, hx]; rfl
    rw [hp] at this
    simp only [List.getElem?_cons_zero, Option.some.injEq] at this
    rw [← this, h.base 0, h.done, h.todo, Nat.add_zero]
    congr 1
    have hlo := h.lo
    have hhi := h.hi
    have e : offset pages k + (t.head - offset pages k) = t.head := by omega
    have := slice_append t.cells (offset pages k) (t.head - offset pages k) (offset pages (k + 1) - t.head)
    rw [e] at this
    rw [this, Tape.page]
    congr 1
    rw [offset] at hhi ⊢
    omega
  | cons b bs ih =>
    intro k doc t r h herr
    rw [autoLoop] at herr ⊢
    rw [h.view hpages] at herr ⊢
    cases hb : b.intoColumns w r s t.view with
    | mk o r1 =>
      rw [hb] at herr
      cases o with
      | none => cases herr
      | some filled =>
        simp only at herr ⊢
        obtain ⟨doc', completed, e1, e2, e3, e4⟩ := fillInto_spec hpages h filled
        rw [e1] at herr ⊢
        simp only at herr ⊢
        obtain ⟨h1, h2, h3⟩ := PagesRun.andThen_none herr
        rw [h3]
        have hp := writePages_pages w s _ r1 h1
        obtain ⟨t', f1, P, f2, f3, f4, f5⟩ := ih (k + completed.length) doc' (t.fill filled) _ e4 h2
        have hlen : (writePages w s (completed.map fun p => ⟨p.base, p.done⟩) r1).pages.length = completed.length := by
          rw [← List.length_map (f := (·.page)), hp, List.length_map]
        refine ⟨t', .cons b bs t r r1 filled t' hb f1, completed.length + P, ?_, ?_, ?_, ?_⟩
        · rw [List.length_append, hlen, f2]; omega
        · rw [← Nat.add_assoc]; exact f3
        · rw [← Nat.add_assoc]; exact f4
        · intro j x hx
          rw [List.getElem?_append, hlen] at hx
          split at hx
          · rename_i hj
            have hxp : ((writePages w s (completed.map fun p => ⟨p.base, p.done⟩) r1).pages.map (·.page))[j]? = some x.page := by
              rw [List.getElem?_map, hx]; rfl
            rw [hp, List.getElem?_map] at hxp
            cases hc : completed[j]? with
            | none => rw [List.getElem?_eq_none_iff] at hc; omega
            | some p =>
              rw [hc] at hxp
              simp only [Option.map_some, Option.some.injEq] at hxp
              rw [← hxp, e3 j p hc]
              have hbase : (completed.map (·.base))[j]? = some p.base := by rw [List.getElem?_map, hc]; rfl
              rw [e2, List.getElem?_map, List.getElem?_range hj] at hbase
              simp only [Option.map_some, Option.some.injEq] at hbase
              rw [hbase]
              congr 1
              refine Tape.page_congr fun i hi => (f1.before.2 i ?_).symm
              have := e4.lo
              have hm : offset pages (k + j + 1) ≤ offset pages (k + completed.length) := offset_mono (by omega)
              omega
          · rename_i hj
            rw [f5 _ x hx]
            have : k + completed.length + (j - completed.length) = k + j := by omega
            rw [this]

end Pdfje

namespace Pdfje

/-! ### Paragraphs on the tape -/

theorem ColumnFill.Extends.refl (c : ColumnFill) : c.Extends c := ⟨rfl, [], by simp⟩

theorem ColumnFill.Extends.trans {a b c : ColumnFill} (h : a.Extends b) (h' : b.Extends c) : a.Extends c := by
  obtain ⟨h1, x, hx⟩ := h
  obtain ⟨h2, y, hy⟩ := h'
  exact ⟨h1.trans h2, x ++ y, by rw [hy, hx, List.append_assoc]⟩

theorem ColumnFill.extends_add (c : ColumnFill) (s : Shaped) : c.Extends (c.add s) := ⟨rfl, _, rfl⟩

theorem Tape.Grows.refl (t : Tape) : t.Grows t := ⟨le_rfl, fun _ => .refl _, fun _ _ => rfl, fun _ _ => rfl⟩

theorem Tape.Grows.trans {a b c : Tape} (h : a.Grows b) (h' : b.Grows c) : a.Grows c :=
  ⟨h.head.trans h'.head, fun i => (h.cells i).trans (h'.cells i),
    fun i hi => (h'.before i (by have := h.head; omega)).trans (h.before i hi),
    fun i hi => (h'.after i hi).trans (h.after i (by have := h'.head; omega))⟩

/-- Filling columns only by adding to them. -/
theorem Tape.grows_fill (t : Tape) (filled : List ColumnFill) (h : Adds t.view filled) : t.Grows (t.fill filled) := by
  by_cases hne : filled = []
  · subst hne; simpa [Tape.fill] using Tape.Grows.refl t
  · have hpos : 0 < filled.length := List.length_pos_iff.2 hne
    rw [t.fill_ne hne]
    refine ⟨by simp only; omega, fun i => ?_, fun i hi => t.write_before filled hi, fun i hi => t.write_after filled (by simp only at hi; omega)⟩
    simp only [Tape.write]
    split
    · rename_i hi
      cases hf : filled[i - t.head]? with
      | none => exact .refl _
      | some c =>
        have := h _ c hf
        rw [Tape.view, show t.head + (i - t.head) = i by omega] at this
        exact this
    · exact .refl _

theorem addChunks_eq (chunks : List ShapedText) : ∀ cs, addChunks chunks cs = chunks.mapIdx fun i c => (cs i).add (.text c) := by
  induction chunks with
  | nil => intro cs; rfl
  | cons c chunks ih =>
    intro cs
    rw [addChunks, ih, List.mapIdx_cons]

theorem addChunks_adds (chunks : List ShapedText) (cs : Nat → ColumnFill) : Adds cs (addChunks chunks cs) := by
  intro i c h
  rw [addChunks_eq, List.getElem?_mapIdx, Option.map_eq_some_iff] at h
  obtain ⟨x, -, rfl⟩ := h
  exact ColumnFill.extends_add _ _

/-- What is left after filling columns. -/
theorem Tape.view_fill (t : Tape) {done : List ColumnFill} {col : ColumnFill} (h : done.getLast? = some col) :
    (t.fill done).view = consStream col fun n => t.view (n + done.length) := by
  have hne : done ≠ [] := by rintro rfl; cases h
  have hpos : 0 < done.length := List.length_pos_iff.2 hne
  rw [t.fill_ne hne]
  funext i
  cases i with
  | zero =>
    simp only [Tape.view, consStream, Nat.add_zero, Tape.write]
    rw [if_pos (by omega), show t.head + done.length - 1 - t.head = done.length - 1 by omega, ← List.getLast?_eq_getElem?, h]
    rfl
  | succ i =>
    simp only [Tape.view, consStream]
    rw [t.write_after done (by omega)]
    congr 1
    omega

theorem Tape.fill_fill (t : Tape) {done filled : List ColumnFill} (h : done ≠ []) (h' : filled ≠ []) :
    (t.fill done).fill filled = t.fill (done.dropLast ++ filled) := by
  have hpos : 0 < done.length := List.length_pos_iff.2 h
  have hpos' : 0 < filled.length := List.length_pos_iff.2 h'
  rw [t.fill_ne h, Tape.fill_ne _ h', Tape.fill_ne _ (by simp [h'])]
  simp only [Tape.mk.injEq]
  constructor
  · funext i
    simp only [Tape.write]
    have hlen : done.dropLast.length = done.length - 1 := by simp
    by_cases h1 : t.head + done.length - 1 ≤ i
    · have h2 : t.head ≤ i := by omega
      simp only [h1, h2, if_true]
      have h3 : ¬ i - t.head < done.dropLast.length := by omega
      rw [List.getElem?_append_right (by omega), hlen]
      have e : i - t.head - (done.length - 1) = i - (t.head + done.length - 1) := by omega
      rw [e]
      cases hf : filled[i - (t.head + done.length - 1)]? with
      | some c => rfl
      | none =>
        rw [List.getElem?_eq_none_iff] at hf
        simp only [Option.getD_none]
        rw [List.getElem?_eq_none (by omega)]
        rfl
    · by_cases h2 : t.head ≤ i
      · simp only [h1, h2, if_true, if_false]
        rw [List.getElem?_append_left (by omega), List.dropLast_eq_take, List.getElem?_take, if_pos (by omega)]
      · simp only [h1, h2, if_false]
  · simp; omega

/-- A paragraph fills columns line by line. -/
theorem paragraphLoop_spec (p : Paragraph) (env : Env) (lead : ℚ) (lines : List (List Passage)) :
    ∀ (t : Tape) (st : State) (filled : List ColumnFill), paragraphLoop p env lead lines t.view st = some filled →
    filled ≠ [] ∧ LinesFill p env lead lines st t (t.fill filled) := by
  induction lines with
  | nil =>
    intro t st filled h
    rw [paragraphLoop, Option.some.injEq] at h
    subst h
    refine ⟨by simp, ?_⟩
    have : t.fill [t.view 0] = t := by
      rw [t.fill_ne (by simp)]
      cases t with
      | mk cells head =>
        simp only [Tape.mk.injEq, List.length_singleton, Nat.add_sub_cancel, and_true]
        funext i
        simp only [Tape.write, Tape.view, Nat.add_zero]
        split
        · rename_i hi
          cases hd : i - head with
          | zero => simp only [List.getElem?_cons_zero, Option.getD_some]; congr 1; omega
          | succ n => simp
        · rfl
    rw [this]
    exact .nil st t
  | cons line rest ih =>
    intro t st filled h
    rw [paragraphLoop] at h
    cases hf : fillParagraph p env line t.view st lead with
    | none => rw [hf] at h; cases h
    | some x =>
      obtain ⟨done, st'⟩ := x
      rw [hf] at h
      simp only at h
      cases hl : done.getLast? with
      | none => rw [hl] at h; cases h
      | some col =>
        rw [hl] at h
        simp only [Option.map_eq_some_iff] at h
        obtain ⟨filled', h1, rfl⟩ := h
        have hne : done ≠ [] := by rintro rfl; cases hl
        rw [← t.view_fill hl] at h1
        obtain ⟨g1, g2⟩ := ih _ _ _ h1
        refine ⟨by simp [g1], ?_⟩
        rw [← t.fill_fill hne g1]
        rw [fillParagraph] at hf
        cases hw : intoWords env line st with
        | none => rw [hw] at hf; cases hf
        | some y =>
          obtain ⟨cmd, words⟩ := y
          rw [hw] at hf
          simp only [Option.map_eq_some_iff, Prod.mk.injEq] at hf
          obtain ⟨chunks, hs, rfl, rfl⟩ := hf
          rw [addChunks_eq] at hne g2 ⊢
          exact .cons line rest st t cmd words chunks _ hw hs (by rintro rfl; simp at hne) g2

theorem mapIdx_adds (chunks : List ShapedText) (cs : Nat → ColumnFill) : Adds cs (chunks.mapIdx fun i c => (cs i).add (.text c)) := by
  rw [← addChunks_eq]; exact addChunks_adds _ _

theorem LinesFill.grows {p : Paragraph} {env : Env} {lead : ℚ} {lines : List (List Passage)} {st : State} {t t' : Tape}
    (h : LinesFill p env lead lines st t t') : t.Grows t' := by
  induction h with
  | nil => exact .refl _
  | cons line rest st t cmd words chunks t' _ _ _ _ ih => exact (t.grows_fill _ (mapIdx_adds _ _)).trans ih

/-- A paragraph only adds to the columns. -/
theorem paragraph_adds (p : Paragraph) (w : World) (r : Res) (s : StyleFull) (cs : Nat → ColumnFill) (filled : List ColumnFill) (r' : Res)
    (h : p.intoColumns w r s cs = (some filled, r')) : Adds cs filled := by
  unfold Paragraph.intoColumns at h
  simp only [Prod.mk.injEq] at h
  obtain ⟨h, -⟩ := h
  have hv : (⟨cs, 0⟩ : Tape).view = cs := by funext i; simp [Tape.view]
  obtain ⟨hne, hf⟩ := paragraphLoop_spec p _ _ _ ⟨cs, 0⟩ _ filled (by rw [hv]; exact h)
  intro i c hi
  have := hf.grows.cells i
  rw [Tape.fill_ne _ hne] at this
  simpa [Tape.write, hi] using this

end Pdfje
