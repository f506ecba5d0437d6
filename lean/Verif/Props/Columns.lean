import Verif.Spec.Columns
import Verif.Props.Flow
import Verif.Props.Pages
/-
C36 for whole pages: what is on them lies inside of their columns.
-/

namespace Pdfje

/-- What is kept of the columns: columns after the current one are empty, no block has a negative height, no column is over-full, unless (if `one` allows it) it holds one line only;
and (if `one` does not) there are at least `height` free in empty columns. -/
structure Tape.Fits (one : Prop) (height : ℚ) (t : Tape) : Prop where
  after : ∀ i, t.head < i → (t.cells i).blocks = []
  heights : ∀ i, ∀ e ∈ (t.cells i).blocks, 0 ≤ e.2.height
  free : ∀ i, 0 ≤ (t.cells i).heightFree ∨ one ∧ (t.cells i).lines.length = 1
  empty : ¬ one → ∀ i, (t.cells i).blocks = [] → height ≤ (t.cells i).heightFree

theorem ColumnFill.lines_add (c : ColumnFill) (s : Shaped) : (c.add s).lines = c.lines ++ s.lines := by
  simp [ColumnFill.lines, ColumnFill.add]

theorem Tape.Fits.fill {one : Prop} {height lead : ℚ} (hl : 0 < lead) (hh : ¬ one → lead ≤ height) {t : Tape} (h : t.Fits one height) {chunks : List ShapedText} (hne : chunks ≠ [])
    (hc : ∀ (i : Nat) (c : ShapedText), chunks[i]? = some c → c.height = c.lines.length * lead ∧ (c.height ≤ (t.view i).heightFree ∨ c.lines = [] ∨
      (c.lines.length = 1 ∧ (t.view i).heightFree < lead ∧ ((!(t.view 0).blocks.isEmpty) = false ∨ 1 ≤ i)))) :
    (t.fill (chunks.mapIdx fun i c => (t.view i).add (.text c))).Fits one height := by
  have hlen : 0 < chunks.length := List.length_pos_iff.2 hne
  have hcell : ∀ i, ((t.fill (chunks.mapIdx fun i c => (t.view i).add (.text c))).cells i = t.cells i) ∨
      ∃ c, t.head ≤ i ∧ chunks[i - t.head]? = some c ∧
        (t.fill (chunks.mapIdx fun i c => (t.view i).add (.text c))).cells i = (t.cells i).add (.text c) := by
    intro i
    rw [Tape.fill, if_neg (by simpa using hne)]
    simp only
    by_cases hi : t.head ≤ i
    · rw [if_pos hi, List.getElem?_mapIdx]
      cases e : chunks[i - t.head]? with
      | none => left; simp
      | some c =>
        right
        refine ⟨c, hi, rfl, ?_⟩
        simp only [Option.map_some, Option.getD_some, Tape.view]
        congr 2; omega
    · rw [if_neg hi]; left; rfl
  have hchunk : ∀ i c, t.head ≤ i → chunks[i - t.head]? = some c → 0 ≤ c.height ∧ (c.height ≤ (t.cells i).heightFree ∨ (c.height = 0 ∧ c.lines = []) ∨
      (c.lines.length = 1 ∧ (t.cells i).heightFree < lead ∧ (t.cells i).blocks = [])) := by
    intro i c hi he
    obtain ⟨e1, e2⟩ := hc _ c he
    have hv : t.view (i - t.head) = t.cells i := by rw [Tape.view]; congr 1; omega
    rw [hv] at e2
    refine ⟨by rw [e1]; positivity, ?_⟩
    rcases e2 with e2 | e2 | ⟨e2, e3, e4⟩
    · exact .inl e2
    · exact .inr (.inl ⟨by rw [e1, e2]; simp, e2⟩)
    · refine .inr (.inr ⟨e2, e3, ?_⟩)
      by_cases hi' : t.head < i
      · exact h.after i hi'
      · have : i = t.head := by omega
        subst this
        rcases e4 with e4 | e4
        · simpa [Tape.view] using e4
        · omega
  constructor
  · intro i hi
    rw [Tape.fill, if_neg (by simpa using hne)] at hi
    simp only [List.length_mapIdx] at hi
    rcases hcell i with e | ⟨c, -, hc', -⟩
    · rw [e]; exact h.after i (by omega)
    · rw [List.getElem?_eq_none (by omega)] at hc'; cases hc'
  · intro i e he
    rcases hcell i with e1 | ⟨c, hi, hc', e1⟩
    · rw [e1] at he; exact h.heights i e he
    · rw [e1] at he
      rcases List.mem_append.1 he with he | he
      · exact h.heights i e he
      · rw [List.mem_singleton] at he
        subst he
        exact (hchunk i c hi hc').1
  · intro i
    rcases hcell i with e1 | ⟨c, hi, hc', e1⟩
    · rw [e1]; exact h.free i
    · rw [e1, ColumnFill.lines_add, List.length_append]
      simp only [ColumnFill.add, Shaped.height, Shaped.lines]
      obtain ⟨k1, k2 | ⟨k2, k3⟩ | ⟨k2, k3, k4⟩⟩ := hchunk i c hi hc'
      · left; linarith
      · rcases h.free i with k | k
        · left; linarith
        · right; rw [k3]; simpa using k
      · by_cases ho : one
        · right; refine ⟨ho, ?_⟩
          simp [ColumnFill.lines, k4, k2]
        · have := h.empty ho i k4
          have := hh ho
          linarith
  · intro ho i hb
    rcases hcell i with e1 | ⟨c, hi, hc', e1⟩
    · rw [e1] at hb ⊢; exact h.empty ho i hb
    · rw [e1] at hb
      simp [ColumnFill.add] at hb

theorem linesFill_fits {env : Env} {p : Paragraph} {one : Prop} {lead height : ℚ} {gs : List (List Passage)} {st : State} {t t' : Tape} (h : LinesFill p env lead gs st t t')
    (hl : 0 < lead) (h1 : one → p.optimal = none) (hh : ¬ one → lead ≤ height) : t.Fits one height → t'.Fits one height := by
  induction h with
  | nil => exact fun h => h
  | cons line rest st t cmd words chunks t' _ h2 h3 h4 ih =>
    intro hr
    refine ih (hr.fill hl hh h3 ?_)
    intro i c hi
    unfold Paragraph.shape at h2
    cases ho : p.optimal with
    | none =>
      simp only [ho] at h2
      exact C36_firstfit hl h2 hi
    | some o =>
      simp only [ho] at h2
      refine C36_optimum_partial hl (fun i => ?_) h2 hi
      rcases hr.free (t.head + i) with k | ⟨k, -⟩
      · exact k
      · rw [h1 k] at ho; cases ho

theorem fills_fit {w : World} {base : StyleFull} {one : Prop} {height : ℚ} {bs : List Block} {t t' : Tape} (h : Fills w base bs t t') :
    (∀ b ∈ bs, b.Lines base fun p l => (one → p.optimal = none) ∧ (¬ one → l ≤ height)) → t.Fits one height → t'.Fits one height := by
  induction h with
  | nil t => exact fun _ h => h
  | cons b bs t r r' filled t' hb hrest ih =>
    intro hfl ht
    refine ih (fun x hx => hfl x (List.mem_cons_of_mem _ hx)) ?_
    have := hfl b List.mem_cons_self
    cases b with
    | rule x => exact this.elim
    | paragraph p =>
      obtain ⟨hne, hstr⟩ := this
      obtain ⟨passages, st, lead', j1, j2, j3, -, j5, -⟩ := paragraph_lines p w r base t filled r' hb (fun e he => (hstr e he).1)
      have hht : HasText (contentStrings base p.style p.content r') := by
        refine ⟨?_, fun e he _ => ?_⟩
        · obtain ⟨x, hx⟩ := List.exists_mem_of_ne_nil _ hne
          exact ⟨_, List.mem_map_of_mem hx, (hstr x hx).1⟩
        · obtain ⟨x, hx, rfl⟩ := List.mem_map.1 he
          exact ⟨(hstr x hx).2.1, (hstr x hx).2.2.1⟩
      have hlead : IsLeading (contentStrings base p.style p.content r') lead' := by
        rw [j5, ← j2]; exact maxLead_strings passages st (by rw [j2]; exact hht)
      obtain ⟨⟨e, he, -, rfl⟩, -⟩ := hlead
      obtain ⟨x, hx, rfl⟩ := List.mem_map.1 he
      obtain ⟨-, k1, k2, k3, k4⟩ := hstr x hx
      exact linesFill_fits j1 (mul_pos k1 k2) k3 k4 ht

theorem new_fits {pages : Nat → Page} (hc : ∀ n, (pages n).columns ≠ []) {one : Prop} {height : ℚ} (hpos : 0 ≤ height)
    (hh : ∀ n, ∀ c ∈ (pages n).columns, height ≤ c.height) {t0 : Tape} (h0 : t0.IsNew pages) : t0.Fits one height := by
  refine ⟨fun i _ => ?_, fun i e he => ?_, fun i => ?_, fun _ i _ => ?_⟩
  all_goals obtain ⟨n, c, hm, e⟩ := isNew_cells hc h0 i
  · rw [e]; rfl
  · rw [e] at he; cases he
  · rw [e]; exact .inl (le_trans hpos (hh n c hm))
  · rw [e]; exact hh n c hm

theorem inside_of_free {c : ColumnFill} (hs : c.Stacked) (hh : ∀ e ∈ c.blocks, 0 ≤ e.2.height) (hf : 0 ≤ c.heightFree) : c.Inside := by
  intro e he
  obtain ⟨i, hi⟩ := List.getElem?_of_mem he
  obtain ⟨hlt, hget⟩ := List.getElem?_eq_some_iff.1 hi
  have hsum : (c.blocks.map fun x => x.2.height).sum = ((c.blocks.take i).map fun x => x.2.height).sum + (e.2.height + ((c.blocks.drop (i + 1)).map fun x => x.2.height).sum) := by
    conv_lhs => rw [← List.take_append_drop i c.blocks, List.drop_eq_getElem_cons hlt, hget]
    simp
  have h1 : 0 ≤ ((c.blocks.take i).map fun x => x.2.height).sum := List.sum_nonneg (by
    intro x hx
    obtain ⟨y, hy, rfl⟩ := List.mem_map.1 hx
    exact hh y (List.mem_of_mem_take hy))
  have h2 : 0 ≤ ((c.blocks.drop (i + 1)).map fun x => x.2.height).sum := List.sum_nonneg (by
    intro x hx
    obtain ⟨y, hy, rfl⟩ := List.mem_map.1 hx
    exact hh y (List.mem_of_mem_drop hy))
  have h3 := hs.place i e hi
  have h4 := hs.free
  rw [h3]
  simp only
  constructor <;> linarith

theorem pages_fit {w : World} {s : StyleFull} {one : Prop} {height : ℚ} (hpos : 0 ≤ height) {a : AutoPage} {pnum : Nat} {r : Res}
    (hcols : ∀ n, (a.template n).columns ≠ []) (hh : ∀ n, ∀ c ∈ (a.template n).columns, height ≤ c.height)
    (hfl : ∀ b ∈ a.content, b.Lines s fun p l => (one → p.optimal = none) ∧ (¬ one → l ≤ height)) (hok : (a.render w s pnum r).err = none) :
    ∀ x ∈ (a.render w s pnum r).pages, ∀ c ∈ x.page.cols, c.Inside ∨ one ∧ c.lines.length = 1 := by
  intro x hx c hc
  have hst := C52_stacked w s a pnum r hcols hok x hx c hc
  obtain ⟨t0, t, h0, h1, P, -, -, -, h5⟩ := C49_pages w s a pnum r hcols hok
  have := fills_fit h1 hfl (new_fits (fun n => hcols _) hpos (fun n => hh _) h0)
  obtain ⟨j, hj⟩ := List.getElem?_of_mem hx
  rw [(h5 j x hj).2, Tape.page, slice, List.mem_map] at hc
  obtain ⟨i, -, rfl⟩ := hc
  rcases this.free (offset (fun n => a.template (pnum + n)) j + i) with k | k
  · exact .inl (inside_of_free hst (this.heights _) k)
  · exact .inr k

/-- C36 for whole pages: if every column is as high as any line, everything on the pages lies inside of its column, whatever the paragraphs, their styles and line breaking. -/
theorem C36_pages_partial (w : World) (s : StyleFull) (a : AutoPage) (pnum : Nat) (r : Res) (height : ℚ) (hpos : 0 ≤ height)
    (hcols : ∀ n, (a.template n).columns ≠ []) (hh : ∀ n, ∀ c ∈ (a.template n).columns, height ≤ c.height)
    (hfl : ∀ b ∈ a.content, b.Lines s fun _ l => l ≤ height) (hok : (a.render w s pnum r).err = none) :
    ∀ x ∈ (a.render w s pnum r).pages, ∀ c ∈ x.page.cols, c.Inside := by
  intro x hx c hc
  have hfl' : ∀ b ∈ a.content, b.Lines s fun p l => (False → p.optimal = none) ∧ (¬ False → l ≤ height) := fun b hb => by
    have := hfl b hb
    cases b with
    | rule x => exact this
    | paragraph p => exact ⟨this.1, fun e he => by obtain ⟨k1, k2, k3, k4⟩ := this.2 e he; exact ⟨k1, k2, k3, by simp, fun _ => k4⟩⟩
  rcases pages_fit hpos hcols hh hfl' hok x hx c hc with h | h
  · exact h
  · exact h.1.elim

/-- C36 for whole pages of first-fit paragraphs, in columns of any height: everything on the pages lies inside of its column, except for columns that hold exactly one line. -/
theorem C36_pages_firstfit (w : World) (s : StyleFull) (a : AutoPage) (pnum : Nat) (r : Res)
    (hcols : ∀ n, (a.template n).columns ≠ []) (hh : ∀ n, ∀ c ∈ (a.template n).columns, 0 ≤ c.height)
    (hfl : ∀ b ∈ a.content, b.Lines s fun p _ => p.optimal = none) (hok : (a.render w s pnum r).err = none) :
    ∀ x ∈ (a.render w s pnum r).pages, ∀ c ∈ x.page.cols, c.Inside ∨ c.lines.length = 1 := by
  intro x hx c hc
  have hfl' : ∀ b ∈ a.content, b.Lines s fun p l => (True → p.optimal = none) ∧ (¬ True → l ≤ 0) := fun b hb => by
    have := hfl b hb
    cases b with
    | rule x => exact this
    | paragraph p => exact ⟨this.1, fun e he => by obtain ⟨k1, k2, k3, k4⟩ := this.2 e he; exact ⟨k1, k2, k3, fun _ => k4, by simp⟩⟩
  rcases pages_fit le_rfl hcols hh hfl' hok x hx c hc with h | h
  · exact .inl h
  · exact .inr h.2

/-- The pages of the example of C64, two pages with one line each, meet the hypotheses: what is on them lies inside of their columns. -/
example : (flowPages.render demoWorld faceStyle 1 Res.empty).pages.length = 2 ∧
    ∀ x ∈ (flowPages.render demoWorld faceStyle 1 Res.empty).pages, ∀ c ∈ x.page.cols, c.blocks ≠ [] ∧ c.Inside := by
  have e : flowPages.render demoWorld faceStyle 1 Res.empty = flowRun := by
    have := flow_run
    rw [docRun, PagesRun.andThen] at this
    have h0 : flowRun.err = none := by decide +kernel
    have h1 : DocItem.run demoWorld faceStyle (.auto flowPages) (0 + 1) Res.empty = flowPages.render demoWorld faceStyle 1 Res.empty := rfl
    rw [h1] at this
    cases he : (flowPages.render demoWorld faceStyle 1 Res.empty).err with
    | some e => rw [he] at this; rw [← this] at h0; cases h0
    | none =>
      rw [he] at this
      simp only [docRun, List.append_nil] at this
      rw [← this]
      cases hx : flowPages.render demoWorld faceStyle 1 Res.empty with
      | mk a b c => rw [hx] at he; cases he; rfl
  refine ⟨by rw [e]; decide +kernel, fun x hx c hc => ⟨?_, ?_⟩⟩
  · rw [e] at hx
    exact (by decide +kernel : ∀ x ∈ flowRun.pages, ∀ c ∈ x.page.cols, c.blocks.length ≠ 0) x hx c hc ∘ List.length_eq_zero_iff.2
  · refine C36_pages_partial demoWorld faceStyle flowPages 1 Res.empty 15 (by norm_num) (by simp [flowPages]) (by simp [flowPages, tightColumn]) ?_
      (by rw [e]; decide +kernel) x hx c hc
    intro b hb
    rw [flowPages, List.mem_singleton] at hb
    subst hb
    refine ⟨by simp [shortLeft, itemsStrings, Item.strings], ?_⟩
    intro e he
    simp only [shortLeft, itemsStrings, Item.strings, List.append_nil, List.mem_singleton] at he
    subst he
    decide +kernel

end Pdfje
