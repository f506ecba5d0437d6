import Verif.Spec.Flow
import Verif.Props.Content
import Verif.Props.Paragraph
import Verif.Props.FirstFit
import Verif.Props.Optimum
/-
C64: the text of flowing paragraphs, read back from the bytes of the file.
-/

namespace Pdfje
open PdfSpec

/-! ### What operators show, whatever was shown before -/

/-- Whatever the viewer's state, the glyphs of these operators are read as this text, each in the font for which it was encoded. -/
def OpsRead (ops : List PageOp) (text : List Nat) : Prop :=
  ∀ (W : FontRef → Char → ℚ) (v : Viewer), glyphsRead (Viewer.page W ops v).1 = text ∧ ∀ g ∈ (Viewer.page W ops v).1, g.InFont

theorem OpsRead.nil : OpsRead [] [] := fun _ _ => ⟨rfl, by simp [Viewer.page]⟩

theorem OpsRead.append {a b : List PageOp} {s t : List Nat} (ha : OpsRead a s) (hb : OpsRead b t) : OpsRead (a ++ b) (s ++ t) := by
  intro W v
  obtain ⟨h1, h2⟩ := ha W v
  obtain ⟨h3, h4⟩ := hb W (Viewer.page W a v).2
  rw [page_append]
  constructor
  · rw [glyphsRead] at h1 h3 ⊢
    rw [List.map_append, h1, h3]
  · intro g hg
    rcases List.mem_append.1 hg with hg | hg
    · exact h2 g hg
    · exact h4 g hg

theorem OpsRead.flatMap {α} {f : α → List PageOp} {g : α → List Nat} : ∀ {l : List α}, (∀ a ∈ l, OpsRead (f a) (g a)) → OpsRead (l.flatMap f) (l.flatMap g)
  | [], _ => .nil
  | a :: l, h => by
    rw [List.flatMap_cons, List.flatMap_cons]
    exact (h a (by simp)).append (OpsRead.flatMap fun x hx => h x (by simp [hx]))

/-- The characters of lines as they are read. -/
def readStyled (l : List (Char × State)) : List Nat := l.map fun e => readAs e.2.font e.1

/-- A chunk that shows lines is read as these lines. -/
theorem shows_read {W : FontRef → Char → ℚ} {lead : ℚ} {c : ShapedText} {lines : List (List (Char × State))} (h : c.Shows W lead lines) (pos : ℚ × ℚ) (width : ℚ) :
    OpsRead [c.render pos width] (lines.flatMap readStyled) := by
  intro W' v
  obtain ⟨ops, b1, b2, ss, h1, h3, h4, h5, h6⟩ := h pos width v
  rw [h1]
  have hg := congrArg (List.flatMap ShownLine.glyphs) h3
  rw [Viewer.textLines, lines_glyphs, List.nil_append, List.flatMap_cons, List.flatMap_cons, h4, h5, List.nil_append, List.nil_append] at hg
  have hl := looks_flatten h6.count h6.looks
  have hs := run_same (W := W') (W' := W) ops v.beginText v.beginText rfl
  rw [hg, hl] at hs
  simp only [Viewer.page, List.append_nil]
  constructor
  · have := congrArg (List.map fun x : Char × FontRef × Option (FontRef × ℚ) => readAs x.2.1 x.1) hs
    simp only [List.map_map, Function.comp_def] at this
    rw [glyphsRead, this, List.flatMap_def, List.map_flatten]
    rfl
  · intro g hm
    have : (g.char, g.enc, g.font) ∈ ((Viewer.run W' ops v.beginText).1.map fun g => (g.char, g.enc, g.font)) := List.mem_map_of_mem hm
    rw [hs] at this
    obtain ⟨e, -, he⟩ := List.mem_map.mp this
    simp only [Prod.mk.injEq] at he
    rw [Glyph.InFont, ← he.2.2, ← he.2.1]
    rfl

/-! ### The text on a tape -/

/-- The text of the columns of a tape, as far as it has been filled. -/
structure TapeReads (t : Tape) (f : Nat → List Nat) : Prop where
  cells : ∀ i, OpsRead (t.cells i).ops (f i)
  after : ∀ i, t.head < i → f i = []

/-- All of it. -/
def tapeText (t : Tape) (f : Nat → List Nat) : List Nat := (List.range (t.head + 1)).flatMap f

theorem add_ops (c : ColumnFill) (s : Shaped) : (c.add s).ops = c.ops ++ s.render c.cursor c.box.width := by
  simp [ColumnFill.ops, ColumnFill.add]

theorem fill_reads {t : Tape} {f : Nat → List Nat} (h : TapeReads t f) {chunks : List ShapedText} {texts : List (List Nat)} (hne : chunks ≠ [])
    (hc : List.Forall₂ (fun c text => ∀ pos width, OpsRead [c.render pos width] text) chunks texts) :
    ∃ f', TapeReads (t.fill (chunks.mapIdx fun i c => (t.view i).add (.text c))) f' ∧
      tapeText (t.fill (chunks.mapIdx fun i c => (t.view i).add (.text c))) f' = tapeText t f ++ texts.flatten := by
  have hlen := hc.length_eq
  have hpos : 0 < chunks.length := List.length_pos_iff.2 hne
  have hfill : t.fill (chunks.mapIdx fun i c => (t.view i).add (.text c)) = ⟨fun i => if t.head ≤ i then
      ((chunks.mapIdx fun i c => (t.view i).add (.text c))[i - t.head]?).getD (t.cells i) else t.cells i, t.head + chunks.length - 1⟩ := by
    rw [Tape.fill, if_neg (by simpa using hne), List.length_mapIdx]
  rw [hfill]
  refine ⟨fun i => if t.head ≤ i then f i ++ (texts[i - t.head]?).getD [] else f i, ⟨?_, ?_⟩, ?_⟩
  · intro i
    simp only
    split
    · rename_i hi
      rw [List.getElem?_mapIdx]
      cases e : chunks[i - t.head]? with
      | none =>
        rw [List.getElem?_eq_none_iff, hlen, ← List.getElem?_eq_none_iff] at e
        rw [e]
        simpa using h.cells i
      | some c =>
        obtain ⟨hx, rfl⟩ := List.getElem?_eq_some_iff.1 e
        rw [List.getElem?_eq_getElem (by omega)]
        simp only [Option.map_some, Option.getD_some, add_ops]
        have hv : t.view (i - t.head) = t.cells i := by rw [Tape.view]; congr 1; omega
        rw [hv]
        exact (h.cells i).append ((List.forall₂_iff_get.1 hc).2 (i - t.head) hx (by omega) _ _)
    · exact h.cells i
  · intro i hi
    simp only at hi ⊢
    rw [if_pos (by omega), List.getElem?_eq_none (by omega), h.after i (by omega)]
    rfl
  · simp only [tapeText]
    have e1 : t.head + chunks.length - 1 + 1 = t.head + chunks.length := by omega
    rw [e1, List.range_add, List.range_succ, List.flatMap_append, List.flatMap_append, List.flatMap_map]
    have e2 : (List.range t.head).flatMap (fun i => if t.head ≤ i then f i ++ (texts[i - t.head]?).getD [] else f i) = (List.range t.head).flatMap f := by
      rw [List.flatMap_def, List.flatMap_def]
      congr 1
      refine List.map_congr_left fun i hi => ?_
      rw [if_neg (by have := List.mem_range.1 hi; omega)]
    rw [e2, List.append_assoc]
    congr 1
    have e3 : (List.range chunks.length).flatMap (fun i => if t.head ≤ t.head + i then f (t.head + i) ++ (texts[t.head + i - t.head]?).getD [] else f (t.head + i)) =
        f t.head ++ (List.range texts.length).flatMap (fun i => (texts[i]?).getD []) := by
      rw [← hlen]
      obtain ⟨n, hn⟩ : ∃ n, chunks.length = n + 1 := ⟨chunks.length - 1, by omega⟩
      rw [hn, List.range_succ_eq_map, List.flatMap_cons, List.flatMap_cons, List.flatMap_map, List.flatMap_map]
      simp only [Nat.add_zero, le_refl, if_true, Nat.sub_self, List.append_assoc]
      congr 2
      rw [List.flatMap_def, List.flatMap_def]
      congr 1
      refine List.map_congr_left fun i hi => ?_
      rw [if_pos (by omega), h.after _ (by omega), Nat.add_sub_cancel_left]
      rfl
    rw [e3, List.flatMap_cons, List.flatMap_nil, List.append_nil]
    congr 1
    rw [List.flatMap_def]
    congr 1
    refine List.ext_getElem (by simp) fun i h1 h2 => ?_
    simp [h2]

/-! ### Paragraphs on a tape -/

theorem readAs_space (f : FontRef) : readAs f ' ' = 0x20 := by
  cases f with
  | builtin b => show winAnsiChar ' ' = 0x20; decide +kernel
  | subset i => rfl

theorem readAs_hyphen (f : FontRef) : readAs f '-' = 0x2D := by
  cases f with
  | builtin b => show winAnsiChar '-' = 0x2D; decide +kernel
  | subset i => rfl

theorem linesShow_read {ws : List WordLike} {lines : List (List (Char × State))} {text : List (Char × State)} (h : LinesShow ws lines text) :
    LinesRead (lines.map readStyled) (readStyled text) := by
  induction h with
  | nil => exact .nil
  | cons line piece rest lines h1 h2 h3 ih =>
    have e : readStyled (piece ++ rest) = readStyled piece ++ readStyled rest := List.map_append
    rw [List.map_cons, e]
    refine .cons _ _ _ _ ?_ ih
    by_cases hb : Boundary ws rest.length
    · rcases h1 hb with rfl | ⟨st, rfl⟩
      · exact Or.inl rfl
      · right; left; simp [readAs_space, readStyled]
    · obtain ⟨st, rfl⟩ := h2 hb
      right; right; simp [readAs_hyphen, readStyled]

theorem putLines_reads {W : FontRef → Char → ℚ} {lead : ℚ} {css : List (List ShapedText)} {t t' : Tape} (h : PutLines css t t') :
    ∀ {lines : List (List (Char × State))}, List.Forall₂ (TextShown W lead) css lines → ∀ {f : Nat → List Nat}, TapeReads t f →
      ∃ (f' : Nat → List Nat) (read : List (List (List Nat))), TapeReads t' f' ∧ List.Forall₂ LinesRead read (lines.map readStyled) ∧
        tapeText t' f' = tapeText t f ++ read.flatten.flatten := by
  induction h with
  | nil t =>
    intro lines hl f hf
    cases hl
    exact ⟨f, [], hf, .nil, by simp⟩
  | cons chunks rest t t' hne hput ih =>
    intro lines hl f hf
    cases hl with
    | @cons _ line _ lines hc hr =>
    obtain ⟨ws, shown, h1, h2, h3⟩ := hc
    have hreads : List.Forall₂ (fun c text => ∀ pos width, OpsRead [ShapedText.render c pos width] text) chunks (shown.map fun ls => ls.flatMap readStyled) :=
      List.forall₂_map_right_iff.2 (h2.imp fun c ls hs pos width => shows_read hs pos width)
    obtain ⟨f1, hf1, e1⟩ := fill_reads hf hne hreads
    obtain ⟨f2, read, hf2, e2, e3⟩ := ih hr hf1
    refine ⟨f2, (shown.flatten.map readStyled) :: read, hf2, .cons (linesShow_read h3) e2, ?_⟩
    rw [e3, e1, List.flatten_cons, List.flatten_append, List.append_assoc]
    congr 2
    rw [List.map_flatten, List.flatten_flatten, List.map_map]
    rfl

theorem Tape.Roomy.mono {t : Tape} {a b : ℚ} (h : t.Roomy b) (hab : a ≤ b) : t.Roomy a :=
  ⟨h.free, fun i hi he => le_trans hab (h.empty i hi he), h.after⟩

/-- Lines keep to the room there is. -/
theorem linesFill_roomy {env : Env} {p : Paragraph} {lead height : ℚ} {gs : List (List Passage)} {st : State} {t t' : Tape} (h : LinesFill p env lead gs st t t')
    (hl : 0 < lead) (hh : lead ≤ height) : t.Roomy height → t'.Roomy height := by
  induction h with
  | nil => exact fun h => h
  | cons line rest st t cmd words chunks t' h1 h2 h3 h4 ih =>
    intro hr
    refine ih (hr.fill h3 ?_)
    have hcol : ∀ i, 0 ≤ (t.view i).heightFree := fun i => hr.free _ (by omega)
    intro i c hi
    have key : c.height = c.lines.length * lead ∧ (c.height ≤ (t.view i).heightFree ∨ c.lines = [] ∨
        (c.lines.length = 1 ∧ (t.view i).heightFree < lead ∧ ((!(t.view 0).blocks.isEmpty) = false ∨ 1 ≤ i))) := by
      unfold Paragraph.shape at h2
      cases ho : p.optimal with
      | none =>
        simp only [ho] at h2
        exact C36_firstfit hl h2 hi
      | some o =>
        simp only [ho] at h2
        exact C36_optimum_partial hl hcol h2 hi
    obtain ⟨e1, e2 | e2 | ⟨-, e3, e4⟩⟩ := key
    · exact e2
    · rw [e1, e2]; simpa using hcol i
    · have : (t.view i).blocks = [] := by
        rcases e4 with e4 | e4
        · cases i with
          | zero => simpa using e4
          | succ i => exact hr.after _ (by omega)
        · exact hr.after _ (by omega)
      have := hr.empty (t.head + i) (by omega) this
      simp only [Tape.view] at e3
      linarith

theorem joinLines_map {α β} (g : α → β) : ∀ a b : List (List α), (joinLines a b).map (List.map g) = joinLines (a.map (List.map g)) (b.map (List.map g))
  | [], b => by simp [joinLines]
  | [l], [] => by simp [joinLines]
  | [l], l' :: b => by simp [joinLines]
  | l :: l2 :: ls, b => by
    rw [joinLines_cons _ _ _ (by simp), List.map_cons, joinLines_map g (l2 :: ls) b, List.map_cons (l := l2 :: ls), joinLines_cons _ _ _ (by simp)]

/-- The lines of a paragraph, as they are read. -/
theorem content_read (base : StyleFull) (style : Style) (content : List Item) (r : Res) (hne : itemsStrings [style] content ≠ []) :
    (contentLines (contentStrings base style content r)).map readStyled =
      readLines ((itemsStrings [style] content).map fun e => (e.1, (base.overlay e.2).font)) := by
  rw [contentLines, if_neg (by simpa [contentStrings] using hne), contentStrings]
  clear hne
  induction itemsStrings [style] content with
  | nil => rfl
  | cons e l ih =>
    rw [List.map_cons, List.map_cons, stringsLines, readLines, ← ih]
    unfold readStyled
    rw [joinLines_map, List.map_map]
    congr 1
    refine List.map_congr_left fun x _ => ?_
    simp only [Function.comp_def, List.map_map, asState_readAs]

theorem leading_le {strings : List (List Char × State)} {lead height : ℚ} (h : IsLeading strings lead)
    (hs : ∀ e ∈ strings, 0 < e.2.size ∧ 0 < e.2.lineSpacing ∧ e.2.size * e.2.lineSpacing ≤ height) : 0 < lead ∧ lead ≤ height := by
  obtain ⟨⟨e, he, -, rfl⟩, -⟩ := h
  obtain ⟨h1, h2, h3⟩ := hs e he
  exact ⟨mul_pos h1 h2, h3⟩

/-- A flowing paragraph adds its text to the tape. -/
theorem block_reads {w : World} (hw : ∀ r, (w.env r).Ok) {base : StyleFull} {height : ℚ} {b : Block} (hb : b.Flowing base height) {r r' : Res} {t : Tape}
    {filled : List ColumnFill} (h : b.intoColumns w r base t.view = (some filled, r')) (ht : t.Roomy height) {f : Nat → List Nat} (hf : TapeReads t f) :
    (t.fill filled).Roomy height ∧ ∃ (f' : Nat → List Nat) (read : List (List (List Nat))), TapeReads (t.fill filled) f' ∧
      List.Forall₂ LinesRead read (b.lines base) ∧ tapeText (t.fill filled) f' = tapeText t f ++ read.flatten.flatten := by
  cases b with
  | rule x => exact hb.elim
  | paragraph p =>
    obtain ⟨hne, hstr, hch⟩ := hb
    have hstr' : ∀ e ∈ contentStrings base p.style p.content r', e.1 ≠ [] ∧ 0 < e.2.size ∧ 0 < e.2.lineSpacing ∧ e.2.size * e.2.lineSpacing ≤ height := by
      intro e he
      obtain ⟨x, hx, rfl⟩ := List.mem_map.1 he
      exact hstr x hx
    have hht : HasText (contentStrings base p.style p.content r') := by
      refine ⟨?_, fun e he _ => ⟨(hstr' e he).2.1, (hstr' e he).2.2.1⟩⟩
      obtain ⟨x, hx⟩ := List.exists_mem_of_ne_nil _ hne
      exact ⟨_, List.mem_map_of_mem hx, (hstr x hx).1⟩
    have hlead : ∀ lead, IsLeading (contentStrings base p.style p.content r') lead → 0 < lead ∧ lead ≤ height := fun lead hl =>
      leading_le hl fun e he => (hstr' e he).2
    obtain ⟨css, lead, k1, k2, k3⟩ := C48_newlines_partial w hw base p r t filled r' h (fun e he => (hstr e he).1) (hch r') (fun e he => (hstr' e he).2.1.ne')
      (fun _ => ⟨hht, fun lead hl => ht.mono (hlead lead hl).2⟩)
    obtain ⟨f', read, i1, i2, i3⟩ := putLines_reads k2 k3 hf
    rw [content_read base p.style p.content r' hne] at i2
    refine ⟨?_, f', read, i1, i2, i3⟩
    obtain ⟨passages, st, lead', j1, j2, j3, -, j5, -⟩ := paragraph_lines p w r base t filled r' h (fun e he => (hstr e he).1)
    have := hlead lead' (by rw [j5, ← j2]; exact maxLead_strings passages st (by rw [j2]; exact hht))
    exact linesFill_roomy j1 this.1 this.2 ht

/-- Blocks one after the other. -/
theorem fills_reads {w : World} (hw : ∀ r, (w.env r).Ok) {base : StyleFull} {height : ℚ} {bs : List Block} {t t' : Tape} (h : Fills w base bs t t') :
    (∀ b ∈ bs, b.Flowing base height) → t.Roomy height → ∀ {f : Nat → List Nat}, TapeReads t f →
      ∃ (f' : Nat → List Nat) (read : List (List (List Nat))), TapeReads t' f' ∧ List.Forall₂ LinesRead read (bs.flatMap (Block.lines base)) ∧
        tapeText t' f' = tapeText t f ++ read.flatten.flatten := by
  induction h with
  | nil t => exact fun _ _ f hf => ⟨f, [], hf, .nil, by simp⟩
  | cons b bs t r r' filled t' hb hrest ih =>
    intro hfl ht f hf
    obtain ⟨h1, f1, read1, h2, h3, h4⟩ := block_reads hw (hfl b (by simp)) hb ht hf
    obtain ⟨f2, read2, h5, h6, h7⟩ := ih (fun x hx => hfl x (by simp [hx])) h1 h2
    refine ⟨f2, read1 ++ read2, h5, ?_, ?_⟩
    · rw [List.flatMap_cons]; exact List.rel_append h3 h6
    · rw [h7, h4]; simp

/-! ### The pages of a document -/

theorem isNew_cells {pages : Nat → Page} (hc : ∀ n, (pages n).columns ≠ []) {t0 : Tape} (h0 : t0.IsNew pages) (i : Nat) :
    ∃ n, ∃ c ∈ (pages n).columns, t0.cells i = ColumnFill.new c := by
  have hex : ∃ n, offset pages n ≤ i ∧ i < offset pages (n + 1) := by
    induction i with
    | zero => exact ⟨0, le_rfl, by have := offset_lt hc 0; simp only [offset] at this ⊢; omega⟩
    | succ i ih =>
      obtain ⟨n, hn, hn'⟩ := ih
      by_cases h : i + 1 < offset pages (n + 1)
      · exact ⟨n, by omega, h⟩
      · exact ⟨n + 1, by omega, by have := offset_lt hc (n + 1); omega⟩
  obtain ⟨n, hn, hn'⟩ := hex
  have hget : (t0.page pages n)[i - offset pages n]? = some (t0.cells i) := by
    rw [Tape.page, slice_getElem?, if_pos (by rw [offset] at hn'; omega)]
    congr 2; omega
  rw [h0.cells n, List.getElem?_map, Option.map_eq_some_iff] at hget
  obtain ⟨col, hcol, e⟩ := hget
  exact ⟨n, col, List.mem_of_getElem? hcol, e.symm⟩

theorem new_reads {pages : Nat → Page} (hc : ∀ n, (pages n).columns ≠ []) {t0 : Tape} (h0 : t0.IsNew pages) : TapeReads t0 fun _ => [] := by
  refine ⟨fun i => ?_, fun _ _ => rfl⟩
  obtain ⟨n, c, -, e⟩ := isNew_cells hc h0 i
  rw [e]
  exact .nil

theorem new_roomy {pages : Nat → Page} (hc : ∀ n, (pages n).columns ≠ []) {height : ℚ} (hpos : 0 ≤ height) (hh : ∀ n, ∀ c ∈ (pages n).columns, height ≤ c.height) {t0 : Tape}
    (h0 : t0.IsNew pages) : t0.Roomy height := by
  refine ⟨fun i _ => ?_, fun i _ _ => ?_, fun i _ => ?_⟩
  all_goals obtain ⟨n, c, hm, e⟩ := isNew_cells hc h0 i; rw [e]
  · exact le_trans hpos (hh n c hm)
  · exact hh n c hm
  · rfl

/-- The text of pages. -/
theorem pages_text {f : Nat → List Nat} {pages : Nat → Page} : ∀ P : Nat,
    (List.range P).flatMap (fun j => (slice f (offset pages j) (pages j).columns.length).flatten) = (List.range (offset pages P)).flatMap f
  | 0 => rfl
  | P + 1 => by
    rw [List.range_succ, List.flatMap_append, pages_text P, offset, List.range_add, List.flatMap_append, List.flatMap_map]
    simp [slice, List.flatMap_def]

/-- The pages of automatic layout, as they are read. -/
theorem auto_reads {w : World} (hw : ∀ r, (w.env r).Ok) {base : StyleFull} {height : ℚ} (hpos : 0 ≤ height) {a : AutoPage} {pnum : Nat} {r : Res}
    (hcols : ∀ n, (a.template n).columns ≠ []) (hh : ∀ n, ∀ c ∈ (a.template n).columns, height ≤ c.height) (hfl : ∀ b ∈ a.content, b.Flowing base height)
    (hok : (a.render w base pnum r).err = none) :
    ∃ (parts : List (List Nat)) (read : List (List (List Nat))), parts.length = (a.render w base pnum r).pages.length ∧
      (∀ (j : Nat) (x : Written), (a.render w base pnum r).pages[j]? = some x → x.page.base = a.template (pnum + j) ∧
        ∃ part, parts[j]? = some part ∧ OpsRead (x.page.cols.flatMap ColumnFill.ops) part) ∧
      List.Forall₂ LinesRead read (a.content.flatMap (Block.lines base)) ∧ parts.flatten = read.flatten.flatten := by
  obtain ⟨t0, t, h0, h1, P, h2, h3, h4, h5⟩ := C49_pages w base a pnum r hcols hok
  obtain ⟨f, read, i1, i2, i3⟩ := fills_reads hw h1 hfl (new_roomy (fun n => hcols _) hpos (fun n => hh _) h0) (new_reads (fun n => hcols _) h0)
  refine ⟨(List.range (P + 1)).map fun j => (slice f (offset (fun n => a.template (pnum + n)) j) (a.template (pnum + j)).columns.length).flatten, read, by simp [h2], ?_, i2, ?_⟩
  · intro j x hj
    obtain ⟨k1, k2⟩ := h5 j x hj
    have hlt := (List.getElem?_eq_some_iff.1 hj).1
    refine ⟨k1, _, by rw [List.getElem?_map, List.getElem?_range (by omega)]; rfl, ?_⟩
    rw [k2, Tape.page]
    have : ∀ n m, OpsRead ((slice t.cells n m).flatMap ColumnFill.ops) (slice f n m).flatten := by
      intro n m
      rw [slice, slice, List.flatMap_map, ← List.flatMap_def]
      exact OpsRead.flatMap fun i _ => i1.cells _
    exact this _ _
  · rw [← List.flatMap_def, pages_text (pages := fun n => a.template (pnum + n)) (P + 1)]
    obtain ⟨d, hd⟩ := Nat.exists_eq_add_of_lt h4
    rw [show offset (fun n => a.template (pnum + n)) (P + 1) = t.head + 1 + d by omega, List.range_add, List.flatMap_append, List.flatMap_map]
    have : (List.range d).flatMap (fun i => f (t.head + 1 + i)) = [] := by
      rw [List.flatMap_eq_nil_iff]
      intro i _
      exact i1.after _ (by omega)
    rw [this, List.append_nil]
    rw [tapeText] at i3
    rw [i3]
    simp [tapeText]

theorem docRun_append (w : World) (s : StyleFull) : ∀ (pre post : List DocItem) (done : Nat) (r : Res), (docRun w s (pre ++ post) done r).err = none →
    (docRun w s pre done r).err = none ∧
    (docRun w s (pre ++ post) done r).pages = (docRun w s pre done r).pages ++
      (docRun w s post (done + (docRun w s pre done r).pages.length) (docRun w s pre done r).res).pages ∧
    (docRun w s post (done + (docRun w s pre done r).pages.length) (docRun w s pre done r).res).err = none
  | [], post, done, r => by simp [docRun]
  | it :: pre, post, done, r => by
    rw [List.cons_append, docRun, docRun, PagesRun.andThen, PagesRun.andThen]
    cases he : (it.run w s (done + 1) r).err with
    | some e => simp
    | none =>
      simp only
      intro h
      obtain ⟨h1, h2, h3⟩ := docRun_append w s pre post _ _ h
      refine ⟨h1, ?_, ?_⟩
      · rw [h2, List.length_append, ← Nat.add_assoc, List.append_assoc]
      · rw [List.length_append, ← Nat.add_assoc]; exact h3

section
variable {compress : Bytes → Bytes} {decompress : Bytes → Option Bytes}

theorem WrittenDoc.noErr {w : World} {s : StyleFull} {items : List DocItem} {file : Bytes} (h : WrittenDoc compress w s items file) :
    (docRun w s items 0 Res.empty).err = none := by
  obtain ⟨id, chunks, hd, -⟩ := h.done
  cases ho : docObjects compress w.files (DocItem.render w s) items with
  | mk objs ok =>
  cases ok with
  | false => simp [docWrite, ho] at hd
  | true =>
  obtain ⟨he, -⟩ := docObjects_done compress w.files (DocItem.render w s) items objs ho
  rw [docPages_docRun] at he
  exact he

/-- C64. Take a document that is written, and automatic pages in it (with any items before and after), whose content are paragraphs with some text in which the style changes only
after newlines (first-fit or optimal line breaking, all alignments, indents), in columns that are as high as any line. Then a reader of the file's bytes extracts from their pages,
one after the other, after the text of the drawings of each page, exactly the text of the paragraphs in order: every line of the text is cut into consecutive pieces, which
are read whole, or without the space at the end, or with a hyphen; nothing is lost, repeated or out of order. -/
theorem C64_flow (hz : ∀ x, decompress (compress x) = some x) (w : World) (hw : ∀ r, (w.env r).Ok) (s : StyleFull) (pre post : List DocItem) (a : AutoPage) (file : Bytes)
    (h : WrittenDoc compress w s (pre ++ .auto a :: post) file) (hp : ∀ x ∈ docWritten w s (pre ++ .auto a :: post), ∀ op ∈ x.ops, op.Printable)
    (hcols : ∀ n, (a.template n).columns ≠ []) (height : ℚ) (hpos : 0 ≤ height) (hh : ∀ n, ∀ c ∈ (a.template n).columns, height ≤ c.height)
    (hd : ∀ n, ∀ d ∈ (a.template n).content, d.Steady s) (hfl : ∀ b ∈ a.content, b.Flowing s height) :
    ∃ (parts : List (List Nat)) (read : List (List (List Nat))),
      (docWritten w s (pre ++ [.auto a])).length = (docWritten w s pre).length + parts.length ∧
      (∀ (j : Nat) (part : List Nat), parts[j]? = some part → pageText decompress file ((docWritten w s pre).length + j) =
        some ((a.template ((docWritten w s pre).length + j + 1)).content.flatMap (Drawing.chars s) ++ part)) ∧
      List.Forall₂ LinesRead read (a.content.flatMap (Block.lines s)) ∧ parts.flatten = read.flatten.flatten := by
  obtain ⟨e1, e2, e3⟩ := docRun_append w s pre (.auto a :: post) 0 Res.empty h.noErr
  set R := docRun w s pre 0 Res.empty with hR
  rw [docRun, PagesRun.andThen] at e2 e3
  cases he : (DocItem.run w s (.auto a) (0 + R.pages.length + 1) R.res).err with
  | some x => simp only [he] at e3; cases e3
  | none =>
  simp only [he] at e2
  have hrun : DocItem.run w s (.auto a) (0 + R.pages.length + 1) R.res = a.render w s (R.pages.length + 1) R.res := by rw [Nat.zero_add]; rfl
  rw [hrun] at e2 he
  obtain ⟨parts, read, i1, i2, i3, i4⟩ := auto_reads hw hpos hcols hh hfl he
  have hpre : (docWritten w s pre).length = R.pages.length := rfl
  refine ⟨parts, read, ?_, ?_, i3, i4⟩
  · have e4 : (docRun w s (pre ++ [.auto a]) 0 Res.empty).pages = R.pages ++ (a.render w s (R.pages.length + 1) R.res).pages := by
      have key : ∀ (pre : List DocItem) (done : Nat) (r : Res), (docRun w s pre done r).err = none → (docRun w s (pre ++ [.auto a]) done r).pages =
          (docRun w s pre done r).pages ++ (a.render w s (done + (docRun w s pre done r).pages.length + 1) (docRun w s pre done r).res).pages := by
        intro pre
        induction pre with
        | nil =>
          intro done r _
          rw [List.nil_append, docRun]
          simp only [PagesRun.andThen, docRun]
          cases hx : (DocItem.run w s (.auto a) (done + 1) r).err <;> simp [DocItem.run]
        | cons it pre ih =>
          intro done r
          rw [List.cons_append, docRun, docRun, PagesRun.andThen, PagesRun.andThen]
          cases hx : (it.run w s (done + 1) r).err with
          | some e => simp
          | none =>
            simp only
            intro h
            rw [ih _ _ h, List.length_append, ← Nat.add_assoc, List.append_assoc]
      rw [key pre 0 Res.empty e1, Nat.zero_add]
    rw [docWritten, e4, List.length_append, ← i1, hpre]
  · intro j part hj
    have hlt : j < (a.render w s (R.pages.length + 1) R.res).pages.length := by
      rw [← i1]; exact (List.getElem?_eq_some_iff.1 hj).1
    obtain ⟨x, hx⟩ : ∃ x, (a.render w s (R.pages.length + 1) R.res).pages[j]? = some x := ⟨_, List.getElem?_eq_getElem hlt⟩
    have hk : (docWritten w s (pre ++ .auto a :: post))[R.pages.length + j]? = some x := by
      rw [docWritten, e2, List.getElem?_append_right (by omega), Nat.add_sub_cancel_left, List.getElem?_append_left hlt, hx]
    obtain ⟨k1, part', k2, k3⟩ := i2 j x hx
    rw [hj] at k2
    cases k2
    have hord : x.Ordered w s := docRun_ordered w s _ 0 Res.empty x (List.mem_of_getElem? hk)
    obtain ⟨draws, h1, h2⟩ := hord.content
    have hread : OpsRead x.ops (x.page.base.content.flatMap (Drawing.chars s) ++ part) := by
      rw [h1]
      refine OpsRead.append (fun W v => ?_) k3
      exact drawings_glyphs hw W h2 (by rw [k1]; exact hd _) v
    rw [hpre, C63_extract hz w s _ file h _ x hk (hp x (List.mem_of_getElem? hk)) (fun _ _ => 0) (hread _ _).2]
    have := (hread (fun _ _ => 0) .initial).1
    rw [glyphsRead] at this
    rw [pageGlyphs, this, k1, Nat.add_right_comm]

theorem linesRead_letters {lines : List (List Nat)} {text : List Nat} (h : LinesRead lines text) :
    lines.flatten.filter (fun c => c ≠ 0x20 ∧ c ≠ 0x2D) = text.filter fun c => c ≠ 0x20 ∧ c ≠ 0x2D := by
  induction h with
  | nil => rfl
  | cons line piece rest lines h1 h2 ih =>
    rw [List.flatten_cons, List.filter_append, List.filter_append, ih]
    congr 1
    rcases h1 with rfl | rfl | rfl <;> simp [List.filter_append]

/-- C64, spaces and hyphens aside: the text that is extracted from these pages (without drawings on them) is the text of the paragraphs without newlines, character by character. -/
theorem C64_letters (hz : ∀ x, decompress (compress x) = some x) (w : World) (hw : ∀ r, (w.env r).Ok) (s : StyleFull) (pre post : List DocItem) (a : AutoPage) (file : Bytes)
    (h : WrittenDoc compress w s (pre ++ .auto a :: post) file) (hp : ∀ x ∈ docWritten w s (pre ++ .auto a :: post), ∀ op ∈ x.ops, op.Printable)
    (hcols : ∀ n, (a.template n).columns ≠ []) (height : ℚ) (hpos : 0 ≤ height) (hh : ∀ n, ∀ c ∈ (a.template n).columns, height ≤ c.height)
    (hd : ∀ n, (a.template n).content = []) (hfl : ∀ b ∈ a.content, b.Flowing s height) :
    ∃ texts : List (List Nat), (docWritten w s (pre ++ [.auto a])).length = (docWritten w s pre).length + texts.length ∧
      (∀ (j : Nat) (text : List Nat), texts[j]? = some text → pageText decompress file ((docWritten w s pre).length + j) = some text) ∧
      texts.flatten.filter (fun c => c ≠ 0x20 ∧ c ≠ 0x2D) = (a.content.flatMap (Block.lines s)).flatten.filter fun c => c ≠ 0x20 ∧ c ≠ 0x2D := by
  obtain ⟨parts, read, h1, h2, h3, h4⟩ := C64_flow hz w hw s pre post a file h hp hcols height hpos hh (fun n d hm => by rw [hd n] at hm; cases hm) hfl
  refine ⟨parts, h1, fun j text hj => ?_, ?_⟩
  · have := h2 j text hj
    rw [hd] at this
    simpa using this
  · rw [h4]
    clear h1 h2 h4
    generalize a.content.flatMap (Block.lines s) = l at h3
    induction h3 with
    | nil => rfl
    | cons hx _ ih =>
      rw [List.flatten_cons, List.flatten_append, List.filter_append, ih, linesRead_letters hx, List.flatten_cons, List.filter_append]

end


/-! ### A concrete document -/

/-- The paragraph "a b". -/
def shortLeft : Paragraph := ⟨[.str ['a', ' ', 'b']], Style.empty, .left, 0, false, some .default⟩

/-- A column that has room for one line of one letter. -/
def tightColumn : Column := ⟨(0, 0), 10, 15⟩

/-- Pages with this column. -/
def flowPages : AutoPage := ⟨[.paragraph shortLeft], fun _ => ⟨[], (100, 100), 0, [tightColumn]⟩⟩

/-- The two chunks of the paragraph. -/
def flowChunks : List ShapedText := (optimumShape (demoWorld.env shortRes) (fun _ => (10, 15)) 15 false .left .default shortWords false).getD []

theorem flowChunks_eq : optimumShape (demoWorld.env shortRes) (fun _ => (10, 15)) 15 false .left .default shortWords false = some flowChunks :=
  eq_some_getD (by decide +kernel)

theorem flow_columnsLeft : columnsLeft (fun _ => PageFill.new ⟨[], (100, 100), 0, [tightColumn]⟩) = fun _ => .new tightColumn := by
  funext i
  have : ∀ n i, i < n → flatNth (fun _ => [ColumnFill.new tightColumn]) n i = some (.new tightColumn) := by
    intro n
    induction n with
    | zero => intro i h; omega
    | succ n ih =>
      intro i h
      rw [flatNth]
      split
      · rename_i h'
        have : i = 0 := by simpa using h'
        subst this; rfl
      · rename_i h'
        simp only [List.length_singleton] at h' ⊢
        exact ih (i - 1) (by omega)
  unfold columnsLeft
  rw [show (fun n => (fun _ : Nat => PageFill.new ⟨[], (100, 100), 0, [tightColumn]⟩) n |>.todo) = fun _ => [ColumnFill.new tightColumn] from rfl, this _ _ (by omega)]
  rfl

theorem flow_columns : (Block.paragraph shortLeft).intoColumns demoWorld Res.empty faceStyle (fun _ => .new tightColumn) =
    (some (flowChunks.map fun c => (ColumnFill.new tightColumn).add (.text c)), shortRes) := by
  have h5 : maxLead [⟨.noop, ['a', ' ', 'b']⟩] faceState = 15 := by decide +kernel
  have hf : flattenSpan shortLeft.style (faceStyle.or shortLeft.style) [] shortLeft.content ((faceStyle.or shortLeft.style).asState Res.empty).2 =
      ([⟨.noop, ['a', ' ', 'b']⟩], [.full faceStyle faceStyle], shortRes) := by simp only [shortLeft, flattenSpan, flattenItems]; rfl
  have hs : splitlines [⟨.noop, ['a', ' ', 'b']⟩] = [[⟨.noop, ['a', ' ', 'b']⟩]] := by rw [splitlines, splitFrom_none (by rfl)]; rfl
  have hlen : flowChunks.length = 2 := by decide +kernel
  simp only [Block.intoColumns, Paragraph.intoColumns]
  rw [hf]
  simp only [hs]
  rw [show ((faceStyle.or shortLeft.style).asState Res.empty).1 = faceState from rfl, h5, paragraphLoop]
  have h9 : fillParagraph shortLeft (demoWorld.env shortRes) [⟨.noop, ['a', ' ', 'b']⟩] (fun _ => .new tightColumn) faceState 15 =
      some (addChunks flowChunks (fun _ => .new tightColumn), chunksState flowChunks (Command.noop.apply faceState)) := by
    unfold fillParagraph
    rw [shortWords_eq]
    show (optimumShape (demoWorld.env shortRes) (fun _ => (10, 15)) 15 false .left .default shortWords false).map _ = _
    rw [flowChunks_eq]
    rfl
  rw [h9]
  obtain ⟨c1, c2, h2⟩ := List.length_eq_two.1 hlen
  rw [h2]
  rfl

/-- The two pages. -/
def flowFilled : List Filled := flowChunks.map fun c => ⟨⟨[], (100, 100), 0, [tightColumn]⟩, [(ColumnFill.new tightColumn).add (.text c)]⟩

/-- The document. -/
def flowRun : PagesRun := writePages demoWorld faceStyle flowFilled shortRes

theorem flow_run : docRun demoWorld faceStyle [.auto flowPages] 0 Res.empty = flowRun := by
  have hlen : flowChunks.length = 2 := by decide +kernel
  obtain ⟨c1, c2, h2⟩ := List.length_eq_two.1 hlen
  have hf := flow_columns
  rw [docRun]
  have hrun : DocItem.run demoWorld faceStyle (.auto flowPages) (0 + 1) Res.empty = flowRun := by
    show autoLoop demoWorld faceStyle [.paragraph shortLeft] (fun _ => PageFill.new ⟨[], (100, 100), 0, [tightColumn]⟩) Res.empty = _
    rw [autoLoop, flow_columnsLeft, hf]
    unfold flowRun flowFilled
    rw [h2]
    generalize shortRes = r
    have hfill : fillInto ([c1, c2].map fun c => (ColumnFill.new tightColumn).add (.text c)) (fun _ => PageFill.new ⟨[], (100, 100), 0, [tightColumn]⟩) =
        some (consStream ⟨⟨[], (100, 100), 0, [tightColumn]⟩, [(ColumnFill.new tightColumn).add (.text c2)], []⟩ (fun _ => PageFill.new ⟨[], (100, 100), 0, [tightColumn]⟩),
          [⟨⟨[], (100, 100), 0, [tightColumn]⟩, [], [(ColumnFill.new tightColumn).add (.text c1)]⟩]) := rfl
    simp only [hfill]
    simp only [autoLoop, consStream, List.map_cons, List.map_nil, List.nil_append, writePages, PagesRun.andThen]
    rcases (Filled.run demoWorld faceStyle ⟨⟨[], (100, 100), 0, [tightColumn]⟩, [(ColumnFill.new tightColumn).add (.text c1)]⟩ r) with ⟨_ | ⟨ops, b⟩, r1⟩
    · rfl
    · rfl
  rw [hrun]
  have herr : flowRun.err = none := by decide +kernel
  simp only [PagesRun.andThen, herr, docRun, List.append_nil]
  rw [← herr]

/-- The file of this document. -/
def flowFile : Bytes :=
  (docWrite id demoWorld.files (fun (_ : Unit) _ _ => (⟨flowRun.pages.map Written.rendered, flowRun.res, none⟩ : Run)) b!"0123456789abcdef" [()]).1.flatten

theorem flow_written : WrittenDoc id demoWorld faceStyle ([] ++ .auto flowPages :: []) flowFile := by
  refine ⟨?_, ?_, ?_, ?_, ?_, ?_⟩
  · trivial
  · intro it hit
    rw [List.nil_append, List.mem_singleton] at hit
    subst hit
    refine ⟨?_, fun n d hd => by cases hd⟩
    intro b hb
    rw [flowPages, List.mem_singleton] at hb
    subst hb
    exact ⟨by simp [Item.Known.str, shortLeft], by simp [Style.Known, Style.empty, shortLeft]⟩
  · intro p
    exact ⟨(by decide +kernel : ∀ c ∈ b!"Demo", isDelim c = false), fun cs => Or.inl rfl⟩
  · rw [List.nil_append, docWritten, flow_run]
    decide +kernel
  · refine ⟨b!"0123456789abcdef", _, ?_, rfl⟩
    have hd : docPages (DocItem.render demoWorld faceStyle) [.auto flowPages] 0 Res.empty = docPages (fun (_ : Unit) _ _ => (⟨flowRun.pages.map Written.rendered, flowRun.res, none⟩ : Run)) [()] 0 Res.empty := by
      have herr : flowRun.err = none := by decide +kernel
      rw [docPages_docRun, flow_run, herr]
      simp [docPages]
    have ho : docObjects id demoWorld.files (DocItem.render demoWorld faceStyle) [.auto flowPages] =
        docObjects id demoWorld.files (fun (_ : Unit) _ _ => (⟨flowRun.pages.map Written.rendered, flowRun.res, none⟩ : Run)) [()] := by
      unfold docObjects
      rw [hd]
    unfold docWrite
    rw [List.nil_append, ho]
    refine Prod.ext rfl ?_
    decide +kernel
  · decide +kernel

/-- The document meets the hypotheses of C64, and its text is extracted: "a" from the first page, "b" from the second. -/
example : ∃ parts : List (List Nat), (∀ (j : Nat) part, parts[j]? = some part → pageText some flowFile j = some part) ∧
    ∃ read, List.Forall₂ LinesRead read [['a'.toNat, 0x20, 'b'.toNat]] ∧ parts.flatten = read.flatten.flatten := by
  obtain ⟨parts, read, h1, h2, h3, h4⟩ := C64_flow (decompress := some) (fun _ => rfl) demoWorld demoWorld_ok faceStyle [] [] flowPages flowFile flow_written (by
      rw [List.nil_append, docWritten, flow_run]
      decide +kernel) (by simp [flowPages]) 15 (by norm_num) (by simp [flowPages, tightColumn]) (by simp [flowPages]) (by
      intro b hb
      rw [flowPages, List.mem_singleton] at hb
      subst hb
      refine ⟨by simp [shortLeft, itemsStrings, Item.strings], ?_, fun r => ?_⟩
      · intro e he
        simp only [shortLeft, itemsStrings, Item.strings, List.append_nil, List.mem_singleton] at he
        subst he
        decide +kernel
      · simp only [shortLeft, contentStrings, itemsStrings, Item.strings, List.append_nil, List.map_cons, List.map_nil]
        exact List.isChain_singleton _)
  have e0 : (docWritten demoWorld faceStyle []).length = 0 := rfl
  refine ⟨parts, fun j part hj => ?_, read, ?_, h4⟩
  · have := h2 j part hj
    rw [e0, Nat.zero_add] at this
    simpa [flowPages] using this
  · have : flowPages.content.flatMap (Block.lines faceStyle) = [['a'.toNat, 0x20, 'b'.toNat]] := by decide +kernel
    rw [← this]; exact h3
end Pdfje
