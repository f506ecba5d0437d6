import Verif.Proofs.Chars
import Verif.Props.Flow
/-
C65: every well-formed document is written.
-/

namespace Pdfje
open PdfSpec

variable {A : Char → Prop}

/-! ### The characters of text -/

theorem styled_chars (g : List Passage) (st : State) : (styled g st).map (·.1) = g.flatMap Passage.txt := by
  induction g generalizing st with
  | nil => rfl
  | cons p g ih => simp [styled, ih, Function.comp_def]

theorem groups_chars : ∀ {gs : List (List Passage)} {st : State}, (∀ l ∈ groupsStyled gs st, ∀ e ∈ l, A e.1) → ∀ g ∈ gs, ∀ c ∈ g.flatMap Passage.txt, A c
  | [], st, h, g, hg => by cases hg
  | g' :: gs, st, h, g, hg => by
    simp only [groupsStyled, List.mem_cons, forall_eq_or_imp] at h
    rcases List.mem_cons.1 hg with rfl | hg
    · intro c hc
      rw [← styled_chars g st] at hc
      obtain ⟨e, he, rfl⟩ := List.mem_map.1 hc
      exact h.1 e he
    · exact groups_chars h.2 g hg

theorem textLines_chars (s : List Char) : ∀ l ∈ textLines s, ∀ c ∈ l, c ∈ s := by
  induction s using textLines.induct with
  | case1 => simp [textLines]
  | case2 s ih =>
    intro l hl c hc
    simp only [textLines, List.mem_cons] at hl
    rcases hl with rfl | hl
    · cases hc
    · simp [ih l hl c hc]
  | case3 s ih =>
    intro l hl c hc
    simp only [textLines, List.mem_cons] at hl
    rcases hl with rfl | hl
    · cases hc
    · simp [ih l hl c hc]
  | case4 x s h1 h2 l0 ls e ih =>
    intro l hl c hc
    rw [textLines, e] at hl
    · rcases List.mem_cons.1 hl with rfl | hl
      · rcases List.mem_cons.1 hc with rfl | hc
        · simp
        · exact List.mem_cons_of_mem _ (ih l0 (by simp [e]) c hc)
      · exact List.mem_cons_of_mem _ (ih l (by simp [e, hl]) c hc)
    all_goals assumption
  | case5 x s h1 h2 e ih =>
    intro l hl c hc
    rw [textLines, e] at hl
    · simp only [List.mem_singleton] at hl
      subst hl
      simp only [List.mem_singleton] at hc
      simp [hc]
    all_goals assumption

theorem joinLines_mem {α} {e : α} : ∀ {a b : List (List α)} {l : List α}, l ∈ joinLines a b → e ∈ l → (∃ x ∈ a, e ∈ x) ∨ ∃ x ∈ b, e ∈ x
  | [], b, l, h, he => Or.inr ⟨l, by simpa [joinLines] using h, he⟩
  | [x], [], l, h, he => by
    simp only [joinLines, List.mem_singleton] at h
    exact Or.inl ⟨x, by simp, h ▸ he⟩
  | [x], y :: b, l, h, he => by
    simp only [joinLines, List.mem_cons] at h
    rcases h with rfl | h
    · rcases List.mem_append.1 he with he | he
      · exact Or.inl ⟨x, by simp, he⟩
      · exact Or.inr ⟨y, by simp, he⟩
    · exact Or.inr ⟨l, by simp [h], he⟩
  | x :: x' :: a, b, l, h, he => by
    rw [joinLines_cons _ _ _ (by simp)] at h
    rcases List.mem_cons.1 h with rfl | h
    · exact Or.inl ⟨_, List.mem_cons_self, he⟩
    · rcases joinLines_mem h he with ⟨y, hy, hy'⟩ | h
      · exact Or.inl ⟨y, List.mem_cons_of_mem _ hy, hy'⟩
      · exact Or.inr h

theorem stringsLines_chars : ∀ {strings : List (List Char × State)}, (∀ x ∈ strings, ∀ c ∈ x.1, A c) → ∀ l ∈ stringsLines strings, ∀ e ∈ l, A e.1
  | [], h, l, hl, e, he => by
    simp only [stringsLines, List.mem_singleton] at hl
    subst hl; cases he
  | (s, st) :: rest, h, l, hl, e, he => by
    simp only [stringsLines] at hl
    rcases joinLines_mem hl he with ⟨x, hx, hx'⟩ | ⟨x, hx, hx'⟩
    · obtain ⟨y, hy, rfl⟩ := List.mem_map.1 hx
      obtain ⟨c, hc, rfl⟩ := List.mem_map.1 hx'
      exact h (s, st) (by simp) c (textLines_chars s y hy c hc)
    · exact stringsLines_chars (fun y hy => h y (List.mem_cons_of_mem _ hy)) x hx e hx'

theorem contentLines_chars {strings : List (List Char × State)} (h : ∀ x ∈ strings, ∀ c ∈ x.1, A c) : ∀ l ∈ contentLines strings, ∀ e ∈ l, A e.1 := by
  intro l hl
  unfold contentLines at hl
  split at hl
  · cases hl
  · exact stringsLines_chars h l hl

theorem linesShow_chars {ws : List WordLike} {lines : List (List (Char × State))} {text : List (Char × State)} (h : LinesShow ws lines text) (hy : A '-') :
    (∀ e ∈ text, A e.1) → ∀ l ∈ lines, ∀ e ∈ l, A e.1 := by
  induction h with
  | nil => intro _ l hl; cases hl
  | cons line piece rest lines h1 h2 h3 ih =>
    intro ht l hl e he
    rcases List.mem_cons.1 hl with rfl | hl
    · by_cases hb : Boundary ws rest.length
      · rcases h1 hb with rfl | ⟨st, rfl⟩
        · exact ht e (List.mem_append_left _ he)
        · exact ht e (List.mem_append_left _ (List.mem_append_left _ he))
      · obtain ⟨st, rfl⟩ := h2 hb
        rcases List.mem_append.1 he with he | he
        · exact ht e (List.mem_append_left _ he)
        · simp only [List.mem_singleton] at he
          rw [he]; exact hy
    · exact ih (fun e he => ht e (List.mem_append_right _ he)) l hl e he

/-! ### Drawings -/

theorem intoTextLines_chars {env : Env} (henv : env.Ok) : ∀ {gs : List (List Passage)} {st : State} {ls : List RLine}, (∀ g ∈ gs, Tidy g) →
    (∀ g ∈ gs, ∀ c ∈ g.flatMap Passage.txt, A c) → intoTextLines env gs st = some ls → ∀ l ∈ ls, l.Chars A
  | [], st, ls, _, _, h => by
    simp only [intoTextLines, Option.some.injEq] at h
    subst h; simp
  | g :: gs, st, ls, ht, hc, h => by
    obtain ⟨cmd, ws, h1, -, h2⟩ := intoWords_spec henv g st
    rw [intoTextLines, h1] at h
    simp only [Option.map_eq_some_iff] at h
    obtain ⟨ls', h3, rfl⟩ := h
    intro l hl
    rcases List.mem_cons.1 hl with rfl | hl
    · refine encodeWords_chars ws [] ?_ (by simp)
      rw [(h2 (ht g (by simp))).2]
      intro e he
      refine hc g (by simp) _ ?_
      rw [← styled_chars g st]
      exact List.mem_map_of_mem he
    · exact intoTextLines_chars henv (fun x hx => ht x (by simp [hx])) (fun x hx => hc x (by simp [hx])) h3 l hl

theorem drawing_chars {w : World} (hw : ∀ r, (w.env r).Ok) {s : StyleFull} {d : Drawing} (hd : ∀ x ∈ d.strings, x ≠ [] ∧ ∀ c ∈ x, A c) {r r' : Res} {ops : List PageOp}
    (h : d.render w s r = (some ops, r')) : ∀ op ∈ ops, op.Chars A := by
  cases d with
  | text loc content style align =>
    obtain ⟨h1, -⟩ := C24_spans s style content r
    have hp := contentStrings_passages s style content r
    simp only [Drawing.render, textOps, Prod.mk.injEq, Option.map_eq_some_iff] at h
    obtain ⟨⟨ls, h2, rfl⟩, -⟩ := h
    set out := flattenSpan style s [] content (s.asState r).2 with hout
    have hmem : ∀ q ∈ out.1, q.txt ≠ [] ∧ ∀ c ∈ q.txt, A c := by
      intro q hq
      have := List.mem_map_of_mem (f := Passage.txt) hq
      rw [h1] at this
      exact hd _ this
    have hch : ∀ g ∈ splitlines out.1, ∀ c ∈ g.flatMap Passage.txt, A c := by
      cases e : out.1 with
      | nil => intro g hg c hc; simp [splitlines] at hg
      | cons q qs =>
        refine groups_chars (st := (s.asState r).1) ?_
        rw [(C26_newlines (q :: qs) _ (by simp)).1, styledLines_strings]
        refine stringsLines_chars ?_
        rw [← e, ← hp]
        intro x hx
        obtain ⟨y, hy, rfl⟩ := List.mem_map.1 hx
        exact (hd y.1 (List.mem_map_of_mem hy)).2
    intro op hop
    simp only [List.mem_singleton] at hop
    subst hop
    exact renderText_chars (intoTextLines_chars (hw out.2.2) (C27_tidy _ fun q hq => (hmem q hq).1) hch h2)
  | polyline ps close fill stroke =>
    simp only [Drawing.render, Prod.mk.injEq] at h
    intro op hop
    cases op with
    | text o =>
      exfalso
      cases ps with
      | nil => simp only [polylineOps, Option.some.injEq] at h; rw [← h.1] at hop; simp at hop
      | cons p ps =>
        cases p with
        | xy q => simp [polylineOps] at h
        | tuple q =>
          simp only [polylineOps, Option.some.injEq] at h
          rw [← h.1] at hop
          cases fill <;> cases stroke <;> cases close <;> simp [finish] at hop
    | _ => trivial
  | _ =>
    simp only [Drawing.render, Prod.mk.injEq, Option.some.injEq] at h
    intro op hop
    rw [← h.1] at hop
    cases op with
    | text o =>
      exfalso
      first
        | (simp at hop; done)
        | (rename_i fill stroke; cases fill <;> cases stroke <;> simp [finish, ellipseOps] at hop)
    | _ => trivial

/-! ### Blocks -/

/-- All text in the columns is made of these characters. -/
def CellsIn (A : Char → Prop) (t : Tape) : Prop := ∀ i, ∀ op ∈ (t.cells i).ops, op.Chars A

theorem CellsIn.fill {t : Tape} (h : CellsIn A t) {filled : List ColumnFill} (hf : ∀ c ∈ filled, ∀ op ∈ c.ops, op.Chars A) : CellsIn A (t.fill filled) := by
  intro i
  unfold Tape.fill
  split
  · exact h i
  · simp only
    split
    · cases e : filled[i - t.head]? with
      | none => exact h i
      | some c => exact hf c (List.mem_of_getElem? e)
    · exact h i

theorem add_chars {c : ColumnFill} (h : ∀ op ∈ c.ops, op.Chars A) {x : Shaped} (hx : ∀ op ∈ x.render c.cursor c.box.width, op.Chars A) : ∀ op ∈ (c.add x).ops, op.Chars A := by
  rw [add_ops]
  intro op hop
  rcases List.mem_append.1 hop with hop | hop
  · exact h op hop
  · exact hx op hop

theorem shapedText_chars {c : ShapedText} (h : ∀ l ∈ c.lines, ∀ e ∈ l.styled, A e.1) (pos : ℚ × ℚ) (width : ℚ) : (c.render pos width).Chars A := by
  refine renderText_chars ?_
  intro l hl
  obtain ⟨x, hx, rfl⟩ := List.mem_map.1 hl
  exact encodeWords_chars x.words [] (h x hx) (by simp)

/-- Paragraphs, first-fit or not, if their lines show their text. -/
theorem linesFill_chars {env : Env} {p : Paragraph} {lead : ℚ} {gs : List (List Passage)} {st : State} {t t' : Tape} (h : LinesFill p env lead gs st t t') (hy : A '-')
    (hp : p.optimal = none) (henv : env.Ok) :
    (∀ g ∈ gs, Tidy g) → (∀ g ∈ gs, ∀ q ∈ g, q.cmd.Keeps) → 0 < st.size → (∀ g ∈ gs, ∀ c ∈ g.flatMap Passage.txt, A c) → CellsIn A t → CellsIn A t' := by
  induction h with
  | nil => exact fun _ _ _ _ h => h
  | cons line rest st t cmd words chunks t' h1 h2 h3 h4 ih =>
    intro ht hk hs hc hin
    have htg := ht line (by simp)
    have hkg := hk line (by simp)
    have hz : NonZero (styled line st) := fun e he => (styled_sizes line st hkg hs e he).ne'
    obtain ⟨hpw, hst⟩ := paragraph_words henv line htg st cmd words h1 p.indent hz
    obtain ⟨cmd', ws', g1, -, g3⟩ := intoWords_spec henv line st
    rw [h1] at g1
    simp only [Option.some.injEq, Prod.mk.injEq] at g1
    obtain ⟨rfl, rfl⟩ := g1
    simp only [Paragraph.shape, hp] at h2
    have hstate : chunksState chunks (cmd.apply st) = endState line st := chunksState_wf (firstfit_wf henv hpw (indentFirst_wf henv (g3 htg).1 p.indent hpw) h2)
    refine ih (fun g hg => ht g (by simp [hg])) (fun g hg => hk g (by simp [hg])) (by rw [hstate]; exact endState_size line st hkg hs) (fun g hg => hc g (by simp [hg])) ?_
    refine hin.fill ?_
    intro c hcm
    obtain ⟨i, hi⟩ := List.mem_iff_getElem?.1 hcm
    rw [List.getElem?_mapIdx, Option.map_eq_some_iff] at hi
    obtain ⟨x, hx, rfl⟩ := hi
    refine add_chars (hin _) ?_
    intro op hop
    simp only [Shaped.render, List.mem_singleton] at hop
    subst hop
    refine shapedText_chars ?_ _ _
    intro l hl
    refine linesShow_chars (C32_paragraph henv line htg st cmd words h1 p.indent hz h2) hy ?_ l.styled ?_
    · intro e he
      refine hc line (by simp) _ ?_
      rw [← styled_chars line st]
      exact List.mem_map_of_mem he
    · exact List.mem_map_of_mem (List.mem_flatMap.2 ⟨x, List.mem_of_getElem? hx, hl⟩)

theorem block_chars {w : World} (hw : ∀ r, (w.env r).Ok) {base : StyleFull} {b : Block} (hb : b.Plain base) (hstr : ∀ x ∈ b.strings, x ≠ [] ∧ ∀ c ∈ x, A c) (hy : A '-')
    {r r' : Res} {t : Tape} {filled : List ColumnFill} (h : b.intoColumns w r base t.view = (some filled, r')) (hin : CellsIn A t) : CellsIn A (t.fill filled) := by
  cases b with
  | rule x =>
    simp only [Block.intoColumns, Prod.mk.injEq, Option.some.injEq] at h
    obtain ⟨rfl, -⟩ := h
    have key : ∀ op ∈ ((t.view 0).add (x.shaped (t.view 0))).ops, op.Chars A := by
      refine add_chars (hin _) ?_
      intro op hop
      simp only [Rule.shaped, Shaped.render, List.mem_cons, List.not_mem_nil, or_false] at hop
      rcases hop with rfl | rfl | rfl | rfl <;> trivial
    refine hin.fill ?_
    intro c hc
    simp only [Rule.intoColumns] at hc
    split at hc
    · simp only [List.mem_cons, List.not_mem_nil, or_false] at hc
      rcases hc with rfl | rfl
      · exact hin _
      · exact key
    · simp only [List.mem_singleton] at hc
      subst hc; exact key
  | paragraph p =>
    obtain ⟨hp, hb1, hb2, hsz⟩ := hb
    have hne : ∀ e ∈ itemsStrings [p.style] p.content, e.1 ≠ [] := fun e he => (hstr e.1 (List.mem_map_of_mem he)).1
    obtain ⟨passages, st, lead, h1, h2, h3, h4, -, h6⟩ := paragraph_lines p w r base t filled r' h hne
    have hsz' : ∀ e ∈ passageStrings passages st, 0 < e.2.size := by
      rw [h2]
      intro e he
      obtain ⟨x, hx, rfl⟩ := List.mem_map.1 he
      exact (hsz x hx).1
    refine linesFill_chars h1 hy hp (hw r') (C27_tidy _ h3) (splitlines_keeps _ (passages_keep passages st hsz')) (by rw [h4]; exact hb1) (groups_chars (st := st) ?_) hin
    rw [h6]
    refine contentLines_chars ?_
    intro x hx
    obtain ⟨y, hy, rfl⟩ := List.mem_map.1 hx
    exact (hstr y.1 (List.mem_map_of_mem hy)).2

theorem fills_chars {w : World} (hw : ∀ r, (w.env r).Ok) {base : StyleFull} {bs : List Block} {t t' : Tape} (h : Fills w base bs t t') (hy : A '-') :
    (∀ b ∈ bs, b.Plain base ∧ ∀ x ∈ b.strings, x ≠ [] ∧ ∀ c ∈ x, A c) → CellsIn A t → CellsIn A t' := by
  induction h with
  | nil => exact fun _ h => h
  | cons b bs t r r' filled t' hb hrest ih =>
    intro hbs hin
    exact ih (fun x hx => hbs x (by simp [hx])) (block_chars hw (hbs b (by simp)).1 (hbs b (by simp)).2 hy hb hin)

/-! ### Layout ends -/

/-- The columns after the current one are not over-full. -/
def RoomAfter (t : Tape) : Prop := ∀ i, t.head < i → 0 ≤ (t.cells i).heightFree

theorem RoomAfter.fill {t : Tape} (h : RoomAfter t) (filled : List ColumnFill) : RoomAfter (t.fill filled) := by
  by_cases hne : filled = []
  · subst hne; simpa [Tape.fill] using h
  · have hpos : 0 < filled.length := List.length_pos_iff.2 hne
    rw [t.fill_ne hne]
    intro i hi
    simp only at hi ⊢
    rw [t.write_after filled (by omega)]
    exact h i (by omega)

theorem block_lays {w : World} (hw : ∀ r, (w.env r).Ok) (hh : ∀ r, HyphenOk (w.env r)) {base : StyleFull} {b : Block} (hb : b.Plain base) (hne : ∀ x ∈ b.strings, x ≠ []) :
    Lays w base RoomAfter b := by
  intro r t _ ht
  cases b with
  | rule x => exact ⟨_, _, rfl, ht.fill _⟩
  | paragraph p =>
    obtain ⟨hp, hb1, hb2, hsz⟩ := hb
    obtain ⟨filled, r', h⟩ := C35_paragraph_partial w hw hh base p hp r t.view (fun j hj => ht _ (by omega)) (fun e he => hne e.1 (List.mem_map_of_mem he)) ⟨hb1, hb2⟩ (by
      intro r' e he
      obtain ⟨x, hx, rfl⟩ := List.mem_map.1 he
      exact hsz x hx)
    exact ⟨filled, r', h, ht.fill _⟩

/-! ### Items -/

theorem PageFill.new_ok {p : Page} (h : ∀ d ∈ p.content, d.Known) (r : Res) : (PageFill.new p).Ok r := by
  refine ⟨h, ?_, ?_⟩
  · intro c hc
    obtain ⟨x, -, rfl⟩ := List.mem_map.1 hc
    intro e he
    cases he
  · intro c hc
    cases hc

theorem forall₂_mem_right {α β} {R : α → β → Prop} {l : List α} {m : List β} (h : List.Forall₂ R l m) : ∀ b ∈ m, ∃ a ∈ l, R a b := by
  induction h with
  | nil => intro b hb; cases hb
  | cons h1 _ ih =>
    intro b hb
    rcases List.mem_cons.1 hb with rfl | hb
    · exact ⟨_, by simp, h1⟩
    · obtain ⟨a, ha, h⟩ := ih b hb
      exact ⟨a, List.mem_cons_of_mem _ ha, h⟩

/-- An item that is rendered without error, and whose text is made of these characters. -/
def DocItem.Renders (w : World) (s : StyleFull) (A : Char → Prop) (it : DocItem) : Prop :=
  ∀ (pnum : Nat) (r : Res), r.WF → (it.run w s pnum r).err = none ∧ (it.run w s pnum r).pages ≠ [] ∧ ∀ x ∈ (it.run w s pnum r).pages, ∀ op ∈ x.ops, op.Chars A

/-- Drawings that can be drawn, with strings made of these characters. -/
def Page.Draws (alphabet : List Char) (p : Page) : Prop := ∀ d ∈ p.content, d.Drawable ∧ ∀ y ∈ d.strings, StringOver alphabet y

theorem item_renders {w : World} (hw : ∀ r, (w.env r).Ok) {s : StyleFull} (hs : s.Known) {alphabet : List Char} {it : DocItem} (hk : it.Known) (hA : ∀ c ∈ alphabet, A c)
    (hpage : ∀ p, it = .page p → p.Draws alphabet) (hauto : ∀ a, it = .auto a → ∃ I : Tape → Prop, (∀ n, (a.template n).columns ≠ [] ∧ (a.template n).Draws alphabet) ∧
      (∀ b ∈ a.content, Lays w s I b) ∧ ∀ pnum t0, t0.IsNew (fun n => a.template (pnum + n)) → I t0 ∧ ∀ t, Fills w s a.content t0 t → CellsIn A t) : it.Renders w s A := by
  intro pnum r hr
  have draws : ∀ (d : Drawing), (d.Drawable ∧ ∀ x ∈ d.strings, StringOver alphabet x) → ∀ x ∈ d.strings, x ≠ [] ∧ ∀ c ∈ x, A c :=
    fun d h x hx => ⟨(h.2 x hx).1, fun c hc => hA c ((h.2 x hx).2 c hc)⟩
  have chars : ∀ x ∈ (it.run w s pnum r).pages, (∀ d ∈ x.page.base.content, d.Drawable ∧ ∀ y ∈ d.strings, StringOver alphabet y) →
      (∀ c ∈ x.page.cols, ∀ op ∈ c.ops, op.Chars A) → ∀ op ∈ x.ops, op.Chars A := by
    intro x hx h1 h2 op hop
    obtain ⟨parts, e, h3⟩ := (C60_order w s it pnum r x hx).content
    rw [e] at hop
    rcases List.mem_append.1 hop with hop | hop
    · obtain ⟨part, hm, hop⟩ := List.mem_flatten.1 hop
      obtain ⟨d, hd, r0, r1, h4⟩ := forall₂_mem_right h3 part hm
      exact drawing_chars hw (draws d (h1 d hd)) h4 op hop
    · obtain ⟨c, hc, hop⟩ := List.mem_flatMap.1 hop
      exact h2 c hc op hop
  cases it with
  | page p =>
    have he : ((DocItem.page p).run w s pnum r).err = none := by
      refine writePages_none hw hs hr ?_ ?_
      · intro q hq
        simp only [List.mem_singleton] at hq
        subst hq
        exact ⟨hk, by simp⟩
      · intro q hq
        simp only [List.mem_singleton] at hq
        subst hq
        exact fun d hd => (hpage _ rfl d hd).1
    obtain ⟨x, e1, e2, -⟩ := C60_page w s p pnum r he
    refine ⟨he, by rw [e1]; simp, ?_⟩
    intro y hy'
    have hy2 := hy'
    rw [e1, List.mem_singleton] at hy2
    subst hy2
    refine chars y hy' ?_ ?_
    · rw [e2]; exact hpage p rfl
    · rw [e2]; simp
  | auto a =>
    obtain ⟨I, ht, hlays, hnew⟩ := hauto a rfl
    have hcols : ∀ n, (a.template n).columns ≠ [] := fun n => (ht n).1
    have hc' : ∀ n, ((fun n => a.template (pnum + n)) n).columns ≠ [] := fun n => hcols _
    have he : ((DocItem.auto a).run w s pnum r).err = none := by
      obtain ⟨t0, h0⟩ := exists_newTape hc'
      exact autoLoop_none hw hs (pages := fun n => a.template (pnum + n)) hc' (fun n d hd => ((ht _).2 d hd).1) (I := I) hr hk.1
        hlays (fun n => PageFill.new_ok (hk.2 _) r) (PagesInv.ofNew hc' t0 h0) (hnew pnum t0 h0).1
    obtain ⟨t0, t, h0, h1, P, h2, -, -, h5⟩ := C49_pages w s a pnum r hcols he
    have hin : CellsIn A t := (hnew pnum t0 h0).2 t h1
    refine ⟨he, ?_, ?_⟩
    · intro e
      have e' : (a.render w s pnum r).pages = [] := e
      rw [e'] at h2
      simp at h2
    · intro x hx
      obtain ⟨j, hj⟩ := List.mem_iff_getElem?.1 hx
      obtain ⟨k1, k2⟩ := h5 j x hj
      refine chars x hx ?_ ?_
      · rw [k1]; exact (ht _).2
      · rw [k2]
        intro c hc
        simp only [Tape.page, slice, List.mem_map, List.mem_range] at hc
        obtain ⟨i, -, rfl⟩ := hc
        exact hin _

theorem new_cellsIn {pages : Nat → Page} (hc : ∀ n, (pages n).columns ≠ []) {t0 : Tape} (h0 : t0.IsNew pages) : CellsIn A t0 := by
  intro i
  obtain ⟨n, c, hm, e⟩ := isNew_cells hc h0 i
  rw [e]
  intro op hop
  cases hop

theorem item_written {w : World} (hw : ∀ r, (w.env r).Ok) (hh : ∀ r, HyphenOk (w.env r)) {s : StyleFull} (hs : s.Known) {alphabet : List Char} {it : DocItem} (hk : it.Known)
    (hp : it.Plain s alphabet) (hA : ∀ c ∈ alphabet, A c) (hy : A '-') : it.Renders w s A := by
  refine item_renders hw hs hk hA ?_ ?_
  · rintro p rfl
    exact hp
  · rintro a rfl
    obtain ⟨ht, hb⟩ := hp
    refine ⟨RoomAfter, fun n => ⟨(ht n).1, (ht n).2.2⟩, fun b hbm => block_lays hw hh (hb b hbm).1 fun x hx => ((hb b hbm).2 x hx).1, fun pnum t0 h0 => ⟨?_, ?_⟩⟩
    · intro i _
      obtain ⟨n, c, hm, e⟩ := isNew_cells (fun n => (ht _).1) h0 i
      rw [e]; exact (ht _).2.1 c hm
    · intro t h1
      exact fills_chars hw h1 hy (fun b hbm => ⟨(hb b hbm).1, fun x hx => ⟨((hb b hbm).2 x hx).1, fun c hc => hA c (((hb b hbm).2 x hx).2 c hc)⟩⟩) (new_cellsIn (fun n => (ht _).1) h0)

theorem doc_written {w : World} {s : StyleFull} (hs : s.Known) : ∀ {items : List DocItem} (done : Nat) {r : Res}, (∀ it ∈ items, it.Known) → (∀ it ∈ items, it.Renders w s A) →
    r.WF → r.Within A →
    (docRun w s items done r).err = none ∧ (items ≠ [] → (docRun w s items done r).pages ≠ []) ∧ (docRun w s items done r).res.Within A
  | [], done, r, _, _, _, hin => ⟨rfl, fun h => absurd rfl h, hin⟩
  | it :: items, done, r, hk, hp, hr, hin => by
    obtain ⟨h1, h2, h3⟩ := hp it (by simp) (done + 1) r hr
    have h4 := DocItem.run_within w s h1 hin h3
    have h5 := (DocItem.reach w s hs it (hk it (by simp)) (done + 1) r).wf hr
    obtain ⟨h6, -, h7⟩ := doc_written hs (done + (it.run w s (done + 1) r).pages.length) (fun x hx => hk x (List.mem_cons_of_mem _ hx)) (fun x hx => hp x (List.mem_cons_of_mem _ hx)) h5.2 h4
    rw [docRun, PagesRun.andThen, h1]
    exact ⟨h6, fun _ e => h2 (List.append_eq_nil_iff.1 e).1, h7⟩

/-! ### The file -/

theorem subsetObjects_true (compress : Bytes → Bytes) (files : Path → FontFile) : ∀ (ss : List Subset) (i : Nat), (∀ e ∈ ss, e.cids.length < 0xFFFF) →
    (subsetObjects compress files ss i).2 = true
  | [], _, _ => rfl
  | e :: ss, i, h => by
    rw [subsetObjects, Subset.toObjects, if_pos (h e (by simp))]
    exact subsetObjects_true compress files ss _ fun x hx => h x (by simp [hx])

theorem write_some (compress : Bytes → Bytes) (id : Bytes) (objs rest : List Obj) (numPages : Nat) (a : Atom) (h : objs = rest ++ headers numPages a) :
    ∃ chunks, write compress id objs = some chunks := by
  subst h
  exact ⟨_, write_eq compress id rest _ _ _⟩

/-- If its items are rendered, with fewer than 65534 different characters, a document is written. -/
theorem written_of (compress : Bytes → Bytes) (w : World) (s : StyleFull) (hs : s.Known) (alphabet : List Char)
    (hal : alphabet.length < 65534) (items : List DocItem) (hne : items ≠ []) (hk : ∀ it ∈ items, it.Known) (hp : ∀ it ∈ items, it.Renders w s (· ∈ '-' :: alphabet)) (id : Bytes) :
    ∃ chunks, docWrite compress w.files (DocItem.render w s) id items = (chunks, true) := by
  obtain ⟨h1, h2, h3⟩ := doc_written hs 0 hk hp Res.wf_empty Res.within_empty
  have hwf := ((docRun_reach w s hs items hk 0 Res.empty).wf Res.wf_empty).2
  have hpg := h2 hne
  obtain ⟨objs, rest, n, a, e, ho⟩ : ∃ objs rest n a, objs = rest ++ headers n a ∧ docObjects compress w.files (DocItem.render w s) items = (objs, true) := by
    have hsub : ((docRun w s items 0 Res.empty).res.toObjects compress w.files (4 + 2 * ((docRun w s items 0 Res.empty).pages.length - 1) + 2)).2 = true := by
      refine subsetObjects_true compress w.files _ _ ?_
      intro e he
      obtain ⟨x, hx, rfl⟩ := List.mem_map.1 he
      have hnd : x.2.cids.Nodup := by
        obtain ⟨i, hi⟩ := List.mem_iff_getElem?.1 hx
        have := hwf.sub i x hi
        tauto
      have := hnd.subperm (fun c hc => h3 x hx c hc : x.2.cids ⊆ '-' :: alphabet) |>.length_le
      simp only [List.length_cons] at this
      omega
    have hlen : ((docRun w s items 0 Res.empty).pages.map Written.rendered).length ≠ 0 := by simpa using hpg
    unfold docObjects
    rw [docPages_docRun]
    simp only [h1]
    rw [if_neg hlen]
    rw [List.length_map]
    rcases hx : (docRun w s items 0 Res.empty).res.toObjects compress w.files (4 + 2 * ((docRun w s items 0 Res.empty).pages.length - 1) + 2) with ⟨fonts, ok⟩
    rw [hx] at hsub
    cases hsub
    exact ⟨_, _, _, _, rfl, rfl⟩
  obtain ⟨chunks, hc⟩ := write_some compress id objs rest n a e
  exact ⟨chunks, by rw [docWrite, ho]; simp only [hc]⟩

/-- C65. Every document of at least one item is written: pages of drawings, and automatic pages with rules and paragraphs (line breaks by first-fit) of any text, styles and
indents, in columns of any width and height, provided that sizes and line spacings are positive, that hyphens are not negative in width, and that the strings are not empty and made
of fewer than 65534 different characters altogether. -/
theorem C65_written (compress : Bytes → Bytes) (w : World) (hw : ∀ r, (w.env r).Ok) (hh : ∀ r, HyphenOk (w.env r)) (s : StyleFull) (hs : s.Known) (alphabet : List Char)
    (hal : alphabet.length < 65534) (items : List DocItem) (hne : items ≠ []) (hk : ∀ it ∈ items, it.Known) (hp : ∀ it ∈ items, it.Plain s alphabet) (id : Bytes) :
    ∃ chunks, docWrite compress w.files (DocItem.render w s) id items = (chunks, true) := by
  exact written_of compress w s hs alphabet hal items hne hk (fun it hit => item_written hw hh hs (hk it hit) (hp it hit) (fun c hc => List.mem_cons_of_mem _ hc) (by simp)) id

/-! ### A document that meets the conditions -/

theorem demoWorld_hyphen (r : Res) : HyphenOk (demoWorld.env r) := by
  intro f
  cases f with
  | builtin n =>
    show 0 ≤ (demoEnv.metrics (.builtin n)).charwidth '-' ∧ ∀ c, 0 ≤ (demoEnv.metrics (.builtin n)).charwidth '-' + (demoEnv.metrics (.builtin n)).kerning (c, '-')
    simp [demoEnv]
  | subset i =>
    show 0 ≤ (World.metrics demoWorld r (.subset i)).charwidth '-' ∧ ∀ c, 0 ≤ (World.metrics demoWorld r (.subset i)).charwidth '-' + (World.metrics demoWorld r (.subset i)).kerning (c, '-')
    rw [World.metrics]
    split <;> simp [demoWorld, FontFile.metrics, demoEnv]

/-- A page of drawings, and automatic pages with a paragraph of text, bold text and a newline, and a rule. -/
def demoDocument : List DocItem :=
  [.page demoPage,
   .auto ⟨[.paragraph ⟨[.str ['a', 'b', 'c', ' ', 'a'], .span [.str ['b', '\n']] ⟨none, some 20, some true, none, none, none, none⟩], Style.empty, .justify, 5, true, none⟩, 
    .rule ⟨⟨0, 0, 0⟩, ⟨1, 1, 1, 1⟩⟩], demoTemplate⟩]

theorem demoDocument_known : ∀ it ∈ demoDocument, it.Known := by
  intro it hit
  simp only [demoDocument, List.mem_cons, List.not_mem_nil, or_false] at hit
  rcases hit with rfl | rfl
  · intro d hd
    simp only [demoPage, demoDrawings, List.mem_cons, List.not_mem_nil, or_false] at hd
    rcases hd with rfl | rfl
    · exact ⟨by simp [Item.Known.str], by simp [Style.Known, Style.empty]⟩
    · trivial
  · refine ⟨?_, fun n d hd => ?_⟩
    · intro b hb
      simp only [List.mem_cons, List.not_mem_nil, or_false] at hb
      rcases hb with rfl | rfl
      · refine ⟨?_, by simp [Style.Known, Style.empty]⟩
        intro i hi
        simp only [List.mem_cons, List.not_mem_nil, or_false] at hi
        rcases hi with rfl | rfl
        · exact .str _
        · exact .span _ _ (by simp [Item.Known.str]) (by simp [Style.Known])
      · trivial
    · simp only [demoTemplate] at hd
      split at hd
      · rw [List.mem_singleton] at hd; subst hd; trivial
      · cases hd

theorem demoDocument_plain : ∀ it ∈ demoDocument, it.Plain demoStyle ['a', 'b', 'c', ' ', '\n'] := by
  intro it hit
  simp only [demoDocument, List.mem_cons, List.not_mem_nil, or_false] at hit
  rcases hit with rfl | rfl
  · intro d hd
    simp only [demoPage, demoDrawings, List.mem_cons, List.not_mem_nil, or_false] at hd
    rcases hd with rfl | rfl
    · exact ⟨trivial, by simp [Drawing.strings, itemsStrings, Item.strings, StringOver]⟩
    · exact ⟨trivial, by simp [Drawing.strings]⟩
  · refine ⟨fun n => ?_, ?_⟩
    · simp only [demoTemplate]
      split
      · simp [Drawing.Drawable, Drawing.strings]
      · simp
    · intro b hb
      simp only [List.mem_cons, List.not_mem_nil, or_false] at hb
      rcases hb with rfl | rfl
      · refine ⟨⟨rfl, by decide +kernel, by decide +kernel, ?_⟩, ?_⟩
        · simp only [itemsStrings, Item.strings]; decide +kernel
        · simp [Block.strings, itemsStrings, Item.strings, StringOver]
      · exact ⟨trivial, by simp [Block.strings]⟩

example (id : Bytes) : ∃ chunks, docWrite (fun b => b) demoWorld.files (DocItem.render demoWorld demoStyle) id demoDocument = (chunks, true) :=
  C65_written (fun b => b) demoWorld demoWorld_ok demoWorld_hyphen demoStyle (by show _ ∈ _; decide +kernel) ['a', 'b', 'c', ' ', '\n'] (by decide) demoDocument (by simp [demoDocument])
    demoDocument_known demoDocument_plain id

end Pdfje
