import Verif.Props.Style
import Verif.Props.Flow
/-
C85: it does not matter whether a style is given to a document, its paragraphs or spans that wrap their content.
-/

namespace Pdfje
open PdfSpec

/-! ### Pending changes of style -/

theorem runTodo_append (a b : List Pending) : ∀ r, runTodo (a ++ b) r = ((runTodo a r).1 ++ (runTodo b (runTodo a r).2).1, (runTodo b (runTodo a r).2).2) := by
  induction a with
  | nil => intro r; simp [runTodo]
  | cons p a ih =>
    intro r
    rw [List.cons_append, runTodo, runTodo]
    simp only [ih, List.append_assoc]

/-- Two runs over the same content with other pending changes before it differ in the command before the first string. -/
def SameButFirst (dA dB : List Command) (x y : List Passage × List Pending × Res) (A B : List Pending) (rA rB : Res) : Prop :=
  (∃ T, x = ([], A ++ T, rA) ∧ y = ([], B ++ T, rB)) ∨
  ∃ d t rest T R, x = (⟨squash (dA ++ d), t⟩ :: rest, T, R) ∧ y = (⟨squash (dB ++ d), t⟩ :: rest, T, R) ∧ ∀ c ∈ d, c.Flat

theorem Pending.run_flat (p : Pending) (r : Res) : ∀ c ∈ (p.run r).1, c.Flat := by
  cases p with
  | style s base =>
    intro c hc
    simp only [Pending.run, Style.diff] at hc
    split at hc
    · rcases List.mem_cons.1 hc with rfl | hc
      · trivial
      · exact diffRest_flat _ _ _ _ c hc
    · exact diffRest_flat _ _ _ _ c hc
  | full s base =>
    have key : ∀ c ∈ (if s.color ≠ base.color then [Command.setColor s.color] else []) ++ (if s.lineSpacing ≠ base.lineSpacing then [.setLineSpacing s.lineSpacing] else []) ++
        (if s.hyphens ≠ base.hyphens then [.setHyphens s.hyphens] else []), c.Flat := by
      intro c hc
      simp only [List.mem_append] at hc
      rcases hc with (hc | hc) | hc <;> split at hc <;> simp only [List.mem_singleton, List.not_mem_nil] at hc <;> subst hc <;> trivial
    intro c hc
    simp only [Pending.run, StyleFull.diff] at hc
    split at hc
    · rcases List.mem_cons.1 hc with rfl | hc
      · trivial
      · exact key c hc
    · exact key c hc

theorem runTodo_flat (ps : List Pending) : ∀ r, ∀ c ∈ (runTodo ps r).1, c.Flat := by
  induction ps with
  | nil => intro r c hc; simp [runTodo] at hc
  | cons p ps ih =>
    intro r c hc
    rw [runTodo] at hc
    rcases List.mem_append.1 hc with hc | hc
    · exact p.run_flat r c hc
    · exact ih _ c hc

mutual
theorem flattenSpan_first (style : Style) (base : StyleFull) (A B T : List Pending) (content : List Item) (rA rB R : Res) (dA dB : List Command)
    (hA : runTodo A rA = (dA, R)) (hB : runTodo B rB = (dB, R)) :
    SameButFirst dA dB (flattenSpan style base (A ++ T) content rA) (flattenSpan style base (B ++ T) content rB) A B rA rB := by
  rw [flattenSpan, flattenSpan]
  have h := flattenItems_first (base.or style) A B (T ++ [.style style base]) content rA rB R dA dB hA hB
  rw [← List.append_assoc, ← List.append_assoc] at h
  rcases h with ⟨U, h1, h2⟩ | ⟨d, t, rest, U, R', h1, h2, h3⟩
  · left
    refine ⟨U ++ [.full base (base.or style)], ?_, ?_⟩
    · simp only [h1]; rw [List.append_assoc]
    · simp only [h2]; rw [List.append_assoc]
  · right
    refine ⟨d, t, rest, U ++ [.full base (base.or style)], R', ?_, ?_, h3⟩
    · simp only [h1]
    · simp only [h2]
termination_by (sizeOf content, 1)
theorem flattenItems_first (newbase : StyleFull) (A B T : List Pending) (content : List Item) (rA rB R : Res) (dA dB : List Command)
    (hA : runTodo A rA = (dA, R)) (hB : runTodo B rB = (dB, R)) :
    SameButFirst dA dB (flattenItems newbase (A ++ T) content rA) (flattenItems newbase (B ++ T) content rB) A B rA rB := by
  match content with
  | [] =>
    rw [flattenItems, flattenItems]
    exact Or.inl ⟨T, rfl, rfl⟩
  | .str s :: rest =>
    rw [flattenItems, flattenItems, runTodo_append, runTodo_append, hA, hB]
    exact Or.inr ⟨_, _, _, _, _, rfl, rfl, runTodo_flat _ _⟩
  | .span c style :: rest =>
    rw [flattenItems, flattenItems]
    rcases flattenSpan_first style newbase A B T c rA rB R dA dB hA hB with ⟨U, h1, h2⟩ | ⟨d, t, ps, U, R', h1, h2, h5⟩
    · rw [h1, h2]
      simp only
      rcases flattenItems_first newbase A B U rest rA rB R dA dB hA hB with ⟨V, h3, h4⟩ | ⟨d, t, ps, V, R', h3, h4, h5⟩
      · exact Or.inl ⟨V, by rw [h3]; rfl, by rw [h4]; rfl⟩
      · exact Or.inr ⟨d, t, ps, V, R', by rw [h3]; rfl, by rw [h4]; rfl, h5⟩
    · rw [h1, h2]
      exact Or.inr ⟨d, t, _, _, _, rfl, rfl, h5⟩
termination_by (sizeOf content, 0)
end

mutual
theorem Item.strings_texts (a b : List Style) (i : Item) : (i.strings a).map (·.1) = (i.strings b).map (·.1) := by
  match i with
  | .str s => simp [Item.strings]
  | .span c st => rw [Item.strings, Item.strings]; exact itemsStrings_texts _ _ c
theorem itemsStrings_texts (a b : List Style) (is : List Item) : (itemsStrings a is).map (·.1) = (itemsStrings b is).map (·.1) := by
  match is with
  | [] => rfl
  | i :: is => rw [itemsStrings, itemsStrings, List.map_append, List.map_append, i.strings_texts a b, itemsStrings_texts a b is]
end

/-! ### Lines -/

/-- Splitting passages that differ in the first command. -/
theorem splitFrom_first (c1 c2 : Command) (t : List Char) (ht : t ≠ []) (ps : List Passage) : ∃ t' g gs, splitFrom c1 t false ps = (⟨c1, t'⟩ :: g) :: gs ∧
    splitFrom c2 t false ps = (⟨c2, t'⟩ :: g) :: gs ∧ (t' = [] → g = []) := by
  have hpos : ∀ (c c' : Command) (x : List Char), splitFrom c x true ps = splitFrom c' x true ps := by
    intro c c' x
    induction hx : x.length using Nat.strong_induction_on generalizing x with
    | _ n ih =>
      cases hn : nextNewline x with
      | some ab =>
        obtain ⟨a, b⟩ := ab
        rw [splitFrom_some hn, splitFrom_some hn]
        simp only [if_true]
        have := nextNewline_lt x a b hn
        rw [ih b.length (by omega) b rfl]
      | none =>
        rw [splitFrom_none hn, splitFrom_none hn]
        simp only [if_true]
  cases hn : nextNewline t with
  | some ab =>
    obtain ⟨a, b⟩ := ab
    rw [splitFrom_some hn, splitFrom_some hn]
    simp only [Bool.false_eq_true, if_false]
    exact ⟨a, [], splitFrom c1 b true ps, rfl, by rw [hpos c1 c2], fun _ => rfl⟩
  | none =>
    rw [splitFrom_none hn, splitFrom_none hn]
    simp only [Bool.false_eq_true, if_false]
    cases ps with
    | nil => exact ⟨t, [], [], rfl, rfl, fun _ => rfl⟩
    | cons p ps =>
      simp only
      cases splitFrom p.cmd p.txt false ps with
      | nil => exact ⟨t, [], [], rfl, rfl, fun _ => rfl⟩
      | cons g gs => exact ⟨t, g, gs, rfl, rfl, fun h => absurd h ht⟩

theorem squash_one (c : Command) : squash [c] = c := squash_single c

/-- Words of passages that differ in the first command, if it has the same effect. -/
theorem intoWords_first (env : Env) (c1 c2 : Command) (t : List Char) (g : List Passage) (st1 st2 : State) (h : c1.apply st1 = c2.apply st2)
    (ht : t = [] → g = []) : ∃ o : Option (List WordLike), intoWords env (⟨c1, t⟩ :: g) st1 = o.map (fun ws => (c1, ws)) ∧
      intoWords env (⟨c2, t⟩ :: g) st2 = o.map (fun ws => (c2, ws)) := by
  by_cases h0 : t = []
  · have hg := ht h0
    subst hg h0
    refine ⟨some [], ?_, ?_⟩ <;> simp [intoWords, foldCommands, squash_one]
  · refine ⟨parse env g (c1.apply st1) t, ?_, ?_⟩
    · simp [intoWords, foldCommands, h0, squash_one]
    · simp [intoWords, foldCommands, h0, squash_one, h]

/-- The paragraph with other content and style, and otherwise the same. -/
def Paragraph.with (p : Paragraph) (content : List Item) (style : Style) : Paragraph := { p with content := content, style := style }

theorem paragraphLoop_with (p : Paragraph) (content : List Item) (style : Style) (env : Env) (lead : ℚ) : ∀ (ls : List (List Passage)) (cs : Nat → ColumnFill)
    (st : State), paragraphLoop (p.with content style) env lead ls cs st = paragraphLoop p env lead ls cs st := by
  intro ls
  induction ls with
  | nil => intro cs st; rfl
  | cons l ls ih =>
    intro cs st
    rw [paragraphLoop, paragraphLoop]
    have : fillParagraph (p.with content style) env l cs st lead = fillParagraph p env l cs st lead := rfl
    rw [this]
    simp only [ih]

theorem paragraphLoop_first (p : Paragraph) (env : Env) (lead : ℚ) (c1 c2 : Command) (t : List Char) (g : List Passage) (gs : List (List Passage))
    (cs : Nat → ColumnFill) (st1 st2 : State) (h : c1.apply st1 = c2.apply st2) (ht : t = [] → g = []) :
    paragraphLoop p env lead ((⟨c1, t⟩ :: g) :: gs) cs st1 = paragraphLoop p env lead ((⟨c2, t⟩ :: g) :: gs) cs st2 := by
  rw [paragraphLoop, paragraphLoop]
  have : fillParagraph p env (⟨c1, t⟩ :: g) cs st1 lead = fillParagraph p env (⟨c2, t⟩ :: g) cs st2 lead := by
    obtain ⟨o, h1, h2⟩ := intoWords_first env c1 c2 t g st1 st2 h ht
    unfold fillParagraph
    rw [h1, h2]
    cases o with
    | none => rfl
    | some ws => simp only [Option.map_some, h]
  rw [this]

theorem maxLead_first (c1 c2 : Command) (t : List Char) (ps : List Passage) (st1 st2 : State) (h : c1.apply st1 = c2.apply st2) :
    maxLead (⟨c1, t⟩ :: ps) st1 = maxLead (⟨c2, t⟩ :: ps) st2 := by
  simp only [maxLead, maxLeadLoop, h]

/-! ### C85 -/

theorem or_idem (base : StyleFull) (s : Style) : (base.or s).or s = base.or s := by
  obtain ⟨-, -, -, h, -, h', -⟩ := C22_or s s s base
  rw [← h', h]

theorem or_empty (base : StyleFull) : base.or Style.empty = base := (C22_or Style.empty Style.empty Style.empty base).2.2.2.2.2.2

theorem run_empty (base : StyleFull) (r : Res) : (Pending.style Style.empty base).run r = ([], r) :=
  diff_keeps (by rw [overlay_one, or_empty]) r

theorem run_idem (base : StyleFull) (s : Style) (r : Res) : (Pending.style s (base.or s)).run r = ([], r) :=
  diff_keeps (by rw [overlay_one, or_idem]) r

/-- C85, paragraphs in a document: a style that is given to the document (on top of its base style) is the same as one that is given to the paragraph: it is laid out
in exactly the same way. -/
theorem C85_paragraph (p : Paragraph) (w : World) (r : Res) (base : StyleFull) (s : Style) (cs : Nat → ColumnFill) :
    (Block.paragraph { p with style := s.or p.style }).intoColumns w r base cs = (Block.paragraph p).intoColumns w r (base.or s) cs := by
  have hor : base.or (s.or p.style) = (base.or s).or p.style := (C22_or s p.style p.style base).2.2.2.2.2.1
  simp only [Block.intoColumns, Paragraph.intoColumns, hor]
  have hs : ((base.or s).or p.style).or (s.or p.style) = (base.or s).or p.style := by rw [← hor, or_idem]
  have hf : ∀ style, ((base.or s).or p.style).or style = (base.or s).or p.style → ∀ r,
      flattenItems ((base.or s).or p.style) [.style style ((base.or s).or p.style)] p.content r =
      flattenItems ((base.or s).or p.style) [] p.content r ∨
      ((flattenItems ((base.or s).or p.style) [.style style ((base.or s).or p.style)] p.content r).1 = [] ∧
        (flattenItems ((base.or s).or p.style) [] p.content r).1 = [] ∧
        (flattenItems ((base.or s).or p.style) [.style style ((base.or s).or p.style)] p.content r).2.2 =
          (flattenItems ((base.or s).or p.style) [] p.content r).2.2) := by
    intro style hst r
    have hrun : runTodo [.style style ((base.or s).or p.style)] r = ([], r) := by
      simp only [runTodo, Pending.run]
      rw [diff_keeps (by rw [overlay_one, hst])]
      rfl
    have := flattenItems_first ((base.or s).or p.style) [.style style ((base.or s).or p.style)] [] [] p.content r r r [] [] hrun rfl
    rw [List.append_nil, List.append_nil] at this
    rcases this with ⟨T, h1, h2⟩ | ⟨d, t, rest, T, R, h1, h2, hflatd⟩
    · right; rw [h1, h2]; exact ⟨rfl, rfl, rfl⟩
    · left; rw [h1, h2]
  have key : ∀ r, (flattenSpan (s.or p.style) ((base.or s).or p.style) [] p.content r).1 = (flattenSpan p.style ((base.or s).or p.style) [] p.content r).1 ∧
      (flattenSpan (s.or p.style) ((base.or s).or p.style) [] p.content r).2.2 = (flattenSpan p.style ((base.or s).or p.style) [] p.content r).2.2 := by
    intro r
    rw [flattenSpan, flattenSpan]
    simp only [hs, or_idem, List.nil_append]
    rcases hf _ hs r with h1 | ⟨h1, h2, h3⟩ <;> rcases hf _ (or_idem (base.or s) p.style) r with g1 | ⟨g1, g2, g3⟩
    · rw [h1, g1]; exact ⟨rfl, rfl⟩
    · rw [h1, g1, g3]; exact ⟨g2, rfl⟩
    · rw [g1, h1, h3]; exact ⟨h2.symm, rfl⟩
    · rw [h1, g1, h3, g3]; exact ⟨rfl, rfl⟩
  obtain ⟨k1, k2⟩ := key (((base.or s).or p.style).asState r).2
  rw [k1, k2]
  congr 1
  exact paragraphLoop_with p p.content (s.or p.style) _ _ _ _ _

/-- C85, spans: a paragraph with a style is the same as a paragraph with a span that has the style: if the font around them is in use already, they are laid out in exactly
the same way. (Otherwise the second registers that font, too.) -/
theorem C85_span (p : Paragraph) (w : World) (r : Res) (base : StyleFull) (cs : Nat → ColumnFill) (hfont : (base.asState r).2 = r)
    (hne : itemsStrings [] p.content ≠ []) (hs : ∀ e ∈ itemsStrings [] p.content, e.1 ≠ []) :
    (Block.paragraph { p with content := [.span p.content p.style], style := Style.empty }).intoColumns w r base cs =
      (Block.paragraph p).intoColumns w r base cs := by
  have hm := match_asState r base
  rw [hfont] at hm
  obtain ⟨g1, -, g2⟩ := runTodo_spec [.style p.style base] base (base.or p.style) r (base.asState r).1 ⟨rfl, rfl⟩ hm
  have hg : runTodo [.style p.style base] r = p.style.diff base r := by simp [runTodo, Pending.run]
  rw [hg] at g1 g2
  have hR : (p.style.diff base r).2 = ((base.or p.style).asState r).2 := by
    unfold Style.diff
    have hfo : ∀ (f : Typeface) (b i : Bool), f = base.font → b = base.bold → i = base.italic → (r.font f b i).2 = r := by
      rintro f b i rfl rfl rfl
      exact hfont
    split
    · rfl
    · rename_i hd
      simp only [Bool.or_eq_true, not_or, Bool.not_eq_true] at hd
      show r = (r.font (fallback p.style.font base.font) (fallback p.style.bold base.bold) (fallback p.style.italic base.italic)).2
      exact (hfo _ _ _ (differs_false hd.1.2) (differs_false hd.1.1.1) (differs_false hd.1.1.2)).symm
  have e1 := g1.eq_asState
  have e2 : (base.or p.style).asState (p.style.diff base r).2 = (((base.or p.style).asState r).1, (p.style.diff base r).2) := by
    rw [hR]; exact (match_asState r (base.or p.style)).eq_asState
  rw [e1] at e2
  have happly : applyAll (p.style.diff base r).1 (base.asState r).1 = ((base.or p.style).asState r).1 := congrArg Prod.fst e2
  have hA : runTodo [.style Style.empty base, .style p.style base] r = ((p.style.diff base r).1, ((base.or p.style).asState r).2) := by
    rw [← hR, runTodo, run_empty]
    simp only [runTodo, Pending.run, List.nil_append, List.append_nil]
  have hB : runTodo [.style p.style (base.or p.style)] ((base.or p.style).asState r).2 = ([], ((base.or p.style).asState r).2) := by
    simp only [runTodo, run_idem, List.append_nil]
  have hflat := flattenItems_first (base.or p.style) [.style Style.empty base, .style p.style base] [.style p.style (base.or p.style)] [] p.content
    r ((base.or p.style).asState r).2 _ _ _ hA hB
  rw [List.append_nil, List.append_nil] at hflat
  simp only [Block.intoColumns, Paragraph.intoColumns, or_empty]
  have x1 : (flattenSpan Style.empty base [] [.span p.content p.style] r).1 = (flattenItems (base.or p.style) [.style Style.empty base, .style p.style base] p.content r).1 ∧
      (flattenSpan Style.empty base [] [.span p.content p.style] r).2.2 = (flattenItems (base.or p.style) [.style Style.empty base, .style p.style base] p.content r).2.2 := by
    rw [flattenSpan, or_empty]
    simp only [flattenItems, flattenSpan, List.nil_append, List.append_nil, List.cons_append]
    exact ⟨trivial, trivial⟩
  have x2 : (flattenSpan p.style (base.or p.style) [] p.content ((base.or p.style).asState r).2).1 =
        (flattenItems (base.or p.style) [.style p.style (base.or p.style)] p.content ((base.or p.style).asState r).2).1 ∧
      (flattenSpan p.style (base.or p.style) [] p.content ((base.or p.style).asState r).2).2.2 =
        (flattenItems (base.or p.style) [.style p.style (base.or p.style)] p.content ((base.or p.style).asState r).2).2.2 := by
    rw [flattenSpan, or_idem]
    simp
  have htexts := (C24_spans (base.or p.style) p.style p.content r).1
  rw [x2.1] at htexts
  have hshape : ∀ outer, (itemsStrings outer p.content).map (·.1) = (itemsStrings [] p.content).map (·.1) := fun outer => itemsStrings_texts outer [] p.content
  rw [hshape] at htexts
  rw [hfont, x1.1, x1.2, x2.1, x2.2]
  rcases hflat with ⟨T, h1, h2⟩ | ⟨d, t, rest, T, R, h1, h2, hflatd⟩
  · rw [h2] at htexts
    simp only [List.map_nil] at htexts
    exact absurd (List.map_eq_nil_iff.1 htexts.symm) hne
  · rw [h1, h2]
    simp only
    have ht : t ≠ [] := by
      rw [h2] at htexts
      simp only [List.map_cons] at htexts
      have : t ∈ (itemsStrings [] p.content).map (·.1) := by rw [← htexts]; simp
      obtain ⟨e, he, rfl⟩ := List.mem_map.1 this
      exact hs e he
    have hc : (squash ((p.style.diff base r).1 ++ d)).apply (base.asState r).1 = (squash ([] ++ d)).apply ((base.or p.style).asState r).1 := by
      rw [squash_apply _ (by intro c hc; rcases List.mem_append.1 hc with hc | hc; exact g2 c hc; exact hflatd c hc), List.nil_append, squash_apply _ hflatd,
        ← happly, applyAll_append]
    rw [maxLead_first _ _ t rest _ _ hc, splitlines, splitlines]
    obtain ⟨t', g, gs, i1, i2, i3⟩ := splitFrom_first (squash ((p.style.diff base r).1 ++ d)) (squash ([] ++ d)) t ht rest
    simp only [i1, i2]
    congr 1
    rw [paragraphLoop_first _ _ _ _ _ t' g gs _ _ _ hc i3]
    exact paragraphLoop_with p _ _ _ _ _ _ _

/-- C85, text drawings: a style that is given to the text is the same as one that is given to a span with its content. -/
theorem C85_text (w : World) (r : Res) (base : StyleFull) (loc : ℚ × ℚ) (content : List Item) (style : Style) (align : Align) :
    Drawing.render w base r (.text loc [.span content style] Style.empty align) = Drawing.render w base r (.text loc content style align) := by
  have key : ∀ r, (flattenSpan Style.empty base [] [.span content style] r).1 = (flattenSpan style base [] content r).1 ∧
      (flattenSpan Style.empty base [] [.span content style] r).2.2 = (flattenSpan style base [] content r).2.2 := by
    intro r
    have hA : runTodo [.style Style.empty base, .style style base] r = style.diff base r := by
      rw [runTodo, run_empty]
      simp only [runTodo, Pending.run, List.nil_append, List.append_nil]
    have hB : runTodo [.style style base] r = style.diff base r := by
      simp only [runTodo, Pending.run, List.append_nil]
    have h := flattenItems_first (base.or style) [.style Style.empty base, .style style base] [.style style base] [] content r r _ _ _ hA hB
    rw [List.append_nil, List.append_nil] at h
    have x1 : (flattenSpan Style.empty base [] [.span content style] r).1 = (flattenItems (base.or style) [.style Style.empty base, .style style base] content r).1 ∧
        (flattenSpan Style.empty base [] [.span content style] r).2.2 = (flattenItems (base.or style) [.style Style.empty base, .style style base] content r).2.2 := by
      rw [flattenSpan, or_empty]
      simp only [flattenItems, flattenSpan, List.nil_append, List.append_nil, List.cons_append]
      exact ⟨trivial, trivial⟩
    rw [x1.1, x1.2, flattenSpan]
    simp only [List.nil_append]
    rcases h with ⟨T, h1, h2⟩ | ⟨d, t, rest, T, R, h1, h2, -⟩
    · rw [h1, h2]; exact ⟨rfl, rfl⟩
    · rw [h1, h2]; exact ⟨rfl, rfl⟩
  simp only [Drawing.render, textOps]
  obtain ⟨k1, k2⟩ := key (base.asState r).2
  rw [k1, k2]

/-! ### Documents -/

/-- The block with a style below its own. -/
def Block.under (s : Style) : Block → Block
  | .paragraph p => .paragraph { p with style := s.or p.style }
  | .rule x => .rule x

/-- The item with a style below that of each of its blocks. -/
def DocItem.under (s : Style) : DocItem → DocItem
  | .page p => .page p
  | .auto a => .auto ⟨a.content.map (Block.under s), a.template⟩

/-- A page without text drawings. -/
def Page.NoText (p : Page) : Prop := ∀ d ∈ p.content, ∀ loc content style align, d ≠ .text loc content style align

/-- An item whose pages have no text drawings. -/
def DocItem.NoText : DocItem → Prop
  | .page p => p.NoText
  | .auto a => ∀ n, (a.template n).NoText

theorem drawingsRun_style (w : World) (s s' : StyleFull) : ∀ (ds : List Drawing) (r : Res), (∀ d ∈ ds, ∀ loc content style align, d ≠ .text loc content style align) →
    drawingsRun w s ds r = drawingsRun w s' ds r := by
  intro ds
  induction ds with
  | nil => intro r _; rfl
  | cons d ds ih =>
    intro r h
    have hd : d.render w s r = d.render w s' r := by
      cases d with
      | text loc content style align => exact absurd rfl (h _ (by simp) loc content style align)
      | _ => rfl
    rw [drawingsRun, drawingsRun, hd]
    have ih' := fun r => ih r fun d' hd' => h d' (by simp [hd'])
    simp only [ih']

theorem writePages_style (w : World) (s s' : StyleFull) : ∀ (ps : List Filled) (r : Res), (∀ p ∈ ps, p.base.NoText) → writePages w s ps r = writePages w s' ps r := by
  intro ps
  induction ps with
  | nil => intro r _; rfl
  | cons p ps ih =>
    intro r h
    have hp : p.run w s r = p.run w s' r := by
      rw [Filled.run, Filled.run, drawingsRun_style w s s' _ _ (h p (by simp))]
    have ih' := fun r => ih r fun q hq => h q (by simp [hq])
    rw [writePages, writePages, hp]
    simp only [ih']

theorem fillLoop_bases (X : Page → Prop) : ∀ (fuel : Nat) (filled : List ColumnFill) (doc : Nat → PageFill), (∀ n, X (doc n).base) →
    (∀ p ∈ (fillLoop fuel filled doc).1, X p.base) ∧ ∀ n, X ((fillLoop fuel filled doc).2 n).base := by
  intro fuel
  induction fuel with
  | zero => intro filled doc h; exact ⟨by simp [fillLoop], h⟩
  | succ fuel ih =>
    intro filled doc h
    rw [fillLoop]
    simp only
    split
    · exact ⟨by intro p hp; rw [List.mem_singleton] at hp; subst hp; exact h 0, fun n => h (n + 1)⟩
    · obtain ⟨h1, h2⟩ := ih (List.drop (doc 0).todo.length filled) (fun n => doc (n + 1)) (fun n => h (n + 1))
      refine ⟨?_, h2⟩
      intro p hp
      rcases List.mem_cons.1 hp with rfl | hp
      · exact h 0
      · exact h1 p hp

theorem fillInto_bases (X : Page → Prop) {filled : List ColumnFill} {doc doc' : Nat → PageFill} {completed : List PageFill} (h : ∀ n, X (doc n).base)
    (hf : fillInto filled doc = some (doc', completed)) : (∀ p ∈ completed, X p.base) ∧ ∀ n, X (doc' n).base := by
  unfold fillInto at hf
  split at hf
  · cases hf; exact ⟨by simp, h⟩
  · obtain ⟨h1, h2⟩ := fillLoop_bases X filled.length filled doc h
    simp only at hf
    cases hl : (fillLoop filled.length filled doc).1.getLast? with
    | none => rw [hl] at hf; cases hf
    | some p =>
      rw [hl] at hf
      simp only [Option.map_eq_some_iff, Prod.mk.injEq] at hf
      obtain ⟨q, hq, rfl, rfl⟩ := hf
      refine ⟨fun x hx => h1 x (List.dropLast_subset _ hx), fun n => ?_⟩
      cases n with
      | zero =>
        unfold PageFill.reopen at hq
        split at hq
        · cases hq
        · cases hq; exact h1 p (List.mem_of_getLast? hl)
      | succ n => exact h2 n

theorem autoLoop_under (w : World) (base : StyleFull) (s : Style) : ∀ (bs : List Block) (doc : Nat → PageFill) (r : Res), (∀ n, (doc n).base.NoText) →
    autoLoop w base (bs.map (Block.under s)) doc r = autoLoop w (base.or s) bs doc r := by
  intro bs
  induction bs with
  | nil =>
    intro doc r h
    rw [List.map_nil, autoLoop, autoLoop]
    exact writePages_style w _ _ _ r (by intro p hp; rw [List.mem_singleton] at hp; subst hp; exact h 0)
  | cons b bs ih =>
    intro doc r h
    rw [List.map_cons, autoLoop, autoLoop]
    have hb : (b.under s).intoColumns w r base (columnsLeft doc) = b.intoColumns w r (base.or s) (columnsLeft doc) := by
      cases b with
      | paragraph p => exact C85_paragraph p w r base s _
      | rule x => rfl
    rw [hb]
    cases b.intoColumns w r (base.or s) (columnsLeft doc) with
    | mk o r1 =>
      cases o with
      | none => rfl
      | some filled =>
        simp only
        cases hf : fillInto filled doc with
        | none => rfl
        | some x =>
          obtain ⟨doc', completed⟩ := x
          simp only
          obtain ⟨h1, h2⟩ := fillInto_bases Page.NoText h hf
          rw [writePages_style w base (base.or s) _ r1 (by
            intro p hp
            obtain ⟨q, hq, rfl⟩ := List.mem_map.1 hp
            exact h1 q hq)]
          congr 1
          funext r'
          exact ih doc' r' h2

theorem docRun_under (w : World) (base : StyleFull) (s : Style) : ∀ (items : List DocItem) (done : Nat) (r : Res), (∀ it ∈ items, it.NoText) →
    docRun w base (items.map (DocItem.under s)) done r = docRun w (base.or s) items done r := by
  intro items
  induction items with
  | nil => intro done r _; rfl
  | cons it items ih =>
    intro done r h
    have hit : (it.under s).run w base (done + 1) r = it.run w (base.or s) (done + 1) r := by
      have := h it (by simp)
      cases it with
      | page p => exact writePages_style w _ _ _ r (by intro q hq; rw [List.mem_singleton] at hq; subst hq; exact this)
      | auto a => exact autoLoop_under w base s a.content _ r fun n => this _
    rw [List.map_cons, docRun, docRun, hit]
    congr 1
    funext r'
    exact ih _ r' fun x hx => h x (by simp [hx])

/-- C85, documents without text drawings: the file (or what is written of it before an error) is the same, byte by byte, if a style is given to each paragraph below its own
style, instead of to the document. -/
theorem C85_document (compress : Bytes → Bytes) (w : World) (s : Style) (items : List DocItem) (h : ∀ it ∈ items, it.NoText) (id : Bytes) :
    docWrite compress w.files (DocItem.render w Style.empty.setdefault) id (items.map (DocItem.under s)) =
      docWrite compress w.files (DocItem.render w s.setdefault) id items := by
  have hd : docPages (DocItem.render w Style.empty.setdefault) (items.map (DocItem.under s)) 0 Res.empty =
      docPages (DocItem.render w s.setdefault) items 0 Res.empty := by
    rw [docPages_docRun, docPages_docRun, docRun_under w _ s items 0 Res.empty h]
    have : Style.empty.setdefault.or s = s.setdefault := by rw [Style.setdefault, or_empty]; rfl
    rw [this]
  have ho : docObjects compress w.files (DocItem.render w Style.empty.setdefault) (items.map (DocItem.under s)) =
      docObjects compress w.files (DocItem.render w s.setdefault) items := by
    unfold docObjects
    rw [hd]
  unfold docWrite
  rw [ho]

/-- A bold document with a paragraph of size 20. -/
example : (DocItem.auto ⟨[.paragraph { Paragraph.plain [.str ['a']] with style := { size := some 20 } }], fun _ => .default⟩).under { bold := some true } =
    .auto ⟨[.paragraph { Paragraph.plain [.str ['a']] with style := { size := some 20, bold := some true } }], fun _ => .default⟩ ∧
    (DocItem.auto ⟨[.paragraph { Paragraph.plain [.str ['a']] with style := { size := some 20 } }], fun _ => .default⟩).NoText :=
  ⟨rfl, fun n => by simp [Page.NoText, Page.default]⟩

/-- The hypotheses of C85_span are met when the font of the surrounding style is in use. -/
example : (StyleFull.default.asState (StyleFull.default.asState Res.empty).2).2 = (StyleFull.default.asState Res.empty).2 ∧
    itemsStrings [] [.str ['a'], .span [.str ['b']] { bold := some true }] ≠ [] ∧
    ∀ e ∈ itemsStrings [] [.str ['a'], .span [.str ['b']] { bold := some true }], e.1 ≠ [] :=
  ⟨by decide +kernel, by decide +kernel, by decide +kernel⟩

end Pdfje
