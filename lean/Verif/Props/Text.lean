import Verif.Proofs.TextLines
import Verif.Props.Pages
import Verif.Props.Optimum
/-
What is shown on the page: C46 (positions of lines), C47 (text drawings), C48 (paragraphs).
-/

namespace Pdfje

/-! ### Text drawings -/

/-- C47: a text drawing shows the characters of its content line by line, each in its style. -/
def C47_Statement : Prop := ∀ (w : World) (base : StyleFull) (loc : ℚ × ℚ) (content : List Item) (style : Style) (align : Align) (r : Res),
  (∀ r, (w.env r).Ok) → ∃ ops r', Drawing.render w base r (.text loc content style align) = (some [.text ops], r') ∧
    ∀ v : Viewer, ∃ b1 b2 ss lead, Viewer.textLines (w.env r').widths ops v = b1 :: b2 :: ss ∧ b1.glyphs = [] ∧ b2.glyphs = [] ∧
      ShowsBelow ss (contentLines (contentStrings base style content r')) loc lead

/-- C46 for text drawings. -/
def C46_Statement : Prop := ∀ (w : World) (base : StyleFull) (loc : ℚ × ℚ) (content : List Item) (style : Style) (align : Align) (r : Res),
  (∀ r, (w.env r).Ok) → ∃ ops r', Drawing.render w base r (.text loc content style align) = (some [.text ops], r') ∧
    ∀ v : Viewer, ∃ b1 b2 ss, Viewer.textLines (w.env r').widths ops v = b1 :: b2 :: ss ∧
      ∀ s ∈ ss, s.Placed align loc.1 0

theorem contentStrings_passages (base : StyleFull) (style : Style) (content : List Item) (r : Res) :
    contentStrings base style content (flattenSpan style base [] content (base.asState r).2).2.2 =
      passageStrings (flattenSpan style base [] content (base.asState r).2).1 (base.asState r).1 := by
  obtain ⟨h1, h2, -⟩ := C24_spans base style content r
  rw [passageStrings_eq, h1, h2, contentStrings, List.zip_map']

theorem maxLead_strings (ps : List Passage) (st : State) (h : HasText (passageStrings ps st)) :
    IsLeading (passageStrings ps st) (maxLead ps st) := by
  have hz : passageStrings ps st = (ps.zip (stateAt ps st)).map fun e => (e.1.txt, e.2) := by
    rw [passageStrings_eq, List.zip_map_left]; rfl
  rw [hz] at h ⊢
  obtain ⟨⟨e, he, h1⟩, h2⟩ := h
  rw [List.mem_map] at he
  obtain ⟨e', he', rfl⟩ := he
  obtain ⟨⟨x, hx, h3, h4⟩, h5⟩ := (C57_leading ps st (fun e he hn => h2 (e.1.txt, e.2) (List.mem_map_of_mem (f := fun e => (e.1.txt, e.2)) he) hn)).2 ⟨e', he', h1⟩
  refine ⟨⟨_, List.mem_map_of_mem hx, h3, h4⟩, ?_⟩
  intro y hy hn
  rw [List.mem_map] at hy
  obtain ⟨y', hy', rfl⟩ := hy
  exact h5 y' hy' hn

/-- C47 and C46 for text without empty strings in which no empty line has a change of style: the characters of every line are shown in
their styles, the lines are at the place that the alignment asks for, and their baselines are one leading apart. -/
theorem text_shown (w : World) (hw : ∀ r, (w.env r).Ok) (base : StyleFull) (loc : ℚ × ℚ) (content : List Item) (style : Style) (align : Align)
    (r : Res) (hne : ∀ e ∈ itemsStrings [style] content, e.1 ≠ [])
    (hq : ∀ r', KeepsOnEmptyLines (base.asState r').1 (contentStrings base style content r')) :
    ∃ ops r', Drawing.render w base r (.text loc content style align) = (some [.text ops], r') ∧
      (base.asState r').1 = (base.asState r).1 ∧
      ∃ lead, lead = maxLead (flattenSpan style base [] content (base.asState r).2).1 (base.asState r).1 ∧
      ∀ v : Viewer, ∃ ss, Viewer.textLines (w.env r').widths ops v = ⟨[], 0, 0, 0⟩ :: ⟨[], loc.2, loc.1, loc.1⟩ :: ss ∧
        ShowsBelow ss (contentLines (contentStrings base style content r')) loc lead ∧ ∀ s ∈ ss, s.Placed align loc.1 0 := by
  have hcs := contentStrings_passages base style content r
  obtain ⟨h1, h2, -, h4⟩ := C24_spans base style content r
  set out := flattenSpan style base [] content (base.asState r).2 with hout
  set st := (base.asState r).1 with hst
  have hne' : ∀ p ∈ out.1, p.txt ≠ [] := by
    intro p hp
    have : p.txt ∈ out.1.map (·.txt) := List.mem_map_of_mem hp
    rw [h1, List.mem_map] at this
    obtain ⟨e, he, e'⟩ := this
    rw [← e']; exact hne e he
  have hquiet : QuietGroups (splitlines out.1) st := splitlines_quiet _ _ hne' (by
    have := hq out.2.2
    rw [hcs, h4] at this
    exact this)
  obtain ⟨ls, g1, g2, g3, g4⟩ := intoTextLines_spec (hw out.2.2) (splitlines out.1) st (C27_tidy out.1 hne') hquiet
  have hr : Drawing.render w base r (.text loc content style align) =
      (some [renderText loc (some st) 0 ls (maxLead out.1 st) align], out.2.2) := by
    simp only [Drawing.render, textOps]
    rw [← hout, ← hst, g1]; rfl
  have hlines : ls.map RLine.styled = contentLines (contentStrings base style content out.2.2) := by
    rw [g3, hcs]
    cases hp : out.1 with
    | nil => rfl
    | cons p ps =>
      rw [(C26_newlines (p :: ps) st (by simp)).1, styledLines_strings, contentLines, if_neg (by simp [passageStrings])]
  obtain ⟨ops, -, e, -⟩ := renderText_shown (env := w.env out.2.2) loc (some st) 0 ls (maxLead out.1 st) align ⟨none, ⟨0, 0, 0⟩, 0, 0, 0, 0⟩
    (fun s hs => by cases hs; exact g2) (by simp)
  refine ⟨ops, out.2.2, by rw [hr, e], h4, _, rfl, ?_⟩
  intro v
  obtain ⟨ops', ss, e', k1, k2⟩ := renderText_shown (env := w.env out.2.2) loc (some st) 0 ls (maxLead out.1 st) align v
    (fun s hs => by cases hs; exact g2) (by simp)
  rw [e] at e'
  cases e'
  refine ⟨ss, k1, ?_, ?_⟩
  · rw [← hlines]; exact k2.showsBelow loc.1
  · intro s hs
    obtain ⟨k, hk, rfl⟩ := List.mem_iff_getElem.1 hs
    obtain ⟨l, hl, j1, j2⟩ := k2.get (List.getElem?_eq_getElem hk)
    exact placed_of_width j1 j2 (fun _ => g4 l (List.mem_of_getElem? hl))

/-- C47 for text without empty strings in which no empty line has a change of style. -/
theorem C47_text_partial (w : World) (hw : ∀ r, (w.env r).Ok) (base : StyleFull) (loc : ℚ × ℚ) (content : List Item) (style : Style) (align : Align)
    (r : Res) (hne : ∀ e ∈ itemsStrings [style] content, e.1 ≠ [])
    (hq : ∀ r', KeepsOnEmptyLines (base.asState r').1 (contentStrings base style content r')) :
    ∃ ops r', Drawing.render w base r (.text loc content style align) = (some [.text ops], r') ∧
      ∀ v : Viewer, ∃ b1 b2 ss lead, Viewer.textLines (w.env r').widths ops v = b1 :: b2 :: ss ∧ b1.glyphs = [] ∧ b2.glyphs = [] ∧
        ShowsBelow ss (contentLines (contentStrings base style content r')) loc lead := by
  obtain ⟨ops, r', h1, -, lead, -, h2⟩ := text_shown w hw base loc content style align r hne hq
  refine ⟨ops, r', h1, fun v => ?_⟩
  obtain ⟨ss, h3, h4, -⟩ := h2 v
  exact ⟨_, _, ss, lead, h3, rfl, rfl, h4⟩

/-- C46 for such text drawings. -/
theorem C46_text_partial (w : World) (hw : ∀ r, (w.env r).Ok) (base : StyleFull) (loc : ℚ × ℚ) (content : List Item) (style : Style) (align : Align)
    (r : Res) (hne : ∀ e ∈ itemsStrings [style] content, e.1 ≠ [])
    (hq : ∀ r', KeepsOnEmptyLines (base.asState r').1 (contentStrings base style content r')) :
    ∃ ops r', Drawing.render w base r (.text loc content style align) = (some [.text ops], r') ∧
      ∀ v : Viewer, ∃ b1 b2 ss, Viewer.textLines (w.env r').widths ops v = b1 :: b2 :: ss ∧
        ∀ s ∈ ss, s.Placed align loc.1 0 := by
  obtain ⟨ops, r', h1, -, lead, -, h2⟩ := text_shown w hw base loc content style align r hne hq
  refine ⟨ops, r', h1, fun v => ?_⟩
  obtain ⟨ss, h3, -, h4⟩ := h2 v
  exact ⟨_, _, ss, h3, h4⟩

theorem demoWorld_ok (r : Res) : (demoWorld.env r).Ok := ⟨demoEnv_ok.cuts, demoEnv_ok.never⟩

/-- A typeface with font files for regular, bold, italic and both. -/
def demoFace : TrueType := ⟨['r'], ['b'], ['i'], ['x']⟩

/-- A style with that typeface. -/
def faceStyle : StyleFull := ⟨.trueType demoFace, 12, false, false, ⟨0, 0, 0⟩, 5 / 4, 0⟩

/-- The registry after using two fonts of that typeface. -/
def faceRes : Res := (Res.font (Res.font Res.empty (.trueType demoFace) false false).2 (.trueType demoFace) true false).2

/-- The states of the regular and of the bold style. -/
def faceState : State := ⟨.subset 0, 12, ⟨0, 0, 0⟩, 5 / 4, 0⟩
@[inherit_doc faceState] def faceBold : State := ⟨.subset 1, 20, ⟨0, 0, 0⟩, 5 / 4, 0⟩

/-- The word "b" in the regular style. -/
def wordB : Word := ⟨[.slug (Slug.new (demoWorld.env faceRes) ['b'] faceState none)], none, faceState⟩

/-- The text "\nb" in bold of size 20, on a page with regular text of size 12: the second line is set in the regular style. -/
theorem newlineB_render (align : Align) : Drawing.render demoWorld faceStyle Res.empty
      (.text (0, 0) [.str ['\n', 'b']] { bold := some true, size := some 20 } align) =
    (some [renderText (0, 0) (some faceState) 0 [⟨.setFont (.subset 1) 20, [], 0⟩, ⟨.noop, [.word wordB], wordB.width + 0⟩]
      (maxLead [⟨.setFont (.subset 1) 20, ['\n', 'b']⟩] faceState) align], faceRes) := by
  have h1 : flattenSpan { bold := some true, size := some 20 } faceStyle [] [.str ['\n', 'b']] (faceStyle.asState Res.empty).2 =
      ([⟨.setFont (.subset 1) 20, ['\n', 'b']⟩], [.full faceStyle (faceStyle.or { bold := some true, size := some 20 })], faceRes) := by
    simp only [flattenSpan, flattenItems]
    rfl
  have h2 : splitlines [⟨.setFont (.subset 1) 20, ['\n', 'b']⟩] = [[⟨.setFont (.subset 1) 20, []⟩], [⟨.noop, ['b']⟩]] := by
    rw [splitlines, splitFrom_some (a := []) (b := ['b']) rfl, splitFrom_none (by rfl)]
    rfl
  have h3 : parse (demoWorld.env faceRes) [] faceState ['b'] = some [.word wordB] :=
    parse_one (by simp) (rest := []) (head := ['b']) (by rw [parseSimple, allWords_eq]; rfl) rfl
  have h4 : intoTextLines (demoWorld.env faceRes) [[⟨.setFont (.subset 1) 20, []⟩], [⟨.noop, ['b']⟩]] faceState =
      some [⟨.setFont (.subset 1) 20, [], 0⟩, ⟨.noop, [.word wordB], wordB.width + 0⟩] := by
    have e2 : intoWords (demoWorld.env faceRes) [⟨.noop, ['b']⟩] faceState = some (.noop, [.word wordB]) := by
      show (parse (demoWorld.env faceRes) [] faceState ['b']).map _ = _
      rw [h3]; rfl
    have e1 : intoWords (demoWorld.env faceRes) [⟨.setFont (.subset 1) 20, []⟩] faceState = some (.setFont (.subset 1) 20, []) := rfl
    simp only [intoTextLines, e1, e2, List.getLast?_nil, Option.map_some]
    rfl
  have h5 : (faceStyle.asState Res.empty).1 = faceState := rfl
  simp only [Drawing.render, textOps]
  rw [h1, h5]
  simp only [h2, h4, Option.map_some]

/-- C47 is false for text in a style of its own that starts with a newline: the second line is made for the regular font, but shown in the bold one. -/
theorem C47_counterexample : ¬ C47_Statement := by
  intro h
  obtain ⟨ops, r', h1, h2⟩ := h demoWorld faceStyle (0, 0) [.str ['\n', 'b']] { bold := some true, size := some 20 } .left Res.empty demoWorld_ok
  rw [newlineB_render, Prod.mk.injEq, Option.some.injEq, List.cons.injEq] at h1
  obtain ⟨⟨e, -⟩, rfl⟩ := h1
  cases e
  obtain ⟨b1, b2, ss, lead, h3, -, -, h4⟩ := h2 ⟨none, ⟨0, 0, 0⟩, 0, 0, 0, 0⟩
  have h5 : ((b1 :: b2 :: ss)[3]?.map fun s => s.glyphs.map fun g => (g.char, g.enc, g.font)) =
    some [('b', FontRef.subset 0, some (FontRef.subset 1, 20))] := by
    rw [← h3]; decide +kernel
  have h6 : contentLines (contentStrings faceStyle { bold := some true, size := some 20 } [.str ['\n', 'b']] faceRes) = [[], [('b', faceBold)]] := by
    decide +kernel
  rw [h6] at h4
  simp only [List.getElem?_cons_succ, Option.map_eq_some_iff] at h5
  obtain ⟨s, h7, h8⟩ := h5
  have := h4.looks 1 s _ h7 rfl
  obtain ⟨g, gs, e1, e2, -⟩ := List.map_eq_cons_iff.1 h8
  rw [e1] at this
  simp only [List.map_cons, List.map_nil, List.cons.injEq, Glyph.look, lookOf, Prod.mk.injEq] at this e2
  rw [this.1.2.1] at e2
  exact absurd e2.2.1 (by decide)

/-- C46 is false for the same text: it is moved to the left by its width in the regular style, and shown in the wider one. -/
theorem C46_counterexample : ¬ C46_Statement := by
  intro h
  obtain ⟨ops, r', h1, h2⟩ := h demoWorld faceStyle (0, 0) [.str ['\n', 'b']] { bold := some true, size := some 20 } .right Res.empty demoWorld_ok
  rw [newlineB_render, Prod.mk.injEq, Option.some.injEq, List.cons.injEq] at h1
  obtain ⟨⟨e, -⟩, rfl⟩ := h1
  cases e
  obtain ⟨b1, b2, ss, h3, h4⟩ := h2 ⟨none, ⟨0, 0, 0⟩, 0, 0, 0, 0⟩
  have h5 : ((b1 :: b2 :: ss)[3]?.map fun s => s.right) = some 4 := by
    rw [← h3]; decide +kernel
  simp only [List.getElem?_cons_succ, Option.map_eq_some_iff] at h5
  obtain ⟨s, h7, h8⟩ := h5
  have := h4 s (List.mem_of_getElem? h7)
  simp only [ShownLine.Placed] at this
  rw [h8] at this
  norm_num at this

/-- C47 for a single string: in the style of the page, or not starting with a newline. -/
theorem C47_string_partial (w : World) (hw : ∀ r, (w.env r).Ok) (base : StyleFull) (loc : ℚ × ℚ) (s : List Char) (style : Style) (align : Align)
    (r : Res) (hs : s ≠ []) (h : style = Style.empty ∨ ¬ StartsLine s) :
    ∃ ops r', Drawing.render w base r (.text loc [.str s] style align) = (some [.text ops], r') ∧
      ∀ v : Viewer, ∃ b1 b2 ss lead, Viewer.textLines (w.env r').widths ops v = b1 :: b2 :: ss ∧ b1.glyphs = [] ∧ b2.glyphs = [] ∧
        ShowsBelow ss ((textLines s).map fun l => l.map fun c => (c, ((base.or style).asState r').1)) loc lead := by
  have hor : base.overlay [style] = base.or style := by
    have := overlay_snoc base [] style
    rw [overlay_nil] at this
    exact this
  have hstr : ∀ r', contentStrings base style [.str s] r' = [(s, ((base.or style).asState r').1)] := by
    intro r'
    simp [contentStrings, itemsStrings, Item.strings, hor]
  obtain ⟨ops, r', h1, h2⟩ := C47_text_partial w hw base loc [.str s] style align r (by simpa [itemsStrings, Item.strings] using hs) (by
    intro r'
    rw [hstr, KeepsOnEmptyLines, List.isChain_cons_cons]
    refine ⟨?_, List.isChain_singleton _⟩
    intro _ hst
    rcases h with rfl | h
    · rw [(C22_or Style.empty Style.empty Style.empty base).2.2.2.2.2.2]
    · exact absurd hst h)
  refine ⟨ops, r', h1, fun v => ?_⟩
  obtain ⟨b1, b2, ss, lead, h3, h4, h5, h6⟩ := h2 v
  refine ⟨b1, b2, ss, lead, h3, h4, h5, ?_⟩
  have e : contentLines (contentStrings base style [.str s] r') = (textLines s).map fun l => l.map fun c => (c, ((base.or style).asState r').1) := by
    have j : ∀ a : List (List (Char × State)), a ≠ [] → joinLines a [[]] = a := by
      intro a ha
      induction a with
      | nil => exact absurd rfl ha
      | cons x a ih =>
        cases a with
        | nil => simp [joinLines]
        | cons y a => rw [joinLines_cons _ _ _ (by simp), ih (by simp)]
    rw [hstr, contentLines, if_neg (by simp), stringsLines, stringsLines, j _ (by simpa using textLines_ne s)]
  rw [← e]; exact h6

theorem intoTextLines_length {env : Env} (henv : env.Ok) : ∀ (gs : List (List Passage)) (st : State), ∃ ls, intoTextLines env gs st = some ls ∧ ls.length = gs.length
  | [], _ => ⟨[], rfl, rfl⟩
  | g :: gs, st => by
    obtain ⟨cmd, ws, h1, -⟩ := intoWords_spec henv g st
    obtain ⟨ls, h2, h3⟩ := intoTextLines_length henv gs (match ws.getLast? with | some w => w.state | none => st)
    refine ⟨⟨cmd, ws, (ws.map WordLike.width).sum⟩ :: ls, ?_, by simp [h3]⟩
    simp only [intoTextLines, h1]
    have e := congrArg (Option.map (⟨cmd, ws, (ws.map WordLike.width).sum⟩ :: ·)) h2
    exact e

/-- C46, which text can be drawn: every alignment but justified is accepted, and the text is kept as given; justified text is refused. -/
theorem C46_accepted (loc : ℚ × ℚ) (content : List Item) (style : Style) (align : Align) :
    (Drawing.newText loc content style align = none ↔ align = .justify) ∧
    (align ≠ .justify → Drawing.newText loc content style align = some (.text loc content style align)) := by
  unfold Drawing.newText
  split
  · rename_i h; exact ⟨⟨fun _ => h, fun _ => rfl⟩, fun h' => absurd h h'⟩
  · rename_i h; exact ⟨⟨fun h' => (by cases h'), fun h' => absurd h' h⟩, fun _ => rfl⟩

/-- C46, baselines and left edges: whatever the text, alignment and styles, a text drawing shows as many lines as the text has, the first one leading below its
location, each one leading below the one before it, where the leading is that of the largest text; and left-aligned lines start at its location. -/
theorem C46_baselines (w : World) (hw : ∀ r, (w.env r).Ok) (base : StyleFull) (loc : ℚ × ℚ) (content : List Item) (style : Style) (align : Align)
    (r : Res) : ∃ ops r' lead, Drawing.render w base r (.text loc content style align) = (some [.text ops], r') ∧
      (HasText (contentStrings base style content r') → IsLeading (contentStrings base style content r') lead) ∧
      ∀ v : Viewer, ∃ b1 b2 ss, Viewer.textLines (w.env r').widths ops v = b1 :: b2 :: ss ∧ b1.glyphs = [] ∧ b2.glyphs = [] ∧
        (itemsStrings [style] content ≠ [] → ss.length = (((itemsStrings [style] content).flatMap (·.1)).count '\n') + 1) ∧
        ∀ (k : Nat) s, ss[k]? = some s → s.y = loc.2 - (k + 1) * lead ∧ (align = .left → s.left = loc.1) := by
  obtain ⟨h1, -⟩ := C24_spans base style content r
  set out := flattenSpan style base [] content (base.asState r).2 with hout
  set st := (base.asState r).1 with hst
  obtain ⟨ls, g1, g2⟩ := intoTextLines_length (hw out.2.2) (splitlines out.1) st
  have hr : Drawing.render w base r (.text loc content style align) =
      (some [renderText loc (some st) 0 ls (maxLead out.1 st) align], out.2.2) := by
    simp only [Drawing.render, textOps]
    rw [← hout, ← hst, g1]; rfl
  obtain ⟨ops, -, e, -⟩ := renderText_places (W := (w.env out.2.2).widths) loc (some st) 0 ls (maxLead out.1 st) align ⟨none, ⟨0, 0, 0⟩, 0, 0, 0, 0⟩
  have hcs := contentStrings_passages base style content r
  rw [← hout, ← hst] at hcs
  refine ⟨ops, out.2.2, maxLead out.1 st, by rw [hr, e], by rw [hcs]; exact maxLead_strings _ _, fun v => ?_⟩
  obtain ⟨ops', ss, e', k1, k2⟩ := renderText_places (W := (w.env out.2.2).widths) loc (some st) 0 ls (maxLead out.1 st) align v
  rw [e] at e'
  cases e'
  obtain ⟨k3, k4⟩ := k2.get
  refine ⟨_, _, ss, k1, rfl, rfl, ?_, ?_⟩
  · intro hne
    have hne' : out.1 ≠ [] := by
      intro e0
      rw [e0] at h1
      exact hne (by simpa using h1.symm)
    rw [k3, g2, (C26_newlines out.1 st hne').2.1]
    congr 2
    have := congrArg List.flatten h1
    simpa [List.flatMap_def] using this
  · intro k s hs
    obtain ⟨i1, l, -, i2⟩ := k4 k s hs
    refine ⟨i1, ?_⟩
    rintro rfl
    simpa [alignShift] using i2

/-- Two lines, with a change of style in the second: the conditions of C46 and C47 are met. -/
def demoContent : List Item := [.str ['a', 'b', '\n', 'c'], .span [.str ['\n', 'd'], .str ['\n', 'e']] { bold := some true, size := some 20 }]

example : (∀ e ∈ itemsStrings [Style.empty] demoContent, e.1 ≠ []) ∧
    (∀ r, KeepsOnEmptyLines (faceStyle.asState r).1 (contentStrings faceStyle Style.empty demoContent r)) ∧
    (contentStrings faceStyle Style.empty demoContent faceRes).map (·.2.size) = [12, 20, 20] ∧
    (contentLines (contentStrings faceStyle Style.empty demoContent faceRes)).map (·.map (·.1)) = [['a', 'b'], ['c'], ['d'], ['e']] ∧
    HasText (contentStrings faceStyle Style.empty demoContent faceRes) := by
  refine ⟨?_, ?_, ?_, ?_, ?_⟩
  · intro e he
    simp [itemsStrings, Item.strings, demoContent] at he
    rcases he with rfl | rfl | rfl <;> simp
  · intro r
    simp [KeepsOnEmptyLines, contentStrings, itemsStrings, Item.strings, demoContent, StartsLine]
  · decide +kernel
  · decide +kernel
  · refine ⟨⟨(['\n', 'd'], faceBold), ?_, by simp⟩, ?_⟩ <;> decide +kernel

end Pdfje
