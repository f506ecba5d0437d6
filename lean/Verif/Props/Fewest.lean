import Verif.Props.Across
import Verif.Spec.Fewest
/-
C92: first-fit uses as few lines as possible.
-/

namespace Pdfje

variable {env : Env}

theorem lineLength_cons {w : WordLike} {ws : List WordLike} (h : ws ≠ []) : lineLength (w :: ws) = w.width + lineLength ws := by
  cases ws with
  | nil => exact absurd rfl h
  | cons v ws => rfl

/-- As far as first-fit is concerned, the words are the same. -/
structure WordLike.SameSize (v w : WordLike) : Prop where
  pruned : v.prunedWidth = w.prunedWidth
  space : v.prunableSpace = w.prunableSpace

theorem WordLike.SameSize.width {v w : WordLike} (h : v.SameSize w) : v.width = w.width := by
  rw [v.width_eq, w.width_eq, h.pruned, h.space]

theorem WordLike.SameSize.line {v w : WordLike} (h : v.SameSize w) (ws : List WordLike) : lineLength (v :: ws) = lineLength (w :: ws) := by
  cases ws with
  | nil => exact h.pruned
  | cons x ws => simp only [lineLength, h.width]

theorem lineLength_nonneg : ∀ (ws : List WordLike), (∀ w ∈ ws, 0 ≤ w.prunedWidth ∧ 0 ≤ w.prunableSpace) → 0 ≤ lineLength ws
  | [], _ => le_rfl
  | [w], h => (h w (by simp)).1
  | w :: v :: ws, h => by
    have h1 := lineLength_nonneg (v :: ws) (fun x hx => h x (List.mem_cons_of_mem _ hx))
    have h2 := h w (by simp)
    rw [lineLength, w.width_eq]
    linarith

theorem lineLength_suffix {all : List WordLike} (hu : Unhyphenated all) : ∀ (p a : List WordLike), a ≠ [] → (p ++ a) <:+: all →
    lineLength (atStart a) ≤ lineLength (atStart (p ++ a))
  | [], _, _, _ => le_rfl
  | u :: p, a, ha, hall => by
    refine (lineLength_suffix hu p a ha ((List.suffix_cons u (p ++ a)).isInfix.trans hall)).trans ?_
    cases e : p ++ a with
    | nil => simp at e; exact absurd e.2 ha
    | cons y r =>
      rw [List.cons_append, e]
      have hk := hu.kern u y (((List.prefix_append [u, y] r).isInfix).trans (by simpa [e] using hall))
      simp only [atStart]
      cases r with
      | nil => simpa [lineLength] using hk.1
      | cons z r => simp only [lineLength]; linarith [hk.2]

theorem fillLine_parts : ∀ (t : List WordLike) (sp : ℚ), (∃ s, fillLine t sp = (t, s, none)) ∨ ∃ e word rest s, t = e ++ word :: rest ∧ fillLine t sp = (e, s, some (word, rest))
  | [], sp => .inl ⟨sp, rfl⟩
  | w :: t, sp => by
    rw [fillLine]
    split
    · exact .inr ⟨[], w, t, sp, rfl, rfl⟩
    · rcases fillLine_parts t (sp - w.width) with ⟨s, h⟩ | ⟨e, word, rest, s, rfl, h⟩
      · exact .inl ⟨s, by rw [h]⟩
      · exact .inr ⟨w :: e, word, rest, s, rfl, by rw [h]⟩

theorem fillLine_takes : ∀ (c t : List WordLike) (sp : ℚ), (∀ w ∈ c, 0 ≤ w.prunedWidth ∧ 0 ≤ w.prunableSpace) → lineLength c ≤ sp →
    (∃ s, fillLine (c ++ t) sp = (c ++ t, s, none)) ∨ ∃ e word rest s, t = e ++ word :: rest ∧ fillLine (c ++ t) sp = (c ++ e, s, some (word, rest))
  | [], t, sp, _, _ => fillLine_parts t sp
  | w :: c, t, sp, hn, hl => by
    have hw := hn w (by simp)
    have hc : ∀ x ∈ c, 0 ≤ x.prunedWidth ∧ 0 ≤ x.prunableSpace := fun x hx => hn x (List.mem_cons_of_mem _ hx)
    have hp : ¬ w.prunedWidth > sp := by
      rw [gt_iff_lt, not_lt]
      refine le_trans ?_ hl
      cases c with
      | nil => exact le_rfl
      | cons v c =>
        have := lineLength_nonneg _ hc
        rw [lineLength, w.width_eq]
        linarith
    have key : (∃ s, fillLine (c ++ t) (sp - w.width) = (c ++ t, s, none)) ∨
        ∃ e word rest s, t = e ++ word :: rest ∧ fillLine (c ++ t) (sp - w.width) = (c ++ e, s, some (word, rest)) := by
      by_cases hc0 : c = []
      · subst hc0; exact fillLine_parts t _
      · refine fillLine_takes c t _ hc ?_
        rw [lineLength_cons hc0] at hl
        linarith
    rw [List.cons_append, fillLine, if_neg hp]
    rcases key with ⟨s, h⟩ | ⟨e, word, rest, s, h1, h2⟩
    · exact .inl ⟨s, by rw [h]⟩
    · exact .inr ⟨e, word, rest, s, h1, by rw [h2]; rfl⟩

/-- Words that are not hyphenated. -/
theorem hyphenate_whole {w : WordLike} (hp : w.Plain) (hb : w.boxes.length ≤ 1) {space : ℚ} {a : Option WordLike} {d : WordLike}
    (h : w.hyphenate env space = some (a, d)) : a = none ∧ d.SameSize w.withoutInitKern := by
  have word : ∀ (x : Word) (a : Option Word) (d : Word), x.boxes.length ≤ 1 → x.hyphenate env space = some (a, d) → a = none ∧ d = x.withoutInitKern := by
    intro x a d hb h
    unfold Word.hyphenate at h
    split at h
    · simp only [Option.some.injEq, Prod.mk.injEq] at h
      exact ⟨h.1.symm, h.2.symm⟩
    · rename_i b rest e
      have : rest = [] := by
        rw [e] at hb
        simpa using hb
      subst this
      split at h
      · simp only [Option.some.injEq, Prod.mk.injEq] at h
        exact ⟨h.1.symm, h.2.symm⟩
      · simp [hyphenateLoop] at h
  match w, hp with
  | .word x, _ =>
    simp only [WordLike.hyphenate, Option.map_eq_some_iff] at h
    obtain ⟨⟨a', d'⟩, h1, h2⟩ := h
    obtain ⟨rfl, rfl⟩ := word x a' d' hb h1
    simp only [Option.map_none, Prod.mk.injEq] at h2
    obtain ⟨rfl, rfl⟩ := h2
    exact ⟨rfl, rfl, rfl⟩
  | .withCmd (.word x) c, _ =>
    simp only [WordLike.hyphenate, Option.map_map, Option.map_eq_some_iff] at h
    obtain ⟨⟨a', d'⟩, h1, h2⟩ := h
    obtain ⟨rfl, rfl⟩ := word x a' d' hb h1
    simp only [Function.comp, Option.map_none, Prod.mk.injEq] at h2
    obtain ⟨rfl, rfl⟩ := h2
    refine ⟨rfl, ?_⟩
    unfold WordLike.addCmd
    split <;> exact ⟨rfl, rfl⟩

/-- A line starts with words that fit: they are on it. -/
theorem takeLine_takes {c t : List WordLike} {width : ℚ} (hc : c ≠ []) (hn : ∀ w ∈ c, 0 ≤ w.prunedWidth ∧ 0 ≤ w.prunableSpace) (hl : lineLength c ≤ width)
    (ht : ∀ w ∈ t, w.Plain ∧ w.boxes.length ≤ 1) {q : Option (List WordLike)} {ln : TLine} (h : takeLine env (c ++ t) width = some (q, ln)) :
    q = none ∨ ∃ word rest d, q = some (d :: rest) ∧ (word :: rest) <:+ t ∧ d.SameSize word.withoutInitKern := by
  unfold takeLine at h
  rcases fillLine_takes c t width hn hl with ⟨s, e⟩ | ⟨e, word, rest, s, rfl, e'⟩
  · rw [e] at h
    simp only [Option.some.injEq, Prod.mk.injEq] at h
    exact .inl h.1.symm
  · rw [e'] at h
    simp only [endLine] at h
    cases eh : word.hyphenate env s with
    | none => rw [eh] at h; simp at h
    | some r =>
      obtain ⟨a, d⟩ := r
      obtain ⟨hp, hb⟩ := ht word (by simp)
      obtain ⟨rfl, hs⟩ := hyphenate_whole hp hb eh
      rw [eh] at h
      simp only at h
      refine .inr ⟨word, rest, d, ?_, ⟨e, rfl⟩, hs⟩
      cases el : (c ++ e).getLast? with
      | none => rw [List.getLast?_eq_none_iff] at el; simp at el; exact absurd el.1 hc
      | some l =>
        rw [el] at h
        simp only at h
        split at h
        all_goals
          simp only [Option.some.injEq, Prod.mk.injEq] at h
          exact h.1.symm

theorem linesFrom_fewest {width : ℚ} {all : List WordLike} (hu : Unhyphenated all) (hp : ∀ w ∈ all, w.Plain) : ∀ (css : List (List WordLike)),
    (∀ c ∈ css, c ≠ [] ∧ lineLength (atStart c) ≤ width) → css.flatten <:+ all →
    ∀ (v : WordLike) (t : List WordLike) (x : WordLike) (lines : List TLine), (v :: t) <:+ css.flatten → x.SameSize v.withoutInitKern →
      LinesFrom env width (some (x :: t)) lines none → lines.length ≤ css.length
  | [], _, _, v, t, x, lines, hs, _, _ => by simp at hs
  | c :: css, hc, hall, v, t, x, lines, hs, hx, h => by
    have ih := linesFrom_fewest hu hp css (fun c' h' => hc c' (List.mem_cons_of_mem _ h')) ((List.suffix_append c css.flatten).trans (by simpa using hall))
    have hmem : ∀ w ∈ c ++ css.flatten, w ∈ all := fun w hw => hall.subset (by simpa using hw)
    obtain ⟨p, e⟩ := hs
    rw [List.flatten_cons] at e
    rcases List.append_eq_append_iff.1 e with ⟨a, e1, e2⟩ | ⟨p', rfl, e2⟩
    · -- the line `c` ends with `a`, which is what is left of it
      cases a with
      | nil =>
        have := ih v t x lines ⟨[], by simpa using e2⟩ hx h
        simp only [List.length_cons]; omega
      | cons v' a =>
        simp only [List.cons_append, List.cons.injEq] at e2
        obtain ⟨rfl, rfl⟩ := e2
        have hin : ∀ w ∈ p ++ v :: a, w ∈ all := fun w hw => hmem w (by rw [e1]; exact List.mem_append_left _ hw)
        have hl := lineLength_suffix hu p (v :: a) (by simp) (by
          rw [← e1]; exact (List.prefix_append c css.flatten).isInfix.trans (by simpa using hall.isInfix))
        rw [← e1] at hl
        have hl := hl.trans (hc c (by simp)).2
        have hv := hin v (by simp)
        cases h with
        | cons _ q ln lines _ h1 h2 =>
          rw [← List.cons_append] at h1
          rcases takeLine_takes (by simp) (by
              intro w hw
              rcases List.mem_cons.1 hw with rfl | hw
              · rw [hx.pruned, hx.space]; exact ⟨(hu.width v hv).2, (hu.space v hv).2⟩
              · have := hin w (by simp [hw]); exact ⟨(hu.width w this).1, (hu.space w this).1⟩)
            (by rw [hx.line]; exact hl) (fun w hw => by
              have := hmem w (List.mem_append_right _ hw)
              exact ⟨hp w this, hu.whole w this⟩) h1 with rfl | ⟨word, rest, d, rfl, hsuf, hd⟩
          · rw [h2.from_none.1]; simp
          · have := ih word rest d lines hsuf hd h2
            simp only [List.length_cons]; omega
    · have := ih v t x lines ⟨p', e2.symm⟩ hx h
      simp only [List.length_cons]; omega

theorem Chunks.lines {cols : Cols} {lead width : ℚ} (hw : ∀ i, (cols i).1 = width) {i : Nat} {ae : Bool} {ws : List WordLike} {raw : List (List TLine)}
    (h : Chunks env cols lead i ae ws raw) : LinesFrom env width (some ws) raw.flatten none := by
  induction h with
  | last i ae ws lines h1 _ => simpa [hw] using h1
  | more i ae ws lines ws' rest h1 _ _ _ ih =>
    rw [hw] at h1
    rw [List.flatten_cons]
    exact h1.append ih

/-- C92. Words that are not hyphenated are set by first-fit in columns of one width: there are at most as many lines as in any other way to divide the words into lines that fit, whether orphans
are avoided or not. -/
theorem C92_fewest {ws : List WordLike} (hws : ws ≠ []) (hp : ∀ w ∈ ws, w.Plain) (hu : Unhyphenated ws) {cols : Cols} {width : ℚ} (hcol : ∀ i, (cols i).1 = width)
    {lead : ℚ} {avoid : Bool} {align : Align} {ae : Bool} {out : List ShapedText} (h : firstfitShape env cols lead avoid align ws ae = some out)
    {division : List (List WordLike)} (hd : Division width ws division) : (out.flatMap ShapedText.lines).length ≤ division.length := by
  obtain ⟨raw, -, hc, rfl⟩ := firstfit_chunks h
  have hl := hc.lines hcol
  have hlen : ((raw.map fun ls => (⟨ls.map (setLine align), lead, align, ls.length * lead⟩ : ShapedText)).flatMap ShapedText.lines).length = raw.flatten.length := by
    simp [List.flatMap_def, List.map_map, List.length_flatten, Function.comp_def]
  rw [hlen]
  cases division with
  | nil => have := hd.all; simp at this; exact absurd this hws
  | cons c css =>
    have hall := hd.all
    rw [List.flatten_cons] at hall
    have hmem : ∀ w ∈ c ++ css.flatten, w ∈ ws := fun w hw => hall ▸ hw
    rw [← hall] at hl
    generalize raw.flatten = lines at hl ⊢
    cases hl with
    | cons _ q ln lines _ h1 h2 =>
      rcases takeLine_takes (hd.ne c (by simp)) (fun w hw => by
          have := hmem w (List.mem_append_left _ hw)
          exact ⟨(hu.width w this).1, (hu.space w this).1⟩) (hd.first c (by simp)) (fun w hw => by
          have := hmem w (List.mem_append_right _ hw)
          exact ⟨hp w this, hu.whole w this⟩) h1 with rfl | ⟨word, rest, d, rfl, hsuf, hd'⟩
      · rw [h2.from_none.1]; simp
      · have := linesFrom_fewest hu hp css (fun l hl => ⟨hd.ne l (List.mem_cons_of_mem _ hl), hd.rest l (by simpa using hl)⟩)
          ⟨c, hall⟩ word rest d lines hsuf hd' h2
        simp only [List.length_cons]; omega

/-! ### First-fit finds such a division -/

theorem fillLine_fits : ∀ (ws : List WordLike) (sp : ℚ), (fillLine ws sp).1 = [] ∨ lineLength (fillLine ws sp).1 ≤ sp
  | [], sp => .inl rfl
  | w :: ws, sp => by
    rw [fillLine]
    split
    · exact .inl rfl
    · rename_i hw
      right
      rcases fillLine_fits ws (sp - w.width) with h | h
      · simp only [h, lineLength]; linarith
      · by_cases h0 : (fillLine ws (sp - w.width)).1 = []
        · simp only [h0, lineLength]; linarith
        · show lineLength (w :: (fillLine ws (sp - w.width)).1) ≤ sp
          rw [lineLength_cons h0]; linarith

/-- The first line that is taken of words of which the first one fits: words that fit, and the words after these. -/
theorem takeLine_division {x : WordLike} {t : List WordLike} {width : ℚ} (hx : x.prunedWidth ≤ width) (ht : ∀ w ∈ t, w.Plain ∧ w.boxes.length ≤ 1)
    {q : Option (List WordLike)} {ln : TLine} (h : takeLine env (x :: t) width = some (q, ln)) :
    (q = none ∧ lineLength (x :: t) ≤ width) ∨
      ∃ e word rest d, q = some (d :: rest) ∧ t = e ++ word :: rest ∧ lineLength (x :: e) ≤ width ∧ d.SameSize word.withoutInitKern := by
  have hf := fillLine_fits (x :: t) width
  have hne : (fillLine (x :: t) width).1 ≠ [] := by
    rw [fillLine, if_neg (not_lt.2 hx)]; simp
  unfold takeLine at h
  rcases fillLine_parts (x :: t) width with ⟨s, e⟩ | ⟨e, word, rest, s, e1, e2⟩
  · rw [e] at h hf
    simp only [Option.some.injEq, Prod.mk.injEq] at h
    exact .inl ⟨h.1.symm, hf.resolve_left (by simp)⟩
  · rw [e2] at h hf hne
    cases e with
    | nil => exact absurd rfl hne
    | cons x' e =>
      simp only [List.cons_append, List.cons.injEq] at e1
      obtain ⟨rfl, rfl⟩ := e1
      simp only [endLine] at h
      cases eh : word.hyphenate env s with
      | none => rw [eh] at h; simp at h
      | some r =>
        obtain ⟨a, d⟩ := r
        obtain ⟨hp, hb⟩ := ht word (by simp)
        obtain ⟨rfl, hs⟩ := hyphenate_whole hp hb eh
        rw [eh] at h
        simp only at h
        refine .inr ⟨e, word, rest, d, ?_, rfl, hf.resolve_left (by simp), hs⟩
        cases el : (x :: e).getLast? with
        | none => rw [List.getLast?_eq_none_iff] at el; simp at el
        | some l =>
          rw [el] at h
          simp only at h
          split at h
          all_goals
            simp only [Option.some.injEq, Prod.mk.injEq] at h
            exact h.1.symm

theorem linesFrom_division {width : ℚ} {q : Option (List WordLike)} {lines : List TLine} {q' : Option (List WordLike)} (h : LinesFrom env width q lines q') (hq' : q' = none) :
    ∀ (v x : WordLike) (t : List WordLike), q = some (x :: t) → x.SameSize v.withoutInitKern → (∀ w ∈ v :: t, w.Plain ∧ w.boxes.length ≤ 1 ∧ w.withoutInitKern.prunedWidth ≤ width) →
    ∃ css : List (List WordLike), css.flatten = v :: t ∧ (∀ c ∈ css, c ≠ [] ∧ lineLength (atStart c) ≤ width) ∧ css.length = lines.length := by
  induction h with
  | nil q => intro v x t e; subst hq'; simp at e
  | cons ws q ln lines q' h1 h2 ih =>
    intro v x t e hx hw
    cases e
    rcases takeLine_division (by rw [hx.pruned]; exact (hw v (by simp)).2.2) (fun w hw' => by have := hw w (by simp [hw']); exact ⟨this.1, this.2.1⟩) h1 with ⟨rfl, hl⟩ | ⟨e, word, rest, d, rfl, rfl, hl, hd⟩
    · refine ⟨[v :: t], by simp, ?_, by rw [h2.from_none.1]; rfl⟩
      intro c hc
      rw [List.mem_singleton] at hc
      subst hc
      exact ⟨by simp, by rw [atStart, ← hx.line]; exact hl⟩
    · obtain ⟨css, k1, k2, k3⟩ := ih hq' word d rest rfl hd (fun w hw' => hw w (by
        rcases List.mem_cons.1 hw' with rfl | hw' <;> simp [*]))
      refine ⟨(v :: e) :: css, by simp [k1], ?_, by simp [k3]⟩
      intro c hc
      rcases List.mem_cons.1 hc with rfl | hc
      · exact ⟨by simp, by rw [atStart, ← hx.line]; exact hl⟩
      · exact k2 c hc

/-- C92, the other half: if each word fits on a line, then the number of lines is that of a division into lines that fit. -/
theorem C92_attained {ws : List WordLike} (hp : ∀ w ∈ ws, w.Plain) (hb : ∀ w ∈ ws, w.boxes.length ≤ 1) {cols : Cols} {width : ℚ} (hcol : ∀ i, (cols i).1 = width)
    (h0 : ∀ w ∈ ws.head?, w.prunedWidth ≤ width) (hf : ∀ w ∈ ws, w.withoutInitKern.prunedWidth ≤ width)
    {lead : ℚ} {avoid : Bool} {align : Align} {ae : Bool} {out : List ShapedText} (hws : ws ≠ []) (h : firstfitShape env cols lead avoid align ws ae = some out) :
    ∃ division, Division width ws division ∧ (out.flatMap ShapedText.lines).length = division.length := by
  obtain ⟨raw, -, hc, rfl⟩ := firstfit_chunks h
  have hl := hc.lines hcol
  have hlen : ((raw.map fun ls => (⟨ls.map (setLine align), lead, align, ls.length * lead⟩ : ShapedText)).flatMap ShapedText.lines).length = raw.flatten.length := by
    simp [List.flatMap_def, List.map_map, List.length_flatten, Function.comp_def]
  rw [hlen]
  generalize raw.flatten = lines at hl ⊢
  cases ws with
  | nil => exact absurd rfl hws
  | cons x t =>
    cases hl with
    | cons _ q ln lines _ h1 h2 =>
      rcases takeLine_division (h0 x rfl) (fun w hw' => ⟨hp w (by simp [hw']), hb w (by simp [hw'])⟩) h1 with ⟨rfl, hl⟩ | ⟨e, word, rest, d, rfl, rfl, hl, hd⟩
      · exact ⟨[x :: t], ⟨by simp, by simp, by simpa using hl, by simp⟩, by rw [h2.from_none.1]; rfl⟩
      · obtain ⟨css, k1, k2, k3⟩ := linesFrom_division h2 rfl word d rest rfl hd (fun w hw' => by
          have : w ∈ x :: (e ++ word :: rest) := by rcases List.mem_cons.1 hw' with rfl | hw' <;> simp [*]
          exact ⟨hp w this, hb w this, hf w this⟩)
        refine ⟨(x :: e) :: css, ⟨by simp [k1], ?_, by simpa using hl, fun l hl' => (k2 l (by simpa using hl')).2⟩, by simp [k3]⟩
        intro c hc
        rcases List.mem_cons.1 hc with rfl | hc
        · simp
        · exact (k2 c hc).1

theorem Division.mono {width width' : ℚ} (hle : width ≤ width') {ws : List WordLike} {division : List (List WordLike)} (h : Division width ws division) : Division width' ws division :=
  ⟨h.all, h.ne, fun l hl => (h.first l hl).trans hle, fun l hl => (h.rest l hl).trans hle⟩

/-- C92, for users: in wider columns the same words, each of which fits on a line, take no more lines. Heights, line spacing, alignment and the avoidance of orphans play no role. -/
theorem C92_wider {ws : List WordLike} (hws : ws ≠ []) (hp : ∀ w ∈ ws, w.Plain) (hu : Unhyphenated ws) {cols cols' : Cols} {width width' : ℚ} (hcol : ∀ i, (cols i).1 = width)
    (hcol' : ∀ i, (cols' i).1 = width') (hle : width ≤ width') (h0 : ∀ w ∈ ws.head?, w.prunedWidth ≤ width) (hf : ∀ w ∈ ws, w.withoutInitKern.prunedWidth ≤ width)
    {lead lead' : ℚ} {avoid avoid' : Bool} {align align' : Align} {ae ae' : Bool} {out out' : List ShapedText}
    (h : firstfitShape env cols lead avoid align ws ae = some out) (h' : firstfitShape env cols' lead' avoid' align' ws ae' = some out') :
    (out'.flatMap ShapedText.lines).length ≤ (out.flatMap ShapedText.lines).length := by
  obtain ⟨division, hd, e⟩ := C92_attained hp hu.whole hcol h0 hf hws h
  rw [e]
  exact C92_fewest hws hp hu hcol' h' (hd.mono hle)

/-! ### Example: "a b c" in columns 20 wide (Props/Across) -/

theorem abc_unhyphenated : Unhyphenated (indentFirst abcWords 0) where
  whole := by decide +kernel
  width := by decide +kernel
  space := by decide +kernel
  kern := by
    intro v w h
    have key : ∀ e ∈ (indentFirst abcWords 0).zip (indentFirst abcWords 0).tail, e.2.withoutInitKern.prunedWidth ≤ e.1.withoutInitKern.width + e.2.prunedWidth ∧
        e.2.withoutInitKern.width ≤ e.1.withoutInitKern.width + e.2.width := by decide +kernel
    refine key (v, w) ?_
    obtain ⟨a, b, e⟩ := h
    rw [← e, List.append_assoc]
    clear e key
    induction a with
    | nil => simp
    | cons x a ih =>
      cases a with
      | nil => simp
      | cons y a => simp only [List.cons_append, List.tail_cons, List.zip_cons_cons, List.mem_cons] at ih ⊢; exact .inr ih

/-- It takes two lines, and there is a division into two; so there is none into fewer. -/
example : ∃ c, firstfitShape (kernWorld.env shortRes) (fun _ => (20, 500)) 15 false .justify (indentFirst abcWords 0) false = some [c] ∧ c.lines.length = 2 ∧
    (∃ division, Division 20 (indentFirst abcWords 0) division ∧ division.length = 2) ∧ ∀ division, Division 20 (indentFirst abcWords 0) division → 2 ≤ division.length := by
  obtain ⟨c, h1, -, h6, -⟩ := wide_lines
  have h1 : firstfitShape (kernWorld.env shortRes) (fun _ => (20, 500)) 15 false .justify (indentFirst abcWords 0) false = some [c] := h1
  have h2 : c.lines.length = 2 := by simpa using congrArg List.length h6
  have hp : ∀ w ∈ indentFirst abcWords 0, w.Plain := by
    intro w hw
    have : w ∈ abcWords := by simpa [indentFirst, abcWords, WordLike.indent, Word.indent] using hw
    simp only [abcWords, List.mem_cons, List.not_mem_nil, or_false] at this
    rcases this with rfl | rfl | rfl <;> trivial
  have hne : indentFirst abcWords 0 ≠ [] := by simp [indentFirst, abcWords]
  refine ⟨c, h1, h2, ?_, fun division hd => ?_⟩
  · obtain ⟨division, k1, k2⟩ := C92_attained (width := 20) hp abc_unhyphenated.whole (fun _ => rfl) (by decide +kernel) (by decide +kernel) hne h1
    exact ⟨division, k1, by simpa [h2] using k2.symm⟩
  · have := C92_fewest hne hp abc_unhyphenated (fun _ => rfl) h1 hd
    simpa [h2] using this

end Pdfje
