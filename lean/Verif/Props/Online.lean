import Verif.Spec.Online
import Verif.Props.Fewest
import Verif.Props.Wrapped
import Verif.Props.Written
import Verif.Props.Paragraph
import Verif.Proofs.Parse
/-
C94: text that is added at the end of a paragraph changes only its last line (first-fit).
-/

namespace Pdfje

variable {env : Env}

theorem fillLine_more (more : List WordLike) : ∀ (ws : List WordLike) (space : ℚ) {c : List WordLike} {space' : ℚ} {w : WordLike} {rest : List WordLike},
    fillLine ws space = (c, space', some (w, rest)) → fillLine (ws ++ more) space = (c, space', some (w, rest ++ more))
  | [], _, _, _, _, _, h => by simp [fillLine] at h
  | v :: ws, space, c, space', w, rest, h => by
    rw [fillLine] at h
    rw [List.cons_append, fillLine]
    split at h
    · rename_i hgt
      rw [if_pos hgt]
      simp only [Prod.mk.injEq, Option.some.injEq] at h ⊢
      obtain ⟨rfl, rfl, rfl, rfl⟩ := h
      exact ⟨rfl, rfl, rfl, rfl⟩
    · rename_i hgt
      rw [if_neg hgt]
      simp only [Prod.mk.injEq] at h
      obtain ⟨rfl, rfl, h3⟩ := h
      have := fillLine_more more ws (space - v.width) (c := (fillLine ws (space - v.width)).1) (space' := (fillLine ws (space - v.width)).2.1) (w := w) (rest := rest)
        (by rw [← h3])
      rw [this]

/-- A line that is not the last is the same if there are more words at the end. -/
theorem takeLine_more (more : List WordLike) {ws : List WordLike} {width : ℚ} {q : List WordLike} {ln : TLine} (h : takeLine env ws width = some (some q, ln)) :
    takeLine env (ws ++ more) width = some (some (q ++ more), ln) := by
  rw [takeLine] at h ⊢
  match hf : fillLine ws width with
  | (c, space, none) => simp [hf] at h
  | (c, space, some (w, rest)) =>
    rw [fillLine_more more ws width hf]
    simp only [hf] at h
    simp only
    unfold endLine at h ⊢
    split at h
    · simp at h
    · simp only [Option.some.injEq, Prod.mk.injEq] at h
      obtain ⟨rfl, rfl⟩ := h
      simp [*]
    · split at h
      · rename_i e2
        split at h
        all_goals
          rename_i e3
          simp only [Option.some.injEq, Prod.mk.injEq] at h
          obtain ⟨rfl, rfl⟩ := h
          simp [e3]
      · split at h
        · simp only [Option.some.injEq, Prod.mk.injEq] at h
          obtain ⟨rfl, rfl⟩ := h
          simp
        · split at h
          · simp at h
          · simp only [Option.some.injEq, Prod.mk.injEq] at h
            obtain ⟨rfl, rfl⟩ := h
            simp

theorem linesFrom_more (more : List WordLike) {width : ℚ} : ∀ (lines : List TLine) (ws : List WordLike) (lines' : List TLine),
    LinesFrom env width (some ws) lines none → LinesFrom env width (some (ws ++ more)) lines' none → lines.dropLast <+: lines'
  | [], _, _, h, _ => by cases h
  | ln :: lines, ws, lines', h, h' => by
    cases h with
    | cons _ q _ _ _ h1 h2 =>
      cases q with
      | none => rw [h2.from_none.1]; simp
      | some q =>
        cases h' with
        | cons _ q' ln' lines' _ h1' h2' =>
          rw [takeLine_more more h1] at h1'
          simp only [Option.some.injEq, Prod.mk.injEq] at h1'
          obtain ⟨rfl, rfl⟩ := h1'
          have := linesFrom_more more lines q lines' h2 h2'
          cases lines with
          | nil => simp
          | cons l2 lines => rw [List.dropLast_cons_cons]; exact (List.prefix_cons_inj _).2 this

/-- C94, lines: in columns of one width first-fit makes the same lines if words are added at the end, but for the last line; whether orphans are avoided or not. -/
theorem C94_lines {ws more : List WordLike} {cols : Cols} {width : ℚ} (hcol : ∀ i, (cols i).1 = width) {lead : ℚ} {avoid : Bool} {align : Align} {ae : Bool}
    {out out' : List ShapedText} (h : firstfitShape env cols lead avoid align ws ae = some out) (h' : firstfitShape env cols lead avoid align (ws ++ more) ae = some out') :
    (out.flatMap ShapedText.lines).dropLast <+: out'.flatMap ShapedText.lines := by
  obtain ⟨raw, -, hc, rfl⟩ := firstfit_chunks h
  obtain ⟨raw', -, hc', rfl⟩ := firstfit_chunks h'
  have e : ∀ raw : List (List TLine), ((raw.map fun ls => (⟨ls.map (setLine align), lead, align, ls.length * lead⟩ : ShapedText)).flatMap ShapedText.lines) = raw.flatten.map (setLine align) := by
    intro raw
    simp [List.flatMap_def, List.map_map, List.map_flatten, Function.comp_def]
  rw [e, e, ← List.map_dropLast]
  exact (linesFrom_more more _ _ _ (hc.lines hcol) (hc'.lines hcol)).map _

theorem takeLines_more (more : List WordLike) {width : ℚ} : ∀ (n : Nat) (ws : List WordLike) (prev prev' : Option (List WordLike)) {q : Option (List WordLike)} {lines : List TLine}
    {u : Option (List WordLike)} {q' : Option (List WordLike)} {lines' : List TLine} {u' : Option (List WordLike)},
    takeLines env width n (some ws) prev = some (q, lines, u) → takeLines env width n (some (ws ++ more)) prev' = some (q', lines', u') →
    (∀ qs, q = some qs → q' = some (qs ++ more) ∧ lines' = lines) ∧ (q = none → lines.dropLast <+: lines')
  | 0, ws, prev, prev', q, lines, u, q', lines', u', h, h' => by
    simp only [takeLines, Option.some.injEq, Prod.mk.injEq] at h h'
    obtain ⟨rfl, rfl, -⟩ := h
    obtain ⟨rfl, rfl, -⟩ := h'
    exact ⟨fun qs e => by cases e; exact ⟨rfl, rfl⟩, by simp⟩
  | n + 1, ws, prev, prev', q, lines, u, q', lines', u', h, h' => by
    rw [takeLines] at h h'
    split at h
    · cases h
    · rename_i qs ln e
      rw [Option.map_eq_some_iff] at h
      obtain ⟨⟨x, y, z⟩, h, h2⟩ := h
      simp only [Prod.mk.injEq] at h2
      obtain ⟨rfl, rfl, rfl⟩ := h2
      cases qs with
      | none =>
        have : x = none ∧ y = [] := by
          cases n <;> simp only [takeLines, Option.some.injEq, Prod.mk.injEq] at h <;> exact ⟨h.1.symm, h.2.1.symm⟩
        obtain ⟨rfl, rfl⟩ := this
        exact ⟨fun qs e => (by cases e), by simp⟩
      | some qs =>
        rw [takeLine_more more e] at h'
        simp only [Option.map_eq_some_iff] at h'
        obtain ⟨⟨x', y', z'⟩, h', h2⟩ := h'
        simp only [Prod.mk.injEq] at h2
        obtain ⟨rfl, rfl, rfl⟩ := h2
        obtain ⟨g1, g2⟩ := takeLines_more more n qs (some ws) (some (ws ++ more)) h h'
        refine ⟨fun q hq => ?_, fun hq => ?_⟩
        · obtain ⟨a, b⟩ := g1 q hq
          exact ⟨a, by rw [b]⟩
        · cases y with
          | nil => simp
          | cons l2 y => rw [List.dropLast_cons_cons]; exact (List.prefix_cons_inj _).2 (g2 hq)

theorem shapeSimple_more (more : List WordLike) (cols : Cols) (lead : ℚ) (i : Nat) (ws : List WordLike) (ae : Bool) (out : List (List TLine))
    (h : shapeSimple env cols lead i (some ws) ae = some out) : ∀ out', shapeSimple env cols lead i (some (ws ++ more)) ae = some out' →
      ∃ same a b rest, out = same ++ [a] ∧ out' = same ++ b :: rest ∧ a.dropLast <+: b := by
  refine shapeSimple.partial_correctness env cols lead (fun i q ae out => ∀ ws, q = some ws → ∀ out', shapeSimple env cols lead i (some (ws ++ more)) ae = some out' →
      ∃ same a b rest, out = same ++ [a] ∧ out' = same ++ b :: rest ∧ a.dropLast <+: b) ?_ i (some ws) ae out h ws rfl
  rintro f ih i _ ae out h ws rfl out' h'
  rw [shapeSimple] at h'
  split at h
  · cases h
  · rename_i q lines u e
    split at h'
    · cases h'
    · rename_i q' lines' u' e'
      unfold takeBox at e e'
      split at e
      · cases e
      · rename_i hl
        rw [if_neg hl] at e'
        obtain ⟨g1, g2⟩ := takeLines_more more _ ws _ _ e e'
        cases q with
        | none =>
          simp only [Option.some.injEq] at h
          subst h
          refine ⟨[], lines, lines', ?_⟩
          split at h'
          · simp only [Option.some.injEq] at h'
            subst h'
            exact ⟨[], rfl, rfl, g2 rfl⟩
          · simp only [Option.bind_eq_bind, Option.bind_eq_some_iff, Option.some.injEq] at h'
            obtain ⟨m, -, rfl⟩ := h'
            exact ⟨m, rfl, rfl, g2 rfl⟩
        | some qs =>
          obtain ⟨rfl, rfl⟩ := g1 qs rfl
          simp only [Option.bind_eq_bind, Option.bind_eq_some_iff, Option.some.injEq] at h h'
          obtain ⟨m, hm, rfl⟩ := h
          obtain ⟨m', hm', rfl⟩ := h'
          obtain ⟨same, a, b, rest, rfl, rfl, hp⟩ := ih _ _ _ _ hm qs rfl m' hm'
          exact ⟨lines' :: same, a, b, rest, rfl, rfl, hp⟩

/-- C94, columns: without the avoidance of orphans, in columns of any widths and heights, all columns before the last one are the same if words are added at the end, and so are all lines but the
last in that column. -/
theorem C94_columns {ws more : List WordLike} {cols : Cols} {lead : ℚ} {align : Align} {ae : Bool}
    {out out' : List ShapedText} (h : firstfitShape env cols lead false align ws ae = some out) (h' : firstfitShape env cols lead false align (ws ++ more) ae = some out') :
    ∃ same a b rest, out = same ++ [a] ∧ out' = same ++ b :: rest ∧ a.lead = b.lead ∧ a.align = b.align ∧ a.lines.dropLast <+: b.lines := by
  obtain ⟨raw, hr, -, rfl⟩ := firstfit_chunks h
  obtain ⟨raw', hr', -, rfl⟩ := firstfit_chunks h'
  obtain ⟨same, a, b, rest, rfl, rfl, hp⟩ := shapeSimple_more more cols lead 0 ws ae raw (by simpa using hr) raw' (by simpa using hr')
  refine ⟨same.map fun ls => ⟨ls.map (setLine align), lead, align, ls.length * lead⟩, ⟨a.map (setLine align), lead, align, a.length * lead⟩, ⟨b.map (setLine align), lead, align, b.length * lead⟩,
    rest.map fun ls => ⟨ls.map (setLine align), lead, align, ls.length * lead⟩, by simp, by simp, rfl, rfl, ?_⟩
  simp only [← List.map_dropLast]
  exact hp.map _

/-! ### From texts to words -/

theorem nextWord_more (t : List Char) : ∀ (s a b : List Char), nextWord s = some (a, b) → (b = [] → t.head? ≠ some ' ') → nextWord (s ++ t) = some (a, b ++ t)
  | [], _, _, h, _ => by simp [nextWord] at h
  | c :: s, a, b, h, ht => by
    rw [nextWord] at h
    rw [List.cons_append, nextWord]
    split at h
    · rename_i hc
      rw [if_pos hc]
      simp only [Option.some.injEq, Prod.mk.injEq] at h ⊢
      obtain ⟨rfl, rfl⟩ := h
      clear hc
      induction s with
      | nil =>
        cases t with
        | nil => simp
        | cons d t =>
          have : ¬ d = ' ' := fun e => ht rfl (by rw [e]; rfl)
          simp [this]
      | cons d s ih =>
        by_cases hd : d = ' '
        · subst hd
          have := ih (by simpa using ht)
          simpa using this
        · simp [hd]
    · rename_i hc
      rw [if_neg hc]
      split at h
      · rename_i hb
        rw [if_pos hb]
        simp only [Option.some.injEq, Prod.mk.injEq] at h ⊢
        obtain ⟨rfl, rfl⟩ := h
        exact ⟨rfl, rfl⟩
      · rename_i hb
        rw [if_neg hb]
        simp only [Option.map_eq_some_iff, Prod.exists, Prod.mk.injEq] at h
        obtain ⟨a', b', h, rfl, rfl⟩ := h
        rw [nextWord_more t s a' b' h ht]
        rfl

theorem allWords_more (t : List Char) (ht : t.head? ≠ some ' ') : ∀ (n : Nat) (s : List Char), s.length < n → (allWords s).2 = [] →
    allWords (s ++ t) = ((allWords s).1 ++ (allWords t).1, (allWords t).2)
  | 0, _, h, _ => absurd h (by omega)
  | n + 1, s, h, h2 => by
    cases e : nextWord s with
    | none =>
      rw [allWords_eq, e] at h2
      simp only at h2
      subst h2
      rw [allWords_eq [], e]
      simp
    | some ab =>
      obtain ⟨a, b⟩ := ab
      have hlt := nextWord_lt _ _ _ e
      rw [allWords_eq s, e] at h2
      simp only at h2
      have ih := allWords_more t ht n b (by omega) h2
      rw [allWords_eq (s ++ t), nextWord_more t s a b e (fun _ => ht), allWords_eq s, e]
      simp [ih]

theorem allWords_ends {s : List Char} {c : Char} (h : s.getLast? = some c) (hc : isBreak c = true) : (allWords s).2 = [] := by
  obtain ⟨g1, -, g3, -⟩ := allWords_spec _ s (Nat.lt_succ_self _)
  by_contra hne
  have : s.getLast? = (allWords s).2.getLast? := by
    conv_lhs => rw [← g1]
    rw [List.getLast?_append_of_ne_nil _ hne]
  rw [this] at h
  have := g3 c (List.mem_of_getLast? h)
  rw [hc] at this
  cases this

theorem makeWords_append (st : State) : ∀ (a b : List (List Char)) (prev : Option Char) {ws : List Word}, makeWords env st (a ++ b) prev = some ws →
    ∃ x y, makeWords env st a prev = some x ∧ ws = x ++ y
  | [], b, prev, ws, h => ⟨[], ws, rfl, rfl⟩
  | w :: a, b, prev, ws, h => by
    rw [List.cons_append, makeWords] at h
    rw [makeWords]
    split at h
    · cases h
    · rename_i x e
      rw [Option.map_eq_some_iff] at h
      obtain ⟨ws', h, rfl⟩ := h
      obtain ⟨x', y, h1, rfl⟩ := makeWords_append st a b _ h
      exact ⟨x :: x', y, by simp [h1], rfl⟩

/-- The words of a single text. -/
theorem parse_single {st : State} {s : List Char} {ws : List WordLike} (h : parse env [] st s = some ws) :
    ∃ x y, makeWords env st (allWords s).1 none = some x ∧ ws = x.map .word ++ y ∧ ((allWords s).2 = [] → y = []) := by
  rw [parse] at h
  split at h
  · rename_i e
    subst e
    simp only [Option.some.injEq] at h
    subst h
    rw [allWords_eq]
    exact ⟨[], [], rfl, rfl, fun _ => rfl⟩
  · rename_i hs
    unfold parseSimple at h
    obtain ⟨g1, -, -, g4⟩ := allWords_spec _ s (Nat.lt_succ_self _)
    match e : allWords s with
    | ([], left) =>
      have : left = s := by have := g4 (by rw [e]); rw [e] at this; exact this
      subst this
      exact ⟨[], ws, rfl, rfl, fun h0 => absurd h0 hs⟩
    | (m :: ms, left) =>
      simp only [e] at h
      cases hm : makeWords env st (m :: ms) none with
      | none => simp [hm] at h
      | some x =>
        simp only [hm] at h
        refine ⟨x, ?_⟩
        by_cases hl : left = []
        · subst hl
          simp only [ne_eq, not_true_eq_false, if_false] at h
          refine ⟨[], rfl, ?_, fun _ => rfl⟩
          rcases List.eq_nil_or_concat x with rfl | ⟨x', l, rfl⟩
          · simp at h
          · simp only [List.concat_eq_append, List.getLast?_append, List.getLast?_singleton, Option.some_or, List.dropLast_concat, Option.some.injEq] at h
            rw [← h]; simp
        · simp only [ne_eq, hl, not_false_eq_true, if_true] at h
          have hc : ∀ z, completeWord env [] left st none = some z → z.2.1 = none := by
            intro z hz
            simp only [completeWord, takeParts, Option.map_eq_some_iff] at hz
            obtain ⟨w, -, rfl⟩ := hz
            rfl
          split at h
          · cases h
          · simp only [Option.some.injEq] at h
            exact ⟨_, rfl, h.symm, fun h0 => absurd h0 hl⟩
          · rename_i hz
            have := hc _ hz
            cases this

theorem parse_more {st : State} {s t : List Char} (hs : EndsInBreak s) (ht : t.head? ≠ some ' ') {ws ws' : List WordLike}
    (h : parse env [] st s = some ws) (h' : parse env [] st (s ++ t) = some ws') : ∃ more, ws' = ws ++ more := by
  obtain ⟨c, hc, hb⟩ := hs
  have e := allWords_ends hc hb
  obtain ⟨x, y, h1, rfl, hy⟩ := parse_single h
  obtain ⟨x', y', h1', rfl, -⟩ := parse_single h'
  rw [allWords_more t ht _ s (Nat.lt_succ_self _) e] at h1'
  obtain ⟨x2, z, h2, rfl⟩ := makeWords_append st _ _ _ h1'
  rw [h1] at h2
  simp only [Option.some.injEq] at h2
  subst h2
  rw [hy e]
  exact ⟨z.map .word ++ y', by simp⟩

theorem intoWords_single {c : Command} {s : List Char} {st : State} {cmd : Command} {ws : List WordLike} (h : intoWords env [⟨c, s⟩] st = some (cmd, ws)) :
    (s = [] ∧ ws = []) ∨ parse env [] (c.apply st) s = some ws := by
  unfold intoWords at h
  by_cases hs : s = []
  · subst hs
    simp [foldCommands] at h
    exact Or.inl ⟨rfl, h.2⟩
  · simp [foldCommands, hs] at h
    exact Or.inr h.1

theorem intoWords_more {c : Command} {s t : List Char} (hs : s = [] ∨ (EndsInBreak s ∧ t.head? ≠ some ' ')) {st : State} {cmd cmd' : Command} {ws ws' : List WordLike}
    (h : intoWords env [⟨c, s⟩] st = some (cmd, ws)) (h' : intoWords env [⟨c, s ++ t⟩] st = some (cmd', ws')) : ∃ more, ws' = ws ++ more := by
  rcases intoWords_single h with ⟨rfl, rfl⟩ | h
  · exact ⟨ws', rfl⟩
  · rcases hs with rfl | ⟨hs, ht⟩
    · rw [parse] at h
      simp only [if_true, Option.some.injEq] at h
      subst h
      exact ⟨ws', rfl⟩
    · rcases intoWords_single h' with ⟨e, -⟩ | h'
      · obtain ⟨c, hc, -⟩ := hs
        rw [(List.append_eq_nil_iff.1 e).1] at hc
        cases hc
      · exact parse_more hs ht h h'

/-! ### Lines of a text -/

theorem nextNewline_more (t : List Char) : ∀ (s a b : List Char), nextNewline s = some (a, b) → nextNewline (s ++ t) = some (a, b ++ t)
  | [], _, _, h => by simp [nextNewline] at h
  | c :: s, a, b, h => by
    by_cases hn : c = '\n'
    · subst hn
      simp only [nextNewline, Option.some.injEq, Prod.mk.injEq] at h
      obtain ⟨rfl, rfl⟩ := h
      rfl
    · by_cases hr : c = '\r' ∧ s.head? = some '\n'
      · obtain ⟨rfl, hr⟩ := hr
        cases s with
        | nil => simp at hr
        | cons d s =>
          simp only [List.head?_cons, Option.some.injEq] at hr
          subst hr
          simp only [nextNewline, Option.some.injEq, Prod.mk.injEq] at h
          obtain ⟨rfl, rfl⟩ := h
          rfl
      · have e : ∀ u : List Char, ¬ (c = '\r' ∧ u.head? = some '\n') → nextNewline (c :: u) = (nextNewline u).map fun (a, b) => (c :: a, b) := by
          intro u hu
          rw [nextNewline.eq_def]
          split
          · rename_i h0; cases h0
          · rename_i h0; cases h0; simp at hu
          · rename_i h0; cases h0; simp at hn
          · rename_i h0; cases h0; rfl
        rw [e s hr] at h
        simp only [Option.map_eq_some_iff, Prod.exists, Prod.mk.injEq] at h
        obtain ⟨a', b', h, rfl, rfl⟩ := h
        have hne : s ≠ [] := by rintro rfl; simp [nextNewline] at h
        rw [List.cons_append, e (s ++ t) (by rw [List.head?_append_of_ne_nil _ hne]; exact hr), nextNewline_more t s a' b' h]
        rfl

theorem nextNewline_through (t : List Char) : ∀ (s : List Char) (c : Char), s.getLast? = some c → c ≠ '\n' → c ≠ '\r' → nextNewline s = none →
    nextNewline (s ++ t) = (nextNewline t).map fun (a, b) => (s ++ a, b)
  | [], _, h, _, _, _ => by simp at h
  | d :: s, c, h, h1, h2, h3 => by
    have hd : d ≠ '\n' := by rintro rfl; simp [nextNewline] at h3
    have hr : ¬ (d = '\r' ∧ s.head? = some '\n') := by
      rintro ⟨rfl, hr⟩
      cases s with
      | nil => simp at hr
      | cons x s =>
        simp only [List.head?_cons, Option.some.injEq] at hr
        subst hr
        simp [nextNewline] at h3
    have e : ∀ u : List Char, ¬ (d = '\r' ∧ u.head? = some '\n') → nextNewline (d :: u) = (nextNewline u).map fun (a, b) => (d :: a, b) := by
      intro u hu
      rw [nextNewline.eq_def]
      split
      · rename_i h0; cases h0
      · rename_i h0; cases h0; simp at hu
      · rename_i h0; cases h0; simp at hd
      · rename_i h0; cases h0; rfl
    cases s with
    | nil =>
      simp only [List.getLast?_singleton, Option.some.injEq] at h
      subst h
      rw [List.cons_append, e _ (by simp [h2])]
      rfl
    | cons x s =>
      rw [e _ hr, Option.map_eq_none_iff] at h3
      rw [List.cons_append, e _ (by simpa using hr), nextNewline_through t (x :: s) c (by simpa using h) h1 h2 h3]
      simp [Function.comp_def]

theorem nextNewline_tail {s a b : List Char} (h : nextNewline s = some (a, b)) (hb : b ≠ []) : s.getLast? = b.getLast? := by
  have : ∃ x, s = x ++ b := by
    clear hb
    induction s generalizing a with
    | nil => simp [nextNewline] at h
    | cons c s ih =>
      unfold nextNewline at h
      split at h
      · cases h
      · rename_i h0
        cases h0
        simp only [Option.some.injEq, Prod.mk.injEq] at h
        exact ⟨['\r', '\n'], by rw [h.2]; rfl⟩
      · rename_i h0
        cases h0
        simp only [Option.some.injEq, Prod.mk.injEq] at h
        exact ⟨['\n'], by rw [h.2]; rfl⟩
      · rename_i h0
        cases h0
        simp only [Option.map_eq_some_iff, Prod.exists, Prod.mk.injEq] at h
        obtain ⟨a', b', h, -, rfl⟩ := h
        obtain ⟨x, rfl⟩ := ih h
        exact ⟨c :: x, rfl⟩
  obtain ⟨x, rfl⟩ := this
  rw [List.getLast?_append_of_ne_nil _ hb]

theorem nextNewline_of_newline : ∀ {s : List Char}, s.getLast? = some '\n' → nextNewline s ≠ none
  | [], h => by simp at h
  | c :: s, h => by
    unfold nextNewline
    split
    · rename_i h0; cases h0
    · simp
    · simp
    · rename_i h0 h1 h2
      cases h2
      cases s with
      | nil =>
        simp only [List.getLast?_singleton, Option.some.injEq] at h
        subst h
        exact absurd rfl h1
      | cons x s =>
        have := nextNewline_of_newline (s := x :: s) (by simpa using h)
        simpa using this

/-- The lines of the longer text: those of the shorter one, but the last of them may be longer. -/
theorem splitFrom_more (cmd : Command) (t : List Char) : ∀ (n : Nat) (s : List Char) (pos : Bool), s.length < n → (s = [] ∨ EndsBefore s t) →
    ∃ init c l l' rest, splitFrom cmd s pos [] = init ++ [[⟨c, l⟩]] ∧ splitFrom cmd (s ++ t) pos [] = init ++ [⟨c, l ++ l'⟩] :: rest ∧
      (l = [] ∨ (EndsInBreak l ∧ l'.head? ≠ some ' '))
  | 0, _, _, h, _ => absurd h (by omega)
  | n + 1, s, pos, h, hs => by
    by_cases hs0 : s = []
    · subst hs0
      rw [splitFrom_none (by rfl : nextNewline [] = none)]
      cases e : nextNewline t with
      | none => exact ⟨[], _, [], t, [], rfl, by rw [List.nil_append, splitFrom_none e]; rfl, Or.inl rfl⟩
      | some ab => exact ⟨[], _, [], ab.1, _, rfl, by rw [List.nil_append, splitFrom_some (a := ab.1) (b := ab.2) e]; rfl, Or.inl rfl⟩
    · have hs := hs.resolve_left hs0
      cases e : nextNewline s with
      | none =>
        obtain ⟨⟨c, hc, hb⟩, ht⟩ := hs
        have hcn : c ≠ '\n' := by rintro rfl; exact nextNewline_of_newline hc e
        have hb := hb.resolve_right hcn
        have hcr : c ≠ '\r' := by rintro rfl; revert hb; decide
        rw [splitFrom_none e]
        have g := nextNewline_through t s c hc hcn hcr e
        cases e' : nextNewline t with
        | none =>
          rw [e'] at g
          exact ⟨[], _, s, t, [], rfl, by rw [splitFrom_none (by rw [g]; rfl)]; rfl, Or.inr ⟨⟨c, hc, hb⟩, ht⟩⟩
        | some ab =>
          rw [e'] at g
          refine ⟨[], _, s, ab.1, _, rfl, by rw [splitFrom_some (a := s ++ ab.1) (b := ab.2) (by rw [g]; rfl)]; rfl, Or.inr ⟨⟨c, hc, hb⟩, ?_⟩⟩
          intro ha
          apply ht
          obtain ⟨a, b⟩ := ab
          cases t with
          | nil => simp [nextNewline] at e'
          | cons x t =>
            unfold nextNewline at e'
            split at e'
            · cases e'
            · simp only [Option.some.injEq, Prod.mk.injEq] at e'; rw [← e'.1] at ha; cases ha
            · simp only [Option.some.injEq, Prod.mk.injEq] at e'; rw [← e'.1] at ha; cases ha
            · rename_i h0
              cases h0
              simp only [Option.map_eq_some_iff, Prod.exists, Prod.mk.injEq] at e'
              obtain ⟨a', b', -, rfl, -⟩ := e'
              exact ha
      | some ab =>
        obtain ⟨a, b⟩ := ab
        have hlt := nextNewline_lt _ _ _ e
        rw [splitFrom_some e, splitFrom_some (nextNewline_more t s a b e)]
        have hb : b = [] ∨ EndsBefore b t := by
          by_cases hb : b = []
          · exact Or.inl hb
          · obtain ⟨⟨c, hc, hc'⟩, ht⟩ := hs
            exact Or.inr ⟨⟨c, by rw [← nextNewline_tail e hb]; exact hc, hc'⟩, ht⟩
        obtain ⟨init, c, l, l', rest, g1, g2, g3⟩ := splitFrom_more cmd t n b true (by omega) hb
        exact ⟨[⟨if pos then .noop else cmd, a⟩] :: init, c, l, l', rest, by rw [g1]; rfl, by rw [g2]; rfl, g3⟩

/-! ### Paragraphs -/

theorem addChunks_append : ∀ (a b : List ShapedText) (cs : Nat → ColumnFill), addChunks (a ++ b) cs = addChunks a cs ++ addChunks b fun n => cs (n + a.length)
  | [], _, _ => rfl
  | x :: a, b, cs => by
    rw [List.cons_append, addChunks, addChunks, addChunks_append a b, List.cons_append]
    simp only [List.length_cons]
    congr 2

theorem fillParagraph_more (p : Paragraph) (hopt : p.optimal = none) (havoid : p.avoidOrphans = false) {c : Command} {l l' : List Char}
    (hl : l = [] ∨ (EndsInBreak l ∧ l'.head? ≠ some ' ')) {cs : Nat → ColumnFill} {st : State} {lead : ℚ} {out out' : List ColumnFill} {fin fin' : State}
    (h : fillParagraph p env [⟨c, l⟩] cs st lead = some (out, fin)) (h' : fillParagraph p env [⟨c, l ++ l'⟩] cs st lead = some (out', fin')) :
    ∃ same a b rest, out = same ++ [a] ∧ out' = same ++ b :: rest ∧ a.SameButLastLine b := by
  unfold fillParagraph at h h'
  split at h
  · cases h
  · rename_i cmd ws e
    split at h'
    · cases h'
    · rename_i cmd' ws' e'
      obtain ⟨more, rfl⟩ := intoWords_more hl e e'
      simp only [Option.map_eq_some_iff, Prod.mk.injEq, Paragraph.shape, hopt, havoid] at h h'
      obtain ⟨chunks, h, rfl, -⟩ := h
      obtain ⟨chunks', h', rfl, -⟩ := h'
      have hi : ∃ more', indentFirst (ws ++ more) p.indent = indentFirst ws p.indent ++ more' := by
        cases ws with
        | nil => exact ⟨_, rfl⟩
        | cons w ws => exact ⟨more, rfl⟩
      obtain ⟨more', hi⟩ := hi
      rw [hi] at h'
      obtain ⟨same, a, b, rest, rfl, rfl, h1, h2, h3⟩ := C94_columns h h'
      rw [addChunks_append, addChunks_append]
      exact ⟨_, _, _, _, rfl, rfl, rfl, _, _, a, b, [], rfl, rfl, h1, h2, h3⟩

theorem addChunks_grows : ∀ (ts : List ShapedText) (cs : Nat → ColumnFill) (i : Nat) (col : ColumnFill), (addChunks ts cs)[i]? = some col → col.box = (cs i).box ∧ (cs i).blocks <+: col.blocks
  | [], _, _, _, h => by simp [addChunks] at h
  | t :: ts, cs, 0, col, h => by
    simp only [addChunks, List.getElem?_cons_zero, Option.some.injEq] at h
    subst h
    exact ⟨rfl, List.prefix_append _ _⟩
  | t :: ts, cs, i + 1, col, h => by
    simp only [addChunks, List.getElem?_cons_succ] at h
    exact addChunks_grows ts _ i col h

/-- The first column that comes back is the first one, with more in it. -/
theorem paragraphLoop_grows (p : Paragraph) (env : Env) (lead : ℚ) : ∀ (gs : List (List Passage)) (cs : Nat → ColumnFill) (st : State) (out : List ColumnFill),
    paragraphLoop p env lead gs cs st = some out → ∃ b rest, out = b :: rest ∧ b.box = (cs 0).box ∧ (cs 0).blocks <+: b.blocks
  | [], cs, st, out, h => by
    simp only [paragraphLoop, Option.some.injEq] at h
    exact ⟨cs 0, [], h.symm, rfl, List.prefix_refl _⟩
  | g :: gs, cs, st, out, h => by
    rw [paragraphLoop] at h
    split at h
    · cases h
    · rename_i done st' e
      split at h
      · cases h
      · rename_i col hcol
        rw [Option.map_eq_some_iff] at h
        obtain ⟨more, h, rfl⟩ := h
        obtain ⟨b, rest, rfl, h1, h2⟩ := paragraphLoop_grows p env lead gs _ _ more h
        have hd : ∀ i c, done[i]? = some c → c.box = (cs i).box ∧ (cs i).blocks <+: c.blocks := by
          unfold fillParagraph at e
          split at e
          · cases e
          · rw [Option.map_eq_some_iff] at e
            obtain ⟨chunks, -, e⟩ := e
            simp only [Prod.mk.injEq] at e
            rw [← e.1]
            exact addChunks_grows chunks cs
        match done, hcol, hd with
        | [x], hcol, hd =>
          simp only [List.getLast?_singleton, Option.some.injEq] at hcol
          subst hcol
          obtain ⟨g1, g2⟩ := hd 0 x rfl
          exact ⟨b, rest, rfl, h1.trans g1, g2.trans h2⟩
        | x :: y :: done, hcol, hd =>
          obtain ⟨g1, g2⟩ := hd 0 x rfl
          exact ⟨x, _, rfl, g1, g2⟩

theorem paragraphLoop_more (p : Paragraph) (hopt : p.optimal = none) (havoid : p.avoidOrphans = false) {lead : ℚ} {c : Command} {l l' : List Char}
    (hl : l = [] ∨ (EndsInBreak l ∧ l'.head? ≠ some ' ')) (rest : List (List Passage)) : ∀ (init : List (List Passage)) (cs : Nat → ColumnFill) (st : State) (out out' : List ColumnFill),
    paragraphLoop p env lead (init ++ [[⟨c, l⟩]]) cs st = some out → paragraphLoop p env lead (init ++ [⟨c, l ++ l'⟩] :: rest) cs st = some out' →
    ∃ same a b more, out = same ++ [a] ∧ out' = same ++ b :: more ∧ a.SameButLastLine b
  | [], cs, st, out, out', h, h' => by
    rw [List.nil_append, paragraphLoop] at h h'
    split at h
    · cases h
    · rename_i done st1 e
      split at h'
      · cases h'
      · rename_i done' st1' e'
        obtain ⟨same, a, b, more, rfl, rfl, hb, before, pos, s, t, after, h1, h2, h3⟩ := fillParagraph_more p hopt havoid hl e e'
        simp only [List.getLast?_append, List.getLast?_singleton, Option.some_or, List.dropLast_concat, paragraphLoop, Option.map_some, Option.some.injEq, consStream] at h
        subst h
        split at h'
        · cases h'
        · rename_i col hcol
          rw [Option.map_eq_some_iff] at h'
          obtain ⟨out2, h', rfl⟩ := h'
          obtain ⟨b2, rest2, rfl, g1, g2⟩ := paragraphLoop_grows p env lead rest _ _ out2 h'
          simp only [consStream] at g1 g2
          cases more with
          | nil =>
            simp only [List.getLast?_append, List.getLast?_singleton, Option.some_or, Option.some.injEq] at hcol
            subst hcol
            obtain ⟨z, g2⟩ := g2
            refine ⟨same, a, b2, rest2, rfl, by simp, hb.trans g1.symm, before, pos, s, t, after ++ z, h1, ?_, h3⟩
            rw [← g2, h2]; simp
          | cons m ms =>
            refine ⟨same, a, b, (m :: ms).dropLast ++ b2 :: rest2, rfl, ?_, hb, before, pos, s, t, after, h1, h2, h3⟩
            rw [List.dropLast_append_of_ne_nil (by simp), List.dropLast_cons_cons]
            simp
  | g :: init, cs, st, out, out', h, h' => by
    rw [List.cons_append, paragraphLoop] at h h'
    split at h
    · cases h
    · rename_i done st1 e
      rw [e] at h'
      simp only at h'
      split at h
      · cases h
      · rename_i col hcol
        rw [hcol] at h'
        simp only [Option.map_eq_some_iff] at h h'
        obtain ⟨x, h, rfl⟩ := h
        obtain ⟨x', h', rfl⟩ := h'
        obtain ⟨same, a, b, more, rfl, rfl, hs⟩ := paragraphLoop_more p hopt havoid hl rest init _ _ x x' h h'
        exact ⟨done.dropLast ++ same, a, b, more, by simp, by simp, hs⟩

/-- C94. A paragraph of text is set by first-fit, without the avoidance of orphans; and again, with more text at the end, after a place where a line may end. Then all columns before the last one are
the same; and in that column, all that was there before the paragraph, and all lines but the last, are the same, in the same place. -/
theorem C94_text (w : World) (r : Res) (base : StyleFull) (p : Paragraph) (hopt : p.optimal = none) (havoid : p.avoidOrphans = false) (s t : List Char) (hs : EndsBefore s t)
    (cs : Nat → ColumnFill) {out out' : List ColumnFill} {r1 r2 : Res} (h : Paragraph.intoColumns { p with content := [.str s] } w r base cs = (some out, r1))
    (h' : Paragraph.intoColumns { p with content := [.str (s ++ t)] } w r base cs = (some out', r2)) :
    r1 = r2 ∧ ∃ same a b more, out = same ++ [a] ∧ out' = same ++ b :: more ∧ a.SameButLastLine b := by
  have hne : s ≠ [] := by
    rintro rfl
    obtain ⟨⟨c, hc, -⟩, -⟩ := hs
    cases hc
  unfold Paragraph.intoColumns at h h'
  simp only [flattenSpan, flattenItems, splitlines, Prod.mk.injEq] at h h'
  obtain ⟨h, rfl⟩ := h
  obtain ⟨h', rfl⟩ := h'
  refine ⟨rfl, ?_⟩
  obtain ⟨init, c, l, l', rest, g1, g2, g3⟩ := splitFrom_more (squash (runTodo ([] ++ [Pending.style p.style (base.or p.style)]) ((base.or p.style).asState r).2).1) t _ s false (Nat.lt_succ_self _) (Or.inr hs)
  rw [g1] at h
  rw [g2] at h'
  have hm : ∀ (c : Command) (st : State), maxLead [⟨c, s ++ t⟩] st = maxLead [⟨c, s⟩] st := by
    intro c st
    simp [maxLead, maxLeadLoop, hne]
  rw [hm] at h'
  exact paragraphLoop_more p hopt havoid g3 rest init cs _ out out' (by rw [← h]; exact (paragraphLoop_with p [.str s] p.style _ _ _ _ _).symm)
    (by rw [← h']; exact (paragraphLoop_with p [.str (s ++ t)] p.style _ _ _ _ _).symm)

/-- A paragraph that is set by first-fit; orphans are not avoided. -/
def onlineShort : Paragraph := ⟨[], Style.empty, .left, 0, false, none⟩

theorem online_done (s : List Char) (hs : s ≠ []) : ∃ out r', Paragraph.intoColumns { onlineShort with content := [.str s] } demoWorld Res.empty faceStyle (fun _ => ColumnFill.new ⟨(0, 0), 10, 40⟩) =
    (some out, r') := by
  have hsz : 0 < (faceStyle.or Style.empty).size ∧ 0 < (faceStyle.or Style.empty).lineSpacing := by decide +kernel
  refine C35_paragraph_partial demoWorld demoWorld_ok demoWorld_hyphen faceStyle { onlineShort with content := [.str s] } rfl Res.empty (fun _ => ColumnFill.new ⟨(0, 0), 10, 40⟩)
    (fun j _ => by simp [ColumnFill.new]) (fun e he => by simp [itemsStrings, Item.strings] at he; subst he; exact hs) hsz (fun r' e he => ?_)
  have hor : faceStyle.overlay [Style.empty] = faceStyle.or Style.empty := by
    have := overlay_snoc faceStyle [] Style.empty
    rw [overlay_nil] at this
    exact this
  simp [onlineShort, contentStrings, itemsStrings, Item.strings, hor] at he
  subst he
  exact hsz

/-- The hypotheses of `C94_text` are met. -/
example : EndsBefore ['a', '-', 'b', ' '] ['c', ' ', 'd'] ∧ ∃ out out' r1 r2,
    Paragraph.intoColumns { onlineShort with content := [.str ['a', '-', 'b', ' ']] } demoWorld Res.empty faceStyle (fun _ => ColumnFill.new ⟨(0, 0), 10, 40⟩) = (some out, r1) ∧
    Paragraph.intoColumns { onlineShort with content := [.str (['a', '-', 'b', ' '] ++ ['c', ' ', 'd'])] } demoWorld Res.empty faceStyle (fun _ => ColumnFill.new ⟨(0, 0), 10, 40⟩) = (some out', r2) ∧
    ∃ same a b more, out = same ++ [a] ∧ out' = same ++ b :: more ∧ a.SameButLastLine b := by
  have he : EndsBefore ['a', '-', 'b', ' '] ['c', ' ', 'd'] := ⟨⟨' ', rfl, Or.inl (by decide)⟩, by simp⟩
  obtain ⟨out, r1, h⟩ := online_done ['a', '-', 'b', ' '] (by simp)
  obtain ⟨out', r2, h'⟩ := online_done (['a', '-', 'b', ' '] ++ ['c', ' ', 'd']) (by simp)
  exact ⟨he, out, out', r1, r2, h, h', (C94_text demoWorld Res.empty faceStyle onlineShort rfl rfl _ _ he _ h h').2⟩

end Pdfje
