import Verif.Proofs.Indent
import Verif.Proofs.Cut
import Verif.Proofs.Hyphenate
import Verif.Spec.Kerned
import Mathlib.Tactic.NormNum
/-
C20, C21, C27-C31, C58: words.
-/

namespace Pdfje

/-- A simple environment for examples: all characters 500 wide, "-" 300, kerning of -50 between `A` and `V`,
hyphenation function 1 cuts after every second character. -/
def demoEnv : Env where
  metrics := fun _ => ⟨fun c => if c = '-' then 300 else 500, fun p => if p = ('A', 'V') then -50 else 0⟩
  hyph := fun h s => if h = 0 then [s] else match s with | a :: b :: c :: r => [[a, b], c :: r] | s => [s]
  unicode := ⟨fun _ => none, fun _ => false, fun _ => true⟩

theorem demoEnv_ok : demoEnv.Ok where
  cuts := by
    intro h s
    by_cases h0 : h = 0
    · simp [demoEnv, h0]
    · simp only [demoEnv, h0, if_false]
      match s with
      | [] => simp
      | [_] => simp
      | [_, _] => simp
      | _ :: _ :: _ :: _ => simp
  never := by intro s; rfl

/-- States for examples. -/
def demoState (size : ℚ) (hyph : Nat := 0) : State := ⟨.subset 0, size, ⟨0, 0, 0⟩, 1, hyph⟩

/-! ### C20 -/

theorem encodeKerningLoop_text {α} (enc : List α) (w : Nat) : ∀ (k : List (Nat × ℚ)) (prev : Nat),
    (k.map (·.1)).Pairwise (· < ·) → (∀ e ∈ k, prev ≤ e.1 * w ∧ e.1 * w ≤ enc.length) → prev ≤ enc.length →
    shownText (encodeKerningLoop enc w prev k) = enc.drop prev ∧
    adjustments prev (encodeKerningLoop enc w prev k) = k.map (fun e => (e.1 * w, -e.2)) ∧
    hasSplit (encodeKerningLoop enc w prev k) = false ∧ ∃ s r, encodeKerningLoop enc w prev k = .str s :: r
  | [], prev, _, _, _ => by simp [encodeKerningLoop, shownText, adjustments, hasSplit]
  | (i, x) :: k, prev, hs, hk, hp => by
    have hi := hk (i, x) List.mem_cons_self
    obtain ⟨h1, h2, h3, s, r, h4⟩ := encodeKerningLoop_text enc w k (i * w) (List.pairwise_cons.1 hs).2
      (fun e he => ⟨Nat.mul_le_mul_right w (le_of_lt ((List.pairwise_cons.1 hs).1 e.1 (List.mem_map_of_mem he))),
        (hk e (List.mem_cons_of_mem _ he)).2⟩) hi.2
    refine ⟨?_, ?_, ?_, _, _, rfl⟩
    · simp only [encodeKerningLoop, shownText, h1]
      exact drop_take_append_drop enc prev (i * w) hi.1
    · have e : prev + ((enc.take (i * w)).drop prev).length = i * w := by
        have := hi.1; have := hi.2
        simp only at *
        simp only [List.length_drop, List.length_take]; omega
      simp only [encodeKerningLoop, adjustments, e, h2, List.map_cons]
    · simp only [encodeKerningLoop, hasSplit, h3]

/-- C20. The array written for a text encoded with `w` units per character, with adjustments at ascending character
positions: it shows exactly the encoded text; it has exactly the given adjustments, negated, each right before the
code of its character; and it is not split anywhere else. -/
theorem C20_array {α} (enc : List α) (w : Nat) (k : List (Nat × ℚ)) (hs : (k.map (·.1)).Pairwise (· < ·))
    (hk : ∀ e ∈ k, e.1 * w ≤ enc.length) :
    shownText (encodeKerning enc k w) = enc ∧
    adjustments 0 (encodeKerning enc k w) = k.map (fun e => (e.1 * w, -e.2)) ∧
    hasSplit (encodeKerning enc k w) = false := by
  unfold encodeKerning
  split
  · simp [shownText, adjustments, hasSplit]
  · rename_i x rest
    obtain ⟨h1, h2, h3, s, r, h4⟩ := encodeKerningLoop_text enc w rest 0 (List.pairwise_cons.1 hs).2
      (fun e he => ⟨Nat.zero_le _, hk e (List.mem_cons_of_mem _ he)⟩) (Nat.zero_le _)
    refine ⟨by simpa [shownText] using h1, by simp [adjustments, h2], ?_⟩
    simp only [hasSplit, h3]
  · obtain ⟨h1, h2, h3, -⟩ := encodeKerningLoop_text enc w k 0 hs (fun e he => ⟨Nat.zero_le _, hk e he⟩) (Nat.zero_le _)
    exact ⟨by simpa using h1, h2, h3⟩

/-- C20 for the adjustments the code computes from a kerning table: any text (also after a character `prev`), encoded
with any fixed number of units per character. -/
theorem C20_kerned {α} (table : Char × Char → ℚ) (s : List Char) (prev : Option Char) (code : Char → List α) (w : Nat)
    (hw : ∀ c, (code c).length = w) :
    shownText (encodeKerning (s.flatMap code) (kern table s prev) w) = s.flatMap code ∧
    (∀ i x, (i * w, -x) ∈ adjustments 0 (encodeKerning (s.flatMap code) (kern table s prev) w) ∧ 0 < w →
      ∃ a b, s[i]? = some b ∧ (if i = 0 then prev = some a else s[i - 1]? = some a) ∧ table (a, b) = x ∧ x ≠ 0) ∧
    (∀ i a b, s[i]? = some b → (if i = 0 then prev = some a else s[i - 1]? = some a) → table (a, b) ≠ 0 →
      (i * w, -table (a, b)) ∈ adjustments 0 (encodeKerning (s.flatMap code) (kern table s prev) w)) := by
  have hlen : (s.flatMap code).length = s.length * w := by
    induction s with
    | nil => simp
    | cons c s ih => simp [hw, ih]; ring
  obtain ⟨h1, h2, -⟩ := C20_array (s.flatMap code) w (kern table s prev)
    (by rw [List.pairwise_map]; exact kern_sorted table s prev)
    (by rintro e he; rw [hlen]; exact Nat.mul_le_mul_right w ((kern_ok table s prev).2 e he))
  refine ⟨h1, ?_, ?_⟩
  · rintro i x ⟨hm, hw0⟩
    rw [h2] at hm
    obtain ⟨⟨j, y⟩, hj, e⟩ := List.mem_map.1 hm
    simp only [Prod.mk.injEq, neg_inj] at e
    obtain ⟨e1, rfl⟩ := e
    have : j = i := Nat.eq_of_mul_eq_mul_right hw0 e1
    subst this
    obtain ⟨a, b, hb, hp, ht, hne⟩ := (mem_kern table s prev j y).1 hj
    refine ⟨a, b, hb, ?_, ht, hne⟩
    rcases hp with ⟨rfl, hp⟩ | ⟨k, rfl, hp⟩
    · simp [hp]
    · simp [hp]
  · intro i a b hb hp hne
    rw [h2]
    refine List.mem_map.2 ⟨(i, table (a, b)), ?_, rfl⟩
    refine (mem_kern table s prev i _).2 ⟨a, b, hb, ?_, rfl, hne⟩
    by_cases h0 : i = 0
    · rw [if_pos h0] at hp; exact Or.inl ⟨h0, hp⟩
    · rw [if_neg h0] at hp; exact Or.inr ⟨i - 1, by omega, hp⟩

example : encodeKerning [1, 1, 2, 2, 3, 3] [(0, 5), (2, -7)] 2 =
    [.adj (-5), .str [1, 1, 2, 2], .adj (- -7), .str [3, 3]] := by decide +kernel

/-! ### C21 -/

/-- C21 as stated: for the words of any styled text, the width used for layout is the viewer's advance. -/
def C21_Statement : Prop := ∀ (env : Env) (ps : List Passage) (st : State) (cmd : Command) (ws : List WordLike), env.Ok →
  intoWords env ps st = some (cmd, ws) → ∀ w ∈ ws, ∀ v : Viewer, v.In w.preState →
    (Viewer.run env.widths (encodeWords [w] []) v).2.x = v.x + w.width

theorem parse_one {env : Env} {it : List Passage} {st : State} {txt head : List Char} {w : Word} {rest : List Passage} (hne : txt ≠ [])
    (h1 : parseSimple env txt st none = some ([], .inl head)) (h2 : completeWord env it head st none = some (w, none, rest)) :
    parse env it st txt = some [.word w] := by
  rw [parse.eq_def, if_neg hne, h1]
  dsimp only
  split
  · rename_i e; rw [h2] at e; simp at e
  · rename_i e; rw [h2] at e; simp at e; obtain ⟨rfl, -⟩ := e; rfl
  · rename_i e; rw [h2] at e; simp at e

/-- The passages of `["a", Span(["", Span("b", style 2)], style 1)]`, where style 1 sets size and colour and style 2
sets colour and line spacing: the empty text between makes the two commands meet. -/
def lostStyle : List Passage :=
  [⟨.noop, ['a']⟩, ⟨.chain [.setFont (.subset 0) 20, .setColor ⟨1, 0, 0⟩], []⟩,
   ⟨.chain [.setColor ⟨0, 1, 0⟩, .setLineSpacing 2], ['b']⟩]

/-- These passages do come from such a tree of spans (the fonts aside: here a built-in font). -/
example : ((flattenItems ⟨.builtin helvetica, 10, false, false, ⟨0, 0, 0⟩, 1, 0⟩ []
    [.str ['a'], .span [.str [], .span [.str ['b']] { color := some ⟨0, 1, 0⟩, lineSpacing := some 2 }]
      { size := some 20, color := some ⟨1, 0, 0⟩ }] ⟨[], [], 0⟩).1.map fun p => (p.txt, p.cmd.ops)) =
    [(['a'], []), ([], [.tf (.builtin helvetica.regular) 20, .rg ⟨1, 0, 0⟩]), (['b'], [.rg ⟨0, 1, 0⟩])] := by
  simp only [flattenItems, flattenSpan]
  decide +kernel

theorem lostStyle_words : intoWords demoEnv lostStyle (demoState 10) = some (.noop,
    [.word ⟨[.mixed [(Slug.new demoEnv ['a'] (demoState 10) none, .chain [.setColor ⟨0, 1, 0⟩, .setLineSpacing 2]),
      (Slug.new demoEnv ['b'] ⟨.subset 0, 20, ⟨0, 1, 0⟩, 2, 0⟩ none, .noop)] ⟨.subset 0, 20, ⟨0, 1, 0⟩, 2, 0⟩], none,
      ⟨.subset 0, 20, ⟨0, 1, 0⟩, 2, 0⟩⟩]) := by
  have h : parse demoEnv lostStyle.tail (demoState 10) ['a'] = some _ :=
    parse_one (by simp) (rest := []) (head := ['a']) (by
      rw [parseSimple, allWords_eq]; rfl) rfl
  show (parse demoEnv lostStyle.tail (demoState 10) ['a']).map _ = _
  rw [h]
  rfl

/-- C21 is false when an empty text lies between two changes of style: the width of the second part is computed for
size 20, but the viewer shows it in size 10. -/
theorem C21_counterexample : ¬ C21_Statement := by
  intro h
  have := h demoEnv lostStyle (demoState 10) _ _ demoEnv_ok lostStyle_words _ List.mem_cons_self
    ⟨some (.subset 0, 10), ⟨0, 0, 0⟩, 0, 0, 0, 0⟩ ⟨rfl, rfl⟩
  revert this
  decide +kernel

/-- C21 for one word, made by any sequence of the word operations from the words of tidy passages: a viewer that uses
the font and colour of the word's start shows every character in its style, and advances by exactly the width that
layout uses. -/
theorem C21_word_partial {env : Env} (henv : env.Ok) {w : WordLike} (hw : Built env w) (v : Viewer) (hv : v.In w.preState) :
    (Viewer.run env.widths (encodeWords [w] []) v).2.x = v.x + w.width ∧
    (Viewer.run env.widths (encodeWords [w] []) v).1.map Glyph.look = w.styled.map (lookOf v.lineY) := by
  obtain ⟨g, v', h1, h2⟩ := encodeWords_shown [w] w.preState w.state ⟨hw.wf henv, rfl, rfl⟩ [] v [] v rfl hv
  rw [h1]
  exact ⟨by rw [h2.x]; simp, by simpa using h2.looks⟩

/-- C21 for a line of such words: it is as wide as the sum of the widths. -/
theorem C21_line_partial {env : Env} (henv : env.Ok) {w : WordLike} {ws : List WordLike} (hw : ∀ x ∈ w :: ws, Built env x)
    (hc : Consecutive (w :: ws)) (v : Viewer) (hv : v.In w.preState) :
    (Viewer.run env.widths (encodeWords (w :: ws) []) v).2.x = v.x + ((w :: ws).map WordLike.width).sum ∧
    (Viewer.run env.widths (encodeWords (w :: ws) []) v).1.map Glyph.look =
      ((w :: ws).flatMap WordLike.styled).map (lookOf v.lineY) := by
  obtain ⟨fin, hf⟩ := Consecutive.wordsWF (fun x hx => (hw x hx).wf henv) hc
  obtain ⟨g, v', h1, h2⟩ := encodeWords_shown (w :: ws) w.preState fin hf [] v [] v rfl hv
  rw [h1]
  exact ⟨by rw [h2.x], by simpa using h2.looks⟩

/-- The word of "AVAV " with hyphenation, for examples. -/
def demoWord : Word := ⟨[.slug (Slug.new demoEnv ['A', 'V'] (demoState 10 1) none),
  .slug (Slug.new demoEnv ['A', 'V'] (demoState 10 1) (some 'V'))], some (.make demoEnv (demoState 10 1) (some 'V')), demoState 10 1⟩

theorem demoWord_words : intoWords demoEnv [⟨.noop, ['A', 'V', 'A', 'V', ' ']⟩] (demoState 10 1) = some (.noop, [.word demoWord]) := by
  show (parse demoEnv [] (demoState 10 1) ['A', 'V', 'A', 'V', ' ']).map _ = _
  have e1 : allWords ['A', 'V', 'A', 'V', ' '] = ([['A', 'V', 'A', 'V', ' ']], []) := by
    rw [allWords_eq, show nextWord ['A', 'V', 'A', 'V', ' '] = some (['A', 'V', 'A', 'V', ' '], []) from rfl]
    simp only [allWords_eq, show nextWord [] = none from rfl]
  have e2 : parseSimple demoEnv ['A', 'V', 'A', 'V', ' '] (demoState 10 1) none = some ([], .inr demoWord) := by
    rw [parseSimple, e1]; rfl
  rw [parse.eq_def, if_neg (by simp), e2]
  rfl

theorem demoWord_built : Built demoEnv (.word demoWord) :=
  .parsed (ps := [⟨.noop, ['A', 'V', 'A', 'V', ' ']⟩]) ⟨by simp, by simp⟩ demoWord_words (by simp)

/-- The first part of that word, hyphenated and without initial kerning: C21 applies to it. -/
example : ∃ w : WordLike, Built demoEnv w ∧ w.width = 25/2 ∧ w.text = ['A', 'V', '-'] ∧
    ∀ v : Viewer, v.In w.preState → (Viewer.run demoEnv.widths (encodeWords [w] []) v).2.x = v.x + w.width := by
  have h : Built demoEnv (.word ⟨[.slug ((Slug.new demoEnv ['A', 'V'] (demoState 10 1) none).withHyphen demoEnv)], none, demoState 10 1⟩) :=
    .hyphenateFirst (b := .word ⟨[.slug (Slug.new demoEnv ['A', 'V'] (demoState 10 1) (some 'V'))],
      some (.make demoEnv (demoState 10 1) (some 'V')), demoState 10 1⟩) 15 demoWord_built (by
      simp only [WordLike.hyphenate, Word.hyphenate, demoWord]
      rw [if_neg (by decide +kernel)]
      simp only [hyphenateLoop]
      rw [if_pos (by decide +kernel)]
      rfl)
  exact ⟨_, h.withoutInitKern, by decide +kernel, by decide +kernel, fun v hv => (C21_word_partial demoEnv_ok h.withoutInitKern v hv).1⟩

/-! ### C27 -/

/-- C27 as stated. -/
def C27_Statement : Prop := ∀ (env : Env) (ps : List Passage) (st : State), env.Ok →
  ∃ cmd ws, intoWords env ps st = some (cmd, ws) ∧ ws.flatMap WordLike.styled = styled ps st

/-- It is false: an empty text after a text that ends in a break ends the paragraph; here "b" is lost. -/
theorem C27_counterexample : ¬ C27_Statement := by
  intro h
  obtain ⟨cmd, ws, h1, h2⟩ := h demoEnv [⟨.noop, ['a', ' ']⟩, ⟨.setColor ⟨1, 0, 0⟩, []⟩, ⟨.noop, ['b']⟩] (demoState 10) demoEnv_ok
  have e : intoWords demoEnv [⟨.noop, ['a', ' ']⟩, ⟨.setColor ⟨1, 0, 0⟩, []⟩, ⟨.noop, ['b']⟩] (demoState 10) =
      some (.noop, [.withCmd (.word ⟨[.slug (Slug.new demoEnv ['a'] (demoState 10) none)], some (.make demoEnv (demoState 10) (some 'a')),
        demoState 10⟩) (.setColor ⟨1, 0, 0⟩)]) := by
    show (parse demoEnv [⟨.setColor ⟨1, 0, 0⟩, []⟩, ⟨.noop, ['b']⟩] (demoState 10) ['a', ' ']).map _ = _
    have e1 : allWords ['a', ' '] = ([['a', ' ']], []) := by
      rw [allWords_eq, show nextWord ['a', ' '] = some (['a', ' '], []) from rfl]
      simp only [allWords_eq, show nextWord [] = none from rfl]
    have e2 : parseSimple demoEnv ['a', ' '] (demoState 10) none =
        some ([], .inr ⟨[.slug (Slug.new demoEnv ['a'] (demoState 10) none)], some (.make demoEnv (demoState 10) (some 'a')),
        demoState 10⟩) := by
      rw [parseSimple, e1]; rfl
    rw [parse.eq_def, if_neg (by simp), e2]
    dsimp only
    rw [parse_nil]
    rfl
  rw [e] at h1
  simp only [Option.some.injEq, Prod.mk.injEq] at h1
  rw [← h1.2] at h2
  have := congrArg List.length h2
  revert this
  decide +kernel

/-- And styles can be lost (`lostStyle`): the commands written for the second part do not give it its style. -/
theorem C27_counterexample_style : ∃ (ps : List Passage) (st : State) (cmd : Command) (ws : List WordLike) (v : Viewer),
    intoWords demoEnv ps st = some (cmd, ws) ∧ v.In (cmd.apply st) ∧
    (Viewer.run demoEnv.widths (encodeWords ws []) v).1.map Glyph.look ≠ (styled ps st).map (lookOf v.lineY) := by
  refine ⟨lostStyle, demoState 10, _, _, ⟨some (.subset 0, 10), ⟨0, 0, 0⟩, 0, 0, 0, 0⟩, lostStyle_words, ⟨rfl, rfl⟩, ?_⟩
  decide +kernel

/-- C27 for tidy passages (which is what the lines of non-empty passages are, `C27_tidy`): every character is there
once, in order, and in its style; and a viewer that starts in the state after the leading command shows just that. -/
theorem C27_text_partial {env : Env} (henv : env.Ok) (ps : List Passage) (hps : Tidy ps) (st : State) :
    ∃ cmd ws, intoWords env ps st = some (cmd, ws) ∧ ws.flatMap WordLike.styled = styled ps st ∧
      ∀ v : Viewer, v.In (cmd.apply st) →
        (Viewer.run env.widths (encodeWords ws []) v).1.map Glyph.look = (styled ps st).map (lookOf v.lineY) := by
  obtain ⟨cmd, ws, h1, -, h3⟩ := intoWords_spec henv ps st
  obtain ⟨h4, h5⟩ := h3 hps
  refine ⟨cmd, ws, h1, h5, ?_⟩
  intro v hv
  obtain ⟨g, v', k1, k2⟩ := encodeWords_shown ws _ _ h4 [] v [] v rfl hv
  rw [k1, ← h5]
  simpa using k2.looks

theorem splitFrom_inner (cmd : Command) (txt : List Char) (pos : Bool) (it : List Passage) (hit : ∀ p ∈ it, p.txt ≠ []) :
    (∀ g ∈ splitFrom cmd txt pos it, Inner g.tail ∧ ((txt ≠ [] ∨ pos = true) →
        g.tail ≠ [] → ∀ p ∈ g.head?, p.txt = [] → p.cmd.Flat)) ∧
    (txt ≠ [] → ∀ g ∈ (splitFrom cmd txt pos it).head?, Inner g) := by
  fun_induction splitFrom cmd txt pos it with
  | case1 cmd txt pos it cmd' a b h ih =>
    obtain ⟨i1, i2⟩ := ih hit
    refine ⟨?_, ?_⟩
    · intro g hg
      rcases List.mem_cons.1 hg with rfl | hg
      · exact ⟨by intro p hp; simp at hp, by simp⟩
      · exact ⟨(i1 g hg).1, fun _ => (i1 g hg).2 (Or.inr rfl)⟩
    · intro _ g hg
      simp only [List.head?_cons, Option.mem_some_iff] at hg
      subst hg
      intro p hp; simp at hp
  | case2 cmd txt pos cmd' h =>
    refine ⟨?_, ?_⟩
    · intro g hg
      simp only [List.mem_singleton] at hg
      subst hg
      exact ⟨by intro p hp; simp at hp, by simp⟩
    · intro _ g hg
      simp only [List.head?_cons, Option.mem_some_iff] at hg
      subst hg
      intro p hp; simp at hp
  | case3 cmd txt pos cmd' h p ps e ih =>
    refine ⟨?_, ?_⟩
    · intro g hg
      simp only [List.mem_singleton] at hg
      subst hg
      exact ⟨by intro p hp; simp at hp, by simp⟩
    · intro _ g hg
      simp only [List.head?_cons, Option.mem_some_iff] at hg
      subst hg
      intro p hp; simp at hp
  | case4 cmd txt pos cmd' h p ps g gs e ih =>
    obtain ⟨i1, i2⟩ := ih (fun q hq => hit q (List.mem_cons_of_mem _ hq))
    rw [e] at i1 i2
    have hp := hit p List.mem_cons_self
    have hg := i2 hp g rfl
    refine ⟨?_, ?_⟩
    · intro g' hg'
      rcases List.mem_cons.1 hg' with rfl | hg'
      · refine ⟨hg, ?_⟩
        intro hpos _ q hq hqt
        simp only [List.head?_cons, Option.mem_some_iff] at hq
        subst hq
        simp only at hqt
        rcases hpos with h0 | h0
        · exact absurd hqt h0
        · simp only [cmd', h0]; trivial
      · exact ⟨(i1 g' (List.mem_cons_of_mem _ hg')).1, fun _ => (i1 g' (List.mem_cons_of_mem _ hg')).2 (Or.inl hp)⟩
    · intro ht g' hg'
      simp only [List.head?_cons, Option.mem_some_iff] at hg'
      subst hg'
      intro q hq
      cases g with
      | nil => simp at hq
      | cons x l =>
        rw [List.dropLast_cons_cons] at hq
        rcases List.mem_cons.1 hq with rfl | hq
        · exact ht
        · exact hg q hq

/-- The lines of passages that are not empty are tidy, so for them `C27_text_partial` and `C21_line_partial` apply. -/
theorem C27_tidy (ps : List Passage) (h : ∀ p ∈ ps, p.txt ≠ []) : ∀ g ∈ splitlines ps, Tidy g := by
  intro g hg
  cases ps with
  | nil => simp [splitlines] at hg
  | cons p ps =>
    have := (splitFrom_inner p.cmd p.txt false ps (fun q hq => h q (List.mem_cons_of_mem _ hq))).1 g hg
    exact ⟨this.1, this.2 (Or.inl (h p List.mem_cons_self))⟩

/-! ### C28 -/

/-- C28. For all passages: every word but the last ends in a space, hyphen, zero-width space or em dash; and in every
word such a character is followed by another only inside a run of spaces. -/
theorem C28_breaks {env : Env} (henv : env.Ok) (ps : List Passage) (st : State) :
    ∃ cmd ws, intoWords env ps st = some (cmd, ws) ∧
      (∀ w ∈ ws.dropLast, ∃ s c, w.text = s ++ [c] ∧ (c = ' ' ∨ c = '-' ∨ c = Char.ofNat 0x200B ∨ c = Char.ofNat 0x2014)) ∧
      (∀ w ∈ ws, ∀ a c d b, w.text = a ++ c :: d :: b →
        c = ' ' ∨ c = '-' ∨ c = Char.ofNat 0x200B ∨ c = Char.ofNat 0x2014 → c = ' ' ∧ d = ' ') := by
  obtain ⟨cmd, ws, h1, h2, -⟩ := intoWords_spec henv ps st
  have hb : ∀ c, isBreak c = true ↔ (c = ' ' ∨ c = '-' ∨ c = Char.ofNat 0x200B ∨ c = Char.ofNat 0x2014) := by
    intro c
    show _ ↔ (c = ' ' ∨ c = '-' ∨ c = zwsp ∨ c = emDash)
    simp [isBreak, or_assoc]
  refine ⟨cmd, ws, h1, ?_, ?_⟩
  · intro w hw
    obtain ⟨c, hc, hbr⟩ := h2.ends w hw
    obtain ⟨l, hl⟩ := List.getLast?_eq_some_iff.1 hc
    exact ⟨l, c, hl, (hb c).1 hbr⟩
  · intro w hw a c d b e hc
    exact h2.solid w hw a c d b e ((hb c).2 hc)

/-! ### C29 -/

/-- C29. A hyphenation function whose pieces join to the word, all but the last not empty: the syllables join to
the text, whatever punctuation there is in it, and none of them is empty. -/
theorem C29_syllables (U : Unicode) (h : List Char → List (List Char))
    (hh : ∀ s, (h s).flatten = s ∧ ∀ p ∈ (h s).dropLast, p ≠ []) (s : List Char) :
    ∃ parts, intoSyllables U s h = some parts ∧ parts.flatten = s ∧ ∀ p ∈ parts, p ≠ [] :=
  intoSyllables_spec U s hh

/-- C29 for `hyphens=None`: a text is one piece. -/
theorem C29_never (U : Unicode) (s : List Char) (hs : s ≠ []) : intoSyllables U s neverHyphenate = some [s] := by
  have := intoSyllables_never U s
  rw [if_neg hs] at this
  exact this

theorem slices_spec (s : List Char) : ∀ (pos : List Nat) (start : Nat), (start :: pos).Pairwise (· < ·) →
    (∀ p ∈ pos, p ≤ s.length) → (slices s start pos).flatten = s.drop start ∧ ∀ p ∈ (slices s start pos).dropLast, p ≠ []
  | [], start, _, _ => by simp [slices]
  | p :: ps, start, h1, h2 => by
    obtain ⟨i1, i2⟩ := slices_spec s ps p (List.pairwise_cons.1 h1).2 (fun q hq => h2 q (List.mem_cons_of_mem _ hq))
    have hlt : start < p := (List.pairwise_cons.1 h1).1 p List.mem_cons_self
    have hle := h2 p List.mem_cons_self
    refine ⟨?_, ?_⟩
    · simp only [slices, List.flatten_cons, i1]
      exact drop_take_append_drop s start p (le_of_lt hlt)
    · intro q hq
      have hne : slices s p ps ≠ [] := by cases ps <;> simp [slices]
      simp only [slices, List.dropLast_cons_of_ne_nil hne] at hq
      rcases List.mem_cons.1 hq with rfl | hq
      · intro e
        have := congrArg List.length e
        simp at this
        omega
      · exact i2 q hq

/-- C29 for dictionaries (`Pyphen`) that give ascending positions inside the word: cutting there gives pieces as
`C29_syllables` wants them. -/
theorem C29_pyphen (positions : List Char → List Nat)
    (h : ∀ s, (positions s).Pairwise (· < ·) ∧ ∀ p ∈ positions s, 0 < p ∧ p ≤ s.length) (s : List Char) :
    (pyphenate positions s).flatten = s ∧ ∀ p ∈ (pyphenate positions s).dropLast, p ≠ [] := by
  unfold pyphenate
  split
  · simp
  · have := slices_spec s (positions s) 0 (List.pairwise_cons.2 ⟨fun p hp => ((h s).2 p hp).1, (h s).1⟩)
      (fun p hp => ((h s).2 p hp).2)
    simpa using this

example : intoSyllables ⟨fun _ => none, fun _ => false, fun _ => true⟩ "(abcd)ef-g".toList (demoEnv.hyph 1) =
    some ["(ab".toList, "cd)ef-g".toList] := by decide +kernel

/-! ### C30 -/

theorem splitWhere_mem (p : Char → Bool) (s : List Char) : ∀ x ∈ splitWhere p s, ∀ c ∈ x, c ∈ s ∧ p c = false := by
  induction s with
  | nil => simp [splitWhere]
  | cons a s ih =>
    intro x hx c hc
    simp only [splitWhere] at hx
    split at hx
    · rcases List.mem_cons.1 hx with rfl | hx
      · simp at hc
      · exact ⟨List.mem_cons_of_mem _ (ih x hx c hc).1, (ih x hx c hc).2⟩
    · rename_i ha
      split at hx
      · rename_i y ys e
        rcases List.mem_cons.1 hx with rfl | hx
        · rcases List.mem_cons.1 hc with rfl | hc
          · exact ⟨by simp, by simpa using ha⟩
          · have := ih y (by simp [e]) c hc
            exact ⟨List.mem_cons_of_mem _ this.1, this.2⟩
        · have := ih x (by simp [e, hx]) c hc
          exact ⟨List.mem_cons_of_mem _ this.1, this.2⟩
      · simp only [List.mem_singleton] at hx
        subst hx
        simp only [List.mem_singleton] at hc
        subst hc
        exact ⟨by simp, by simpa using ha⟩

theorem mapM_isSome {α β : Type} (f : α → Option β) : ∀ l : List α, (∀ x ∈ l, (f x).isSome) → ∃ r, l.mapM f = some r
  | [], _ => ⟨[], rfl⟩
  | x :: l, h => by
    obtain ⟨y, hy⟩ := Option.isSome_iff_exists.1 (h x List.mem_cons_self)
    obtain ⟨r, hr⟩ := mapM_isSome f l (fun z hz => h z (List.mem_cons_of_mem _ hz))
    exact ⟨y :: r, by simp [List.mapM_cons, hy, hr]⟩

/-- C30, the constructor: patterns of full stops, letters a to z and digits, and any exceptions, give a hyphenator. -/
theorem C30_new (patterns exceptions : List (List Char))
    (h : ∀ p ∈ patterns, ∀ c ∈ p, c = '.' ∨ ('a' ≤ c ∧ c ≤ 'z') ∨ ('0' ≤ c ∧ c ≤ '9')) :
    ∃ H, Hyphenator.new patterns exceptions = some H := by
  have : ∀ (ps : List (List Char)) (t : Trie),
      (∀ p ∈ ps, ∀ c ∈ p, c = '.' ∨ ('a' ≤ c ∧ c ≤ 'z') ∨ ('0' ≤ c ∧ c ≤ '9')) → ∃ t', buildTree ps t = some t' := by
    intro ps
    induction ps with
    | nil => intro t _; exact ⟨t, rfl⟩
    | cons p ps ih =>
      intro t hp
      have hpat : ∃ r, (splitWhere (fun c => c == '.' || isAZ c) p).mapM intOr0 = some r := by
        apply mapM_isSome
        intro x hx
        have hall : x.all isDigit09 = true := by
          rw [List.all_eq_true]
          intro c hc
          obtain ⟨hm, hn⟩ := splitWhere_mem _ p x hx c hc
          rcases hp p List.mem_cons_self c hm with rfl | h2 | h2
          · simp at hn
          · simp [isAZ, h2] at hn
          · simp [isDigit09, h2]
        simp only [intOr0, hall, if_true, Option.isSome_some]
      obtain ⟨r, hr⟩ := hpat
      simp only [buildTree, patternOf, hr, Option.map_some]
      exact ih _ fun q hq => hp q (List.mem_cons_of_mem _ hq)
  obtain ⟨t, ht⟩ := this patterns .nil h
  exact ⟨_, by simp only [Hyphenator.new, ht, Option.map_some]; rfl⟩

/-- C30. For every pattern table and every list of exceptions made of letters a to z and hyphens, and any word (whose
lower-casing is not shorter than it): the pieces join to the word, and only the last may be empty; words of at most
four letters are not cut; words that are not exceptions and keep their length in lower case are cut only so that
the first and the last piece have at least two characters. -/
theorem C30_builtin {patterns exceptions : List (List Char)}
    (hex : ∀ ex ∈ exceptions, ∀ c ∈ ex, ('a' ≤ c ∧ c ≤ 'z') ∨ c = '-')
    {lower : List Char → List Char} (hl : ∀ s, s.length ≤ (lower s).length) {H : Hyphenator}
    (hnew : Hyphenator.new patterns exceptions = some H) (word : List Char) :
    ∃ pieces, H.hyphenate lower word = some pieces ∧ pieces.flatten = word ∧ (∀ p ∈ pieces.dropLast, p ≠ []) ∧
      (word.length ≤ 4 → pieces = [word]) ∧
      ((lower word).length = word.length → (∀ ex ∈ exceptions, lower word ≠ ex.filter (· ≠ '-')) → 2 ≤ word.length →
        (∀ p ∈ pieces.head?, 2 ≤ p.length) ∧ (∀ p ∈ pieces.getLast?, 2 ≤ p.length)) := by
  by_cases h4 : word.length ≤ 4
  · refine ⟨[word], by simp [Hyphenator.hyphenate, h4], by simp, by simp, fun _ => rfl, ?_⟩
    intro _ _ h2
    simpa using h2
  · obtain ⟨points, h1, h2, h3⟩ := Hyphenator.points_spec (fun ex hx c hc => by
      rcases hex ex hx c hc with h | h
      · left; simp [isAZ, h]
      · exact Or.inr h) hl hnew word
    have hz : (word.zip (points.drop 2)).map (·.1) = word := by
      rw [List.map_fst_zip]; simp; omega
    refine ⟨cutPieces (word.zip (points.drop 2)) [], by simp [Hyphenator.hyphenate, h4, h1],
      by rw [cutPieces_flatten, hz]; rfl, cutPieces_nonempty _ _, fun h => absurd h h4, ?_⟩
    intro hlen hne _
    obtain ⟨k1, k2, k3, k4⟩ := h3 hne
    rw [hlen] at k1
    refine ⟨?_, ?_⟩
    · match word, points, h4, h2, k2 with
      | c :: c2 :: w, p0 :: p1 :: p2 :: p3 :: r, _, _, k2 =>
        simp only [List.getD_cons_succ, List.getD_cons_zero] at k2
        subst k2
        simp only [List.drop_succ_cons, List.drop_zero, List.zip_cons_cons, cutPieces, Nat.zero_mod, zero_ne_one, if_false, List.nil_append]
        split
        · simp
        · intro x hx
          simpa using cutPieces_head _ _ x hx
      | [], _, h4, _, _ => simp at h4
      | [_], _, h4, _, _ => simp at h4
    · obtain ⟨u, a, b, rfl⟩ : ∃ u a b, word = u ++ [a, b] := by
        rcases List.eq_nil_or_concat word with rfl | ⟨w1, b, rfl⟩
        · simp at h4
        · rcases List.eq_nil_or_concat w1 with rfl | ⟨w2, a, rfl⟩
          · simp at h4
          · exact ⟨w2, a, b, by simp⟩
      simp only [List.length_append, List.length_cons, List.length_nil] at k1 h4
      have hp : points.drop 2 = (points.drop 2).take u.length ++ [0, 0, points.getD (u.length + 4) 0] := by
        apply List.ext_getElem
        · simp; omega
        · intro i h1 h2
          simp only [List.length_drop] at h1
          simp only [List.getElem_append, List.length_take, List.length_drop, List.getElem_drop, List.getElem_take]
          split
          · rfl
          · have hi : i = u.length ∨ i = u.length + 1 ∨ i = u.length + 2 := by omega
            have hm : min u.length (points.length - 2) = u.length := by omega
            have g : ∀ j (hj : j < points.length), points[j] = points.getD j 0 := by
              intro j hj; simp [List.getD_eq_getElem?_getD, hj]
            rw [g]
            rcases hi with rfl | rfl | rfl
            · have : points.length - 3 = 2 + u.length := by omega
              rw [this] at k4
              simp only [hm, k4, Nat.sub_self]; rfl
            · have : points.length - 2 = 2 + (u.length + 1) := by omega
              rw [this] at k3
              simp only [hm, k3, Nat.add_sub_cancel_left]; rfl
            · simp only [hm, Nat.add_sub_cancel_left]
              rw [show 2 + (u.length + 2) = u.length + 4 by omega]; rfl
      have hzip : (u ++ [a, b]).zip (points.drop 2) = u.zip ((points.drop 2).take u.length) ++ [(a, 0), (b, 0)] := by
        conv_lhs => rw [hp, List.zip_append (by simp; omega)]
        simp
      rw [hzip]
      obtain ⟨y, hy⟩ := cutPieces_last (u.zip ((points.drop 2).take u.length)) [] a b
      rw [hy]
      simp

/-- The exceptions of the built-in English hyphenator are of that kind. -/
theorem C30_english : ∀ ex ∈ englishExceptions, ∀ c ∈ ex, ('a' ≤ c ∧ c ≤ 'z') ∨ c = '-' := by decide +kernel

example : (Hyphenator.new ["b1c".toList, "d1e".toList] englishExceptions).bind (·.hyphenate id "abcdef".toList) =
    some ["ab".toList, "cd".toList, "ef".toList] := by decide +kernel

/-- An exception with another letter would make the hyphenator lose characters, so the condition is needed. -/
example : (Hyphenator.new [] ["sch\u00f6-ne".toList]).bind (·.hyphenate id "sch\u00f6ne".toList) ≠
    some ["sch\u00f6ne".toList] := by decide +kernel

/-! ### C31 -/

/-- C31. A word that does not fit in `space`, where adding a hyphen makes no syllable narrower: `hyphenate` raises no
error, and either leaves the word whole (same text; then its first syllable with a hyphen does not fit, or it cannot
be cut at all), or cuts it as `CutAt` says. -/
theorem C31_hyphenate {env : Env} (henv : env.Ok) {w : WordLike} (hw : Built env w) (space : ℚ)
    (hy : ∀ b ∈ w.boxes, b.width ≤ (b.withHyphen env).width) (hns : space < w.prunedWidth) :
    (∃ b, w.hyphenate env space = some (none, b) ∧ b.styled = w.styled ∧
      (w.boxes.length ≤ 1 ∨ ∀ x ∈ w.boxes.head?, space < (x.withHyphen env).width)) ∨
    (∃ a b k, w.hyphenate env space = some (some a, b) ∧ CutAt env w a b space k) := by
  have hwf := hw.wf henv
  obtain ⟨r, hr⟩ := WordLike.hyphenate_isSome hy hns
  rcases WordLike.hyphenate_cut hr with ⟨b, rfl, hb⟩ | ⟨a, b, k, rfl, hc⟩
  · exact Or.inl ⟨b, hr, (WordLike.hyphenate_none hwf hr).styled, hb⟩
  · exact Or.inr ⟨a, b, k, hr, hc⟩

/-- C31, `minimal_box`: nothing is cut off a word of fewer than two syllables; otherwise the first syllable with a
hyphen is cut off, and the rest of the text stays. -/
theorem C31_minimalBox {env : Env} (henv : env.Ok) {w : WordLike} (hw : Built env w) :
    (w.boxes.length < 2 ∧ (w.minimalBox env).2 = none ∧ (w.minimalBox env).1.styled = w.styled) ∨
    (∃ b st l, 2 ≤ w.boxes.length ∧ (w.minimalBox env).2 = some b ∧ w.styled = l ++ b.styled ∧
      w.boxes.head?.map Box.styled = some l ∧ (w.minimalBox env).1.styled = l ++ [('-', st)]) := by
  have hwf := hw.wf henv
  have key : ∀ w : WordLike, (w.boxes.length < 2 ∧ (w.minimalBox env).2 = none ∧ (w.minimalBox env).1.styled = w.styled) ∨
    (∃ b st l, 2 ≤ w.boxes.length ∧ (w.minimalBox env).2 = some b ∧ w.styled = l ++ b.styled ∧
      w.boxes.head?.map Box.styled = some l ∧ (w.minimalBox env).1.styled = l ++ [('-', st)]) := by
    intro w
    induction w with
    | box b => left; simp [WordLike.boxes, WordLike.minimalBox]
    | word w =>
      obtain ⟨bs, t, st⟩ := w
      match bs with
      | [] => left; simp [WordLike.boxes, WordLike.minimalBox, Word.minimalBox]
      | [b] => left; simp [WordLike.boxes, WordLike.minimalBox, Word.minimalBox]
      | b :: b2 :: rest =>
        right
        refine ⟨.word ⟨b2.withoutInitKern :: rest, t, st⟩, b.state, b.styled, by simp [WordLike.boxes], rfl, ?_, rfl, ?_⟩
        · simp [WordLike.styled, Word.styled]
        · simp [WordLike.styled, Word.styled, WordLike.minimalBox, Word.minimalBox]
    | withCmd w c ih =>
      rcases ih with ⟨h1, h2, h3⟩ | ⟨b, st, l, h1, h2, h3, h4, h5⟩
      · left
        have : w.minimalBox env = ((w.minimalBox env).1, none) := Prod.ext rfl h2
        simp only [WordLike.minimalBox]
        rw [this]
        exact ⟨h1, rfl, by rw [WordLike.addCmd_styled]; exact h3⟩
      · right
        have : w.minimalBox env = ((w.minimalBox env).1, some b) := Prod.ext rfl h2
        simp only [WordLike.minimalBox]
        rw [this]
        exact ⟨b.addCmd c, st, l, h1, rfl, by rw [WordLike.addCmd_styled]; exact h3, h4, h5⟩
  exact key w

/-- The word "AVAV " of 23.5 points does not fit in 15; it is cut. -/
example : ∃ a b k, WordLike.hyphenate demoEnv 15 (.word demoWord) = some (some a, b) ∧ CutAt demoEnv (.word demoWord) a b 15 k := by
  rcases C31_hyphenate demoEnv_ok demoWord_built 15 (by
    intro b hb
    simp only [WordLike.boxes, demoWord, List.mem_cons, List.not_mem_nil, or_false] at hb
    rcases hb with rfl | rfl <;> decide +kernel) (by decide +kernel) with ⟨b, -, -, h⟩ | h
  · exfalso
    rcases h with h | h
    · revert h; simp [WordLike.boxes, demoWord]
    · have := h _ rfl
      revert this; decide +kernel
  · exact h

/-! ### C58 -/

/-- C58. Indenting the words of any styled text by any amount: a viewer shows exactly the same as without, had it
started that much further to the right; no other word is changed, and no text. -/
theorem C58_indent {env : Env} (henv : env.Ok) (ps : List Passage) (hps : Tidy ps) (st : State) (cmd : Command) (w : WordLike)
    (ws : List WordLike) (h : intoWords env ps st = some (cmd, w :: ws)) (hz : w.preState.size ≠ 0) (a : ℚ) :
    (indentFirst (w :: ws) a).tail = ws ∧
    (indentFirst (w :: ws) a).map WordLike.text = (w :: ws).map WordLike.text ∧
    ∀ v : Viewer, v.In w.preState →
      Viewer.run env.widths (encodeWords (indentFirst (w :: ws) a) []) v =
        Viewer.run env.widths (encodeWords (w :: ws) []) { v with x := v.x + a } := by
  obtain ⟨cmd', ws', h1, h2, h3⟩ := intoWords_spec henv ps st
  rw [h] at h1
  simp only [Option.some.injEq, Prod.mk.injEq] at h1
  obtain ⟨rfl, rfl⟩ := h1
  obtain ⟨h4, h5⟩ := h3 hps
  have hne : w.styled ≠ [] := by
    cases ws with
    | nil =>
      simp only [List.flatMap_cons, List.flatMap_nil, List.append_nil] at h5
      rw [h5]
      have := foldCommands_spec ps st []
      unfold intoWords at h
      generalize foldCommands ps st [] = r at *
      obtain ⟨cmd, txt, st', rest⟩ := r
      cases txt with
      | none => simp at h
      | some txt =>
        obtain ⟨g1, g2, g3⟩ := this
        rw [g3]
        simp [g1]
    | cons x l =>
      have := (h2.ends w (by simp)).ne
      intro e
      exact this (by simp [WordLike.text, e])
  refine ⟨rfl, ?_, ?_⟩
  · have : ∀ w : WordLike, (w.indent a).text = w.text := by
      intro w
      induction w with
      | box b => simp [WordLike.indent, WordLike.text, WordLike.styled]
      | word w => simp [WordLike.indent, WordLike.text, WordLike.styled]
      | withCmd w c ih =>
        simp only [WordLike.indent]
        split
        · rfl
        · exact ih
    simp [indentFirst, this]
  · intro v hv
    exact indentFirst_run h4.1 (intoWords_noInit henv ps st cmd _ h w rfl) hne hz a v hv env.widths

example : ∀ v : Viewer, v.In (demoState 10 1) →
    Viewer.run demoEnv.widths (encodeWords (indentFirst [.word demoWord] 7) []) v =
      Viewer.run demoEnv.widths (encodeWords [.word demoWord] []) { v with x := v.x + 7 } := fun v hv =>
  (C58_indent demoEnv_ok [⟨.noop, ['A', 'V', 'A', 'V', ' ']⟩] ⟨by simp, by simp⟩ (demoState 10 1) .noop (.word demoWord) []
    demoWord_words (by simp [WordLike.preState, demoWord, Word.preState, Box.preState, Slug.new, demoState]) 7).2.2 v hv

end Pdfje
