import Verif.Spec.Joints
import Verif.Props.Online
/-
Cutting a passage into two at a place where a line may end.
-/

namespace Pdfje

variable {env : Env}

/-- A passage may be cut here. -/
structure Joint (env : Env) (s t : List Char) : Prop where
  brk : EndsInBreak s
  space : t.head? ≠ some ' '
  kern : ∀ c d, s.getLast? = some c → t.head? = some d → ∀ f, (env.metrics f).kerning (c, d) = 0

theorem Joint.ne {s t : List Char} (h : Joint env s t) : s ≠ [] := by
  rintro rfl
  obtain ⟨c, hc, -⟩ := h.brk
  cases hc

theorem kern_free {table : Char × Char → ℚ} {c d : Char} (h : table (c, d) = 0) (s : List Char) : kern table (d :: s) (some c) = kern table (d :: s) none := by
  simp [kern, pairwise, enumerateFrom, h]

theorem wordNew_free (hcut : ∀ n, Cuts (env.hyph n)) {c d : Char} (h : ∀ f, (env.metrics f).kerning (c, d) = 0) (hd : d ≠ ' ') (s : List Char) (st : State) :
    Word.new env (d :: s) st (some c) = Word.new env (d :: s) st none := by
  have key : ∀ u : List Char, u.head? = some d → ∀ parts, parts.flatten = u → (∀ p ∈ parts, p ≠ []) → slugsOf env st parts (some c) = slugsOf env st parts none := by
    intro u hu parts hp hn
    cases parts with
    | nil => rfl
    | cons p parts =>
      cases p with
      | nil => exact absurd rfl (hn [] (by simp))
      | cons x p =>
        rw [← hp] at hu
        simp only [List.flatten_cons, List.cons_append, List.head?_cons, Option.some.injEq] at hu
        subst hu
        have : Slug.new env (x :: p) st (some c) = Slug.new env (x :: p) st none := by
          simp only [Slug.new, kern_free (h _)]
        simp only [slugsOf, this]
  have hpar : ∀ prev, ∃ u tail, u.head? = some d ∧ TrailingSpace.parse env (d :: s) st prev = (u, tail) ∧ TrailingSpace.parse env (d :: s) st none = (u, tail) := by
    intro prev
    unfold TrailingSpace.parse
    split
    · rename_i hl
      cases s with
      | nil => simp at hl; exact absurd hl hd
      | cons x s =>
        have hq : ∀ prev : Option Char, (match (d :: x :: s).dropLast.getLast? with | some c => some c | none => prev) = (d :: x :: s).dropLast.getLast? := by
          intro prev
          cases e : (d :: x :: s).dropLast.getLast? with
          | none => simp at e
          | some y => rfl
        exact ⟨(d :: x :: s).dropLast, some (.make env st (d :: x :: s).dropLast.getLast?), by simp,
          congrArg (fun e => ((d :: x :: s).dropLast, some (TrailingSpace.make env st e))) (hq prev),
          congrArg (fun e => ((d :: x :: s).dropLast, some (TrailingSpace.make env st e))) (hq none)⟩
    · exact ⟨_, _, rfl, rfl, rfl⟩
  obtain ⟨u, tail, hu, h1, h2⟩ := hpar (some c)
  unfold Word.new
  rw [h1, h2]
  simp only
  obtain ⟨parts, e, hf, hn⟩ := intoSyllables_spec env.unicode u (hcut st.hyphens)
  rw [e]
  simp only [key u hu parts hf hn]

theorem makeWords_append_eq (st : State) : ∀ (a b : List (List Char)) (prev : Option Char), (∀ x ∈ a, x ≠ []) →
    makeWords env st (a ++ b) prev = (makeWords env st a prev).bind fun x => (makeWords env st b (match a.getLast? with | some l => l.getLast? | none => prev)).map (x ++ ·)
  | [], b, prev, _ => by simp [makeWords]
  | w :: a, b, prev, h => by
    rw [List.cons_append, makeWords, makeWords]
    cases Word.new env w st prev with
    | none => rfl
    | some x =>
      simp only
      rw [makeWords_append_eq st a b _ (fun y hy => h y (by simp [hy]))]
      have : (match a.getLast? with | some l => l.getLast? | none => w.getLast?) = (match (w :: a).getLast? with | some l => l.getLast? | none => prev) := by
        cases e : a.getLast? with
        | none => rw [List.getLast?_eq_none_iff] at e; subst e; rfl
        | some l => rw [List.getLast?_cons, e]; rfl
      rw [this]
      cases makeWords env st a w.getLast? <;> simp [Option.map_map, Function.comp_def]

theorem parseSimple_cut (hcut : ∀ n, Cuts (env.hyph n)) {s t : List Char} (hj : Joint env s t) (ht : t ≠ []) (st : State) :
    parseSimple env (s ++ t) st none = (makeWords env st (allWords s).1 none).bind fun ws => (parseSimple env t st none).map fun e => (ws ++ e.1, e.2) := by
  obtain ⟨c, hc, hb⟩ := hj.brk
  have he := allWords_ends hc hb
  obtain ⟨hs1, hs2, -, -⟩ := allWords_spec _ s (Nat.lt_succ_self _)
  rw [he, List.append_nil] at hs1
  obtain ⟨ht1, ht2, -, ht4⟩ := allWords_spec _ t (Nat.lt_succ_self _)
  have hne : (allWords s).1 ≠ [] := by
    intro e
    rw [e] at hs1
    exact hj.ne hs1.symm
  have hsolid : ∀ x ∈ (allWords s).1, x ≠ [] := by
    intro x hx e
    obtain ⟨c, h, -⟩ := (hs2 x hx).2
    rw [e] at h
    cases h
  have hlast : (match (allWords s).1.getLast? with | some l => l.getLast? | none => none) = some c := by
    cases e : (allWords s).1.getLast? with
    | none => rw [List.getLast?_eq_none_iff] at e; exact absurd e hne
    | some l =>
      obtain ⟨i, e⟩ := List.getLast?_eq_some_iff.1 e
      rw [e, List.flatten_append] at hs1
      simp only [List.flatten_cons, List.flatten_nil, List.append_nil] at hs1
      have hl : l ≠ [] := hsolid l (by rw [e]; simp)
      rw [← hs1, List.getLast?_append_of_ne_nil _ hl] at hc
      exact hc
  have hfree : makeWords env st (allWords t).1 (some c) = makeWords env st (allWords t).1 none := by
    cases e : (allWords t).1 with
    | nil => rfl
    | cons x xs =>
      have hx : x ≠ [] := by
        obtain ⟨c, h, -⟩ := (ht2 x (by rw [e]; simp)).2
        intro e
        rw [e] at h
        cases h
      obtain ⟨d, x, rfl⟩ := List.exists_cons_of_ne_nil hx
      have hd : t.head? = some d := by rw [← ht1, e]; rfl
      simp only [makeWords, wordNew_free hcut (hj.kern c d hc hd) (by rintro rfl; exact hj.space hd)]
  have hmw := makeWords_append_eq (env := env) st (allWords s).1 (allWords t).1 none hsolid
  rw [hlast, hfree] at hmw
  unfold parseSimple
  rw [allWords_more t hj.space _ s (Nat.lt_succ_self _) he]
  obtain ⟨y, ys, ey⟩ := List.exists_cons_of_ne_nil hne
  rw [ey] at hmw ⊢
  simp only [List.cons_append] at hmw ⊢
  rw [hmw]
  cases makeWords env st (y :: ys) none with
  | none => rfl
  | some ws =>
    simp only [Option.bind_some]
    cases e : allWords t with
    | mk ms left =>
      rw [e] at ht4
      cases ms with
      | nil =>
        have := ht4 rfl
        simp only at this
        subst this
        simp [makeWords, ht]
      | cons m ms =>
        simp only
        cases hm : makeWords env st (m :: ms) none with
        | none => rfl
        | some ws' =>
          simp only [Option.map_some]
          split
          · rfl
          · have hw : ws' ≠ [] := by
              rw [makeWords] at hm
              rintro rfl
              split at hm
              · cases hm
              · simp at hm
            rw [List.getLast?_append_of_ne_nil _ hw, List.dropLast_append_of_ne_nil hw]
            cases ws'.getLast? <;> rfl

theorem parseSimple_words {s t : List Char} (hj : Joint env s t) (st : State) :
    parseSimple env s st none = (makeWords env st (allWords s).1 none).bind fun ws => (ws.getLast?).map fun l => (ws.dropLast, .inr l) := by
  obtain ⟨c, hc, hb⟩ := hj.brk
  have he := allWords_ends hc hb
  obtain ⟨hs1, -, -, -⟩ := allWords_spec _ s (Nat.lt_succ_self _)
  rw [he, List.append_nil] at hs1
  unfold parseSimple
  cases e : allWords s with
  | mk ms left =>
    rw [e] at he hs1
    simp only at he hs1
    subst he
    cases ms with
    | nil => exact absurd hs1.symm hj.ne
    | cons m ms =>
      simp only
      cases makeWords env st (m :: ms) none with
      | none => rfl
      | some ws => cases h : ws.getLast? <;> simp [h]

theorem joint_words {s t : List Char} (hj : Joint env s t) {st : State} {ws : List Word} (hm : makeWords env st (allWords s).1 none = some ws) : ws ≠ [] := by
  rintro rfl
  have : (allWords s).1 = [] := by
    cases e : (allWords s).1 with
    | nil => rfl
    | cons x xs =>
      rw [e, makeWords] at hm
      split at hm
      · cases hm
      · simp at hm
  obtain ⟨c, hc, hb⟩ := hj.brk
  obtain ⟨hs1, -, -, -⟩ := allWords_spec _ s (Nat.lt_succ_self _)
  rw [this, allWords_ends hc hb] at hs1
  exact hj.ne hs1.symm

/-- A passage that is cut into two. -/
theorem parse_cut (hcut : ∀ n, Cuts (env.hyph n)) {s t : List Char} (hj : Joint env s t) {post : List Passage} (ht : t ≠ [] ∨ post = []) (st : State) :
    parse env (⟨.noop, t⟩ :: post) st s = parse env post st (s ++ t) := by
  have left : parse env (⟨.noop, t⟩ :: post) st s = (makeWords env st (allWords s).1 none).bind fun ws => (parse env post st t).map (ws.map .word ++ ·) := by
    rw [parse, if_neg hj.ne, parseSimple_words hj]
    cases hm : makeWords env st (allWords s).1 none with
    | none => rfl
    | some ws =>
      simp only [Option.bind_some]
      cases e : ws.getLast? with
      | none =>
        rw [List.getLast?_eq_none_iff] at e
        exact absurd e (joint_words hj hm)
      | some l =>
        obtain ⟨i, rfl⟩ := List.getLast?_eq_some_iff.1 e
        simp [WordLike.addCmd, Command.apply]
  rw [left]
  by_cases h0 : t = []
  · subst h0
    have := ht.resolve_left (by simp)
    subst this
    rw [parse_nil, List.append_nil, parse, if_neg hj.ne, parseSimple_words hj]
    cases hm : makeWords env st (allWords s).1 none with
    | none => rfl
    | some ws =>
      simp only [Option.bind_some]
      cases e : ws.getLast? with
      | none => rw [List.getLast?_eq_none_iff] at e; exact absurd e (joint_words hj hm)
      | some l =>
        obtain ⟨i, rfl⟩ := List.getLast?_eq_some_iff.1 e
        simp
  · rw [parse.eq_def env post st (s ++ t), parse.eq_def env post st t, if_neg h0, if_neg (by simp [h0]), parseSimple_cut hcut hj h0]
    cases makeWords env st (allWords s).1 none with
    | none => rfl
    | some ws =>
      simp only [Option.bind_some]
      rcases parseSimple env t st none with _ | ⟨ws', head | last⟩
      · rfl
      · simp only [Option.map_some]
        split
        · rfl
        · simp
        · split
          · simp [Option.map_map, Function.comp_def]
          · split <;> simp [Option.map_map, Function.comp_def]
      · simp only [Option.map_some]
        cases post <;> simp [Option.map_map, Function.comp_def]

theorem nextWord_ends {s : List Char} (h : EndsInBreak s) : ∃ a b, nextWord s = some (a, b) ∧ (b = [] ∨ s.getLast? = b.getLast?) := by
  obtain ⟨c, hc, hb⟩ := h
  induction s with
  | nil => cases hc
  | cons x s ih =>
    rw [nextWord]
    split
    · refine ⟨_, _, rfl, ?_⟩
      by_cases h0 : s.dropWhile (· = ' ') = []
      · exact .inl h0
      · right
        have e : x :: s = (x :: s.takeWhile (· = ' ')) ++ s.dropWhile (· = ' ') := by rw [List.cons_append, List.takeWhile_append_dropWhile]
        rw [e, List.getLast?_append_of_ne_nil _ h0]
    · split
      · refine ⟨_, _, rfl, ?_⟩
        cases s with
        | nil => exact .inl rfl
        | cons y s => exact .inr (by rw [List.getLast?_cons_cons])
      · rename_i h1 h2
        cases s with
        | nil =>
          exfalso
          simp only [List.getLast?_singleton, Option.some.injEq] at hc
          subst hc
          simp only [isBreak, Bool.or_eq_true, decide_eq_true_eq] at hb
          tauto
        | cons y s =>
          obtain ⟨a, b, e, h⟩ := ih (by rw [← hc, List.getLast?_cons_cons])
          exact ⟨x :: a, b, by rw [e]; rfl, h.imp id fun h => by rw [List.getLast?_cons_cons, h]⟩

/-- The parts of a word. -/
theorem takeParts_cut {c : Command} {s t : List Char} (hj : Joint env s t) (post : List Passage) : ∀ (pre : List Passage), ∃ parts sp, parts ≠ [] ∧
    ((∃ l pre', takeParts (pre ++ ⟨c, s⟩ :: ⟨.noop, t⟩ :: post) = (parts, sp, some l, pre' ++ ⟨c, s⟩ :: ⟨.noop, t⟩ :: post) ∧
        takeParts (pre ++ ⟨c, s ++ t⟩ :: post) = (parts, sp, some l, pre' ++ ⟨c, s ++ t⟩ :: post) ∧ pre'.length < pre.length) ∨
      ∃ b, takeParts (pre ++ ⟨c, s⟩ :: ⟨.noop, t⟩ :: post) = (parts, sp, some b, ⟨.noop, t⟩ :: post) ∧
        takeParts (pre ++ ⟨c, s ++ t⟩ :: post) = (parts, sp, some (b ++ t), post) ∧ (b = [] ∨ Joint env b t))
  | [] => by
    obtain ⟨a, b, e, hb⟩ := nextWord_ends hj.brk
    have e' := nextWord_more t s a b e (fun _ => hj.space)
    have hb' : b = [] ∨ Joint env b t := hb.imp id fun h => ⟨by obtain ⟨c, hc, h'⟩ := hj.brk; exact ⟨c, by rw [← h]; exact hc, h'⟩, hj.space, by rw [← h]; exact hj.kern⟩
    simp only [List.nil_append, takeParts, e, e']
    split
    · exact ⟨_, _, by simp, .inr ⟨b, rfl, rfl, hb'⟩⟩
    · exact ⟨_, _, by simp, .inr ⟨b, rfl, rfl, hb'⟩⟩
  | p :: pre => by
    simp only [List.cons_append, takeParts]
    cases nextWord p.txt with
    | some ab =>
      obtain ⟨a, b⟩ := ab
      simp only
      split
      · exact ⟨_, _, by simp, .inl ⟨b, pre, rfl, rfl, by simp⟩⟩
      · exact ⟨_, _, by simp, .inl ⟨b, pre, rfl, rfl, by simp⟩⟩
    | none =>
      obtain ⟨parts, sp, -, h⟩ := takeParts_cut (c := c) hj post pre
      refine ⟨(p.cmd, p.txt) :: parts, sp, by simp, ?_⟩
      rcases h with ⟨l, pre', h1, h2, h3⟩ | ⟨b, h1, h2, h3⟩
      · exact .inl ⟨l, pre', by rw [h1], by rw [h2], by simp only [List.length_cons]; omega⟩
      · exact .inr ⟨b, by rw [h1], by rw [h2], h3⟩

theorem parse_inl {it : List Passage} {st : State} {txt : List Char} (h0 : txt ≠ []) {ws : List Word} {head : List Char} (hs : parseSimple env txt st none = some (ws, .inl head))
    {last : Word} {left : List Char} {rest : List Passage} (hc : completeWord env it head st none = some (last, some left, rest)) :
    parse env it st txt = if left ≠ [] then (parse env rest last.state left).map fun more => ws.map .word ++ .word last :: more
        else
          match rest with
          | [] => some (ws.map .word ++ [.word last])
          | p :: it' => (parse env it' (p.cmd.apply last.state) p.txt).map fun more => ws.map .word ++ (WordLike.word last).addCmd p.cmd :: more := by
  rw [parse.eq_def, if_neg h0, hs]
  simp only
  split
  · rename_i h; rw [hc] at h; cases h
  · rename_i h; rw [hc] at h; simp at h
  · rename_i h
    rw [hc] at h
    simp only [Option.some.injEq, Prod.mk.injEq] at h
    obtain ⟨rfl, rfl, rfl⟩ := h
    cases rest <;> rfl

theorem parse_cut_later (hcut : ∀ n, Cuts (env.hyph n)) {c : Command} {s t : List Char} (hj : Joint env s t) {post : List Passage} (ht : t ≠ [] ∨ post = []) :
    ∀ (n : Nat) (pre : List Passage) (st : State) (txt : List Char), pre.length < n →
      parse env (pre ++ ⟨c, s⟩ :: ⟨.noop, t⟩ :: post) st txt = parse env (pre ++ ⟨c, s ++ t⟩ :: post) st txt
  | 0, _, _, _, h => absurd h (by omega)
  | n + 1, pre, st, txt, hn => by
    by_cases h0 : txt = []
    · subst h0; rw [parse_nil, parse_nil]
    · cases hs : parseSimple env txt st none with
      | none => rw [parse.eq_def _ (pre ++ ⟨c, s⟩ :: ⟨.noop, t⟩ :: post), parse.eq_def _ (pre ++ ⟨c, s ++ t⟩ :: post), if_neg h0, if_neg h0, hs]
      | some e =>
      obtain ⟨ws, head | last⟩ := e
      · obtain ⟨parts, sp, hne, h⟩ := takeParts_cut (c := c) hj post pre
        have hcw : ∃ last, ∀ it l rest, takeParts it = (parts, sp, l, rest) → completeWord env it head st none = some (last, l, rest) := by
          refine ⟨⟨[.mixed (segmentsLoop env parts (Slug.new env head st none) [] st (Slug.new env head st none).last).1
              (segmentsLoop env parts (Slug.new env head st none) [] st (Slug.new env head st none).last).2.1],
              if sp then some (TrailingSpace.make env (segmentsLoop env parts (Slug.new env head st none) [] st (Slug.new env head st none).last).2.1
                (segmentsLoop env parts (Slug.new env head st none) [] st (Slug.new env head st none).last).2.2) else none,
              (segmentsLoop env parts (Slug.new env head st none) [] st (Slug.new env head st none).last).2.1⟩, ?_⟩
          intro it l rest h
          unfold completeWord
          rw [h]
          obtain ⟨x, xs, rfl⟩ := List.exists_cons_of_ne_nil hne
          rfl
        obtain ⟨last, hcw⟩ := hcw
        rcases h with ⟨l, pre', h1, h2, h3⟩ | ⟨b, h1, h2, h3⟩
        · rw [parse_inl h0 hs (hcw _ _ _ h1), parse_inl h0 hs (hcw _ _ _ h2)]
          split
          · rw [parse_cut_later hcut hj ht n pre' _ _ (by omega)]
          · cases pre' with
            | nil => simp only [List.nil_append, parse_cut hcut hj ht]
            | cons p pre' =>
              simp only [List.cons_append]
              rw [parse_cut_later hcut hj ht n pre' _ _ (by simp only [List.length_cons] at h3; omega)]
        · rw [parse_inl h0 hs (hcw _ _ _ h1), parse_inl h0 hs (hcw _ _ _ h2)]
          rcases h3 with rfl | h3
          · simp only [List.nil_append, ne_eq, not_true_eq_false, if_false]
            by_cases ht0 : t = []
            · have := ht.resolve_left (by simp [ht0])
              subst this ht0
              simp [parse_nil, WordLike.addCmd]
            · simp [ht0, WordLike.addCmd, Command.apply]
          · rw [if_pos h3.ne, if_pos (by simp [h3.ne]), parse_cut hcut h3 ht]
      · rw [parse.eq_def _ (pre ++ ⟨c, s⟩ :: ⟨.noop, t⟩ :: post), parse.eq_def _ (pre ++ ⟨c, s ++ t⟩ :: post), if_neg h0, if_neg h0, hs]
        simp only
        cases pre with
        | nil => simp only [List.nil_append, parse_cut hcut hj ht]
        | cons p pre =>
          simp only [List.cons_append]
          rw [parse_cut_later hcut hj ht n pre _ _ (by simp only [List.length_cons] at hn; omega)]

theorem foldCommands_cut {c : Command} {s t : List Char} (hj : Joint env s t) (post : List Passage) : ∀ (pre : List Passage) (st : State) (buf : List Command),
    (∃ cmd st', foldCommands (pre ++ ⟨c, s⟩ :: ⟨.noop, t⟩ :: post) st buf = (cmd, some s, st', ⟨.noop, t⟩ :: post) ∧
        foldCommands (pre ++ ⟨c, s ++ t⟩ :: post) st buf = (cmd, some (s ++ t), st', post)) ∨
      ∃ cmd st' txt pre', foldCommands (pre ++ ⟨c, s⟩ :: ⟨.noop, t⟩ :: post) st buf = (cmd, some txt, st', pre' ++ ⟨c, s⟩ :: ⟨.noop, t⟩ :: post) ∧
        foldCommands (pre ++ ⟨c, s ++ t⟩ :: post) st buf = (cmd, some txt, st', pre' ++ ⟨c, s ++ t⟩ :: post)
  | [], st, buf => by
    left
    simp only [List.nil_append, foldCommands]
    rw [if_pos hj.ne, if_pos (by simp [hj.ne])]
    exact ⟨_, _, rfl, rfl⟩
  | p :: pre, st, buf => by
    simp only [List.cons_append, foldCommands]
    split
    · exact .inr ⟨_, _, _, pre, rfl, rfl⟩
    · exact foldCommands_cut hj post pre _ _

/-- A line of passages, and the same with one of them cut into two. -/
inductive Joined (env : Env) : List Passage → List Passage → Prop
  | mk (pre : List Passage) (c : Command) {s t : List Char} (hj : Joint env s t) {post : List Passage} (ht : t ≠ [] ∨ post = []) :
    Joined env (pre ++ ⟨c, s⟩ :: ⟨.noop, t⟩ :: post) (pre ++ ⟨c, s ++ t⟩ :: post)

theorem intoWords_cut (hcut : ∀ n, Cuts (env.hyph n)) {g g' : List Passage} (h : Joined env g g') (st : State) : intoWords env g st = intoWords env g' st := by
  obtain ⟨pre, c, hj, ht⟩ := h
  unfold intoWords
  rcases foldCommands_cut (c := c) hj _ pre st [] with ⟨cmd, st', h1, h2⟩ | ⟨cmd, st', txt, pre', h1, h2⟩
  · rw [h1, h2]
    simp only [parse_cut hcut hj ht]
  · rw [h1, h2]
    simp only [parse_cut_later hcut hj ht _ pre' _ _ (Nat.lt_succ_self _)]

/-! ### Lines -/

theorem splitFrom_again (c c' : Command) (it : List Passage) : ∀ (n : Nat) (t : List Char), t.length < n → splitFrom c t true it = splitFrom c' t true it
  | 0, _, h => absurd h (by omega)
  | n + 1, t, h => by
    cases e : nextNewline t with
    | none => rw [splitFrom_none e, splitFrom_none e]; rfl
    | some ab =>
      obtain ⟨a, b⟩ := ab
      have := nextNewline_lt _ _ _ e
      rw [splitFrom_some e, splitFrom_some e, splitFrom_again c c' it n b (by omega)]
      rfl

theorem nextNewline_rest {s a : List Char} (h : nextNewline s = some (a, [])) : s.getLast? = some '\n' := by
  induction s generalizing a with
  | nil => simp [nextNewline] at h
  | cons c s ih =>
    unfold nextNewline at h
    split at h
    · cases h
    · rename_i h0
      cases h0
      simp only [Option.some.injEq, Prod.mk.injEq] at h
      rw [h.2]; rfl
    · rename_i h0
      cases h0
      simp only [Option.some.injEq, Prod.mk.injEq] at h
      rw [h.2]; rfl
    · rename_i h0
      cases h0
      simp only [Option.map_eq_some_iff, Prod.exists, Prod.mk.injEq] at h
      obtain ⟨a', b', h, -, rfl⟩ := h
      have := ih h
      rw [List.getLast?_cons, this]; rfl

theorem nextNewline_head {t a b : List Char} (h : nextNewline t = some (a, b)) : a = [] ∨ a.head? = t.head? := by
  cases t with
  | nil => simp [nextNewline] at h
  | cons x t =>
    unfold nextNewline at h
    split at h
    · cases h
    · simp only [Option.some.injEq, Prod.mk.injEq] at h; exact .inl h.1.symm
    · simp only [Option.some.injEq, Prod.mk.injEq] at h; exact .inl h.1.symm
    · rename_i h0
      cases h0
      simp only [Option.map_eq_some_iff, Prod.exists, Prod.mk.injEq] at h
      obtain ⟨a', b', -, rfl, -⟩ := h
      exact .inr rfl

/-- The same line, or one that is cut. -/
def JoinedOr (env : Env) (g g' : List Passage) : Prop := g = g' ∨ Joined env g g'

theorem joinedOr_refl (gs : List (List Passage)) : List.Forall₂ (JoinedOr env) gs gs := by
  induction gs with
  | nil => exact .nil
  | cons a l ih => exact .cons (.inl rfl) ih

theorem splitFrom_cut {t : List Char} {post : List Passage} (ht : t ≠ [] ∨ post = []) (cmd : Command) : ∀ (n : Nat) (s : List Char) (pos : Bool), s.length < n → Joint env s t →
    List.Forall₂ (JoinedOr env) (splitFrom cmd s pos (⟨.noop, t⟩ :: post)) (splitFrom cmd (s ++ t) pos post)
  | 0, _, _, h, _ => absurd h (by omega)
  | n + 1, s, pos, h, hj => by
    obtain ⟨c, hc, hb⟩ := hj.brk
    have hcn : c ≠ '\n' := by rintro rfl; revert hb; decide
    have hcr : c ≠ '\r' := by rintro rfl; revert hb; decide
    cases e : nextNewline s with
    | some ab =>
      obtain ⟨a, b⟩ := ab
      have hlt := nextNewline_lt _ _ _ e
      have hb0 : b ≠ [] := by
        rintro rfl
        have := nextNewline_rest e
        rw [hc] at this
        exact hcn (by simpa using this)
      have hl := nextNewline_tail e hb0
      rw [splitFrom_some e, splitFrom_some (nextNewline_more t s a b e)]
      exact .cons (.inl rfl) (splitFrom_cut ht cmd n b true (by omega) ⟨⟨c, by rw [← hl]; exact hc, hb⟩, hj.space, by rw [← hl]; exact hj.kern⟩)
    | none =>
      have g := nextNewline_through t s c hc hcn hcr e
      rw [splitFrom_none e]
      simp only
      cases e' : nextNewline t with
      | none =>
        rw [e'] at g
        rw [splitFrom_none e', splitFrom_none (txt := s ++ t) g]
        cases post with
        | nil => exact .cons (.inr (.mk [] _ hj (.inr rfl))) .nil
        | cons p ps =>
          simp only
          obtain ⟨g1, gs, eg⟩ := List.exists_cons_of_ne_nil (splitFrom_ne p.cmd p.txt false ps)
          rw [eg]
          exact .cons (.inr (.mk [] _ hj (.inl (ht.resolve_right (by simp))))) (joinedOr_refl _)
      | some ab =>
        obtain ⟨a, b⟩ := ab
        rw [e'] at g
        rw [splitFrom_some e', splitFrom_some (txt := s ++ t) (a := s ++ a) (b := b) g, splitFrom_again cmd .noop post _ b (Nat.lt_succ_self _)]
        have hja : Joint env s a := by
          rcases nextNewline_head e' with rfl | ha
          · exact ⟨hj.brk, by simp, by simp⟩
          · exact ⟨hj.brk, by rw [ha]; exact hj.space, by rw [ha]; exact hj.kern⟩
        exact .cons (.inr (.mk [] _ hja (.inr rfl))) (joinedOr_refl _)

theorem splitFrom_cut_later {s t : List Char} (hj : Joint env s t) {post : List Passage} (ht : t ≠ [] ∨ post = []) (c : Command) : ∀ (pre : List Passage) (n : Nat) (cmd : Command) (txt : List Char)
    (pos : Bool), txt.length < n → List.Forall₂ (JoinedOr env) (splitFrom cmd txt pos (pre ++ ⟨c, s⟩ :: ⟨.noop, t⟩ :: post)) (splitFrom cmd txt pos (pre ++ ⟨c, s ++ t⟩ :: post))
  | _, 0, _, _, _, h => absurd h (by omega)
  | pre, n + 1, cmd, txt, pos, h => by
    cases e : nextNewline txt with
    | some ab =>
      obtain ⟨a, b⟩ := ab
      have hlt := nextNewline_lt _ _ _ e
      rw [splitFrom_some e, splitFrom_some e]
      exact .cons (.inl rfl) (splitFrom_cut_later hj ht c pre n cmd b true (by omega))
    | none =>
      have key : ∀ {x y : List (List Passage)} (q : Passage), List.Forall₂ (JoinedOr env) x y →
          List.Forall₂ (JoinedOr env) (match x with | [] => [[q]] | g :: gs => (q :: g) :: gs) (match y with | [] => [[q]] | g :: gs => (q :: g) :: gs) := by
        intro x y q hxy
        cases hxy with
        | nil => exact joinedOr_refl _
        | cons h hs =>
          refine .cons ?_ hs
          rcases h with rfl | ⟨pre, c, hj, ht⟩
          · exact .inl rfl
          · exact .inr (.mk (q :: pre) c hj ht)
      rw [splitFrom_none e, splitFrom_none e]
      cases pre with
      | nil => exact key _ (splitFrom_cut ht c _ s false (Nat.lt_succ_self _) hj)
      | cons p pre => exact key _ (splitFrom_cut_later hj ht c pre _ p.cmd p.txt false (Nat.lt_succ_self _))

/-- The same line, or one that is cut, or one with an empty passage before it, which does nothing. -/
def Alike (env : Env) (g g' : List Passage) : Prop := g = g' ∨ Joined env g g' ∨ ∃ u l, g' = ⟨.noop, u⟩ :: l ∧ g = ⟨.noop, []⟩ :: g'

theorem squash_noops (l : List Command) : squash (.noop :: .noop :: l) = squash (.noop :: l) := rfl

theorem foldCommands_noops : ∀ (it : List Passage) (st : State) (buf : List Command), foldCommands it st (.noop :: .noop :: buf) = foldCommands it st (.noop :: buf)
  | [], _, _ => by simp only [foldCommands, squash_noops]
  | p :: it, st, buf => by
    simp only [foldCommands, List.cons_append, squash_noops]
    rw [foldCommands_noops it]

theorem intoWords_alike (hcut : ∀ n, Cuts (env.hyph n)) {g g' : List Passage} (h : Alike env g g') (st : State) : intoWords env g st = intoWords env g' st := by
  rcases h with rfl | h | ⟨u, l, rfl, rfl⟩
  · rfl
  · exact intoWords_cut hcut h st
  · have : foldCommands (⟨.noop, []⟩ :: ⟨.noop, u⟩ :: l) st [] = foldCommands (⟨.noop, u⟩ :: l) st [] := by
      rw [foldCommands, if_neg (by simp)]
      simp only [foldCommands, Command.apply, List.nil_append, List.cons_append, squash_noops, foldCommands_noops l]
    unfold intoWords
    rw [this]

theorem splitFrom_head (c : Command) {t : List Char} {post : List Passage} : ∃ u l gs, splitFrom c t true post = (⟨.noop, u⟩ :: l) :: gs := by
  cases e : nextNewline t with
  | some ab => rw [splitFrom_some e]; exact ⟨_, _, _, rfl⟩
  | none =>
    rw [splitFrom_none e]
    cases post with
    | nil => exact ⟨_, _, _, rfl⟩
    | cons p ps =>
      simp only
      cases splitFrom p.cmd p.txt false ps with
      | nil => exact ⟨_, _, _, rfl⟩
      | cons g gs => exact ⟨_, _, _, rfl⟩

/-- After a line end, the passages make the same lines whether the rest is in the same passage or in one of its own. -/
theorem splitFrom_end (cmd : Command) (t : List Char) (post : List Passage) : ∀ (n : Nat) (s : List Char) (pos : Bool), s.length < n →
    ∃ x xs u l gs, splitFrom cmd (s ++ ['\n']) pos (⟨.noop, t⟩ :: post) = x :: xs ++ (⟨.noop, []⟩ :: ⟨.noop, u⟩ :: l) :: gs ∧
      splitFrom cmd (s ++ '\n' :: t) pos post = x :: xs ++ (⟨.noop, u⟩ :: l) :: gs
  | 0, _, _, h => absurd h (by omega)
  | n + 1, s, pos, h => by
    have hsome : ∃ a b, nextNewline (s ++ ['\n']) = some (a, b) ∧ (b = [] ∨ ∃ s', b = s' ++ ['\n'] ∧ s'.length < s.length) := by
      cases e : nextNewline (s ++ ['\n']) with
      | none => exact absurd e (by
          clear h
          induction s with
          | nil => decide
          | cons c s ih =>
            intro e
            simp only [List.cons_append] at e
            unfold nextNewline at e
            split at e
            · rename_i h0; cases h0
            · cases e
            · cases e
            · rename_i h0; cases h0
              rw [Option.map_eq_none_iff] at e
              exact ih e e)
      | some ab =>
        obtain ⟨a, b⟩ := ab
        refine ⟨a, b, rfl, ?_⟩
        by_cases hb : b = []
        · exact .inl hb
        · right
          have h1 := nextNewline_tail e hb
          have h2 := nextNewline_lt _ _ _ e
          rw [List.getLast?_append] at h1
          have h3 : b.getLast? = some '\n' := by rw [← h1]; rfl
          refine ⟨b.dropLast, (List.dropLast_append_getLast? _ h3).symm, ?_⟩
          simp only [List.length_append, List.length_cons, List.length_nil, List.length_dropLast] at h2 ⊢
          have : b.length ≠ 0 := by simpa using hb
          omega
    obtain ⟨a, b, e, hb⟩ := hsome
    have e2 := nextNewline_more t _ _ _ e
    rw [List.append_assoc, List.singleton_append] at e2
    rw [splitFrom_some e, splitFrom_some e2]
    rcases hb with rfl | ⟨s', rfl, hl⟩
    · obtain ⟨u, l, gs, hg⟩ := splitFrom_head cmd (t := t) (post := post)
      refine ⟨_, [], u, l, gs, ?_, by rw [List.nil_append, hg]; rfl⟩
      rw [splitFrom_none (txt := []) rfl]
      have : splitFrom .noop t false post = splitFrom cmd t true post := by
        rw [← splitFrom_again .noop cmd post _ t (Nat.lt_succ_self _)]
        cases e : nextNewline t with
        | none => rw [splitFrom_none e, splitFrom_none e]; rfl
        | some ab => rw [splitFrom_some e, splitFrom_some e]; rfl
      simp only [this, hg]
      rfl
    · obtain ⟨x, xs, u, l, gs, h1, h2⟩ := splitFrom_end cmd t post n s' true (by omega)
      refine ⟨_, x :: xs, u, l, gs, by rw [h1]; rfl, ?_⟩
      rw [List.append_assoc, List.singleton_append, h2]; rfl

theorem splitFrom_end_later (c : Command) (s t : List Char) (post : List Passage) : ∀ (pre : List Passage) (n : Nat) (cmd : Command) (txt : List Char) (pos : Bool), txt.length < n →
    ∃ x xs u l gs, splitFrom cmd txt pos (pre ++ ⟨c, s ++ ['\n']⟩ :: ⟨.noop, t⟩ :: post) = x :: xs ++ (⟨.noop, []⟩ :: ⟨.noop, u⟩ :: l) :: gs ∧
      splitFrom cmd txt pos (pre ++ ⟨c, s ++ '\n' :: t⟩ :: post) = x :: xs ++ (⟨.noop, u⟩ :: l) :: gs
  | _, 0, _, _, _, h => absurd h (by omega)
  | pre, n + 1, cmd, txt, pos, h => by
    cases e : nextNewline txt with
    | some ab =>
      obtain ⟨a, b⟩ := ab
      have hlt := nextNewline_lt _ _ _ e
      rw [splitFrom_some e, splitFrom_some e]
      obtain ⟨x, xs, u, l, gs, h1, h2⟩ := splitFrom_end_later c s t post pre n cmd b true (by omega)
      exact ⟨_, x :: xs, u, l, gs, by rw [h1]; rfl, by rw [h2]; rfl⟩
    | none =>
      rw [splitFrom_none e, splitFrom_none e]
      cases pre with
      | nil =>
        obtain ⟨x, xs, u, l, gs, h1, h2⟩ := splitFrom_end c t post _ s false (Nat.lt_succ_self _)
        exact ⟨_ :: x, xs, u, l, gs, by simp only [List.nil_append, h1, List.cons_append]; rfl, by simp only [List.nil_append, h2, List.cons_append]⟩
      | cons p pre =>
        obtain ⟨x, xs, u, l, gs, h1, h2⟩ := splitFrom_end_later c s t post pre _ p.cmd p.txt false (Nat.lt_succ_self _)
        exact ⟨_ :: x, xs, u, l, gs, by simp only [h1, List.cons_append]; rfl, by simp only [h2, List.cons_append]⟩

theorem alike_refl (gs : List (List Passage)) : List.Forall₂ (Alike env) gs gs := by
  induction gs with
  | nil => exact .nil
  | cons a l ih => exact .cons (.inl rfl) ih

/-- Passages, and the same with one of them cut into two, perhaps at the end of a line. -/
def Halved (env : Env) (g g' : List Passage) : Prop :=
  Joined env g g' ∨ ∃ pre c s t post, g = pre ++ (⟨c, s ++ ['\n']⟩ :: ⟨.noop, t⟩ :: post : List Passage) ∧ g' = pre ++ (⟨c, s ++ '\n' :: t⟩ :: post : List Passage)

theorem splitlines_cut {g g' : List Passage} (h : Halved env g g') : List.Forall₂ (Alike env) (splitlines g) (splitlines g') := by
  rcases h with @⟨pre, c, s, t, hj, post, ht⟩ | ⟨pre, c, s, t, post, rfl, rfl⟩
  · have : List.Forall₂ (JoinedOr env) (splitlines (pre ++ ⟨c, s⟩ :: ⟨.noop, t⟩ :: post)) (splitlines (pre ++ ⟨c, s ++ t⟩ :: post)) := by
      cases pre with
      | nil => exact splitFrom_cut ht c _ _ false (Nat.lt_succ_self _) hj
      | cons p pre => exact splitFrom_cut_later hj ht c pre _ p.cmd p.txt false (Nat.lt_succ_self _)
    exact this.imp fun _ _ h => h.elim .inl fun h => .inr (.inl h)
  · have key : ∃ x xs u l gs, splitlines (pre ++ (⟨c, s ++ ['\n']⟩ :: ⟨.noop, t⟩ :: post : List Passage)) = x :: xs ++ (⟨.noop, []⟩ :: ⟨.noop, u⟩ :: l) :: gs ∧
        splitlines (pre ++ (⟨c, s ++ '\n' :: t⟩ :: post : List Passage)) = x :: xs ++ (⟨.noop, u⟩ :: l) :: gs := by
      cases pre with
      | nil => exact splitFrom_end c t post _ s false (Nat.lt_succ_self _)
      | cons p pre => exact splitFrom_end_later c s t post pre _ p.cmd p.txt false (Nat.lt_succ_self _)
    obtain ⟨x, xs, u, l, gs, h1, h2⟩ := key
    rw [h1, h2]
    exact List.rel_append (alike_refl _) (.cons (.inr (.inr ⟨u, l, rfl, rfl⟩)) (alike_refl _))

theorem maxLead_cut {g g' : List Passage} (h : Halved env g g') (st : State) : maxLead g st = maxLead g' st := by
  have : ∃ pre c s t post, s ≠ [] ∧ g = pre ++ (⟨c, s⟩ :: ⟨.noop, t⟩ :: post : List Passage) ∧ g' = pre ++ (⟨c, s ++ t⟩ :: post : List Passage) := by
    rcases h with ⟨pre, c, hj, ht⟩ | ⟨pre, c, s, t, post, rfl, rfl⟩
    · exact ⟨pre, c, _, _, _, hj.ne, rfl, rfl⟩
    · exact ⟨pre, c, s ++ ['\n'], t, post, by simp, rfl, by simp⟩
  obtain ⟨pre, c, s, t, post, hs, rfl, rfl⟩ := this
  have : ∀ (pre : List Passage) (st : State) (lead : ℚ), maxLeadLoop (pre ++ ⟨c, s⟩ :: ⟨.noop, t⟩ :: post) st lead = maxLeadLoop (pre ++ ⟨c, s ++ t⟩ :: post) st lead := by
    intro pre
    induction pre with
    | nil =>
      intro st lead
      simp only [List.nil_append, maxLeadLoop, Command.apply]
      have h2 : s ++ t ≠ [] := by simp [hs]
      rw [if_pos hs, if_pos h2]
      split
      · simp
      · rfl
    | cons p pre ih => intro st lead; simp only [List.cons_append, maxLeadLoop, ih]
  unfold maxLead
  rw [this]

/-! ### Paragraphs -/

theorem paragraphLoop_cut (hcut : ∀ n, Cuts (env.hyph n)) (p : Paragraph) (a b : List Item) (lead : ℚ) {gs gs' : List (List Passage)} (h : List.Forall₂ (Alike env) gs gs') :
    ∀ (cs : Nat → ColumnFill) (st : State), paragraphLoop { p with content := a } env lead gs cs st = paragraphLoop { p with content := b } env lead gs' cs st := by
  induction h with
  | nil => exact fun _ _ => rfl
  | @cons g g' gs gs' hg _ ih =>
    intro cs st
    have : fillParagraph { p with content := a } env g cs st lead = fillParagraph { p with content := b } env g' cs st lead := by
      have hw : intoWords env g st = intoWords env g' st := intoWords_alike hcut hg st
      unfold fillParagraph
      rw [hw]
      rfl
    simp only [paragraphLoop, this, ih]

/-- These passages are the others, with one of them cut into two. -/
def CutPassages (w : World) (g g' : List Passage) : Prop :=
  ∃ pre c s t post, (t ≠ [] ∧ MayCut w s t ∨ ∃ s', s = s' ++ ['\n']) ∧ g = pre ++ (⟨c, s ++ t⟩ :: post : List Passage) ∧ g' = pre ++ (⟨c, s⟩ :: ⟨.noop, t⟩ :: post : List Passage)

theorem CutPassages.within {w : World} {g g' : List Passage} (h : CutPassages w g g') (x y : List Passage) : CutPassages w (x ++ g ++ y) (x ++ g' ++ y) := by
  obtain ⟨pre, c, s, t, post, hm, rfl, rfl⟩ := h
  exact ⟨x ++ pre, c, s, t, post ++ y, hm, by simp, by simp⟩

theorem CutPassages.joined {w : World} {g g' : List Passage} (h : CutPassages w g g') (r : Res) : Halved (w.env r) g' g := by
  obtain ⟨pre, c, s, t, post, ⟨ht, hm⟩ | ⟨s', rfl⟩, rfl, rfl⟩ := h
  · exact .inl (.mk pre c ⟨hm.brk, hm.space, fun c d hc hd f => hm.kern c d hc hd r f⟩ (.inl ht))
  · exact .inr ⟨pre, c, s', t, post, rfl, by simp⟩

theorem flattenItems_cut {w : World} {a b : List Item} (h : CutInTwo w a b) : ∀ (nb : StyleFull) (todo : List Pending) (r : Res),
    CutPassages w (flattenItems nb todo a r).1 (flattenItems nb todo b r).1 ∧ (flattenItems nb todo a r).2 = (flattenItems nb todo b r).2 := by
  induction h with
  | @here s t ht h after =>
    intro nb todo r
    rw [flattenItems, flattenItems.eq_def nb todo (.str s :: .str t :: after)]
    simp only
    rw [flattenItems.eq_def nb [] (.str t :: after)]
    simp only [runTodo]
    exact ⟨⟨[], _, s, t, _, .inl ⟨ht, h⟩, rfl, rfl⟩, trivial⟩
  | newline s t after =>
    intro nb todo r
    rw [flattenItems, flattenItems.eq_def nb todo (.str (s ++ ['\n']) :: .str t :: after)]
    simp only
    rw [flattenItems.eq_def nb [] (.str t :: after)]
    simp only [runTodo]
    exact ⟨⟨[], _, s ++ ['\n'], t, _, .inr ⟨s, rfl⟩, by simp, rfl⟩, trivial⟩
  | later i h ih =>
    intro nb todo r
    cases i with
    | str x =>
      rw [flattenItems, flattenItems]
      obtain ⟨h1, h2⟩ := ih nb [] (runTodo todo r).2
      simp only
      refine ⟨?_, h2⟩
      have := h1.within [⟨squash (runTodo todo r).1, x⟩] []
      simpa using this
    | span c style =>
      rw [flattenItems, flattenItems]
      obtain ⟨h1, h2⟩ := ih nb (flattenSpan style nb todo c r).2.1 (flattenSpan style nb todo c r).2.2
      simp only
      refine ⟨?_, h2⟩
      have := h1.within (flattenSpan style nb todo c r).1 []
      simpa using this
  | @inSpan a b h style after ih =>
    intro nb todo r
    rw [flattenItems, flattenItems, flattenSpan, flattenSpan]
    obtain ⟨h1, h2⟩ := ih (nb.or style) (todo ++ [.style style nb]) r
    simp only [h2]
    refine ⟨?_, trivial⟩
    have := h1.within [] (flattenItems nb ((flattenItems (nb.or style) (todo ++ [.style style nb]) b r).2.1 ++ [.full nb (nb.or style)]) after
      (flattenItems (nb.or style) (todo ++ [.style style nb]) b r).2.2).1
    simpa using this

theorem intoColumns_cut (w : World) (hcut : ∀ r n, Cuts ((w.env r).hyph n)) (p : Paragraph) {a b : List Item} (h : CutInTwo w a b) (r : Res) (s : StyleFull) (cs : Nat → ColumnFill) :
    (Block.paragraph { p with content := b }).intoColumns w r s cs = (Block.paragraph { p with content := a }).intoColumns w r s cs := by
  simp only [Block.intoColumns, Paragraph.intoColumns, flattenSpan]
  obtain ⟨h1, h2⟩ := flattenItems_cut h ((s.or p.style).or p.style) ([] ++ [.style p.style (s.or p.style)]) ((s.or p.style).asState r).2
  refine Prod.ext ?_ (by simp only [h2])
  have hj := h1.joined (flattenItems ((s.or p.style).or p.style) ([] ++ [.style p.style (s.or p.style)]) b ((s.or p.style).asState r).2).2.2
  simp only [h2]
  rw [maxLead_cut hj, paragraphLoop_cut (hcut _) p b a _ (splitlines_cut hj)]

end Pdfje
