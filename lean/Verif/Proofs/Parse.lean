import Verif.Proofs.Words
import Mathlib.Data.List.TakeWhile
/-
Splitting into words keeps the text and styles, and breaks only after break characters.
-/

namespace Pdfje

variable {env : Env}

/-! ### Break characters -/

/-- No break character. -/
def NoBreak (s : List Char) : Prop := ∀ c ∈ s, isBreak c = false
/-- No break opportunity inside, except between spaces. -/
def Solid (s : List Char) : Prop := ∀ a c d b, s = a ++ c :: d :: b → isBreak c = true → c = ' ' ∧ d = ' '
/-- Ends in a break character. -/
def EndsInBreak (s : List Char) : Prop := ∃ c, s.getLast? = some c ∧ isBreak c = true

theorem NoBreak.solid {s : List Char} (h : NoBreak s) : Solid s := by
  intro a c d b e hc
  have := h c (by simp [e])
  simp [this] at hc

theorem NoBreak.append {s t : List Char} (h1 : NoBreak s) (h2 : NoBreak t) : NoBreak (s ++ t) := by
  intro c hc
  rcases List.mem_append.1 hc with hc | hc
  · exact h1 c hc
  · exact h2 c hc

theorem NoBreak.append_solid {s t : List Char} (h1 : NoBreak s) (h2 : Solid t) : Solid (s ++ t) := by
  induction s with
  | nil => exact h2
  | cons x s ih =>
    intro a c d b e hc
    cases a with
    | nil =>
      simp only [List.nil_append, List.cons_append, List.cons.injEq] at e
      have := h1 x List.mem_cons_self
      rw [e.1, hc] at this; simp at this
    | cons y a =>
      simp only [List.cons_append, List.cons.injEq] at e
      exact ih (fun c hc => h1 c (List.mem_cons_of_mem _ hc)) a c d b e.2 hc

theorem solid_spaces {s : List Char} (h : ∀ c ∈ s, c = ' ') : Solid s := by
  intro a c d b e _
  exact ⟨h c (by simp [e]), h d (by simp [e])⟩

theorem EndsInBreak.append {s t : List Char} (h : EndsInBreak t) : EndsInBreak (s ++ t) := by
  obtain ⟨c, h1, h2⟩ := h
  exact ⟨c, by rw [List.getLast?_append, h1]; rfl, h2⟩

theorem EndsInBreak.ne {s : List Char} (h : EndsInBreak s) : s ≠ [] := by
  obtain ⟨c, h1, h2⟩ := h
  intro e; subst e; simp at h1

theorem nextWord_none : ∀ {s : List Char}, nextWord s = none → NoBreak s
  | [], _ => by intro c hc; simp at hc
  | c :: s, h => by
    simp only [nextWord] at h
    split at h
    · simp at h
    · split at h
      · simp at h
      · rename_i h1 h2
        simp only [Option.map_eq_none_iff] at h
        intro x hx
        rcases List.mem_cons.1 hx with rfl | hx
        · simp only [not_or] at h2
          simp [isBreak, h1, h2.1, h2.2.1, h2.2.2]
        · exact nextWord_none h x hx

theorem nextWord_some : ∀ {s a b : List Char}, nextWord s = some (a, b) → s = a ++ b ∧ Solid a ∧ EndsInBreak a
  | [], _, _, h => by simp [nextWord] at h
  | c :: s, a, b, h => by
    simp only [nextWord] at h
    split at h
    · rename_i hc
      simp only [Option.some.injEq, Prod.mk.injEq] at h
      obtain ⟨rfl, rfl⟩ := h
      subst hc
      have hall : ∀ c ∈ ' ' :: s.takeWhile (· = ' '), c = ' ' := by
        intro c hc
        rcases List.mem_cons.1 hc with rfl | hc
        · rfl
        · simpa using List.mem_takeWhile_imp hc
      refine ⟨by simp [List.takeWhile_append_dropWhile], solid_spaces hall, ?_⟩
      refine ⟨_, List.getLast?_eq_getLast_of_ne_nil (by simp), ?_⟩
      rw [hall _ (List.getLast_mem _)]; rfl
    · split at h
      · rename_i hc
        simp only [Option.some.injEq, Prod.mk.injEq] at h
        obtain ⟨rfl, rfl⟩ := h
        refine ⟨rfl, ?_, c, rfl, ?_⟩
        · intro a x d b e hx
          have := congrArg List.length e
          simp at this
          omega
        · rcases hc with rfl | rfl | rfl <;> simp [isBreak]
      · rename_i h1 h2
        simp only [Option.map_eq_some_iff, Prod.exists, Prod.mk.injEq] at h
        obtain ⟨a', b', h, rfl, rfl⟩ := h
        obtain ⟨e, hs, hb⟩ := nextWord_some h
        have hn : NoBreak [c] := by
          intro x hx
          simp at hx; subst hx
          simp only [not_or] at h2
          simp [isBreak, h1, h2.1, h2.2.1, h2.2.2]
        exact ⟨by simp [e], hn.append_solid hs, hb.append (s := [c])⟩

theorem allWords_eq (s : List Char) : allWords s = match nextWord s with
    | none => ([], s)
    | some (a, b) => (a :: (allWords b).1, (allWords b).2) := by
  rw [allWords.eq_def]
  split <;> simp [*]

theorem allWords_spec : ∀ (n : Nat) (s : List Char), s.length < n →
    (allWords s).1.flatten ++ (allWords s).2 = s ∧ (∀ m ∈ (allWords s).1, Solid m ∧ EndsInBreak m) ∧ NoBreak (allWords s).2 ∧
    ((allWords s).1 = [] → (allWords s).2 = s)
  | 0, _, h => absurd h (by omega)
  | n + 1, s, h => by
    rw [allWords_eq]
    cases e : nextWord s with
    | none => exact ⟨by simp, by simp, nextWord_none e, by simp⟩
    | some ab =>
      obtain ⟨a, b⟩ := ab
      obtain ⟨h1, h2, h3⟩ := nextWord_some e
      have hlt := nextWord_lt _ _ _ e
      obtain ⟨g1, g2, g3, -⟩ := allWords_spec n b (by omega)
      refine ⟨?_, ?_, g3, by simp⟩
      · simp only [List.flatten_cons, List.append_assoc, g1, h1]
      · intro m hm
        rcases List.mem_cons.1 hm with rfl | hm
        · exact ⟨h2, h3⟩
        · exact g2 m hm

/-! ### Words of one passage -/

@[simp] theorem styled_text_const (s : List Char) (st : State) : (s.map fun c => (c, st)).map (·.1) = s := by
  simp [Function.comp_def]

/-- The text of a word. -/
def Word.text (w : Word) : List Char := w.styled.map (·.1)

theorem makeWords_spec (henv : env.Ok) (st : State) : ∀ (ms : List (List Char)) (prev : Option Char),
    ∃ ws, makeWords env st ms prev = some ws ∧ ws.flatMap Word.styled = ms.flatten.map (fun c => (c, st)) ∧
      ws.map Word.text = ms ∧ ∀ w ∈ ws, w.WF env ∧ w.state = st ∧ w.preState = st
  | [], prev => ⟨[], rfl, rfl, rfl, by simp⟩
  | m :: ms, prev => by
    obtain ⟨w, h1, h2, h3, h4, h5⟩ := Word.new_spec henv m st prev
    obtain ⟨ws, g1, g2, g3, g4⟩ := makeWords_spec henv st ms m.getLast?
    refine ⟨w :: ws, by simp [makeWords, h1, g1], by simp [h2, g2], ?_, ?_⟩
    · simp only [List.map_cons, g3]
      congr 1
      rw [Word.text, h2, styled_text_const]
    · intro x hx
      rcases List.mem_cons.1 hx with rfl | hx
      · exact ⟨h3, h4, h5⟩
      · exact g4 x hx

/-- A word of one passage in state `st` that ends at a break opportunity. -/
structure SimpleWord (env : Env) (st : State) (w : Word) : Prop where
  wf : w.WF env
  state : w.state = st
  pre : w.preState = st
  solid : Solid w.text
  ends : EndsInBreak w.text

theorem parseSimple_spec (henv : env.Ok) (txt : List Char) (st : State) (prev : Option Char) (hne : txt ≠ []) :
    ∃ ws r, parseSimple env txt st prev = some (ws, r) ∧ (∀ w ∈ ws, SimpleWord env st w) ∧
      match r with
      | .inl head => head ≠ [] ∧ NoBreak head ∧ ws.flatMap Word.styled ++ head.map (fun c => (c, st)) = txt.map fun c => (c, st)
      | .inr w => SimpleWord env st w ∧ ws.flatMap Word.styled ++ w.styled = txt.map fun c => (c, st) := by
  obtain ⟨h1, h2, h3, h4⟩ := allWords_spec _ txt (Nat.lt_succ_self _)
  unfold parseSimple
  generalize allWords txt = mw at *
  obtain ⟨ms, left⟩ := mw
  simp only at h1 h2 h3 h4
  cases ms with
  | nil =>
    rw [h4 rfl] at h3
    exact ⟨[], .inl txt, rfl, by simp, hne, h3, by simp⟩
  | cons m ms =>
    obtain ⟨ws, g1, g2, g3, g4⟩ := makeWords_spec henv st (m :: ms) prev
    have hsimple : ∀ w ∈ ws, SimpleWord env st w := by
      intro w hw
      have hm : w.text ∈ m :: ms := by rw [← g3]; exact List.mem_map_of_mem hw
      obtain ⟨a, b, c⟩ := g4 w hw
      exact ⟨a, b, c, (h2 _ hm).1, (h2 _ hm).2⟩
    simp only [g1]
    by_cases hl : left = []
    · simp only [hl, ne_eq, not_true_eq_false, if_false]
      cases e : ws.getLast? with
      | none =>
        rw [List.getLast?_eq_none_iff] at e
        rw [e] at g3; simp at g3
      | some w =>
        obtain ⟨ys, rfl⟩ := List.getLast?_eq_some_iff.1 e
        refine ⟨_, _, rfl, ?_, hsimple w (by simp), ?_⟩
        · intro x hx
          simp only [List.dropLast_append_cons, List.dropLast_singleton, List.append_nil] at hx
          exact hsimple x (by simp [hx])
        · rw [hl, List.append_nil] at h1
          rw [h1] at g2
          simpa using g2
    · simp only [ne_eq, hl, not_false_eq_true, if_true]
      refine ⟨_, _, rfl, hsimple, hl, h3, ?_⟩
      rw [g2, ← List.map_append, h1]

/-! ### Words of several passages -/

/-- Parts as passages. -/
def asPassages (parts : List (Command × List Char)) : List Passage := parts.map fun e => ⟨e.1, e.2⟩

/-- No empty passage except the last one. -/
def Inner (ps : List Passage) : Prop := ∀ p ∈ ps.dropLast, p.txt ≠ []

theorem Inner.tail {p : Passage} {ps : List Passage} (h : Inner (p :: ps)) : Inner ps := by
  intro q hq
  cases ps with
  | nil => simp at hq
  | cons a l => exact h q (by rw [List.dropLast_cons_cons]; exact List.mem_cons_of_mem _ hq)

theorem Inner.head {p : Passage} {ps : List Passage} (h : Inner (p :: ps)) (hp : p.txt = []) : ps = [] := by
  cases ps with
  | nil => rfl
  | cons a l => exact absurd hp (h p (by simp))

theorem takeParts_spec : ∀ (it : List Passage) parts sp left rest, takeParts it = (parts, sp, left, rest) →
    (parts = [] ↔ it = []) ∧ (Inner it → Inner (asPassages parts) ∧ Inner rest) ∧
    (match left with
      | none => sp = false ∧ rest = [] ∧ NoBreak (parts.flatMap (·.2))
      | some _ => Solid (parts.flatMap (·.2) ++ if sp then [' '] else []) ∧
          EndsInBreak (parts.flatMap (·.2) ++ if sp then [' '] else [])) ∧
    ∀ st, endState it st = endState rest (endState (asPassages parts) st) ∧
      styled it st = styled (asPassages parts) st ++ (if sp then [(' ', endState (asPassages parts) st)] else []) ++
        (left.getD []).map (fun c => (c, endState (asPassages parts) st)) ++ styled rest (endState (asPassages parts) st)
  | [], parts, sp, left, rest, h => by
    simp only [takeParts, Prod.mk.injEq] at h
    obtain ⟨rfl, rfl, rfl, rfl⟩ := h
    refine ⟨by simp, by simp [asPassages], ⟨rfl, rfl, by intro c hc; simp at hc⟩, ?_⟩
    intro st; simp [asPassages, endState, styled]
  | p :: ps, parts, sp, left, rest, h => by
    simp only [takeParts] at h
    split at h
    · rename_i word rest' e
      obtain ⟨h1, h2, h3⟩ := nextWord_some e
      split at h
      · rename_i hl
        simp only [Prod.mk.injEq] at h
        obtain ⟨rfl, rfl, rfl, rfl⟩ := h
        obtain ⟨ys, rfl⟩ := List.getLast?_eq_some_iff.1 hl
        refine ⟨by simp, fun hi => ⟨by intro q hq; simp [asPassages] at hq, hi.tail⟩, ?_, ?_⟩
        · simpa using ⟨h2, h3⟩
        · intro st
          simp [asPassages, endState, styled, h1]
      · simp only [Prod.mk.injEq] at h
        obtain ⟨rfl, rfl, rfl, rfl⟩ := h
        refine ⟨by simp, fun hi => ⟨by intro q hq; simp [asPassages] at hq, hi.tail⟩, ?_, ?_⟩
        · simpa using ⟨h2, h3⟩
        · intro st
          simp [asPassages, endState, styled, h1]
    · rename_i e
      have hnb := nextWord_none e
      simp only [Prod.mk.injEq] at h
      obtain ⟨rfl, rfl, rfl, rfl⟩ := h
      obtain ⟨g1, g2, g3, g4⟩ := takeParts_spec ps _ _ _ _ rfl
      refine ⟨by simp, ?_, ?_, ?_⟩
      · intro hi
        refine ⟨?_, (g2 hi.tail).2⟩
        intro q hq
        have hq' : q ∈ (⟨p.cmd, p.txt⟩ :: asPassages (takeParts ps).1 : List Passage).dropLast := hq
        cases hps : asPassages (takeParts ps).1 with
        | nil => rw [hps] at hq'; simp at hq'
        | cons a l =>
          rw [hps, List.dropLast_cons_cons] at hq'
          rcases List.mem_cons.1 hq' with rfl | hq'
          · intro hp
            have : ps = [] := hi.head hp
            subst this
            simp [takeParts, asPassages] at hps
          · exact (g2 hi.tail).1 q (by rw [hps]; exact hq')
      · cases hl : (takeParts ps).2.2.1 with
        | none =>
          rw [hl] at g3
          refine ⟨g3.1, g3.2.1, ?_⟩
          simp only [List.flatMap_cons]
          exact hnb.append g3.2.2
        | some l =>
          rw [hl] at g3
          simp only [List.flatMap_cons, List.append_assoc]
          exact ⟨hnb.append_solid g3.1, g3.2.append⟩
      · intro st
        obtain ⟨k1, k2⟩ := g4 (p.cmd.apply st)
        simp only [asPassages, List.map_cons, endState, styled] at k1 k2 ⊢
        refine ⟨k1, ?_⟩
        rw [k2]
        simp

theorem segmentsLoop_text : ∀ (parts : List (Command × List Char)) (seg : Slug) (cmds : List Command) (st : State) (prev : Option Char),
    (segmentsLoop env parts seg cmds st prev).1.flatMap (fun e => e.1.txt) = seg.txt ++ parts.flatMap (·.2) ∧
    ∃ c l, (segmentsLoop env parts seg cmds st prev).1 = (seg, c) :: l
  | [], seg, cmds, st, prev => ⟨by simp [segmentsLoop], _, _, rfl⟩
  | (cmd, txt) :: parts, seg, cmds, st, prev => by
    simp only [segmentsLoop]
    split
    · refine ⟨?_, _, _, rfl⟩
      obtain ⟨h1, -⟩ := segmentsLoop_text parts (Slug.new env txt (cmd.apply st) (if st.kernsWith (cmd.apply st) then prev else none)) []
        (cmd.apply st) txt.getLast?
      simp only [List.flatMap_cons, h1, Slug.new_txt]
    · rename_i h
      simp only [ne_eq, not_not] at h
      obtain ⟨h1, h2⟩ := segmentsLoop_text parts seg (cmds ++ [cmd]) (cmd.apply st) (if st.kernsWith (cmd.apply st) then prev else none)
      refine ⟨?_, h2⟩
      rw [h1]; simp [h]

theorem segmentsLoop_spec : ∀ (parts : List (Command × List Char)) (seg : Slug) (st : State) (prev : Option Char),
    seg.WF env → seg.state = st → Inner (asPassages parts) →
    SegsWF env (segmentsLoop env parts seg [] st prev).1 (segmentsLoop env parts seg [] st prev).2.1 ∧
    (segmentsLoop env parts seg [] st prev).2.1 = endState (asPassages parts) st ∧
    (segmentsLoop env parts seg [] st prev).1.flatMap (fun e => e.1.styled) = seg.styled ++ styled (asPassages parts) st
  | [], seg, st, prev, hw, hs, hi => by
    simp only [segmentsLoop, asPassages, List.map_nil, endState, styled]
    refine ⟨⟨hw, by rw [hs]; rfl⟩, trivial, by simp⟩
  | (cmd, txt) :: parts, seg, st, prev, hw, hs, hi => by
    simp only [segmentsLoop]
    split
    · rename_i h
      obtain ⟨h1, h2, h3⟩ := segmentsLoop_spec parts
        (Slug.new env txt (cmd.apply st) (if st.kernsWith (cmd.apply st) then prev else none)) (cmd.apply st) txt.getLast?
        (Slug.new_wf env txt (cmd.apply st) _ h) rfl (Inner.tail (p := ⟨cmd, txt⟩) hi)
      obtain ⟨-, c, l, e⟩ := segmentsLoop_text (env := env) parts
        (Slug.new env txt (cmd.apply st) (if st.kernsWith (cmd.apply st) then prev else none)) [] (cmd.apply st) txt.getLast?
      refine ⟨?_, ?_, ?_⟩
      · apply segsWF_cons hw h1
        intro x hx
        rw [e] at hx
        simp at hx; subst hx
        simp [squash_single, hs]
      · simpa [asPassages, endState] using h2
      · simp only [List.flatMap_cons, h3]
        simp [asPassages, styled]
    · rename_i h
      simp only [ne_eq, not_not] at h
      have hp : parts = [] := by
        have := Inner.head (p := ⟨cmd, txt⟩) (ps := asPassages parts) hi h
        simpa [asPassages] using this
      subst hp
      simp only [segmentsLoop, List.nil_append, squash_single, asPassages, List.map_cons, List.map_nil, endState, styled]
      refine ⟨⟨hw, by rw [hs]⟩, trivial, by simp [h]⟩

theorem completeWord_spec (henv : env.Ok) (it : List Passage) (head : List Char) (st : State) (prev : Option Char)
    (hne : head ≠ []) (hnb : NoBreak head) :
    ∃ w left rest, completeWord env it head st prev = some (w, left, rest) ∧ (Solid w.text ∧ w.text ≠ []) ∧
      (left ≠ none → EndsInBreak w.text) ∧
      (Inner it → w.WF env ∧ w.preState = st ∧ Inner rest ∧ endState it st = endState rest w.state ∧ (left = none → rest = []) ∧
        head.map (fun c => (c, st)) ++ styled it st =
          w.styled ++ (left.getD []).map (fun c => (c, w.state)) ++ styled rest w.state) := by
  unfold completeWord
  generalize ht : takeParts it = tp
  obtain ⟨parts, sp, left, rest⟩ := tp
  obtain ⟨h1, h2, h3, h4⟩ := takeParts_spec it parts sp left rest ht
  cases parts with
  | nil =>
    obtain ⟨w, g1, g2, g3, g4, g5⟩ := Word.new_spec henv head st prev
    have hit : it = [] := h1.1 rfl
    subst hit
    refine ⟨w, none, [], by simp [g1], ?_, by simp, ?_⟩
    · rw [Word.text, g2, styled_text_const]; exact ⟨hnb.solid, hne⟩
    · intro _
      refine ⟨g3, g5, by intro p hp; simp at hp, by simp [endState, g4], by simp, by simp [g2, styled]⟩
  | cons part parts =>
    dsimp only
    generalize hseg : Slug.new env head st prev = seg
    have hw : seg.WF env := by rw [← hseg]; exact Slug.new_wf env head st prev hne
    have hs : seg.state = st := by rw [← hseg]; rfl
    have htx : seg.txt = head := by rw [← hseg]; rfl
    obtain ⟨t1, c, l, t2⟩ := segmentsLoop_text (env := env) (part :: parts) seg [] st seg.last
    refine ⟨_, _, _, rfl, ?_, ?_, ?_⟩
    · have : (Word.text ⟨[.mixed (segmentsLoop env (part :: parts) seg [] st seg.last).1
          (segmentsLoop env (part :: parts) seg [] st seg.last).2.1],
          if sp = true then some (TrailingSpace.make env (segmentsLoop env (part :: parts) seg [] st seg.last).2.1
            (segmentsLoop env (part :: parts) seg [] st seg.last).2.2) else none,
          (segmentsLoop env (part :: parts) seg [] st seg.last).2.1⟩) =
          head ++ ((part :: parts).flatMap (·.2) ++ if sp then [' '] else []) := by
        rw [← htx, ← List.append_assoc, ← t1]
        simp only [Word.text, Word.styled, List.map_append, List.flatMap_cons, List.flatMap_nil, List.append_nil, Box.styled]
        congr 1
        · rw [List.map_flatMap]
          congr 1
          funext e
          simp [Slug.styled, Function.comp_def]
        · cases sp <;> simp
      rw [this]
      cases left with
      | none =>
        obtain ⟨k1, k2, k3⟩ := h3
        subst k1
        simp only [Bool.false_eq_true, if_false, List.append_nil]
        exact ⟨(hnb.append k3).solid, by simp [hne]⟩
      | some l => exact ⟨hnb.append_solid h3.1, by simp [hne]⟩
    · intro hl
      have : (Word.text ⟨[.mixed (segmentsLoop env (part :: parts) seg [] st seg.last).1
          (segmentsLoop env (part :: parts) seg [] st seg.last).2.1],
          if sp = true then some (TrailingSpace.make env (segmentsLoop env (part :: parts) seg [] st seg.last).2.1
            (segmentsLoop env (part :: parts) seg [] st seg.last).2.2) else none,
          (segmentsLoop env (part :: parts) seg [] st seg.last).2.1⟩) =
          head ++ ((part :: parts).flatMap (·.2) ++ if sp then [' '] else []) := by
        rw [← htx, ← List.append_assoc, ← t1]
        simp only [Word.text, Word.styled, List.map_append, List.flatMap_cons, List.flatMap_nil, List.append_nil, Box.styled]
        congr 1
        · rw [List.map_flatMap]
          congr 1
          funext e
          simp [Slug.styled, Function.comp_def]
        · cases sp <;> simp
      rw [this]
      cases left with
      | none => exact absurd rfl hl
      | some l => exact h3.2.append
    · intro hi
      obtain ⟨i1, i2⟩ := h2 hi
      obtain ⟨k1, k2, k3⟩ := segmentsLoop_spec (env := env) (part :: parts) seg st seg.last hw hs i1
      obtain ⟨e1, e2⟩ := h4 st
      refine ⟨⟨⟨k1, rfl⟩, ?_⟩, ?_, i2, ?_, ?_, ?_⟩
      · intro t ht
        cases sp <;> simp at ht
        subst ht; exact TrailingSpace.make_ok _ _
      · simp only [Word.preState, t2, Box.preState, hs]
      · simp only [k2]; exact e1
      · intro hl; subst hl; exact h3.2.1
      · have k4 : seg.styled = head.map fun c => (c, st) := by simp [Slug.styled, hs, htx]
        simp only [Word.styled, List.flatMap_cons, List.flatMap_nil, List.append_nil, Box.styled, k3, k2, e2, k4]
        cases sp <;> simp

/-! ### All words -/

theorem WordsWF.append {a b : List WordLike} : ∀ {s1 s2 s3 : State}, WordsWF env a s1 s2 → WordsWF env b s2 s3 →
    WordsWF env (a ++ b) s1 s3 := by
  induction a with
  | nil => intro s1 s2 s3 h1 h2; cases h1; exact h2
  | cons w a ih => intro s1 s2 s3 h1 h2; exact ⟨h1.1, h1.2.1, ih h1.2.2 h2⟩

theorem WordsWF.simple {st : State} : ∀ {ws : List Word}, (∀ w ∈ ws, SimpleWord env st w) → WordsWF env (ws.map .word) st st
  | [], _ => rfl
  | w :: ws, h => by
    have hw := h w List.mem_cons_self
    refine ⟨hw.wf, hw.pre, ?_⟩
    have := WordsWF.simple (st := st) (ws := ws) fun x hx => h x (List.mem_cons_of_mem _ hx)
    show WordsWF env (ws.map .word) w.state st
    rw [hw.state]; exact this

theorem flatMap_word (ws : List Word) : (ws.map WordLike.word).flatMap WordLike.styled = ws.flatMap Word.styled := by
  rw [List.flatMap_map]; rfl

/-- Words at which lines may break. -/
structure Breaks (ws : List WordLike) : Prop where
  solid : ∀ w ∈ ws, Solid w.text
  ends : ∀ w ∈ ws.dropLast, EndsInBreak w.text
  ne : ∀ w ∈ ws, w.text ≠ []

theorem Breaks.prepend {ws : List Word} {st : State} (h : ∀ w ∈ ws, SimpleWord env st w) {rest : List WordLike}
    (hr : Breaks rest) : Breaks (ws.map .word ++ rest) := by
  constructor
  · intro w hw
    rcases List.mem_append.1 hw with hw | hw
    · obtain ⟨x, hx, rfl⟩ := List.mem_map.1 hw
      exact (h x hx).solid
    · exact hr.solid w hw
  · intro w hw
    by_cases e : rest = []
    · subst e
      rw [List.append_nil] at hw
      obtain ⟨x, hx, rfl⟩ := List.mem_map.1 (List.dropLast_subset _ hw)
      exact (h x hx).ends
    · rw [List.dropLast_append_of_ne_nil e] at hw
      rcases List.mem_append.1 hw with hw | hw
      · obtain ⟨x, hx, rfl⟩ := List.mem_map.1 hw
        exact (h x hx).ends
      · exact hr.ends w hw
  · intro w hw
    rcases List.mem_append.1 hw with hw | hw
    · obtain ⟨x, hx, rfl⟩ := List.mem_map.1 hw
      exact (h x hx).ends.ne
    · exact hr.ne w hw

theorem Breaks.cons {w : WordLike} (h1 : Solid w.text ∧ w.text ≠ []) {rest : List WordLike} (h2 : rest ≠ [] → EndsInBreak w.text)
    (hr : Breaks rest) : Breaks (w :: rest) := by
  constructor
  · intro x hx
    rcases List.mem_cons.1 hx with rfl | hx
    · exact h1.1
    · exact hr.solid x hx
  · intro x hx
    cases rest with
    | nil => simp at hx
    | cons a l =>
      rw [List.dropLast_cons_cons] at hx
      rcases List.mem_cons.1 hx with rfl | hx
      · exact h2 (by simp)
      · exact hr.ends x hx
  · intro x hx
    rcases List.mem_cons.1 hx with rfl | hx
    · exact h1.2
    · exact hr.ne x hx

theorem Breaks.nil : Breaks [] := ⟨by simp, by simp, by simp⟩

theorem addCmd_text (w : WordLike) (c : Command) : (w.addCmd c).text = w.text := by simp [WordLike.text]

theorem parse_nil (it : List Passage) (st : State) : parse env it st [] = some [] := by
  rw [parse.eq_def]; simp

theorem parse_spec (henv : env.Ok) : ∀ (n : Nat) (it : List Passage) (st : State) (txt : List Char), it.length < n → txt ≠ [] →
    ∃ ws, parse env it st txt = some ws ∧ Breaks ws ∧
      (Inner it → WordsWF env ws st (endState it st) ∧
        ws.flatMap WordLike.styled = txt.map (fun c => (c, st)) ++ styled it st)
  | 0, _, _, _, h, _ => absurd h (by omega)
  | n + 1, it, st, txt, hn, hne => by
    obtain ⟨ws, r, h1, h2, h3⟩ := parseSimple_spec henv txt st none hne
    -- continuing with the next passage
    have next : ∀ (last : WordLike) (p : Passage) (it' : List Passage), it'.length < n → Solid last.text ∧ last.text ≠ [] → EndsInBreak last.text →
        ∃ more, parse env it' (p.cmd.apply last.state) p.txt = some more ∧
          Breaks (last.addCmd p.cmd :: more) ∧
          (Inner (p :: it') → last.WF env → WordsWF env (last.addCmd p.cmd :: more) last.preState (endState (p :: it') last.state) ∧
            more.flatMap WordLike.styled = styled (p :: it') last.state) := by
      intro last p it' hl hs he
      by_cases hp : p.txt = []
      · refine ⟨[], by rw [hp, parse_nil], Breaks.cons (by rw [addCmd_text]; exact hs) (by simp) Breaks.nil, ?_⟩
        intro hi hw
        have := hi.head hp
        subst this
        refine ⟨⟨WordLike.addCmd_wf hw _, by simp, by simp [WordsWF, endState]⟩, by simp [styled, hp]⟩
      · obtain ⟨more, g1, g2, g3⟩ := parse_spec henv n it' (p.cmd.apply last.state) p.txt hl hp
        refine ⟨more, g1, Breaks.cons (by rw [addCmd_text]; exact hs) (fun _ => by rw [addCmd_text]; exact he) g2, ?_⟩
        intro hi hw
        obtain ⟨g4, g5⟩ := g3 hi.tail
        refine ⟨⟨WordLike.addCmd_wf hw _, by simp, by simpa [endState] using g4⟩, by simp [styled, g5]⟩
    rw [parse.eq_def, if_neg hne]
    cases r with
    | inr last =>
      obtain ⟨hl, hst⟩ := h3
      rw [h1]
      cases it with
      | nil =>
        refine ⟨_, rfl, ?_, ?_⟩
        · exact Breaks.prepend h2 (Breaks.cons (w := .word last) ⟨hl.solid, hl.ends.ne⟩ (by simp) Breaks.nil)
        · intro _
          refine ⟨(WordsWF.simple h2).append ⟨hl.wf, hl.pre, hl.state⟩, ?_⟩
          simp only [List.flatMap_append, flatMap_word, List.flatMap_cons, List.flatMap_nil, List.append_nil, styled]
          exact hst
      | cons p it' =>
        obtain ⟨more, g1, g2, g3⟩ := next (.word last) p it' (by simp at hn; omega) ⟨hl.solid, hl.ends.ne⟩ hl.ends
        have hstate : (WordLike.word last).state = st := hl.state
        have hpre : (WordLike.word last).preState = st := hl.pre
        rw [hstate] at g1
        simp only [g1, Option.map_some]
        refine ⟨_, rfl, Breaks.prepend h2 g2, ?_⟩
        intro hi
        obtain ⟨g4, g5⟩ := g3 hi hl.wf
        rw [hpre, hstate] at g4
        rw [hstate] at g5
        refine ⟨(WordsWF.simple h2).append g4, ?_⟩
        simp only [List.flatMap_append, flatMap_word, List.flatMap_cons, WordLike.addCmd_styled, g5]
        rw [← hst, List.append_assoc]
        rfl
    | inl head =>
      obtain ⟨hh, hnb, hst⟩ := h3
      rw [h1]
      obtain ⟨w, left, rest, c1, c2, c3, c4⟩ := completeWord_spec henv it head st none hh hnb
      dsimp only
      split
      · rename_i e; rw [c1] at e; simp at e
      · rename_i last _ e
        rw [c1] at e
        simp only [Option.some.injEq, Prod.mk.injEq] at e
        obtain ⟨rfl, rfl, rfl⟩ := e
        refine ⟨_, rfl, Breaks.prepend h2 (Breaks.cons (w := .word w) c2 (by simp) Breaks.nil), ?_⟩
        intro hi
        obtain ⟨k1, k2, k3, k4, k5, k6⟩ := c4 hi
        have hrest := k5 rfl
        subst hrest
        refine ⟨(WordsWF.simple h2).append ⟨k1, k2, ?_⟩, ?_⟩
        · rw [k4]; rfl
        · simp only [List.flatMap_append, flatMap_word, List.flatMap_cons, List.flatMap_nil, List.append_nil, ← hst,
            List.append_assoc, k6]
          simp [styled, WordLike.styled]
      · rename_i last l rest' e
        rw [c1] at e
        simp only [Option.some.injEq, Prod.mk.injEq] at e
        obtain ⟨rfl, rfl, rfl⟩ := e
        have hlt := completeWord_lt _ _ _ _ _ _ _ _ c1
        by_cases hl : l = []
        · subst hl
          simp only [ne_eq, not_true_eq_false, if_false]
          cases rest with
          | nil =>
            refine ⟨_, rfl, Breaks.prepend h2 (Breaks.cons (w := .word w) c2 (by simp) Breaks.nil), ?_⟩
            intro hi
            obtain ⟨k1, k2, k3, k4, k5, k6⟩ := c4 hi
            refine ⟨(WordsWF.simple h2).append ⟨k1, k2, ?_⟩, ?_⟩
            · rw [k4]; rfl
            · simp only [List.flatMap_append, flatMap_word, List.flatMap_cons, List.flatMap_nil, List.append_nil, ← hst,
                List.append_assoc, k6]
              simp [styled, WordLike.styled]
          | cons p it' =>
            obtain ⟨more, g1, g2, g3⟩ := next (.word w) p it' (by simp at hlt; omega) c2 (c3 (by simp))
            have hstate : (WordLike.word w).state = w.state := rfl
            rw [hstate] at g1
            simp only [g1, Option.map_some]
            refine ⟨_, rfl, Breaks.prepend h2 g2, ?_⟩
            intro hi
            obtain ⟨k1, k2, k3, k4, k5, k6⟩ := c4 hi
            obtain ⟨g4, g5⟩ := g3 k3 k1
            have hpre : (WordLike.word w).preState = st := k2
            rw [hpre, hstate] at g4
            rw [hstate] at g5
            refine ⟨(WordsWF.simple h2).append ?_, ?_⟩
            · rw [k4]; exact g4
            · simp only [List.flatMap_append, flatMap_word, List.flatMap_cons, WordLike.addCmd_styled, g5, ← hst,
                List.append_assoc, k6]
              simp [WordLike.styled]
        · simp only [ne_eq, hl, not_false_eq_true, if_true]
          obtain ⟨more, g1, g2, g3⟩ := parse_spec henv n rest w.state l (by omega) hl
          simp only [g1, Option.map_some]
          refine ⟨_, rfl, Breaks.prepend h2 (Breaks.cons (w := .word w) c2 (fun _ => c3 (by simp)) g2), ?_⟩
          intro hi
          obtain ⟨k1, k2, k3, k4, k5, k6⟩ := c4 hi
          obtain ⟨g4, g5⟩ := g3 k3
          refine ⟨(WordsWF.simple h2).append ⟨k1, k2, ?_⟩, ?_⟩
          · rw [k4]; exact g4
          · simp only [List.flatMap_append, flatMap_word, List.flatMap_cons, g5, ← hst, List.append_assoc, k6]
            simp [WordLike.styled]

/-! ### The first command -/

theorem foldCommands_spec : ∀ (it : List Passage) (st : State) (buffer : List Command),
    match foldCommands it st buffer with
    | (_, none, st', rest) => rest = [] ∧ st' = endState it st ∧ styled it st = []
    | (_, some txt, st', rest) => txt ≠ [] ∧ endState it st = endState rest st' ∧
        styled it st = txt.map (fun c => (c, st')) ++ styled rest st'
  | [], st, buffer => ⟨rfl, rfl, rfl⟩
  | p :: it, st, buffer => by
    simp only [foldCommands]
    by_cases h : p.txt = []
    · have := foldCommands_spec it (p.cmd.apply st) (buffer ++ [p.cmd])
      simp only [h, ne_eq, not_true_eq_false, if_false]
      simp only [styled, endState, h, List.map_nil, List.nil_append]
      exact this
    · simp only [ne_eq, h, not_false_eq_true, if_true]
      exact ⟨trivial, rfl, by simp [styled]⟩

theorem squash_two (a b : Command) (h : a.Flat) (s : State) : (squash [a, b]).apply s = b.apply (a.apply s) := by
  cases a <;> cases b <;> simp_all [squash, byType, dictSet, Command.kind, Command.apply, applyAll, Command.Flat]

theorem foldCommands_tidy (it : List Passage) (st : State) (ht : Tidy it) :
    (foldCommands it st []).1.apply st = (foldCommands it st []).2.2.1 ∧ Inner (foldCommands it st []).2.2.2 := by
  have hnil : Inner [] := by intro p hp; simp at hp
  cases it with
  | nil => exact ⟨rfl, hnil⟩
  | cons p it =>
    have hi : Inner it := ht.1
    simp only [foldCommands]
    by_cases h : p.txt = []
    · simp only [h, ne_eq, not_true_eq_false, if_false]
      cases it with
      | nil => exact ⟨rfl, hnil⟩
      | cons q it' =>
        have hf : p.cmd.Flat := ht.2 (by simp) p (by simp) h
        simp only [foldCommands]
        by_cases hq : q.txt = []
        · have := hi.head hq
          subst this
          simp only [hq, ne_eq, not_true_eq_false, if_false, foldCommands]
          exact ⟨squash_two _ _ hf _, hnil⟩
        · simp only [ne_eq, hq, not_false_eq_true, if_true]
          exact ⟨squash_two _ _ hf _, hi.tail⟩
    · simp only [ne_eq, h, not_false_eq_true, if_true]
      exact ⟨rfl, hi⟩

theorem intoWords_spec (henv : env.Ok) (it : List Passage) (st : State) :
    ∃ cmd ws, intoWords env it st = some (cmd, ws) ∧ Breaks ws ∧
      (Tidy it → WordsWF env ws (cmd.apply st) (endState it st) ∧ ws.flatMap WordLike.styled = styled it st) := by
  have h1 := foldCommands_spec it st []
  have h2 := foldCommands_tidy it st
  unfold intoWords
  generalize foldCommands it st [] = r at *
  obtain ⟨cmd, txt, st', rest⟩ := r
  cases txt with
  | none =>
    obtain ⟨g1, g2, g3⟩ := h1
    refine ⟨cmd, [], rfl, Breaks.nil, ?_⟩
    intro ht
    exact ⟨by simp only [WordsWF]; rw [(h2 ht).1]; exact g2, by simp [g3]⟩
  | some txt =>
    obtain ⟨g1, g2, g3⟩ := h1
    obtain ⟨ws, k1, k2, k3⟩ := parse_spec henv _ rest st' txt (Nat.lt_succ_self _) g1
    refine ⟨cmd, ws, by simp [k1], k2, ?_⟩
    intro ht
    obtain ⟨e1, e2⟩ := h2 ht
    simp only at e1 e2
    obtain ⟨k4, k5⟩ := k3 e2
    refine ⟨by rw [e1, g2]; exact k4, by rw [k5, g3]⟩

end Pdfje
