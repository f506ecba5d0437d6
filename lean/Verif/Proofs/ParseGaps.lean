import Verif.Proofs.Broken
import Verif.Proofs.Parse
/-
The kerning in the words that come from text.
-/

namespace Pdfje

variable {env : Env}

/-- The second character is kerned with the first one if they have the same font and size; or it is not kerned, which happens only after a break or a change of style. -/
def Loose (env : Env) (a b : Gap) : Prop := Given env a b ∧ (a.2.2.kernsWith b.2.2 → Fits env a b ∨ isBreak a.2.1 = true)

/-- The second character is kerned with the first one exactly if they have the same font and size. -/
def Exact (env : Env) (a b : Gap) : Prop := Given env a b ∧ Fits env a b

theorem Exact.loose {a b : Gap} (h : Exact env a b) : Loose env a b := ⟨h.1, fun _ => .inl h.2⟩

theorem loose_blind : Blind (Loose env) := fun _ _ _ h => h
theorem loose_hyphens : Hyphens env (Loose env) := fun _ _ => ⟨given_hyphens _ _, fun _ => .inl (fits_hyphens _ _)⟩

theorem newGaps_exact {st : State} : ∀ {s : List Char} {prev : Option Char}, (newGaps env st prev s).IsChain (Exact env)
  | [], prev => .nil
  | [c], prev => .singleton _
  | c :: d :: s, prev => .cons_cons ⟨.inr ⟨.inr ⟨rfl, rfl⟩, rfl⟩, .self rfl rfl⟩ (newGaps_exact (s := d :: s) (prev := some c))

theorem newGaps_head {st : State} {s : List Char} : ∀ y ∈ (newGaps env st none s).head?, y.1 = 0 := by
  cases s with
  | nil => simp [newGaps]
  | cons c s => simp [newGaps, Env.kernAfter]

theorem slugsOf_gaps (st : State) : ∀ (parts : List (List Char)) (prev : Option Char) (l : List Slug), slugsOf env st parts prev = some l →
    l.flatMap Slug.gaps = newGaps env st prev parts.flatten ∧ ∀ s ∈ l, s.Strict
  | [], prev, l, h => by
    simp only [slugsOf, Option.some.injEq] at h
    subst h
    exact ⟨rfl, by simp⟩
  | p :: parts, prev, l, h => by
    simp only [slugsOf] at h
    cases e : p.getLast? with
    | none => rw [e] at h; simp at h
    | some c =>
      rw [e] at h
      simp only [Option.map_eq_some_iff] at h
      obtain ⟨l', h1, rfl⟩ := h
      obtain ⟨g1, g2⟩ := slugsOf_gaps st parts (some c) l' h1
      have hp : p ≠ [] := by rintro rfl; simp at e
      refine ⟨by rw [List.flatMap_cons, List.flatten_cons, newGaps_append, g1, Slug.new_gaps, e, Option.some_or], ?_⟩
      intro s hs
      rcases List.mem_cons.1 hs with rfl | hs
      · exact Slug.new_strict env hp st prev
      · exact g2 s hs

theorem tail_gaps (st : State) (prev : Option Char) : tailGaps (some (TrailingSpace.make env st prev)) st = newGaps env st prev [' '] := by
  cases prev <;> rfl

theorem Word.new_gaps (henv : env.Ok) {s : List Char} {st : State} {prev : Option Char} {w : Word} (h : Word.new env s st prev = some w) :
    (WordLike.word w).gaps = newGaps env st prev s ∧ (WordLike.word w).Strict := by
  have key : ∀ (s : List Char) (tail : Option TrailingSpace) (w : Word), (match intoSyllables env.unicode s (env.hyph st.hyphens) with
        | none => none
        | some parts => (slugsOf env st parts prev).map fun l => (⟨l.map Box.slug, tail, st⟩ : Word)) = some w →
      (WordLike.word w).gaps = newGaps env st prev s ++ tailGaps tail st ∧ (WordLike.word w).Strict := by
    intro s tail w h
    obtain ⟨parts, h1, h2, h3⟩ := intoSyllables_spec env.unicode s (henv.cuts st.hyphens)
    rw [h1] at h
    simp only [Option.map_eq_some_iff] at h
    obtain ⟨l, h4, rfl⟩ := h
    obtain ⟨g1, g2⟩ := slugsOf_gaps st parts prev l h4
    refine ⟨?_, ?_⟩
    · simp only [WordLike.gaps, List.flatMap_map]
      rw [h2] at g1
      rw [← g1]
      rfl
    · intro b hb
      simp only [WordLike.boxes, List.mem_map] at hb
      obtain ⟨s', hs, rfl⟩ := hb
      exact g2 s' hs
  unfold Word.new TrailingSpace.parse at h
  by_cases hl : s.getLast? = some ' '
  · simp only [hl, if_true] at h
    obtain ⟨ys, rfl⟩ := List.getLast?_eq_some_iff.1 hl
    have := key _ _ _ h
    refine ⟨?_, this.2⟩
    rw [this.1, tail_gaps]
    simp only [List.dropLast_concat]
    rw [newGaps_append]
    congr 2
    cases ys.getLast? <;> rfl
  · simp only [hl, if_false] at h
    have := key _ _ _ h
    simpa [tailGaps] using this

theorem makeWords_gaps (henv : env.Ok) (st : State) : ∀ (ms : List (List Char)) (prev : Option Char) (ws : List Word), (∀ m ∈ ms, m ≠ []) → makeWords env st ms prev = some ws →
    gapsOf (ws.map .word) = newGaps env st prev ms.flatten ∧ Sound (ws.map .word)
  | [], prev, ws, _, h => by
    simp only [makeWords, Option.some.injEq] at h
    subst h
    exact ⟨rfl, by intro w hw; simp at hw⟩
  | m :: ms, prev, ws, hne, h => by
    simp only [makeWords] at h
    split at h
    · cases h
    · rename_i w hw
      simp only [Option.map_eq_some_iff] at h
      obtain ⟨ws', h1, rfl⟩ := h
      obtain ⟨g1, g2⟩ := makeWords_gaps henv st ms _ ws' (fun x hx => hne x (List.mem_cons_of_mem _ hx)) h1
      obtain ⟨k1, k2⟩ := Word.new_gaps henv hw
      have hm : m ≠ [] := hne m List.mem_cons_self
      refine ⟨?_, ?_⟩
      · rw [List.map_cons, gapsOf_cons, g1, k1, List.flatten_cons, newGaps_append, List.getLast?_eq_some_getLast hm, Option.some_or]
      · intro x hx
        rcases List.mem_cons.1 hx with rfl | hx
        · exact ⟨k2, trivial, by rw [k1]; exact newGaps_ne hm⟩
        · exact g2 x hx

theorem parseSimple_gaps (henv : env.Ok) {txt : List Char} {st : State} {prev : Option Char} {ws : List Word} {r : List Char ⊕ Word}
    (h : parseSimple env txt st prev = some (ws, r)) : Sound (ws.map .word) ∧
      match r with
      | .inl head => ∃ a, txt = a ++ head ∧ gapsOf (ws.map .word) = newGaps env st prev a ∧ (∀ x ∈ a.getLast?, isBreak x = true)
      | .inr w => gapsOf (ws.map .word ++ [.word w]) = newGaps env st prev txt ∧ Sound [.word w] ∧ (∀ x ∈ txt.getLast?, isBreak x = true) := by
  obtain ⟨h1, h2, h3, h4⟩ := allWords_spec _ txt (Nat.lt_succ_self _)
  unfold parseSimple at h
  obtain ⟨ms, left, hm⟩ : ∃ ms left, allWords txt = (ms, left) := ⟨_, _, rfl⟩
  rw [hm] at h h1 h2 h3 h4
  simp only at h1 h2 h3 h4
  have hne : ∀ m ∈ ms, m ≠ [] := fun m hm => (h2 m hm).2.ne
  have snil : Sound ([].map WordLike.word) := by intro w hw; simp at hw
  cases ms with
  | nil =>
    simp only [Option.some.injEq, Prod.mk.injEq] at h
    obtain ⟨rfl, rfl⟩ := h
    exact ⟨snil, [], rfl, rfl, by simp⟩
  | cons m ms =>
    simp only at h
    cases e : makeWords env st (m :: ms) prev with
    | none => rw [e] at h; cases h
    | some ws' =>
      rw [e] at h
      obtain ⟨g1, g2⟩ := makeWords_gaps henv st _ _ _ hne e
      have hbrk : ∀ x ∈ (m :: ms).flatten.getLast?, isBreak x = true := by
        intro x hx
        have hlast : (m :: ms).flatten.getLast? = ((m :: ms).getLast (by simp)).getLast? := by
          rcases List.eq_nil_or_concat (m :: ms) with e' | ⟨i, y, e'⟩
          · cases e'
          · simp only [e', List.concat_eq_append, List.flatten_append, List.flatten_cons, List.flatten_nil, List.append_nil, List.getLast_append_singleton]
            rw [List.getLast?_append]
            have : y ≠ [] := hne y (by rw [e']; simp)
            rw [List.getLast?_eq_some_getLast this, Option.some_or]
        rw [hlast] at hx
        obtain ⟨c, hc, hb⟩ := (h2 _ (List.getLast_mem (by simp : m :: ms ≠ []))).2
        rw [hc] at hx
        cases hx
        exact hb
      simp only at h
      split at h
      · simp only [Option.some.injEq, Prod.mk.injEq] at h
        obtain ⟨rfl, rfl⟩ := h
        exact ⟨g2, _, h1.symm, g1, hbrk⟩
      · rename_i hl
        simp only [ne_eq, not_not] at hl
        subst hl
        split at h
        · rename_i w hw
          obtain ⟨ys, rfl⟩ := List.getLast?_eq_some_iff.1 hw
          simp only [Option.some.injEq, Prod.mk.injEq, List.dropLast_concat] at h
          obtain ⟨rfl, rfl⟩ := h
          rw [List.append_nil] at h1
          rw [h1] at g1 hbrk
          refine ⟨fun x hx => g2 x (by simp only [List.map_append, List.mem_append]; exact .inl hx), by simpa using g1, ?_, hbrk⟩
          intro x hx
          simp only [List.mem_singleton] at hx
          subst hx
          exact g2 _ (by simp)
        · cases h

/-! ### Words of several passages -/

theorem gapsFrom_styled (k : List (Nat × ℚ)) (st : State) : ∀ (s : List Char) (i : Nat), (gapsFrom k st i s).map (·.2) = s.map (·, st)
  | [], _ => rfl
  | c :: s, i => by simp [gapsFrom, gapsFrom_styled k st s]

theorem Box.gaps_styled (b : Box) : b.gaps.map (·.2) = b.styled := by
  cases b with
  | slug s => exact gapsFrom_styled _ _ _ _
  | mixed segs st =>
    simp only [Box.gaps, Box.styled, List.map_flatMap]
    congr 1
    funext e
    exact gapsFrom_styled _ _ _ _

theorem WordLike.gaps_styled : ∀ (w : WordLike), w.gaps.map (·.2) = w.styled
  | .box b => b.gaps_styled
  | .word w => by
    simp only [WordLike.gaps, WordLike.styled, Word.styled, List.map_append, List.map_flatMap]
    congr 1
    · congr 1
      funext b
      exact b.gaps_styled
    · cases w.tail <;> rfl
  | .withCmd w _ => WordLike.gaps_styled w

theorem gapsOf_styled (ws : List WordLike) : (gapsOf ws).map (·.2) = ws.flatMap WordLike.styled := by
  simp only [gapsOf, List.map_flatMap]
  congr 1
  funext w
  exact w.gaps_styled

theorem chain_join {R : Gap → Gap → Prop} {a b : List Gap} (ha : a.IsChain R) (hb : b.IsChain R) (h : ∀ x ∈ a.getLast?, ∀ y ∈ b.head?, R x y) : (a ++ b).IsChain R := by
  rw [List.isChain_append]
  exact ⟨ha, hb, h⟩

/-- The last character of a piece of text, and the character kerning goes by, in the state where the text goes on. -/
def Carries (z : Gap) (st : State) (prev : Option Char) : Prop := prev = if z.2.2.kernsWith st then some z.2.1 else none

theorem Carries.same {z : Gap} : Carries z z.2.2 (some z.2.1) := by
  rw [Carries, if_pos (kernsWith_iff.2 ⟨rfl, rfl⟩)]

theorem Carries.exact {z : Gap} {st : State} {prev : Option Char} (h : Carries z st prev) (c : Char) : Exact env z (env.kernAfter st prev c, c, st) := by
  subst h
  by_cases hk : z.2.2.kernsWith st = true
  · have hk' := kernsWith_iff.1 hk
    rw [if_pos hk]
    exact ⟨.inr ⟨.inr hk', rfl⟩, by rw [Fits, if_pos hk']; rfl⟩
  · have hk' := fun h => hk (kernsWith_iff.2 h)
    rw [if_neg hk]
    exact ⟨.inl rfl, by rw [Fits, if_neg hk']; exact .inr rfl⟩

theorem segmentsLoop_gaps : ∀ (parts : List (Command × List Char)) (seg : Slug) (x : Gap), seg.Strict → Inner (asPassages parts) → seg.gaps.getLast? = some x →
    (∀ e ∈ (segmentsLoop env parts seg [] x.2.2 (some x.2.1)).1, e.1.Strict) ∧
    ∃ R z, (segmentsLoop env parts seg [] x.2.2 (some x.2.1)).1.flatMap (fun e => e.1.gaps) = seg.gaps ++ R ∧ (x :: R).IsChain (Exact env) ∧
      (x :: R).getLast? = some z ∧ Carries z (segmentsLoop env parts seg [] x.2.2 (some x.2.1)).2.1 (segmentsLoop env parts seg [] x.2.2 (some x.2.1)).2.2
  | [], seg, x, hs, hi, hx => by
    simp only [segmentsLoop]
    refine ⟨by simpa using hs, [], x, by simp, .singleton _, rfl, Carries.same⟩
  | (cmd, txt) :: parts, seg, x, hs, hi, hx => by
    simp only [segmentsLoop]
    have hprev : Carries x (cmd.apply x.2.2) (if x.2.2.kernsWith (cmd.apply x.2.2) then some x.2.1 else none) := rfl
    generalize (if x.2.2.kernsWith (cmd.apply x.2.2) then some x.2.1 else none) = prev at hprev
    split
    · rename_i h
      obtain ⟨c, hc⟩ : ∃ c, txt.getLast? = some c := ⟨_, List.getLast?_eq_some_getLast h⟩
      have hl := newGaps_last (env := env) (st := cmd.apply x.2.2) (s := txt) (prev := prev)
      rw [hc] at hl
      simp only [Option.map_some, Option.map_eq_some_iff] at hl
      obtain ⟨⟨k, y⟩, hy, rfl⟩ := hl
      obtain ⟨h1, R, z, h2, h3, h4, h5⟩ := segmentsLoop_gaps parts (Slug.new env txt (cmd.apply x.2.2) prev) (k, c, cmd.apply x.2.2)
        (Slug.new_strict env h _ _) (Inner.tail (p := ⟨cmd, txt⟩) hi) (by rw [Slug.new_gaps]; exact hy)
      simp only at h1 h2 h3 h4 h5
      rw [hc]
      refine ⟨?_, newGaps env (cmd.apply x.2.2) prev txt ++ R, z, ?_, ?_, ?_, h5⟩
      · intro e he
        rcases List.mem_cons.1 he with rfl | he
        · exact hs
        · exact h1 e he
      · rw [List.flatMap_cons, h2, Slug.new_gaps]
      · obtain ⟨l, hl⟩ := List.getLast?_eq_some_iff.1 hy
        have c1 : (x :: newGaps env (cmd.apply x.2.2) prev txt).IsChain (Exact env) := by
          cases txt with
          | nil => exact absurd rfl h
          | cons d txt => exact .cons_cons (hprev.exact d) (newGaps_exact (s := d :: txt) (prev := prev))
        rw [← List.cons_append]
        refine chain_join c1 (by cases h3 with | singleton => exact .nil | cons_cons _ h => exact h) ?_
        intro a ha b hb
        have ha' : (x :: newGaps env (cmd.apply x.2.2) prev txt).getLast? = some (k, c, cmd.apply x.2.2) := by
          rw [hl, ← List.cons_append, List.getLast?_append]; rfl
        rw [ha'] at ha
        cases ha
        cases R with
        | nil => simp at hb
        | cons r R =>
          cases hb
          cases h3 with
          | cons_cons h _ => exact h
      · obtain ⟨l, hl⟩ := List.getLast?_eq_some_iff.1 hy
        rw [← h4, hl]
        rw [← List.cons_append, List.getLast?_append]
        cases R with
        | nil => rw [← List.cons_append, List.getLast?_append]; simp
        | cons r R => rw [List.getLast?_cons_cons, List.getLast?_eq_some_getLast (l := r :: R) (by simp), Option.some_or]
    · rename_i h
      simp only [ne_eq, not_not] at h
      have hp : parts = [] := by
        have := Inner.head (p := ⟨cmd, txt⟩) (ps := asPassages parts) hi h
        simpa [asPassages] using this
      subst hp
      simp only [segmentsLoop]
      exact ⟨by simpa using hs, [], x, by simp, .singleton _, rfl, hprev⟩

theorem completeWord_gaps (henv : env.Ok) {it : List Passage} {head : List Char} {st : State} {w : Word} {left : Option (List Char)} {rest : List Passage}
    (hne : head ≠ []) (hi : Inner it) (h : completeWord env it head st none = some (w, left, rest)) :
    Sound [.word w] ∧ (WordLike.word w).gaps.IsChain (Exact env) ∧ (∀ y ∈ (WordLike.word w).gaps.head?, y.1 = 0) ∧
      (it = [] → (WordLike.word w).gaps = newGaps env st none head) := by
  have one : ∀ w : WordLike, w.Strict → w.IsWord → w.gaps ≠ [] → Sound [w] := by
    intro w h1 h2 h3 x hx
    simp only [List.mem_singleton] at hx
    subst hx
    exact ⟨h1, h2, h3⟩
  unfold completeWord at h
  split at h
  · simp only [Option.map_eq_some_iff, Prod.mk.injEq] at h
    obtain ⟨w', h1, rfl, rfl, rfl⟩ := h
    obtain ⟨g1, g2⟩ := Word.new_gaps henv h1
    refine ⟨one _ g2 trivial (by rw [g1]; exact newGaps_ne hne), by rw [g1]; exact newGaps_exact, by rw [g1]; exact newGaps_head, fun _ => g1⟩
  · rename_i parts sp left' rest' hp ht
    obtain ⟨t1, t2, -, -⟩ := takeParts_spec it _ _ _ _ ht
    simp only [Option.some.injEq, Prod.mk.injEq] at h
    obtain ⟨rfl, rfl, rfl⟩ := h
    have hs := Slug.new_strict env hne st none
    obtain ⟨c, hc⟩ : ∃ c, head.getLast? = some c := ⟨_, List.getLast?_eq_some_getLast hne⟩
    have hl := newGaps_last (env := env) (st := st) (s := head) (prev := none)
    rw [hc] at hl
    simp only [Option.map_some, Option.map_eq_some_iff] at hl
    obtain ⟨⟨k, y⟩, hy, rfl⟩ := hl
    have hlast : (Slug.new env head st none).last = some c := by simp [Slug.last, hc]
    rw [hlast]
    obtain ⟨h1, R, z, h2, h3, h4, h5⟩ := segmentsLoop_gaps (env := env) parts _ (k, c, st) hs (t2 hi).1 (by rw [Slug.new_gaps]; exact hy)
    simp only at h1 h2 h3 h4 h5
    rw [Slug.new_gaps] at h2
    obtain ⟨l, hl⟩ := List.getLast?_eq_some_iff.1 hy
    obtain ⟨_, _, _, t⟩ := segmentsLoop_text (env := env) parts (Slug.new env head st none) [] st (some c)
    have hchain : (newGaps env st none head ++ R).IsChain (Exact env) := by
      have e := newGaps_exact (env := env) (st := st) (s := head) (prev := none)
      refine chain_join e (by cases h3 with | singleton => exact .nil | cons_cons _ h => exact h) ?_
      intro a ha b hb
      rw [hy] at ha
      cases ha
      cases R with
      | nil => simp at hb
      | cons r R =>
        cases hb
        cases h3 with
        | cons_cons h _ => exact h
    have hz : (newGaps env st none head ++ R).getLast? = some z := by
      rw [hl, List.append_assoc, List.getLast?_append]
      simp only [List.cons_append, List.nil_append]
      rw [h4, Option.some_or]
    have hg : (WordLike.word ⟨[.mixed (segmentsLoop env parts (Slug.new env head st none) [] st (some c)).1 (segmentsLoop env parts (Slug.new env head st none) [] st (some c)).2.1],
        if sp = true then some (TrailingSpace.make env (segmentsLoop env parts (Slug.new env head st none) [] st (some c)).2.1 (segmentsLoop env parts (Slug.new env head st none) [] st (some c)).2.2) else none,
        (segmentsLoop env parts (Slug.new env head st none) [] st (some c)).2.1⟩).gaps = (newGaps env st none head ++ R) ++
          if sp = true then newGaps env (segmentsLoop env parts (Slug.new env head st none) [] st (some c)).2.1 (segmentsLoop env parts (Slug.new env head st none) [] st (some c)).2.2 [' '] else [] := by
      simp only [WordLike.gaps, List.flatMap_cons, List.flatMap_nil, List.append_nil, Box.gaps, h2]
      congr 1
      split
      · exact tail_gaps _ _
      · rfl
    rw [hg]
    have hne' := newGaps_ne (env := env) (st := st) (prev := none) hne
    refine ⟨one _ ?_ trivial (by rw [hg]; simp [hne']), ?_, ?_, ?_⟩
    · intro b hb
      simp only [WordLike.boxes, List.mem_singleton] at hb
      subst hb
      exact ⟨by simp [t], h1⟩
    · refine chain_join hchain ?_ ?_
      · split
        · exact newGaps_exact
        · exact .nil
      · intro a ha b hb
        rw [hz] at ha
        cases ha
        split at hb
        · cases hb
          exact h5.exact ' '
        · simp at hb
    · intro y hy
      rw [List.append_assoc, List.head?_append_of_ne_nil _ hne'] at hy
      exact newGaps_head y hy
    · intro e
      exact absurd (t1.2 e) hp

/-! ### All words -/

theorem sound_append {a b : List WordLike} (ha : Sound a) (hb : Sound b) : Sound (a ++ b) := by
  intro w hw
  rcases List.mem_append.1 hw with hw | hw
  · exact ha w hw
  · exact hb w hw

theorem sound_cons {w : WordLike} {b : List WordLike} (ha : Sound [w]) (hb : Sound b) : Sound (w :: b) := sound_append ha hb

theorem sound_addCmd {w : WordLike} {c : Command} (h : Sound [w]) : Sound [w.addCmd c] := by
  intro x hx
  simp only [List.mem_singleton] at hx
  subst hx
  obtain ⟨h1, h2, h3⟩ := h w (by simp)
  obtain ⟨e1, e2, e3⟩ := w.addCmd_gaps c
  exact ⟨e2.2 h1, e3.2 h2, by rw [e1]; exact h3⟩

/-- Kerned text that starts without kerning. -/
structure Fresh' (env : Env) (l : List Gap) : Prop where
  chain : l.IsChain (Loose env)
  zero : ∀ y ∈ l.head?, y.1 = 0

theorem fresh_nil : Fresh' env [] := ⟨.nil, by simp⟩

theorem fresh_append {a b : List Gap} (ha : Fresh' env a) (hb : Fresh' env b) (h : ∀ x ∈ a.getLast?, isBreak x.2.1 = true) : Fresh' env (a ++ b) := by
  refine ⟨chain_join ha.chain hb.chain ?_, ?_⟩
  · intro x hx y hy
    exact ⟨.inl (hb.zero y hy), fun _ => .inr (h x hx)⟩
  · intro y hy
    cases a with
    | nil => exact hb.zero y hy
    | cons x a => exact ha.zero y hy

theorem newGaps_fresh {st : State} {s : List Char} : Fresh' env (newGaps env st none s) := ⟨newGaps_exact.imp fun _ _ h => h.loose, newGaps_head⟩

theorem newGaps_break {st : State} {s : List Char} {prev : Option Char} (h : ∀ x ∈ s.getLast?, isBreak x = true) : ∀ x ∈ (newGaps env st prev s).getLast?, isBreak x.2.1 = true := by
  intro x hx
  have := newGaps_last (env := env) (st := st) (s := s) (prev := prev)
  rw [hx] at this
  cases e : s.getLast? with
  | none => rw [e] at this; simp at this
  | some c =>
    rw [e] at this
    simp only [Option.map_some, Option.some.injEq] at this
    rw [this]
    exact h c (by rw [e]; rfl)

theorem word_break {w : WordLike} (h : EndsInBreak w.text) : ∀ x ∈ w.gaps.getLast?, isBreak x.2.1 = true := by
  intro x hx
  obtain ⟨c, h1, h2⟩ := h
  have : w.text.getLast? = some x.2.1 := by
    rw [WordLike.text, ← w.gaps_styled, List.map_map, List.getLast?_map, hx]
    rfl
  rw [this] at h1
  cases h1
  exact h2

theorem parse_gaps (henv : env.Ok) : ∀ (n : Nat) (it : List Passage) (st : State) (txt : List Char) (ws : List WordLike), it.length < n → Inner it →
    parse env it st txt = some ws → Sound ws ∧ Fresh' env (gapsOf ws)
  | 0, _, _, _, _, h, _, _ => absurd h (by omega)
  | n + 1, it, st, txt, out, hn, hi, h => by
    have snil : Sound [] := by intro w hw; simp at hw
    rw [parse.eq_def] at h
    split at h
    · simp only [Option.some.injEq] at h
      subst h
      exact ⟨snil, fresh_nil⟩
    · rename_i hne
      obtain ⟨ws, r, h1, -, h3⟩ := parseSimple_spec henv txt st none hne
      obtain ⟨g1, g2⟩ := parseSimple_gaps henv h1
      rw [h1] at h
      cases r with
      | inr last =>
        obtain ⟨g2, g3, g4⟩ := g2
        simp only at h
        cases it with
        | nil =>
          simp only [Option.some.injEq] at h
          subst h
          exact ⟨sound_append g1 g3, by rw [g2]; exact newGaps_fresh⟩
        | cons p it' =>
          simp only [Option.map_eq_some_iff] at h
          obtain ⟨more, k1, rfl⟩ := h
          obtain ⟨k2, k3⟩ := parse_gaps henv n it' _ _ _ (by simp at hn; omega) hi.tail k1
          refine ⟨sound_append g1 (sound_cons (sound_addCmd g3) k2), ?_⟩
          have : gapsOf (ws.map .word ++ (WordLike.word last).addCmd p.cmd :: more) = newGaps env st none txt ++ gapsOf more := by
            rw [← g2, gapsOf_append, gapsOf_append, gapsOf_cons, gapsOf_cons, ((WordLike.word last).addCmd_gaps p.cmd).1]
            simp
          rw [this]
          exact fresh_append newGaps_fresh k3 (newGaps_break g4)
      | inl head =>
        obtain ⟨a, rfl, g3, g4⟩ := g2
        obtain ⟨hh, hnb, -⟩ := h3
        obtain ⟨w', left', rest', c1, -, c3, c4⟩ := completeWord_spec henv it head st none hh hnb
        have hir := (c4 hi).2.2.1
        obtain ⟨q1, q2, q3, -⟩ := completeWord_gaps henv hh hi c1
        have hw : Fresh' env (WordLike.word w').gaps := ⟨q2.imp fun _ _ h => h.loose, q3⟩
        have ha : ∀ l, Fresh' env l → Fresh' env (gapsOf (ws.map .word) ++ l) := by
          intro l hl
          rw [g3]
          exact fresh_append newGaps_fresh hl (newGaps_break g4)
        have fin : Sound (ws.map .word ++ [.word w']) ∧ Fresh' env (gapsOf (ws.map .word ++ [.word w'])) := by
          refine ⟨sound_append g1 q1, ?_⟩
          rw [gapsOf_append, gapsOf_cons]
          exact ha _ (by simpa using hw)
        have cont : ∀ (w : WordLike) (more : List WordLike), Sound [w] → w.gaps = (WordLike.word w').gaps → left' ≠ none → Sound more → Fresh' env (gapsOf more) →
            Sound (ws.map .word ++ w :: more) ∧ Fresh' env (gapsOf (ws.map .word ++ w :: more)) := by
          intro w more s1 s2 s3 s4 s5
          refine ⟨sound_append g1 (sound_cons s1 s4), ?_⟩
          rw [gapsOf_append, gapsOf_cons, s2]
          exact ha _ (fresh_append hw s5 (word_break (c3 s3)))
        dsimp only at h
        split at h
        · cases h
        · rename_i e
          rw [c1] at e
          simp only [Option.some.injEq, Prod.mk.injEq] at e
          obtain ⟨rfl, rfl, rfl⟩ := e
          simp only [Option.some.injEq] at h
          subst h
          exact fin
        · rename_i last l rest e
          rw [c1] at e
          simp only [Option.some.injEq, Prod.mk.injEq] at e
          obtain ⟨rfl, rfl, rfl⟩ := e
          have hlt := completeWord_lt _ _ _ _ _ _ _ _ c1
          split at h
          · simp only [Option.map_eq_some_iff] at h
            obtain ⟨more, k1, rfl⟩ := h
            obtain ⟨k2, k3⟩ := parse_gaps henv n rest' _ _ _ (by omega) hir k1
            exact cont _ _ q1 rfl (by simp) k2 k3
          · cases rest' with
            | nil =>
              simp only [Option.some.injEq] at h
              subst h
              exact fin
            | cons p it' =>
              simp only [Option.map_eq_some_iff] at h
              obtain ⟨more, k1, rfl⟩ := h
              obtain ⟨k2, k3⟩ := parse_gaps henv n it' _ _ _ (by simp at hlt; omega) hir.tail k1
              exact cont _ _ (sound_addCmd q1) ((WordLike.word w').addCmd_gaps p.cmd).1 (by simp) k2 k3

/-- The text of a single string: everything before the last break, and what is after it. -/
theorem parse_string (henv : env.Ok) {st : State} {txt : List Char} {ws : List WordLike} (h : parse env [] st txt = some ws) :
    ∃ a b, txt = a ++ b ∧ (∀ x ∈ a.getLast?, isBreak x = true) ∧ NoBreak b ∧ gapsOf ws = newGaps env st none a ++ newGaps env st none b := by
  rw [parse.eq_def] at h
  split at h
  · rename_i e
    simp only [Option.some.injEq] at h
    subst h
    exact ⟨[], [], by simpa using e, by simp, by intro c hc; simp at hc, rfl⟩
  · rename_i hne
    obtain ⟨ws', r, h1, -, h3⟩ := parseSimple_spec henv txt st none hne
    obtain ⟨g1, g2⟩ := parseSimple_gaps henv h1
    rw [h1] at h
    cases r with
    | inr last =>
      obtain ⟨g2, g3, g4⟩ := g2
      simp only [Option.some.injEq] at h
      subst h
      exact ⟨txt, [], by simp, g4, by intro c hc; simp at hc, by rw [g2]; simp [newGaps]⟩
    | inl head =>
      obtain ⟨a, rfl, g3, g4⟩ := g2
      obtain ⟨hh, hnb, -⟩ := h3
      have hi : Inner [] := by intro p hp; simp at hp
      simp only at h
      split at h
      · cases h
      · rename_i e
        obtain ⟨-, -, -, q⟩ := completeWord_gaps henv hh hi e
        simp only [Option.some.injEq] at h
        subst h
        refine ⟨a, head, rfl, g4, hnb, ?_⟩
        rw [gapsOf_append, g3, gapsOf_cons, q rfl]
        simp
      · rename_i e
        simp [completeWord, takeParts] at e

theorem string_parts {st : State} {a b : List Char} (ha : ∀ x ∈ a.getLast?, isBreak x = true) (hb : NoBreak b) :
    Parts env (newGaps env st none a) (newGaps env st none b) := by
  refine ⟨newGaps_chain, newGaps_chain, ?_, newGaps_head, newGaps_break ha⟩
  intro g hg
  have hm : ∀ (s : List Char) (prev : Option Char), ∀ g ∈ newGaps env st prev s, g.2.1 ∈ s := by
    intro s
    induction s with
    | nil => intro prev g hg; simp [newGaps] at hg
    | cons c s ih =>
      intro prev g hg
      rcases List.mem_cons.1 hg with rfl | hg
      · simp
      · exact List.mem_cons_of_mem _ (ih _ _ hg)
  exact hb _ (hm _ _ g (List.dropLast_subset _ hg))

theorem intoWords_gaps (henv : env.Ok) {ps : List Passage} {st : State} {cmd : Command} {ws : List WordLike} (ht : Tidy ps)
    (h : intoWords env ps st = some (cmd, ws)) : Sound ws ∧ Fresh' env (gapsOf ws) := by
  have h2 := (foldCommands_tidy ps st ht).2
  unfold intoWords at h
  split at h
  · simp only [Option.some.injEq, Prod.mk.injEq] at h
    obtain ⟨-, rfl⟩ := h
    exact ⟨by intro w hw; simp at hw, fresh_nil⟩
  · rename_i e
    rw [e] at h2
    simp only [Option.map_eq_some_iff, Prod.mk.injEq] at h
    obtain ⟨ws', h1, -, rfl⟩ := h
    exact parse_gaps henv _ _ _ _ _ (Nat.lt_succ_self _) h2 h1

theorem intoWords_string (henv : env.Ok) {p : Passage} {st : State} {cmd : Command} {ws : List WordLike}
    (h : intoWords env [p] st = some (cmd, ws)) : ∃ a b, p.txt = a ++ b ∧ (∀ x ∈ a.getLast?, isBreak x = true) ∧ NoBreak b ∧
      gapsOf ws = newGaps env (p.cmd.apply st) none a ++ newGaps env (p.cmd.apply st) none b := by
  unfold intoWords at h
  simp only [foldCommands] at h
  by_cases hp : p.txt = []
  · simp only [hp, ne_eq, not_true_eq_false, if_false, Option.some.injEq, Prod.mk.injEq] at h
    obtain ⟨-, rfl⟩ := h
    exact ⟨[], [], by simp [hp], by simp, by intro c hc; simp at hc, rfl⟩
  · simp only [hp, ne_eq, not_false_eq_true, if_true, Option.map_eq_some_iff, Prod.mk.injEq] at h
    obtain ⟨ws', h1, -, rfl⟩ := h
    exact parse_string henv h1

end Pdfje
