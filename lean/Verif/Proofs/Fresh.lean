import Verif.Proofs.Sizes
import Verif.Model.Pages
/-
The slugs of words from text are measured from their text.
-/

namespace Pdfje

variable {env : Env} {Q : State → Prop}

/-- The pieces of text of a box. -/
def Box.slugs : Box → List Slug
  | .slug s => [s]
  | .mixed segs _ => segs.map (·.1)

/-- A slug made from text, in a state with property `Q`. -/
def Slug.Fresh (env : Env) (Q : State → Prop) (x : Slug) : Prop := ∃ txt st prev, Q st ∧ x = Slug.new env txt st prev

@[inherit_doc Slug.Fresh] def Box.Fresh (env : Env) (Q : State → Prop) (b : Box) : Prop := Q b.state ∧ ∀ x ∈ b.slugs, x.Fresh env Q


/-- The command keeps the property. -/
def Command.Leaves (Q : State → Prop) (c : Command) : Prop := ∀ s, Q s → Q (c.apply s)

@[inherit_doc Slug.Fresh] def WordLike.Fresh (env : Env) (Q : State → Prop) : WordLike → Prop
  | .box b => b.Fresh env Q
  | .word w => Q w.state ∧ ∀ b ∈ w.boxes, b.Fresh env Q
  | .withCmd w c => WordLike.Fresh env Q w ∧ c.Leaves Q

theorem WordLike.Fresh.post : ∀ {w : WordLike}, w.Fresh env Q → Q w.state
  | .box _, h => h.1
  | .word _, h => h.1
  | .withCmd w c, h => h.2 _ (WordLike.Fresh.post (w := w) h.1)

theorem WordLike.Fresh.boxes : ∀ {w : WordLike}, w.Fresh env Q → ∀ b ∈ w.boxes, b.Fresh env Q
  | .box _, h, b, hb => by simp only [WordLike.boxes, List.mem_singleton] at hb; subst hb; exact h
  | .word _, h, b, hb => h.2 b hb
  | .withCmd w c, h, b, hb => WordLike.Fresh.boxes (w := w) h.1 b hb

theorem takeParts_mem : ∀ (it : List Passage) parts sp left rest, takeParts it = (parts, sp, left, rest) →
    (∀ e ∈ parts, ∃ p ∈ it, e.1 = p.cmd) ∧ ∀ p ∈ rest, p ∈ it
  | [], parts, sp, left, rest, h => by
    simp only [takeParts, Prod.mk.injEq] at h
    obtain ⟨rfl, -, -, rfl⟩ := h
    simp
  | p :: ps, parts, sp, left, rest, h => by
    simp only [takeParts] at h
    split at h
    · split at h <;>
      · simp only [Prod.mk.injEq] at h
        obtain ⟨rfl, -, -, rfl⟩ := h
        exact ⟨fun e he => ⟨p, by simp, by rw [List.mem_singleton] at he; rw [he]⟩, fun q hq => List.mem_cons_of_mem _ hq⟩
    · simp only [Prod.mk.injEq] at h
      obtain ⟨rfl, -, -, rfl⟩ := h
      obtain ⟨i1, i2⟩ := takeParts_mem ps _ _ _ _ rfl
      refine ⟨fun e he => ?_, fun q hq => List.mem_cons_of_mem _ (i2 q hq)⟩
      rcases List.mem_cons.1 he with rfl | he
      · exact ⟨p, by simp, rfl⟩
      · obtain ⟨q, hq, e'⟩ := i1 e he
        exact ⟨q, List.mem_cons_of_mem _ hq, e'⟩

theorem slugsOf_fresh {st : State} (hs : Q st) : ∀ (parts : List (List Char)) (prev : Option Char) (l : List Slug), slugsOf env st parts prev = some l → ∀ x ∈ l, x.Fresh env Q
  | [], _, l, h => by simp [slugsOf] at h; subst h; simp
  | part :: rest, prev, l, h => by
    simp only [slugsOf] at h
    split at h
    · simp at h
    · rw [Option.map_eq_some_iff] at h
      obtain ⟨l', h1, rfl⟩ := h
      intro x hx
      rcases List.mem_cons.1 hx with rfl | hx
      · exact ⟨_, _, _, hs, rfl⟩
      · exact slugsOf_fresh hs rest _ l' h1 x hx

theorem Word.new_fresh {st : State} (hs : Q st) {txt : List Char} {prev : Option Char} {w : Word} (h : Word.new env txt st prev = some w) : (WordLike.word w).Fresh env Q := by
  simp only [Word.new] at h
  split at h
  · simp at h
  · rw [Option.map_eq_some_iff] at h
    obtain ⟨l, h1, rfl⟩ := h
    refine ⟨hs, ?_⟩
    intro b hb
    obtain ⟨x, hx, rfl⟩ := List.mem_map.1 hb
    have hf := slugsOf_fresh hs _ _ l h1 x hx
    refine ⟨?_, ?_⟩
    · show Q x.state
      rw [slugsOf_fixed _ _ l h1 x hx]; exact hs
    · intro y hy
      simp only [Box.slugs, List.mem_singleton] at hy
      subst hy; exact hf

theorem makeWords_fresh {st : State} (hs : Q st) : ∀ (l : List (List Char)) (prev : Option Char) (ws : List Word), makeWords env st l prev = some ws →
    ∀ w ∈ ws, (WordLike.word w).Fresh env Q
  | [], _, ws, h => by simp [makeWords] at h; subst h; simp
  | x :: l, prev, ws, h => by
    simp only [makeWords] at h
    split at h
    · simp at h
    · rename_i w e
      rw [Option.map_eq_some_iff] at h
      obtain ⟨ws', h1, rfl⟩ := h
      intro y hy
      rcases List.mem_cons.1 hy with rfl | hy
      · exact Word.new_fresh hs e
      · exact makeWords_fresh hs l _ ws' h1 y hy

theorem parseSimple_fresh {st : State} (hs : Q st) {txt : List Char} {prev : Option Char} {ws : List Word} {r : List Char ⊕ Word}
    (h : parseSimple env txt st prev = some (ws, r)) : (∀ w ∈ ws, (WordLike.word w).Fresh env Q) ∧ ∀ w, r = .inr w → (WordLike.word w).Fresh env Q ∧ w.state = st := by
  have hfix := (parseSimple_fixed h).2
  unfold parseSimple at h
  split at h
  · simp only [Option.some.injEq, Prod.mk.injEq] at h
    obtain ⟨rfl, rfl⟩ := h
    exact ⟨by simp, by simp⟩
  · split at h
    · simp at h
    · rename_i ws' e
      have hf := makeWords_fresh hs _ _ ws' e
      split at h
      · simp only [Option.some.injEq, Prod.mk.injEq] at h
        obtain ⟨rfl, rfl⟩ := h
        exact ⟨hf, by simp⟩
      · split at h
        · rename_i w e2
          simp only [Option.some.injEq, Prod.mk.injEq] at h
          obtain ⟨rfl, rfl⟩ := h
          refine ⟨fun x hx => hf x (List.dropLast_subset _ hx), ?_⟩
          rintro x ⟨⟩
          exact ⟨hf _ (List.mem_of_getLast? e2), (hfix _ rfl).post⟩
        · simp at h

theorem segmentsLoop_fresh : ∀ (parts : List (Command × List Char)) (seg : Slug) (cmds : List Command) (st : State) (prev : Option Char),
    (∀ e ∈ parts, e.1.Leaves Q) → Q st → seg.Fresh env Q →
    Q (segmentsLoop env parts seg cmds st prev).2.1 ∧ ∀ e ∈ (segmentsLoop env parts seg cmds st prev).1, e.1.Fresh env Q
  | [], seg, _, st, _, _, hs, hf => ⟨hs, by intro e he; simp only [segmentsLoop, List.mem_singleton] at he; subst he; exact hf⟩
  | (cmd, txt) :: parts, seg, cmds, st, prev, hp, hs, hf => by
    have hc := hp (cmd, txt) (by simp) st hs
    have hp' : ∀ e ∈ parts, e.1.Leaves Q := fun e he => hp e (by simp [he])
    simp only at hc
    simp only [segmentsLoop]
    split
    · obtain ⟨i1, i2⟩ := segmentsLoop_fresh parts (Slug.new env txt (cmd.apply st) (if st.kernsWith (cmd.apply st) then prev else none)) [] (cmd.apply st) txt.getLast? hp' hc ⟨_, _, _, hc, rfl⟩
      refine ⟨i1, ?_⟩
      intro e he
      rcases List.mem_cons.1 he with rfl | he
      · exact hf
      · exact i2 e he
    · exact segmentsLoop_fresh parts seg _ _ _ hp' hc hf

theorem completeWord_fresh {it : List Passage} {head : List Char} {st : State} {prev : Option Char} {w : Word} {left : Option (List Char)} {rest : List Passage}
    (h : completeWord env it head st prev = some (w, left, rest)) (hp : ∀ p ∈ it, p.cmd.Leaves Q) (hs : Q st) :
    (WordLike.word w).Fresh env Q ∧ ∀ p ∈ rest, p.cmd.Leaves Q := by
  unfold completeWord at h
  split at h
  · rw [Option.map_eq_some_iff] at h
    obtain ⟨w', h1, h2⟩ := h
    simp only [Prod.mk.injEq] at h2
    obtain ⟨rfl, rfl, rfl⟩ := h2
    exact ⟨Word.new_fresh hs h1, by simp⟩
  · rename_i parts sp left' rest' hne ht
    simp only [Option.some.injEq, Prod.mk.injEq] at h
    obtain ⟨rfl, rfl, rfl⟩ := h
    obtain ⟨i1, i2⟩ := takeParts_mem it _ _ _ _ ht
    obtain ⟨j1, j2⟩ := segmentsLoop_fresh (env := env) (Q := Q) parts (Slug.new env head st prev) [] st (Slug.new env head st prev).last
      (fun e he => by obtain ⟨p, hp', e'⟩ := i1 e he; rw [e']; exact hp p hp') hs ⟨_, _, _, hs, rfl⟩
    refine ⟨⟨j1, ?_⟩, fun p hp' => hp p (i2 p hp')⟩
    intro b hb
    simp only [WordLike.boxes, List.mem_singleton] at hb
    subst hb
    refine ⟨j1, ?_⟩
    intro x hx
    simp only [Box.slugs, List.mem_map] at hx
    obtain ⟨e, he, rfl⟩ := hx
    exact j2 e he

theorem parse_fresh : ∀ (n : Nat) (it : List Passage) (st : State) (txt : List Char) (ws : List WordLike), it.length < n →
    (∀ p ∈ it, p.cmd.Leaves Q) → Q st → parse env it st txt = some ws → ∀ w ∈ ws, w.Fresh env Q
  | 0, _, _, _, _, hn, _, _, _ => by omega
  | n + 1, it, st, txt, ws, hn, hp, hs, h => by
    have addCmd : ∀ (w : WordLike) (c : Command), w.Fresh env Q → c.Leaves Q → (w.addCmd c).Fresh env Q :=
      fun w c hw hc => by
        unfold WordLike.addCmd
        split
        · exact hw
        · exact ⟨hw, hc⟩
    have two : ∀ (a : List Word) (x : WordLike) (b : List WordLike), (∀ w ∈ a, (WordLike.word w).Fresh env Q) → x.Fresh env Q →
        (∀ w ∈ b, w.Fresh env Q) → ∀ w ∈ a.map WordLike.word ++ x :: b, w.Fresh env Q := by
      intro a x b ha hx hb w hw
      rcases List.mem_append.1 hw with hw | hw
      · obtain ⟨y, hy, rfl⟩ := List.mem_map.1 hw
        exact ha y hy
      · rcases List.mem_cons.1 hw with rfl | hw
        · exact hx
        · exact hb w hw
    rw [parse] at h
    split at h
    · simp only [Option.some.injEq] at h; subst h; intro x hx; simp at hx
    · split at h
      · simp at h
      · rename_i e
        obtain ⟨k1, k2⟩ := parseSimple_fresh hs e
        have k3 := k2 _ rfl
        split at h
        · simp only [Option.some.injEq] at h; subst h
          exact two _ _ [] k1 k3.1 (by intro x hx; simp at hx)
        · rename_i p it'
          rw [Option.map_eq_some_iff] at h
          obtain ⟨more, h1, rfl⟩ := h
          have hc := hp p (by simp)
          exact two _ _ more k1 (addCmd _ _ k3.1 hc)
            (parse_fresh n _ _ _ more (by simp at hn; omega) (fun q hq => hp q (by simp [hq])) (hc _ hs) h1)
      · rename_i e
        obtain ⟨k1, -⟩ := parseSimple_fresh hs e
        split at h
        · simp at h
        · rename_i hc
          simp only [Option.some.injEq] at h; subst h
          exact two _ _ [] k1 (completeWord_fresh hc hp hs).1 (by intro x hx; simp at hx)
        · rename_i last left rest hc
          have hlt := completeWord_lt _ _ _ _ _ _ _ _ hc
          obtain ⟨j1, j2⟩ := completeWord_fresh hc hp hs
          split at h
          · rw [Option.map_eq_some_iff] at h
            obtain ⟨more, h1, rfl⟩ := h
            exact two _ _ more k1 j1 (parse_fresh n _ _ _ more (by omega) j2 j1.1 h1)
          · split at h
            · simp only [Option.some.injEq] at h; subst h
              exact two _ _ [] k1 j1 (by intro x hx; simp at hx)
            · rename_i p it' _
              rw [Option.map_eq_some_iff] at h
              obtain ⟨more, h1, rfl⟩ := h
              have hcc := j2 p (by simp)
              exact two _ _ more k1 (addCmd _ _ j1 hcc)
                (parse_fresh n _ _ _ more (by simp at hlt; omega) (fun q hq => j2 q (by simp [hq])) (hcc _ j1.1) h1)

theorem foldCommands_fresh : ∀ (g : List Passage) (st : State) (buffer : List Command), (∀ p ∈ g, p.cmd.Leaves Q) → ∀ cmd txt st' rest,
    foldCommands g st buffer = (cmd, some txt, st', rest) → (Q st → Q st') ∧ ∀ q ∈ rest, q.cmd.Leaves Q
  | [], st, buffer, _, cmd, txt, st', rest, h => by simp [foldCommands] at h
  | p :: g, st, buffer, hg, cmd, txt, st', rest, h => by
    simp only [foldCommands] at h
    split at h
    · simp only [Prod.mk.injEq] at h
      obtain ⟨-, -, rfl, rfl⟩ := h
      exact ⟨hg p (by simp) st, fun q hq => hg q (by simp [hq])⟩
    · obtain ⟨i1, i2⟩ := foldCommands_fresh g _ _ (fun q hq => hg q (by simp [hq])) cmd txt st' rest h
      exact ⟨fun hs => i1 (hg p (by simp) st hs), i2⟩

/-- All words of text are made of fresh slugs. -/
theorem intoWords_fresh {g : List Passage} {st : State} {cmd : Command} {ws : List WordLike} (hg : ∀ p ∈ g, p.cmd.Leaves Q) (hs : Q st)
    (h : intoWords env g st = some (cmd, ws)) : ∀ w ∈ ws, w.Fresh env Q := by
  unfold intoWords at h
  split at h
  · simp only [Option.some.injEq, Prod.mk.injEq] at h
    rw [← h.2]; simp
  · rename_i c txt st' rest e
    rw [Option.map_eq_some_iff] at h
    obtain ⟨ws', h1, h2⟩ := h
    simp only [Prod.mk.injEq] at h2
    obtain ⟨rfl, rfl⟩ := h2
    obtain ⟨i1, i2⟩ := foldCommands_fresh g st [] hg _ _ _ _ e
    exact parse_fresh _ _ _ _ _ (Nat.lt_succ_self _) i2 (i1 hs) h1

/-! ### States of the words of lines -/

/-- All states of the word have the property. -/
def WordLike.In (Q : State → Prop) : WordLike → Prop
  | .box b => Q b.state
  | .word w => Q w.state ∧ ∀ b ∈ w.boxes, Q b.state
  | .withCmd w c => w.In Q ∧ c.Leaves Q

theorem WordLike.Fresh.states : ∀ {w : WordLike}, w.Fresh env Q → w.In Q
  | .box _, h => h.1
  | .word _, h => ⟨h.1, fun b hb => (h.2 b hb).1⟩
  | .withCmd w c, h => ⟨WordLike.Fresh.states (w := w) h.1, h.2⟩

theorem WordLike.In.post : ∀ {w : WordLike}, w.In Q → Q w.state
  | .box _, h => h
  | .word _, h => h.1
  | .withCmd w c, h => h.2 _ (WordLike.In.post (w := w) h.1)

theorem WordLike.In.boxes : ∀ {w : WordLike}, w.In Q → ∀ b ∈ w.boxes, Q b.state
  | .box _, h, b, hb => by simp only [WordLike.boxes, List.mem_singleton] at hb; subst hb; exact h
  | .word _, h, b, hb => h.2 b hb
  | .withCmd w c, h, b, hb => WordLike.In.boxes (w := w) h.1 b hb

theorem WordLike.In.addCmd {w : WordLike} {c : Command} (h : w.In Q) (hc : c.Leaves Q) : (w.addCmd c).In Q := by
  unfold WordLike.addCmd
  split
  · exact h
  · exact ⟨h, hc⟩

theorem WordLike.In.indent (a : ℚ) : ∀ {w : WordLike}, w.In Q → (w.indent a).In Q
  | .box b, h => by
    show Q _
    rw [(b.indent_states a).2]; exact h
  | .word w, h => by
    simp only [WordLike.indent, Word.indent]
    split
    · exact h
    · split
      · rename_i b0 rest e
        have hb := h.2
        rw [e] at hb
        refine ⟨h.1, fun b hb' => ?_⟩
        rcases List.mem_cons.1 hb' with rfl | hb'
        · rw [(b0.indent_states a).2]; exact hb b0 (by simp)
        · exact hb b (by simp [hb'])
      · split
        · exact ⟨h.1, h.2⟩
        · exact h
  | .withCmd w c, h => by
    simp only [WordLike.indent]
    split
    · exact h
    · exact ⟨WordLike.In.indent a h.1, h.2⟩

theorem WordLike.In.stretchTail (a : ℚ) : ∀ {w : WordLike}, w.In Q → (w.stretchTail a).In Q
  | .box _, h => h
  | .word w, h => by
    simp only [WordLike.stretchTail, Word.stretchTail]
    split
    · split
      · exact h
      · exact ⟨h.1, h.2⟩
    · exact h
  | .withCmd w c, h => by
    simp only [WordLike.stretchTail]
    split
    · exact ⟨WordLike.In.stretchTail a h.1, h.2⟩
    · exact h

theorem indentFirst_in {ws : List WordLike} (a : ℚ) (h : ∀ w ∈ ws, w.In Q) : ∀ w ∈ indentFirst ws a, w.In Q := by
  cases ws with
  | nil => exact h
  | cons w ws =>
    intro x hx
    rcases List.mem_cons.1 hx with rfl | hx
    · exact (h w (by simp)).indent a
    · exact h x (by simp [hx])

/-- All states of the fragment have the property. -/
structure Fragment.In (Q : State → Prop) (f : Fragment) : Prop where
  txt : f.txt.In Q
  onBreak : ∀ x ∈ f.onBreak, x.In Q
  cmd : f.cmd.Leaves Q

theorem chunkFrags_in (stretch shrink : ℚ) : ∀ (bs : List Box) (width : ℚ), (∀ b ∈ bs, Q b.state) →
    ∀ e ∈ chunkFrags env stretch shrink width bs, e.1.In Q
  | [], _, _, e, he => by simp [chunkFrags] at he
  | b :: bs, width, h, e, he => by
    rcases List.mem_cons.1 he with rfl | he
    · refine ⟨h b (by simp), ?_, fun s hs => hs⟩
      rintro x ⟨⟩
      show Q _
      rw [b.withHyphen_states.2]; exact h b (by simp)
    · exact chunkFrags_in stretch shrink bs _ (fun x hx => h x (by simp [hx])) e he

theorem endFrag_in {justify : Bool} {last : Option Box} {tail : Option TrailingSpace} {st : State} {cmd : Command} {width stretch shrink : ℚ}
    {f : Fragment × KBox} {width' stretch' shrink' : ℚ} (hb : ∀ b ∈ last, Q b.state) (hs : Q st) (hc : cmd.Leaves Q)
    (h : endFrag justify last tail st cmd width stretch shrink = some (f, width', stretch', shrink')) : f.1.In Q := by
  unfold endFrag at h
  split at h
  · simp only [Option.some.injEq, Prod.mk.injEq] at h
    obtain ⟨rfl, -⟩ := h
    refine ⟨⟨hs, ?_⟩, ?_, hc⟩
    · intro b hb'; simp at hb'; exact hb b hb'
    · intro x hx
      rw [Option.mem_def, Option.map_eq_some_iff] at hx
      obtain ⟨y, hy, rfl⟩ := hx
      exact hb y hy
  · split at h
    · simp at h
    · rename_i b
      simp only [Option.some.injEq, Prod.mk.injEq] at h
      obtain ⟨rfl, -⟩ := h
      exact ⟨hb b rfl, by rintro x ⟨⟩; exact hb b rfl, hc⟩

theorem WordLike.In.stripCmd {w : WordLike} (h : w.In Q) : w.stripCmd.1.In Q ∧ w.stripCmd.2.Leaves Q := by
  cases w with
  | box b => exact ⟨h, fun s hs => hs⟩
  | word w => exact ⟨h, fun s hs => hs⟩
  | withCmd w c => exact h

theorem fragsLoop_in (justify : Bool) : ∀ (ws : List WordLike) (width stretch shrink : ℚ) (fbs : List (Fragment × KBox)),
    (∀ w ∈ ws, w.In Q) → fragsLoop env justify ws width stretch shrink = some fbs → ∀ e ∈ fbs, e.1.In Q
  | [], width, stretch, shrink, fbs, hw, h => by
    simp only [fragsLoop, Option.some.injEq] at h
    subst h; simp
  | word :: ws, width, stretch, shrink, fbs, hw, h => by
    obtain ⟨k1, k2⟩ := (hw word (by simp)).stripCmd
    simp only [fragsLoop] at h
    split at h
    · simp at h
    · rename_i f width' stretch' shrink' he
      rw [Option.map_eq_some_iff] at h
      obtain ⟨more, h1, rfl⟩ := h
      intro e hm
      rcases List.mem_append.1 hm with hm | hm
      · exact chunkFrags_in _ _ _ _ (fun b hb => k1.boxes b (List.dropLast_subset _ hb)) e hm
      · rcases List.mem_cons.1 hm with rfl | hm
        · exact endFrag_in (fun b hb => k1.boxes b (List.mem_of_getLast? hb)) k1.post k2 he
        · exact fragsLoop_in justify ws _ _ _ more (fun w hx => hw w (by simp [hx])) h1 e hm

theorem lineWords_in {fs : List Fragment} (h : ∀ f ∈ fs, f.In Q) : ∀ w ∈ lineWords fs, w.In Q := by
  have hword : ∀ f ∈ fs, f.word.In Q := fun f hf => (h f hf).txt.addCmd (h f hf).cmd
  rcases List.eq_nil_or_concat fs with rfl | ⟨init, f, rfl⟩
  · intro x hx; simp [lineWords] at hx
  · rw [List.concat_eq_append] at *
    rcases lineWords_cases init f with ⟨t, e1, e2⟩ | ⟨e1, h0, e2⟩ | ⟨e1, init', g, h0, e2⟩
    · rw [e2]
      intro x hx
      rcases List.mem_append.1 hx with hx | hx
      · obtain ⟨y, hy, rfl⟩ := List.mem_map.1 hx
        exact hword y (by simp [hy])
      · rw [List.mem_singleton] at hx; subst hx
        exact ((h f (by simp)).onBreak t e1).addCmd (h f (by simp)).cmd
    · rw [e2]; intro x hx; simp at hx
    · rw [e2]
      subst h0
      intro x hx
      rcases List.mem_append.1 hx with hx | hx
      · obtain ⟨y, hy, rfl⟩ := List.mem_map.1 hx
        exact hword y (by simp [hy])
      · rw [List.mem_singleton] at hx; subst hx
        exact (hword g (by simp)).addCmd (h f (by simp)).cmd

theorem optimum_in {ws : List WordLike} {cols : Cols} {lead : ℚ}
    (hl : 0 < lead) (hc : ∀ i, 0 ≤ (cols i).2) {avoid : Bool} {align : Align} {p : OptParams} {ae : Bool} {out : List ShapedText}
    (h : optimumShape env cols lead avoid align p ws ae = some out) (hw : ∀ w ∈ ws, w.In Q) :
    ∀ chunk ∈ out, ∀ line ∈ chunk.lines, ∀ w ∈ line.words, w.In Q := by
  by_cases hws : ws = []
  · subst hws
    rcases optimumShape_nil h with ⟨rfl, -⟩ | ⟨rfl, -⟩ <;> simp
  · intro chunk hch line hl'
    obtain ⟨i, hi⟩ := List.mem_iff_getElem?.1 hch
    obtain ⟨k, hk⟩ := List.mem_iff_getElem?.1 hl'
    obtain ⟨fbs, W, tol, brs, n, a, br, hI⟩ := optimum_line hl hc hws h hi hk
    have hf := fragsLoop_in _ ws _ _ _ fbs hw hI.boxes
    have : ∀ w ∈ lineWords (((fbs.map (·.1)).take br.pos).drop a), w.In Q := lineWords_in (fun f hf' => by
      have := List.mem_of_mem_take (List.mem_of_mem_drop hf')
      obtain ⟨e, he, rfl⟩ := List.mem_map.1 this
      exact hf e he)
    rw [hI.set_, optLine]
    split
    · intro x hx
      simp only [TLine.stretch, List.mem_map] at hx
      obtain ⟨y, hy, rfl⟩ := hx
      exact (this y hy).stretchTail _
    · exact this

theorem chunksState_in : ∀ {chunks : List ShapedText} {st : State}, (∀ c ∈ chunks, ∀ l ∈ c.lines, ∀ w ∈ l.words, w.In Q) → Q st → Q (chunksState chunks st)
  | [], _, _, h => h
  | c :: cs, st, h, hs => by
    rw [chunksState]
    refine chunksState_in (fun x hx => h x (by simp [hx])) ?_
    unfold ShapedText.endState
    split
    · rename_i s e
      rw [Option.map_eq_some_iff] at e
      obtain ⟨w, hw, rfl⟩ := e
      obtain ⟨l, hl, hw⟩ := List.mem_flatMap.1 (List.mem_of_getLast? hw)
      exact (h c (by simp) l hl w hw).post
    · exact hs

theorem command_in {g : List Passage} {st : State} (ht : Tidy g) {cmd : Command} {ws : List WordLike} (hg : ∀ p ∈ g, p.cmd.Leaves Q) (hs : Q st)
    (h : intoWords env g st = some (cmd, ws)) : Q (cmd.apply st) := by
  have key : ∀ (g : List Passage) (st : State) (buffer : List Command), (∀ p ∈ g, p.cmd.Leaves Q) → Q st → Q (foldCommands g st buffer).2.2.1 := by
    intro g
    induction g with
    | nil => exact fun st _ _ hs => hs
    | cons p g ih =>
      intro st buffer hg hs
      simp only [foldCommands]
      split
      · exact hg p (by simp) st hs
      · exact ih _ _ (fun q hq => hg q (by simp [hq])) (hg p (by simp) st hs)
  have h1 := (foldCommands_tidy g st ht).1
  have h2 : (foldCommands g st []).1 = cmd := by
    unfold intoWords at h
    split at h
    · rename_i e
      rw [e]
      simp only [Option.some.injEq, Prod.mk.injEq] at h
      exact h.1
    · rename_i e
      rw [e]
      rw [Option.map_eq_some_iff] at h
      obtain ⟨_, -, h2⟩ := h
      simp only [Prod.mk.injEq] at h2
      exact h2.1
  rw [← h2, h1]
  exact key g st [] hg hs

/-! ### Commands of lines of text -/

theorem splitFrom_leaves (cmd : Command) (txt : List Char) (pos : Bool) (it : List Passage) (hc : cmd.Leaves Q) (hit : ∀ p ∈ it, p.cmd.Leaves Q) :
    ∀ g ∈ splitFrom cmd txt pos it, ∀ p ∈ g, p.cmd.Leaves Q := by
  have hpc : ∀ pos : Bool, (if pos then Command.noop else cmd).Leaves Q := by
    intro pos; cases pos
    · simpa using hc
    · exact fun s hs => hs
  induction cmd, txt, pos, it using splitFrom.induct with
  | case1 cmd txt pos it a b hnl ih =>
    rw [splitFrom_some hnl]
    intro g hg p hp
    rcases List.mem_cons.1 hg with rfl | hg
    · simp at hp; subst hp; exact hpc pos
    · exact ih hc hit hpc g hg p hp
  | case2 cmd txt pos hnl =>
    rw [splitFrom_none hnl]
    intro g hg p hp
    simp at hg; subst hg
    simp at hp; subst hp; exact hpc pos
  | case3 cmd txt pos hnl p ps he ih => exact absurd he (splitFrom_ne _ _ _ _)
  | case4 cmd txt pos hnl p ps g gs he ih =>
    rw [splitFrom_none hnl]
    simp only [he]
    have hk := hit p List.mem_cons_self
    have ih := ih hk (fun q hq => hit q (List.mem_cons_of_mem _ hq)) (by intro pos; cases pos; · simpa using hk
                                                                         · exact fun s hs => hs)
    rw [he] at ih
    intro g' hg' q hq
    rcases List.mem_cons.1 hg' with rfl | hg'
    · rcases List.mem_cons.1 hq with rfl | hq
      · exact hpc pos
      · exact ih g (by simp) q hq
    · exact ih g' (by simp [hg']) q hq

theorem splitlines_leaves (ps : List Passage) (h : ∀ p ∈ ps, p.cmd.Leaves Q) : ∀ g ∈ splitlines ps, ∀ p ∈ g, p.cmd.Leaves Q := by
  cases ps with
  | nil => simp [splitlines]
  | cons p ps => exact splitFrom_leaves _ _ _ _ (h p List.mem_cons_self) (fun q hq => h q (List.mem_cons_of_mem _ hq))

mutual
theorem Command.font_cases : ∀ c : Command, (∀ s, (c.apply s).size = s.size ∧ (c.apply s).font = s.font) ∨ ∃ f n, ∀ s, (c.apply s).size = n ∧ (c.apply s).font = f
  | .noop => Or.inl fun _ => ⟨rfl, rfl⟩
  | .setFont f z => Or.inr ⟨f, z, fun _ => ⟨rfl, rfl⟩⟩
  | .setColor c => Or.inl fun _ => ⟨rfl, rfl⟩
  | .setLineSpacing v => Or.inl fun _ => ⟨rfl, rfl⟩
  | .setHyphens v => Or.inl fun _ => ⟨rfl, rfl⟩
  | .chain l => applyAll_font_cases l
theorem applyAll_font_cases : ∀ l : List Command, (∀ s, (applyAll l s).size = s.size ∧ (applyAll l s).font = s.font) ∨ ∃ f n, ∀ s, (applyAll l s).size = n ∧ (applyAll l s).font = f
  | [] => Or.inl fun _ => ⟨rfl, rfl⟩
  | c :: cs => by
    rcases applyAll_font_cases cs with h | ⟨f, n, h⟩
    · rcases Command.font_cases c with h' | ⟨f, n, h'⟩
      · exact Or.inl fun s => by rw [applyAll, (h _).1, (h _).2]; exact h' s
      · exact Or.inr ⟨f, n, fun s => by rw [applyAll, (h _).1, (h _).2]; exact h' s⟩
    · exact Or.inr ⟨f, n, fun s => by rw [applyAll]; exact h _⟩
end

/-- A property of font and size. -/
theorem Command.leaves_of {R : FontRef → ℚ → Prop} {c : Command} {s : State} (h : R (c.apply s).font (c.apply s).size) : c.Leaves fun st => R st.font st.size := by
  intro s' hs'
  rcases c.font_cases with h' | ⟨f, n, h'⟩
  · simp only [(h' s').1, (h' s').2]; exact hs'
  · simp only [(h' s').1, (h' s').2]; rwa [(h' s).1, (h' s).2] at h

theorem passages_leave {R : FontRef → ℚ → Prop} : ∀ (ps : List Passage) (st : State), (∀ e ∈ passageStrings ps st, R e.2.font e.2.size) → ∀ p ∈ ps, p.cmd.Leaves fun st => R st.font st.size
  | [], _, _ => by simp
  | p :: ps, st, h => by
    simp only [passageStrings, List.mem_cons, forall_eq_or_imp] at h
    intro q hq
    rcases List.mem_cons.1 hq with rfl | hq
    · exact Command.leaves_of h.1
    · exact passages_leave ps _ h.2 q hq

end Pdfje
