import Verif.Proofs.Fixed
/-
Words of text with positive font sizes.
-/

namespace Pdfje

variable {env : Env}

/-- The command does not change a positive font size to another one. -/
def Command.Keeps (c : Command) : Prop := ∀ s : State, 0 < s.size → 0 < (c.apply s).size

mutual
theorem Command.size_cases : ∀ c : Command, (∀ s, (c.apply s).size = s.size) ∨ ∃ n, ∀ s, (c.apply s).size = n
  | .noop => Or.inl fun _ => rfl
  | .setFont f z => Or.inr ⟨z, fun _ => rfl⟩
  | .setColor c => Or.inl fun _ => rfl
  | .setLineSpacing v => Or.inl fun _ => rfl
  | .setHyphens v => Or.inl fun _ => rfl
  | .chain l => applyAll_size_cases l
theorem applyAll_size_cases : ∀ l : List Command, (∀ s, (applyAll l s).size = s.size) ∨ ∃ n, ∀ s, (applyAll l s).size = n
  | [] => Or.inl fun _ => rfl
  | c :: cs => by
    rcases applyAll_size_cases cs with h | ⟨n, h⟩
    · rcases Command.size_cases c with h' | ⟨n, h'⟩
      · exact Or.inl fun s => by rw [applyAll, h, h']
      · exact Or.inr ⟨n, fun s => by rw [applyAll, h, h']⟩
    · exact Or.inr ⟨n, fun s => by rw [applyAll, h]⟩
end

theorem Command.keeps_of {c : Command} {s : State} (h : 0 < (c.apply s).size) : c.Keeps := by
  intro s' hs'
  rcases c.size_cases with h' | ⟨n, h'⟩
  · rw [h']; exact hs'
  · rw [h'] at h ⊢; exact h

theorem takeParts_keeps : ∀ (it : List Passage) parts sp left rest, takeParts it = (parts, sp, left, rest) →
    (∀ p ∈ it, p.cmd.Keeps) → (∀ e ∈ parts, e.1.Keeps) ∧ ∀ p ∈ rest, p.cmd.Keeps
  | [], parts, sp, left, rest, h, _ => by
    simp only [takeParts, Prod.mk.injEq] at h
    obtain ⟨rfl, -, -, rfl⟩ := h
    simp
  | p :: ps, parts, sp, left, rest, h, hp => by
    simp only [takeParts] at h
    split at h
    · split at h <;>
      · simp only [Prod.mk.injEq] at h
        obtain ⟨rfl, -, -, rfl⟩ := h
        exact ⟨by simpa using hp p (by simp), fun q hq => hp q (by simp [hq])⟩
    · simp only [Prod.mk.injEq] at h
      obtain ⟨rfl, -, -, rfl⟩ := h
      obtain ⟨i1, i2⟩ := takeParts_keeps ps _ _ _ _ rfl (fun q hq => hp q (by simp [hq]))
      exact ⟨by simpa using ⟨hp p (by simp), fun a b hab => i1 (a, b) hab⟩, i2⟩

theorem segmentsLoop_size : ∀ (parts : List (Command × List Char)) (seg : Slug) (cmds : List Command) (st : State) (prev : Option Char),
    (∀ e ∈ parts, e.1.Keeps) → 0 < st.size → 0 < (segmentsLoop env parts seg cmds st prev).2.1.size
  | [], _, _, _, _, _, h => h
  | (cmd, txt) :: parts, seg, cmds, st, prev, hp, h => by
    have hc := hp (cmd, txt) (by simp) st h
    simp only at hc
    simp only [segmentsLoop]
    split
    · exact segmentsLoop_size parts _ [] _ _ (fun e he => hp e (by simp [he])) hc
    · exact segmentsLoop_size parts seg _ _ _ (fun e he => hp e (by simp [he])) hc

theorem completeWord_size {it : List Passage} {head : List Char} {st : State} {prev : Option Char} {w : Word} {left : Option (List Char)} {rest : List Passage}
    (h : completeWord env it head st prev = some (w, left, rest)) (hp : ∀ p ∈ it, p.cmd.Keeps) (hs : 0 < st.size) :
    (0 < w.state.size ∧ ∀ b ∈ w.boxes, 0 < b.state.size) ∧ ∀ p ∈ rest, p.cmd.Keeps := by
  unfold completeWord at h
  split at h
  · rw [Option.map_eq_some_iff] at h
    obtain ⟨w', h1, h2⟩ := h
    simp only [Prod.mk.injEq] at h2
    obtain ⟨rfl, rfl, rfl⟩ := h2
    exact ⟨⟨by rw [(Word.new_fixed h1).1]; exact hs, fun b hb => by rw [((Word.new_fixed h1).2 b hb).2]; exact hs⟩, by simp⟩
  · rename_i parts sp left' rest' hne ht
    simp only [Option.some.injEq, Prod.mk.injEq] at h
    obtain ⟨rfl, rfl, rfl⟩ := h
    obtain ⟨i1, i2⟩ := takeParts_keeps it _ _ _ _ ht hp
    have := segmentsLoop_size (env := env) parts (Slug.new env head st prev) [] st (Slug.new env head st prev).last i1 hs
    exact ⟨⟨this, fun b hb => by rw [List.mem_singleton] at hb; subst hb; exact this⟩, i2⟩

/-- Font sizes at the end of a word and of its syllables are positive. -/
def WordLike.Sized (w : WordLike) : Prop := 0 < w.state.size ∧ ∀ b ∈ w.boxes, 0 < b.state.size

theorem parse_sizes : ∀ (n : Nat) (it : List Passage) (st : State) (txt : List Char) (ws : List WordLike), it.length < n →
    (∀ p ∈ it, p.cmd.Keeps) → 0 < st.size → parse env it st txt = some ws → ∀ w ∈ ws, w.Sized
  | 0, _, _, _, _, hn, _, _, _ => by omega
  | n + 1, it, st, txt, ws, hn, hp, hs, h => by
    have fixed : ∀ w : WordLike, w.Fixed st → w.Sized := fun w hw => ⟨by rw [hw.post]; exact hs, fun b hb => by rw [(hw.boxes b hb).2]; exact hs⟩
    have addCmd : ∀ (w : WordLike) (c : Command), w.Sized → 0 < (c.apply w.state).size → (w.addCmd c).Sized :=
      fun w c hw hc => ⟨by rw [WordLike.addCmd_state]; exact hc, by rw [WordLike.addCmd_boxes]; exact hw.2⟩
    have two : ∀ (a : List Word) (x : WordLike) (b : List WordLike), (∀ w ∈ a, (WordLike.word w).Fixed st) → x.Sized →
        (∀ w ∈ b, w.Sized) → ∀ w ∈ a.map WordLike.word ++ x :: b, w.Sized := by
      intro a x b ha hx hb w hw
      rcases List.mem_append.1 hw with hw | hw
      · obtain ⟨y, hy, rfl⟩ := List.mem_map.1 hw
        exact fixed _ (ha y hy)
      · rcases List.mem_cons.1 hw with rfl | hw
        · exact hx
        · exact hb w hw
    rw [parse] at h
    split at h
    · simp only [Option.some.injEq] at h; subst h; intro x hx; simp at hx
    · split at h
      · simp at h
      · rename_i e
        obtain ⟨k1, k2⟩ := parseSimple_fixed e
        have k3 := (k2 _ rfl).post
        split at h
        · simp only [Option.some.injEq] at h; subst h
          exact two _ _ [] k1 (fixed _ (k2 _ rfl)) (by intro x hx; simp at hx)
        · rename_i p it'
          rw [Option.map_eq_some_iff] at h
          obtain ⟨more, h1, rfl⟩ := h
          have hc := hp p (by simp) st hs
          exact two _ _ more k1 (addCmd _ _ (fixed _ (k2 _ rfl)) (by rw [k3]; exact hc))
            (parse_sizes n _ _ _ more (by simp at hn; omega) (fun q hq => hp q (by simp [hq])) hc h1)
      · rename_i e
        obtain ⟨k1, -⟩ := parseSimple_fixed e
        split at h
        · simp at h
        · rename_i hc
          simp only [Option.some.injEq] at h; subst h
          exact two _ _ [] k1 (completeWord_size hc hp hs).1 (by intro x hx; simp at hx)
        · rename_i last left rest hc
          have hlt := completeWord_lt _ _ _ _ _ _ _ _ hc
          obtain ⟨j1, j2⟩ := completeWord_size hc hp hs
          split at h
          · rw [Option.map_eq_some_iff] at h
            obtain ⟨more, h1, rfl⟩ := h
            exact two _ _ more k1 j1 (parse_sizes n _ _ _ more (by omega) j2 j1.1 h1)
          · split at h
            · simp only [Option.some.injEq] at h; subst h
              exact two _ _ [] k1 j1 (by intro x hx; simp at hx)
            · rename_i p it' _
              rw [Option.map_eq_some_iff] at h
              obtain ⟨more, h1, rfl⟩ := h
              have hcc := j2 p (by simp) _ j1.1
              exact two _ _ more k1 (addCmd _ _ j1 hcc)
                (parse_sizes n _ _ _ more (by simp at hlt; omega) (fun q hq => j2 q (by simp [hq])) hcc h1)

theorem foldCommands_sizes : ∀ (g : List Passage) (st : State) (buffer : List Command), (∀ p ∈ g, p.cmd.Keeps) → ∀ cmd txt st' rest,
    foldCommands g st buffer = (cmd, some txt, st', rest) → (0 < st.size → 0 < st'.size) ∧ ∀ q ∈ rest, q.cmd.Keeps
  | [], st, buffer, _, cmd, txt, st', rest, h => by simp [foldCommands] at h
  | p :: g, st, buffer, hg, cmd, txt, st', rest, h => by
    simp only [foldCommands] at h
    split at h
    · simp only [Prod.mk.injEq] at h
      obtain ⟨-, -, rfl, rfl⟩ := h
      exact ⟨hg p (by simp) st, fun q hq => hg q (by simp [hq])⟩
    · obtain ⟨i1, i2⟩ := foldCommands_sizes g _ _ (fun q hq => hg q (by simp [hq])) cmd txt st' rest h
      exact ⟨fun hs => i1 (hg p (by simp) st hs), i2⟩

/-- All words of text with positive font sizes end in a state with positive font size. -/
theorem intoWords_sizes {g : List Passage} {st : State} {cmd : Command} {ws : List WordLike} (hg : ∀ p ∈ g, p.cmd.Keeps) (hs : 0 < st.size)
    (h : intoWords env g st = some (cmd, ws)) : ∀ w ∈ ws, w.Sized := by
  unfold intoWords at h
  split at h
  · simp only [Option.some.injEq, Prod.mk.injEq] at h
    rw [← h.2]; simp
  · rename_i c txt st' rest e
    rw [Option.map_eq_some_iff] at h
    obtain ⟨ws', h1, h2⟩ := h
    simp only [Prod.mk.injEq] at h2
    obtain ⟨rfl, rfl⟩ := h2
    obtain ⟨i1, i2⟩ := foldCommands_sizes g st [] hg _ _ _ _ e
    exact parse_sizes _ _ _ _ _ (Nat.lt_succ_self _) i2 (i1 hs) h1

theorem splitFrom_keeps (cmd : Command) (txt : List Char) (pos : Bool) (it : List Passage) (hc : cmd.Keeps) (hit : ∀ p ∈ it, p.cmd.Keeps) :
    ∀ g ∈ splitFrom cmd txt pos it, ∀ p ∈ g, p.cmd.Keeps := by
  have hpc : ∀ pos : Bool, (if pos then Command.noop else cmd).Keeps := by
    intro pos; cases pos
    · simpa using hc
    · exact fun s hs => hs
  induction cmd, txt, pos, it using splitFrom.induct with
  | case1 cmd txt pos it a b hnl ih =>
    rw [splitFrom_some hnl]
    intro g hg p hp
    rcases List.mem_cons.1 hg with rfl | hg
    · simp at hp; subst hp; exact hpc pos
    · exact ih hc hit hpc g hg p hp
  | case2 cmd txt pos hnl =>
    rw [splitFrom_none hnl]
    intro g hg p hp
    simp at hg; subst hg
    simp at hp; subst hp; exact hpc pos
  | case3 cmd txt pos hnl p ps he ih => exact absurd he (splitFrom_ne _ _ _ _)
  | case4 cmd txt pos hnl p ps g gs he ih =>
    rw [splitFrom_none hnl]
    simp only [he]
    have hk := hit p List.mem_cons_self
    have ih := ih hk (fun q hq => hit q (List.mem_cons_of_mem _ hq)) (by intro pos; cases pos; · simpa using hk
                                                                         · exact fun s hs => hs)
    rw [he] at ih
    intro g' hg' q hq
    rcases List.mem_cons.1 hg' with rfl | hg'
    · rcases List.mem_cons.1 hq with rfl | hq
      · exact hpc pos
      · exact ih g (by simp) q hq
    · exact ih g' (by simp [hg']) q hq

theorem splitlines_keeps (ps : List Passage) (h : ∀ p ∈ ps, p.cmd.Keeps) : ∀ g ∈ splitlines ps, ∀ p ∈ g, p.cmd.Keeps := by
  cases ps with
  | nil => simp [splitlines]
  | cons p ps => exact splitFrom_keeps _ _ _ _ (h p List.mem_cons_self) (fun q hq => h q (List.mem_cons_of_mem _ hq))

theorem passages_keep : ∀ (ps : List Passage) (st : State), (∀ e ∈ passageStrings ps st, 0 < e.2.size) → ∀ p ∈ ps, p.cmd.Keeps
  | [], _, _ => by simp
  | p :: ps, st, h => by
    simp only [passageStrings, List.mem_cons, forall_eq_or_imp] at h
    intro q hq
    rcases List.mem_cons.1 hq with rfl | hq
    · exact Command.keeps_of h.1
    · exact passages_keep ps _ h.2 q hq

theorem endState_size : ∀ (g : List Passage) (st : State), (∀ p ∈ g, p.cmd.Keeps) → 0 < st.size → 0 < (endState g st).size
  | [], _, _, h => h
  | p :: g, st, hg, h => endState_size g _ (fun q hq => hg q (List.mem_cons_of_mem _ hq)) (hg p List.mem_cons_self st h)

theorem styled_sizes : ∀ (g : List Passage) (st : State), (∀ p ∈ g, p.cmd.Keeps) → 0 < st.size → ∀ e ∈ styled g st, 0 < e.2.size
  | [], _, _, _ => by simp [styled]
  | p :: g, st, hg, h => by
    have h1 := hg p List.mem_cons_self st h
    intro e he
    simp only [styled, List.mem_append, List.mem_map] at he
    rcases he with ⟨c, -, rfl⟩ | he
    · exact h1
    · exact styled_sizes g _ (fun q hq => hg q (List.mem_cons_of_mem _ hq)) h1 e he

theorem groupsStyled_sizes : ∀ (gs : List (List Passage)) (st : State), (∀ g ∈ gs, ∀ p ∈ g, p.cmd.Keeps) → 0 < st.size →
    ∀ l ∈ groupsStyled gs st, ∀ e ∈ l, 0 < e.2.size
  | [], _, _, _ => by simp [groupsStyled]
  | g :: gs, st, hg, h => by
    intro l hl
    rcases List.mem_cons.1 hl with rfl | hl
    · exact styled_sizes g st (hg g List.mem_cons_self) h
    · exact groupsStyled_sizes gs _ (fun g' hg' => hg g' (List.mem_cons_of_mem _ hg')) (endState_size g st (hg g List.mem_cons_self) h) l hl

end Pdfje
