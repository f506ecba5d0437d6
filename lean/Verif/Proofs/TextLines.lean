import Verif.Proofs.Text
import Verif.Props.Words
/-
The lines of a text drawing (draw.py `into_lines`).
-/

namespace Pdfje

/-- Passages with their states, as strings. -/
def passageStrings : List Passage → State → List (List Char × State)
  | [], _ => []
  | p :: ps, st => (p.txt, p.cmd.apply st) :: passageStrings ps (p.cmd.apply st)

theorem passageStrings_eq : ∀ (ps : List Passage) (st : State), passageStrings ps st = (ps.map (·.txt)).zip (stateAt ps st)
  | [], _ => rfl
  | p :: ps, st => by simp [passageStrings, stateAt, passageStrings_eq ps]

theorem styledLines_strings : ∀ (ps : List Passage) (st : State), styledLines ps st = stringsLines (passageStrings ps st)
  | [], _ => rfl
  | p :: ps, st => by simp [styledLines, stringsLines, passageStrings, styledLines_strings ps]

theorem nextNewline_empty {txt b : List Char} (h : nextNewline txt = some ([], b)) : StartsLine txt := by
  unfold nextNewline at h
  split at h
  · cases h
  · exact ⟨_, Or.inr rfl⟩
  · exact ⟨_, Or.inl rfl⟩
  · simp only [Option.map_eq_some_iff, Prod.mk.injEq, reduceCtorEq, false_and, and_false, exists_false] at h

theorem nextNewline_last : ∀ {txt a b : List Char}, nextNewline txt = some (a, b) → (b = [] ∨ b.getLast? = some '\n') →
    txt.getLast? = some '\n'
  | [], a, b, h, _ => by simp [nextNewline] at h
  | c :: rest, a, b, h, hb => by
    unfold nextNewline at h
    split at h
    · cases h
    · simp only [Option.some.injEq, Prod.mk.injEq] at h
      obtain ⟨-, rfl⟩ := h
      rename_i rest' heq
      rw [heq]
      rcases hb with rfl | hb
      · rfl
      · cases rest' with
        | nil => simp at hb
        | cons x l => rw [List.getLast?_cons_cons, List.getLast?_cons_cons]; exact hb
    · simp only [Option.some.injEq, Prod.mk.injEq] at h
      obtain ⟨-, rfl⟩ := h
      rename_i rest' heq
      rw [heq]
      rcases hb with rfl | hb
      · rfl
      · cases rest' with
        | nil => simp at hb
        | cons x l => rw [List.getLast?_cons_cons]; exact hb
    · rename_i c' rest' _ _ heq
      simp only [List.cons.injEq] at heq
      obtain ⟨rfl, rfl⟩ := heq
      simp only [Option.map_eq_some_iff, Prod.mk.injEq, Prod.exists] at h
      obtain ⟨a', b', h, _, rfl⟩ := h
      have := nextNewline_last h hb
      cases rest with
      | nil => simp at this
      | cons x l => rw [List.getLast?_cons_cons]; exact this

/-- All texts of a group are empty. -/
def Blank (g : List Passage) : Prop := ∀ p ∈ g, p.txt = []

/-- Groups of empty text change no style, unless they are the last. -/
def QuietGroups : List (List Passage) → State → Prop
  | [], _ => True
  | [_], _ => True
  | g :: g' :: gs, st => (Blank g → endState g st = st) ∧ QuietGroups (g' :: gs) (endState g st)

/-- Groups after the first. -/
def QuietTail : List (List Passage) → State → Prop
  | [], _ => True
  | g :: gs, st => QuietGroups gs (endState g st)

theorem quiet_cons {g : List Passage} {gs : List (List Passage)} {st : State} (h1 : gs ≠ [] → Blank g → endState g st = st)
    (h2 : QuietTail (g :: gs) st) : QuietGroups (g :: gs) st := by
  cases gs with
  | nil => trivial
  | cons a l => exact ⟨h1 (by simp), h2⟩

abbrev KeepsRel (a b : List Char × State) : Prop := a.1.getLast? = some '\n' → StartsLine b.1 → a.2 = b.2

theorem splitFrom_quiet (cmd : Command) (txt : List Char) (pos : Bool) (it : List Passage) (st : State)
    (hit : ∀ p ∈ it, p.txt ≠ []) (htxt : txt = [] → pos = true)
    (hch : List.IsChain KeepsRel (passageStrings it ((if pos then Command.noop else cmd).apply st)))
    (hn : (txt = [] ∨ txt.getLast? = some '\n') → ∀ p ∈ it.head?, StartsLine p.txt →
      p.cmd.apply ((if pos then Command.noop else cmd).apply st) = (if pos then Command.noop else cmd).apply st) :
    QuietTail (splitFrom cmd txt pos it) st ∧
    ((StartsLine txt → (if pos then Command.noop else cmd).apply st = st) → QuietGroups (splitFrom cmd txt pos it) st) := by
  induction cmd, txt, pos, it using splitFrom.induct generalizing st with
  | case1 cmd txt pos it a b hnl ih =>
    rw [splitFrom_some hnl]
    have hrec := ih ((if pos then Command.noop else cmd).apply st) hit (fun _ => rfl) (by simpa [Command.apply] using hch)
      (fun hb p hp hs => by
        have := hn (Or.inr (nextNewline_last hnl hb)) p hp hs
        simpa [Command.apply] using this)
    have hq := hrec.2 (fun _ => by rw [if_pos rfl, Command.apply])
    have ht : QuietTail ([⟨if pos then Command.noop else cmd, a⟩] :: splitFrom cmd b true it) st := by
      simpa [QuietTail, endState] using hq
    refine ⟨ht, fun h1 => quiet_cons ?_ ht⟩
    intro _ hbl
    have ha : a = [] := hbl _ List.mem_cons_self
    subst ha
    simpa [endState] using h1 (nextNewline_empty hnl)
  | case2 cmd txt pos hnl =>
    rw [splitFrom_none hnl]
    exact ⟨trivial, fun _ => trivial⟩
  | case3 cmd txt pos hnl p ps he ih => exact absurd he (splitFrom_ne _ _ _ _)
  | case4 cmd txt pos hnl p ps g gs he ih =>
    rw [splitFrom_none hnl]
    simp only [he]
    set st1 := (if pos then Command.noop else cmd).apply st with hst1
    have hch' : List.IsChain KeepsRel (passageStrings ps (p.cmd.apply st1)) := by
      rw [passageStrings] at hch; exact hch.tail
    have hrec := ih st1 (fun q hq => hit q (List.mem_cons_of_mem _ hq)) (fun h => absurd h (hit p List.mem_cons_self))
      (by simpa using hch') (fun hb q hq hs => by
        rcases hb with hb | hb
        · exact absurd hb (hit p List.mem_cons_self)
        · cases ps with
          | nil => simp at hq
          | cons p' ps' =>
            simp only [List.head?_cons, Option.mem_some_iff] at hq
            subst hq
            simp only [passageStrings] at hch
            exact (List.isChain_cons_cons.1 hch).1 hb hs |>.symm)
    rw [he] at hrec
    have ht : QuietTail ((⟨if pos then Command.noop else cmd, txt⟩ :: g) :: gs) st := by
      have := hrec.1
      simpa [QuietTail, endState] using this
    refine ⟨ht, fun h1 => quiet_cons ?_ ht⟩
    intro hgs hbl
    have htx : txt = [] := hbl _ List.mem_cons_self
    have hpos := htxt htx
    have e1 : st1 = st := by rw [hst1, hpos, if_pos rfl, Command.apply]
    have hq := hrec.2 (fun hs => by simpa using hn (Or.inl htx) p (by simp) hs)
    cases gs with
    | nil => exact absurd rfl hgs
    | cons g' gs' =>
      have := hq.1 (fun q hq => hbl q (by simp [hq]))
      simp only [endState]
      rw [← hst1, this, e1]

theorem splitlines_quiet (ps : List Passage) (st : State) (hne : ∀ p ∈ ps, p.txt ≠ [])
    (h : KeepsOnEmptyLines st (passageStrings ps st)) : QuietGroups (splitlines ps) st := by
  cases ps with
  | nil => trivial
  | cons p ps =>
    simp only [KeepsOnEmptyLines, passageStrings] at h
    obtain ⟨h1, h2⟩ := List.isChain_cons_cons.1 h
    refine (splitFrom_quiet p.cmd p.txt false ps st (fun q hq => hne q (List.mem_cons_of_mem _ hq))
      (fun e => absurd e (hne p List.mem_cons_self)) (by simpa using h2.tail) ?_).2 ?_
    · intro hb q hq hs
      rcases hb with hb | hb
      · exact absurd hb (hne p List.mem_cons_self)
      · cases ps with
        | nil => simp at hq
        | cons p' ps' =>
          simp only [List.head?_cons, Option.mem_some_iff] at hq
          subst hq
          simp only [passageStrings] at h2
          exact (List.isChain_cons_cons.1 h2).1 hb hs |>.symm
    · intro hs
      exact (h1 rfl hs).symm

theorem WordsWF.last_state {env : Env} : ∀ {ws : List WordLike} {pre fin : State}, WordsWF env ws pre fin → ∀ w, ws.getLast? = some w → w.state = fin
  | [], _, _, _, w, h => by simp at h
  | [x], _, _, h, w, hw => by simp at hw; subst hw; exact h.2.2
  | x :: y :: l, _, _, h, w, hw => by
    rw [List.getLast?_cons_cons] at hw
    exact WordsWF.last_state (ws := y :: l) h.2.2 w hw

theorem styled_nil_blank (g : List Passage) : ∀ st, styled g st = [] → Blank g := by
  induction g with
  | nil => intro st _; simp [Blank]
  | cons p g ih =>
    intro st h
    simp only [styled, List.append_eq_nil_iff, List.map_eq_nil_iff] at h
    intro q hq
    rcases List.mem_cons.1 hq with rfl | hq
    · exact h.1
    · exact ih _ h.2 q hq

theorem intoTextLines_spec {env : Env} (henv : env.Ok) : ∀ (gs : List (List Passage)) (st : State), (∀ g ∈ gs, Tidy g) → QuietGroups gs st →
    ∃ ls, intoTextLines env gs st = some ls ∧ RLinesWF env ls st ∧ ls.map RLine.styled = groupsStyled gs st ∧
      ∀ l ∈ ls, l.width = totalWidth l.words
  | [], st, _, _ => ⟨[], rfl, trivial, rfl, by simp⟩
  | g :: gs, st, ht, hq => by
    obtain ⟨cmd, ws, h1, -, h2⟩ := intoWords_spec henv g st
    obtain ⟨h3, h4⟩ := h2 (ht g List.mem_cons_self)
    have hq' : QuietGroups gs (endState g st) := by
      cases gs with
      | nil => trivial
      | cons a l => exact hq.2
    have hst : gs ≠ [] → (match ws.getLast? with | some w => w.state | none => st) = endState g st := by
      intro hgs
      cases hl : ws.getLast? with
      | some w => exact h3.last_state w hl
      | none =>
        have : ws = [] := by simpa using hl
        subst this
        cases gs with
        | nil => exact absurd rfl hgs
        | cons a l => exact (hq.1 (styled_nil_blank g st (by simpa using h4.symm))).symm
    by_cases hgs : gs = []
    · subst hgs
      refine ⟨[⟨cmd, ws, (ws.map WordLike.width).sum⟩], by simp [intoTextLines, h1], ⟨_, h3, trivial⟩, ?_, ?_⟩
      · simp [groupsStyled, RLine.styled, h4]
      · intro l hl; simp at hl; subst hl; rfl
    · obtain ⟨ls, i1, i2, i3, i4⟩ := intoTextLines_spec henv gs (endState g st) (fun x hx => ht x (List.mem_cons_of_mem _ hx)) hq'
      refine ⟨⟨cmd, ws, (ws.map WordLike.width).sum⟩ :: ls, ?_, ⟨_, h3, i2⟩, ?_, ?_⟩
      · simp only [intoTextLines, h1]
        have e := congrArg (fun s => Option.map (⟨cmd, ws, (ws.map WordLike.width).sum⟩ :: ·) (intoTextLines env gs s)) (hst hgs)
        simp only [i1, Option.map_some] at e
        exact e
      · simp only [List.map_cons, groupsStyled, i3, RLine.styled, h4]
      · intro l hl
        rcases List.mem_cons.1 hl with rfl | hl
        · rfl
        · exact i4 l hl

end Pdfje
