import Verif.Model.Optimum
import Verif.Proofs.FirstFit
/-
The fragments of optimum.py: their text, states and widths.
-/

namespace Pdfje

variable {env : Env}

/-- The word that a fragment is inside a line. -/
def Fragment.word (f : Fragment) : WordLike := f.txt.addCmd f.cmd

/-- The text of fragments. -/
def fragText (fs : List Fragment) : List (Char × State) := fs.flatMap fun f => f.txt.styled

/-- The kinds of fragments; `true` for those inside a word. -/
inductive FragKind (env : Env) : Fragment → Bool → Prop
  | inner (b : Box) : b.WF env → FragKind env ⟨.box b, some (.box (b.withHyphen env)), .noop⟩ true
  | spaced (b : Box) (t : TrailingSpace) (st : State) (c : Command) : b.WF env → b.state = st → TailOk env t st →
      FragKind env ⟨.word ⟨[b], some t, st⟩, some (.box b), c⟩ false
  | space (t : TrailingSpace) (st : State) (c : Command) : TailOk env t st → FragKind env ⟨.word ⟨[], some t, st⟩, none, c⟩ false
  | plain (b : Box) (c : Command) : b.WF env → FragKind env ⟨.box b, some (.box b), c⟩ false

/-- Fragments that are the last ones of the words `ws`, and where they end. -/
def FragSeq (env : Env) (ws : List WordLike) : List Fragment → Prop
  | [] => True
  | f :: fs => (∃ inner, FragKind env f inner ∧ (inner = true ↔ ¬ Boundary ws (fragText fs).length)) ∧ FragSeq env ws fs

/-- The width of a fragment at the end of a line. -/
def Fragment.breakWidth (f : Fragment) : ℚ := match f.onBreak with | some x => x.width | none => 0

/-- The boxes measure the fragments. -/
def FragMetrics (justify : Bool) : List (Fragment × KBox) → ℚ → ℚ → ℚ → Prop
  | [], _, _, _ => True
  | (f, b) :: r, w, s, k => b.inclSpace = w + f.txt.width ∧ b.inclHyphen = w + f.breakWidth ∧ b.stretch = s ∧ b.shrink = k ∧
      b.noBreak = false ∧
      FragMetrics justify r (w + f.txt.width) (if justify then s + f.txt.spaceWidth * (1/2) else s)
        (if justify then k + f.txt.spaceWidth * (1/3) else k)

theorem fragText_append (a b : List Fragment) : fragText (a ++ b) = fragText a ++ fragText b := by simp [fragText]

theorem FragSeq.lift (x : List WordLike) {y : List WordLike} : ∀ {fs : List Fragment}, (fragText fs).length ≤ textLen y → FragSeq env y fs →
    FragSeq env (x ++ y) fs
  | [], _, _ => trivial
  | f :: fs, hl, ⟨⟨inner, h1, h2⟩, h3⟩ => by
    have hl' : (fragText fs).length ≤ textLen y := by
      simp only [fragText, List.flatMap_cons, List.length_append] at hl ⊢; omega
    exact ⟨⟨inner, h1, by rw [boundary_append _ _ hl']; exact h2⟩, FragSeq.lift x hl' h3⟩

theorem FragSeq.drop {ws : List WordLike} : ∀ {fs : List Fragment} (n : Nat), FragSeq env ws fs → FragSeq env ws (fs.drop n)
  | fs, 0, h => by simpa using h
  | [], n + 1, _ => trivial
  | f :: fs, n + 1, h => by simpa using FragSeq.drop n h.2

theorem FragSeq.append_right {ws : List WordLike} : ∀ {a b : List Fragment}, FragSeq env ws (a ++ b) → FragSeq env ws b
  | [], _, h => h
  | _ :: _, _, h => FragSeq.append_right h.2

theorem WordsWF.append' {a b : List WordLike} : ∀ {s m t : State}, WordsWF env a s m → WordsWF env b m t → WordsWF env (a ++ b) s t := by
  induction a with
  | nil => intro s m t h1 h2; cases h1; exact h2
  | cons w a ih => intro s m t h1 h2; exact ⟨h1.1, h1.2.1, ih h1.2.2 h2⟩

theorem WordLike.addCmd_wordsWF {w : WordLike} (h : w.WF env) (c : Command) : WordsWF env [w.addCmd c] w.preState (c.apply w.state) := by
  cases c <;> exact ⟨h, rfl, rfl⟩


/-- Boxes that start in the state of the first of `init` and end where `last` begins. -/
theorem boxes_chain : ∀ (init : List Box) (last : Box) (fin : State), BoxesWF env (init ++ [last]) fin →
    (∀ b ∈ init, b.WF env) ∧ last.WF env ∧ last.state = fin ∧
    WordsWF env (init.map WordLike.box) ((init ++ [last]).head (by simp)).preState last.preState
  | [], last, fin, h => ⟨by simp, h.1, h.2, rfl⟩
  | [b], last, fin, h => ⟨by simpa using h.1, h.2.2.1, h.2.2.2, h.1, rfl, h.2.1⟩
  | b :: b' :: init, last, fin, h => by
    obtain ⟨h1, h2, h3⟩ := h
    obtain ⟨i1, i2, i3, i4⟩ := boxes_chain (b' :: init) last fin h3
    refine ⟨?_, i2, i3, h1, rfl, ?_⟩
    · intro x hx
      rcases List.mem_cons.1 hx with rfl | hx
      · exact h1
      · exact i1 x hx
    · simp only [List.cons_append, List.head_cons] at i4
      rw [show (WordLike.box b).state = b'.preState from h2]
      exact i4

theorem Box.withHyphen_styled' (b : Box) : ∃ st, (b.withHyphen env).styled = b.styled ++ [('-', st)] := by
  cases b with
  | slug s => exact ⟨s.state, by simp [Box.withHyphen, Box.styled, Slug.withHyphen, Slug.styled]⟩
  | mixed segs st => exact ⟨st, by simp [Box.withHyphen, Box.styled, Slug.new, Slug.styled]⟩

/-- The fragments of all syllables but the last, before a last fragment. -/
theorem chunkFrags_spec (justify : Bool) (stretch shrink : ℚ) : ∀ (init : List Box) (width : ℚ),
    (∀ b ∈ init, b.WF env) →
    ((chunkFrags env stretch shrink width init).map fun e => e.1.word) = init.map WordLike.box ∧
    fragText ((chunkFrags env stretch shrink width init).map (·.1)) = init.flatMap Box.styled ∧
    (∀ ws fs, FragSeq env ws fs →
      (∀ n, (fragText fs).length ≤ n → n < (init.flatMap Box.styled).length + (fragText fs).length → ¬ Boundary ws n) →
      FragSeq env ws ((chunkFrags env stretch shrink width init).map (·.1) ++ fs)) ∧
    (∀ more, FragMetrics justify more (width + (init.map Box.width).sum) stretch shrink →
      FragMetrics justify (chunkFrags env stretch shrink width init ++ more) width stretch shrink)
  | [], width, _ => ⟨rfl, rfl, fun _ _ h _ => h, fun more h => by simpa [chunkFrags] using h⟩
  | b :: init, width, h => by
    obtain ⟨i1, i2, i3, i4⟩ := chunkFrags_spec justify stretch shrink init (width + b.width) (fun x hx => h x (by simp [hx]))
    have hb := h b (by simp)
    have hne := List.length_pos_iff.2 (Box.styled_ne hb)
    refine ⟨?_, ?_, ?_, ?_⟩
    · simp only [chunkFrags, List.map_cons, i1]; rfl
    · simp only [chunkFrags, List.map_cons, fragText, List.flatMap_cons] at i2 ⊢
      rw [i2]; rfl
    · intro ws fs hs hn
      simp only [chunkFrags, List.map_cons, List.cons_append]
      simp only [List.flatMap_cons, List.length_append] at hn
      refine ⟨⟨true, .inner b hb, ?_⟩, i3 ws fs hs ?_⟩
      · simp only [true_iff]
        rw [fragText_append, i2, List.length_append]
        exact hn _ (by omega) (by omega)
      · intro n h1 h2
        exact hn n h1 (by omega)
    · intro more hm
      simp only [chunkFrags, List.cons_append]
      refine ⟨rfl, rfl, rfl, rfl, rfl, ?_⟩
      have e : (WordLike.box b).spaceWidth = 0 := rfl
      simp only [e, zero_mul, add_zero, ite_self]
      apply i4
      simpa [add_assoc] using hm

/-- The characters of a trailing space. -/
def tailChars (tail : Option TrailingSpace) (st : State) : List (Char × State) := match tail with | some _ => [(' ', st)] | none => []

/-- The state before a box, or `st` if there is none. -/
def lastPre (last : Option Box) (st : State) : State := match last with | some b => b.preState | none => st

/-- The end of a word. -/
theorem endFrag_spec {justify : Bool} {last : Option Box} {tail : Option TrailingSpace} {st : State} {cmd : Command} {width stretch shrink : ℚ}
    {f : Fragment × KBox} {width' stretch' shrink' : ℚ} (hb : ∀ b ∈ last, b.WF env ∧ b.state = st) (ht : ∀ t ∈ tail, TailOk env t st)
    (h : endFrag justify last tail st cmd width stretch shrink = some (f, width', stretch', shrink')) :
    FragKind env f.1 false ∧ f.1.txt.styled = last.toList.flatMap Box.styled ++ tailChars tail st ∧
    f.1.txt.WF env ∧ f.1.txt.state = st ∧ f.1.txt.preState = lastPre last st ∧ f.1.cmd = cmd ∧
    (∀ more, FragMetrics justify more width' stretch' shrink' → FragMetrics justify (f :: more) width stretch shrink) := by
  unfold endFrag at h
  cases tail with
  | some t =>
    simp only [Option.some.injEq, Prod.mk.injEq] at h
    obtain ⟨rfl, rfl, rfl, rfl⟩ := h
    have ht := ht t rfl
    cases last with
    | some b =>
      obtain ⟨h1, h2⟩ := hb b rfl
      refine ⟨.spaced b t st cmd h1 h2 ht, ?_, ⟨⟨h1, h2⟩, by simpa using ht⟩, rfl, rfl, rfl, ?_⟩
      · simp [WordLike.styled, Word.styled, tailChars]
      · intro more hm
        refine ⟨?_, ?_, rfl, rfl, rfl, ?_⟩
        · simp [WordLike.width, Word.width, Word.prunedWidth, Word.prunableSpace]; ring
        · simp [Fragment.breakWidth, WordLike.width]
        · simpa [WordLike.width, Word.width, Word.prunedWidth, Word.prunableSpace, WordLike.spaceWidth, WordLike.tail, add_assoc] using hm
    | none =>
      refine ⟨.space t st cmd ht, ?_, ⟨trivial, by simpa using ht⟩, rfl, rfl, rfl, ?_⟩
      · simp [WordLike.styled, Word.styled, tailChars]
      · intro more hm
        refine ⟨?_, ?_, rfl, rfl, rfl, ?_⟩
        · simp [WordLike.width, Word.width, Word.prunedWidth, Word.prunableSpace]
        · simp [Fragment.breakWidth]
        · simpa [WordLike.width, Word.width, Word.prunedWidth, Word.prunableSpace, WordLike.spaceWidth, WordLike.tail, add_assoc] using hm
  | none =>
    cases last with
    | none => simp at h
    | some b =>
      simp only [Option.some.injEq, Prod.mk.injEq] at h
      obtain ⟨rfl, rfl, rfl, rfl⟩ := h
      obtain ⟨h1, h2⟩ := hb b rfl
      refine ⟨.plain b cmd h1, by simp [WordLike.styled, tailChars], h1, h2, rfl, rfl, ?_⟩
      intro more hm
      refine ⟨rfl, rfl, rfl, rfl, rfl, ?_⟩
      simpa [WordLike.width, WordLike.spaceWidth, WordLike.tail] using hm

/-- What is known about the fragments of words. -/
structure FragsOk (env : Env) (justify : Bool) (ws : List WordLike) (pre fin : State) (width stretch shrink : ℚ)
    (fbs : List (Fragment × KBox)) : Prop where
  text : fragText (fbs.map (·.1)) = ws.flatMap WordLike.styled
  seq : FragSeq env ws (fbs.map (·.1))
  wf : WordsWF env (fbs.map fun e => e.1.word) pre fin
  metrics : FragMetrics justify fbs width stretch shrink

theorem fragsLoop_spec (justify : Bool) : ∀ (ws : List WordLike) (pre fin : State) (width stretch shrink : ℚ) (fbs : List (Fragment × KBox)),
    WordsWF env ws pre fin → (∀ w ∈ ws, w.Plain) → fragsLoop env justify ws width stretch shrink = some fbs →
    FragsOk env justify ws pre fin width stretch shrink fbs
  | [], pre, fin, width, stretch, shrink, fbs, hw, _, h => by
    simp only [fragsLoop, Option.some.injEq] at h
    subst h
    exact ⟨rfl, trivial, hw, trivial⟩
  | word :: ws, pre, fin, width, stretch, shrink, fbs, hw, hp, h => by
    simp only [fragsLoop] at h
    split at h
    · simp at h
    · rename_i f width' stretch' shrink' he
      rw [Option.map_eq_some_iff] at h
      obtain ⟨more, h1, rfl⟩ := h
      obtain ⟨g1, g2, g3⟩ := hw
      obtain ⟨k1, k2, k3, k4⟩ := fragsLoop_spec justify ws _ fin width' stretch' shrink' more g3 (fun w hx => hp w (by simp [hx])) h1
      obtain ⟨w, cmd, e1, e2, e3, e4, e5, e6⟩ : ∃ (w : Word) (cmd : Command), word.stripCmd = (.word w, cmd) ∧ w.WF env ∧
          word.styled = w.styled ∧ word.state = cmd.apply w.state ∧ word.preState = w.preState ∧ True := by
        have hpw := hp word (by simp)
        cases word with
        | box b => exact hpw.elim
        | word w => exact ⟨w, .noop, rfl, g1, rfl, rfl, rfl, trivial⟩
        | withCmd x c =>
          cases x with
          | box b => exact hpw.elim
          | word w => exact ⟨w, c, rfl, g1, rfl, rfl, rfl, trivial⟩
          | withCmd x c => exact hpw.elim
      simp only [e1, WordLike.boxes, WordLike.tail, WordLike.state] at he ⊢
      have hb := e2.boxes
      obtain ⟨c1, c2, c3⟩ : (∀ b ∈ w.boxes.dropLast, b.WF env) ∧ (∀ b ∈ w.boxes.getLast?, b.WF env ∧ b.state = w.state) ∧
          WordsWF env (w.boxes.dropLast.map WordLike.box) w.preState (lastPre w.boxes.getLast? w.state) := by
        rcases List.eq_nil_or_concat w.boxes with h0 | ⟨init, last, h0⟩
        · simp only [h0, List.dropLast_nil, List.getLast?_nil, List.map_nil]
          exact ⟨by simp, by simp, by simp [Word.preState, h0, WordsWF, lastPre]⟩
        · rw [List.concat_eq_append] at h0
          rw [h0] at hb
          obtain ⟨b1, b2, b3, b4⟩ := boxes_chain init last _ hb
          simp only [h0, List.dropLast_concat, List.getLast?_concat]
          refine ⟨b1, by rintro b ⟨⟩; exact ⟨b2, b3⟩, ?_⟩
          have : w.preState = ((init ++ [last]).head (by simp)).preState := by
            cases init with
            | nil => simp [Word.preState, h0]
            | cons x init => simp [Word.preState, h0]
          rw [this]; exact b4
      obtain ⟨d1, d2, d3, d4, d5, d6, d7⟩ := endFrag_spec c2 e2.tail he
      obtain ⟨j1, j2, j3, j4⟩ := chunkFrags_spec justify stretch shrink w.boxes.dropLast width c1
      have hst : word.styled = w.boxes.dropLast.flatMap Box.styled ++ f.1.txt.styled := by
        rw [e3, d2, ← List.append_assoc, ← List.flatMap_append]
        have : w.boxes.dropLast ++ w.boxes.getLast?.toList = w.boxes := by
          rcases List.eq_nil_or_concat w.boxes with h0 | ⟨init, last, h0⟩
          · simp [h0]
          · simp [h0]
        rw [this]; rfl
      have htxt : fragText ((f :: more).map (·.1)) = f.1.txt.styled ++ ws.flatMap WordLike.styled := by
        rw [← k1]; rfl
      refine ⟨?_, ?_, ?_, ?_⟩
      · rw [List.map_append, fragText_append, j2, htxt, List.flatMap_cons, hst, List.append_assoc]
      · rw [List.map_append]
        have hmore : (fragText (more.map (·.1))).length = textLen ws := by rw [k1]; rfl
        apply j3
        · refine ⟨⟨false, d1, ?_⟩, ?_⟩
          · simp only [Bool.false_eq_true, false_iff, not_not]
            show Boundary (word :: ws) (fragText (more.map (·.1))).length
            rw [hmore, boundary_cons]; exact Or.inr (.all ws)
          · exact FragSeq.lift [word] hmore.le k2
        · intro n h2 h3
          have hpos : 0 < f.1.txt.styled.length := by
            rw [List.length_pos_iff, d2]
            intro h0
            rw [List.append_eq_nil_iff] at h0
            cases ht : w.tail with
            | some t => rw [ht] at h0; simp [tailChars] at h0
            | none =>
              cases hl : w.boxes.getLast? with
              | none => rw [ht, hl] at he; simp [endFrag] at he
              | some b => rw [hl] at h0; exact Box.styled_ne (c2 b hl).1 (by simpa using h0.1)
          rw [htxt, List.length_append] at h2 h3
          change f.1.txt.styled.length + textLen ws ≤ n at h2
          change n < _ + (f.1.txt.styled.length + textLen ws) at h3
          rw [boundary_cons, textLen_cons, hst, List.length_append]
          rintro (h4 | h4)
          · omega
          · have := h4.le; omega
      · rw [List.map_append, List.map_cons, j1]
        rw [← g2, e5]
        refine c3.append' ?_
        have hf := WordLike.addCmd_wordsWF d3 f.1.cmd
        refine WordsWF.append' (a := [f.1.word]) (m := word.state) ?_ k3
        rw [e4, ← d6, ← d5, ← d4]
        exact hf
      · exact j4 _ (d7 _ k4)

theorem fragsLoop_isSome (justify : Bool) : ∀ (ws : List WordLike) (width stretch shrink : ℚ), (∀ w ∈ ws, w.Plain) → (∀ w ∈ ws, w.styled ≠ []) →
    ∃ fbs, fragsLoop env justify ws width stretch shrink = some fbs
  | [], _, _, _, _, _ => ⟨[], rfl⟩
  | word :: ws, width, stretch, shrink, hp, hne => by
    obtain ⟨w, cmd, e1, e3⟩ : ∃ (w : Word) (cmd : Command), word.stripCmd = (.word w, cmd) ∧ word.styled = w.styled := by
      have hpw := hp word (by simp)
      cases word with
      | box b => exact hpw.elim
      | word w => exact ⟨w, .noop, rfl, rfl⟩
      | withCmd x c =>
        cases x with
        | box b => exact hpw.elim
        | word w => exact ⟨w, c, rfl, rfl⟩
        | withCmd x c => exact hpw.elim
    have hw := hne word (by simp)
    rw [e3] at hw
    simp only [fragsLoop, e1, WordLike.boxes, WordLike.tail, WordLike.state]
    split
    · rename_i he
      exfalso
      unfold endFrag at he
      split at he
      · simp at he
      · rename_i ht
        split at he
        · rename_i hl
          rw [List.getLast?_eq_none_iff] at hl
          exact hw (by simp [Word.styled, hl, ht])
        · simp at he
    · rename_i f width' stretch' shrink' he
      obtain ⟨fbs, h⟩ := fragsLoop_isSome justify ws width' stretch' shrink' (fun w hx => hp w (by simp [hx])) (fun w hx => hne w (by simp [hx]))
      rw [h]
      exact ⟨_, rfl⟩

theorem fragsLoop_ne {justify : Bool} {ws : List WordLike} {width stretch shrink : ℚ} {fbs : List (Fragment × KBox)} (hne : ws ≠ [])
    (h : fragsLoop env justify ws width stretch shrink = some fbs) : fbs ≠ [] := by
  cases ws with
  | nil => exact absurd rfl hne
  | cons word ws =>
    simp only [fragsLoop] at h
    split at h
    · simp at h
    · rw [Option.map_eq_some_iff] at h
      obtain ⟨more, -, rfl⟩ := h
      simp

end Pdfje
