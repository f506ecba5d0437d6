import Verif.Proofs.WordGaps
import Verif.Proofs.Shape
/-
The gaps of the lines into which words are broken.
-/

namespace Pdfje

variable {env : Env}

def gapsOf (ws : List WordLike) : List Gap := ws.flatMap WordLike.gaps
def TLine.gaps (l : TLine) : List Gap := gapsOf l.words

/-- Gaps broken into lines. Each line may have lost the kerning before its first character, may have an added hyphen, or may have lost a space at its end.
With `ff`, kerning before the first character of what is left is kept only after a line with neither a hyphen nor a lost space. -/
inductive Broken (env : Env) (ff : Bool) : List Gap → List (List Gap) → Prop
  | last (q p d line) : q = p ++ d → (d = [] ∨ ∃ k st, d = [(k, ' ', st)]) → (line = p ∨ line = unkern p) → Broken env ff q [line]
  | more (q p g d s line r ls) : q = p ++ d ++ s → (line = p ++ g ∨ line = unkern (p ++ g)) → (g = [] ∨ HyphenGap env p g ∧ d = [] ∧ s ≠ []) →
      (d = [] ∨ ∃ k st, d = [(k, ' ', st)]) → (r = unkern s ∨ r = s ∧ p ++ d ≠ [] ∧ (ff = true → g = [] ∧ d = [])) → Broken env ff r ls → Broken env ff q (line :: ls)

theorem gapsOf_append (a b : List WordLike) : gapsOf (a ++ b) = gapsOf a ++ gapsOf b := by simp [gapsOf]
theorem gapsOf_cons (a : WordLike) (b : List WordLike) : gapsOf (a :: b) = a.gaps ++ gapsOf b := by simp [gapsOf]
@[simp] theorem gapsOf_nil : gapsOf [] = [] := rfl

/-- Words from text. -/
def Sound (ws : List WordLike) : Prop := ∀ w ∈ ws, w.Strict ∧ w.IsWord ∧ w.gaps ≠ []

theorem unkern_gaps_append {w : WordLike} (h : w.gaps ≠ []) (ws : List WordLike) {b : WordLike} (hb : b.gaps = unkern w.gaps) : gapsOf (b :: ws) = unkern (gapsOf (w :: ws)) := by
  rw [gapsOf_cons, gapsOf_cons, hb, unkern_append h]

theorem append_ne {p q : List Gap} (h : p ≠ []) : p ++ q ≠ [] := by simp [h]

theorem HyphenGap.ne {p g : List Gap} (h : HyphenGap env p g) : p ≠ [] := by
  obtain ⟨a, st, h, -⟩ := h
  rintro rfl
  simp at h

theorem HyphenGap.prepend {p g : List Gap} (h : HyphenGap env p g) (x : List Gap) : HyphenGap env (x ++ p) g := by
  obtain ⟨a, st, h1, h2⟩ := h
  exact ⟨a, st, by rw [List.getLast?_append, h1]; rfl, h2⟩

theorem unkern_last {p : List Gap} : (unkern p).getLast?.map (·.2) = p.getLast?.map (·.2) := by
  match p with
  | [] => rfl
  | [(_, _, _)] => rfl
  | (_, _, _) :: b :: l => simp [unkern, List.getLast?_cons_cons]

theorem HyphenGap.of_unkern {p g : List Gap} (h : HyphenGap env (unkern p) g) : HyphenGap env p g := by
  obtain ⟨a, st, h1, h2⟩ := h
  have := unkern_last (p := p)
  rw [h1] at this
  simp only [Option.map_some] at this
  obtain ⟨b, hb, e⟩ := Option.map_eq_some_iff.1 this.symm
  exact ⟨b, st, hb, by rw [h2, e]⟩

/-- What a line takes. -/
theorem Ending.gaps {ws : List WordLike} {width : ℚ} {r : Option (List WordLike)} {line : TLine} (h : Ending env ws width r line) (hs : Sound ws) :
    (r = none → Broken env true (gapsOf ws) [line.gaps]) ∧ (∀ w ∈ line.words, w.Strict) ∧
    ∀ ws' ∈ r, Sound ws' ∧ ∀ ls, Broken env true (gapsOf ws') ls → Broken env true (gapsOf ws) (line.gaps :: ls) := by
  have hstrict : ∀ w ∈ ws, w.Strict := fun w hw => (hs w hw).1
  have cut : ∀ (content rest : List WordLike) (w a b : WordLike), ws = content ++ w :: rest → line.words = content ++ [a] → CutGaps env w a b →
      (∀ w ∈ line.words, w.Strict) ∧ Sound (b :: rest) ∧ ∀ ls, Broken env true (gapsOf (b :: rest)) ls → Broken env true (gapsOf ws) (line.gaps :: ls) := by
    rintro content rest w a b rfl e2 ⟨⟨p, g, s, h1, h2, h3, h4, h5⟩, sa, sb, wb⟩
    have hw := hs w (by simp)
    refine ⟨?_, ?_, ?_⟩
    · rw [e2]
      intro x hx
      rcases List.mem_append.1 hx with hx | hx
      · exact hstrict x (by simp [hx])
      · rw [List.mem_singleton] at hx; subst hx; exact sa
    · intro x hx
      rcases List.mem_cons.1 hx with rfl | hx
      · exact ⟨sb, wb hw.2.1, by rw [h5]; simpa using h4⟩
      · exact hs x (by simp [hx])
    · intro ls hb
      refine .more _ (gapsOf content ++ p) g [] (s ++ gapsOf rest) _ _ _ ?_ (.inl ?_) (.inr ⟨h3.prepend _, rfl, append_ne h4⟩) (.inl rfl) (.inl ?_) hb
      · rw [gapsOf_append, gapsOf_cons, h1]; simp
      · rw [TLine.gaps, e2, gapsOf_append, gapsOf_cons, h2]; simp
      · rw [gapsOf_cons, h5, unkern_append h4]
  cases h with
  | all h1 h2 h3 h4 h5 =>
    subst h1
    refine ⟨fun _ => .last _ (gapsOf ws) [] _ (by simp) (.inl rfl) (.inl (by rw [TLine.gaps, h2])), by rw [h2]; exact hstrict, by simp⟩
  | cut content rest w a b k e1 e2 e3 e4 e5 e6 =>
    subst e2
    obtain ⟨i1, i2, i3⟩ := cut content rest w a b e1 e3 (WordLike.hyphenate_gaps_some (hstrict w (by simp [e1])) e5)
    refine ⟨by simp, i1, ?_⟩
    intro ws' hw
    simp only [Option.mem_def, Option.some.injEq] at hw; subst hw
    exact ⟨i2, i3⟩
  | word content rest l w b e1 e2 e3 e4 e5 e6 e7 =>
    subst e2 e1
    have hw := hs w (by simp)
    obtain ⟨i1, i2, i3⟩ := WordLike.hyphenate_gaps_none hw.2.1 hw.1 e6
    have hl := hs l (by simp)
    have hbr : Sound (b :: rest) := by
      intro x hx
      rcases List.mem_cons.1 hx with rfl | hx
      · exact ⟨i2, i3, by rw [i1]; simpa using hw.2.2⟩
      · exact hs x (by simp [hx])
    have hb : gapsOf (b :: rest) = unkern (gapsOf (w :: rest)) := unkern_gaps_append hw.2.2 rest i1
    obtain ⟨j1, j2, d, j3, j4⟩ := l.pruned_gaps
    have main : (∀ w ∈ line.words, w.Strict) ∧ ∃ p d, gapsOf (content ++ [l]) = p ++ d ∧ line.gaps = p ∧ (d = [] ∨ ∃ k st, d = [(k, ' ', st)]) := by
      rcases e3 with e3 | ⟨e3, -⟩
      · refine ⟨?_, gapsOf (content ++ [l.pruned]), d, ?_, by rw [TLine.gaps, e3], j4⟩
        · rw [e3]
          intro x hx
          rcases List.mem_append.1 hx with hx | hx
          · exact hstrict x (by simp [hx])
          · rw [List.mem_singleton] at hx; subst hx; exact j1.2 hl.1
        · simp [gapsOf, j3]
      · refine ⟨?_, gapsOf (content ++ [l]), [], by simp, by rw [TLine.gaps, e3], .inl rfl⟩
        rw [e3]
        intro x hx
        exact hstrict x (by
          rcases List.mem_append.1 hx with hx | hx
          · simp [hx]
          · rw [List.mem_singleton] at hx; simp [hx])
    obtain ⟨m1, p, d, m2, m3, m4⟩ := main
    refine ⟨by simp, m1, ?_⟩
    intro ws' hw'
    simp only [Option.mem_def, Option.some.injEq] at hw'; subst hw'
    refine ⟨hbr, fun ls hls => .more _ p [] d (gapsOf (w :: rest)) _ _ _ ?_ (.inl (by simp [m3])) (.inl rfl) m4 (.inl hb) hls⟩
    rw [← m2, ← gapsOf_append]; simp
  | forced rest w d a e1 e2 e3 e4 e5 e6 =>
    subst e1
    have hw := hs w (by simp)
    obtain ⟨i1, i2, i3⟩ := WordLike.hyphenate_gaps_none hw.2.1 hw.1 e4
    rcases e6 with ⟨f1, f2⟩ | ⟨b, f1, f2⟩
    · obtain ⟨k1, k2⟩ := WordLike.minimalBox_gaps_none f1
      rw [e5] at k1 k2
      have hst : ∀ w ∈ line.words, w.Strict := by
        rw [e2]
        intro x hx
        rw [List.mem_singleton] at hx; subst hx; exact k2 i2
      have hlg : line.gaps = unkern w.gaps := by rw [TLine.gaps, e2, gapsOf_cons, k1, i1]; simp
      rcases f2 with ⟨rfl, -⟩ | ⟨rfl, rfl⟩
      · refine ⟨by simp, hst, ?_⟩
        intro ws' hw'
        simp only [Option.mem_def, Option.some.injEq] at hw'; subst hw'
        refine ⟨fun x hx => hs x (by simp [hx]), fun ls hls => .more _ w.gaps [] [] (gapsOf rest) _ _ _ ?_ (.inr (by simp [hlg])) (.inl rfl) (.inl rfl) (.inr ⟨rfl, by simpa using hw.2.2, by simp⟩) hls⟩
        rw [gapsOf_cons]; simp
      · refine ⟨fun _ => .last _ w.gaps [] _ (by simp [gapsOf_cons]) (.inl rfl) (.inr hlg), hst, by simp⟩
    · subst f2
      obtain ⟨⟨p, g, s, h1, h2, h3, h4, h5⟩, sa, sb, wb⟩ := WordLike.minimalBox_gaps_some i2 f1
      rw [e5] at h2 sa
      refine ⟨by simp, ?_, ?_⟩
      · rw [e2]
        intro x hx
        rw [List.mem_singleton] at hx; subst hx; exact sa
      · intro ws' hw'
        simp only [Option.mem_def, Option.some.injEq] at hw'; subst hw'
        refine ⟨?_, ?_⟩
        · intro x hx
          rcases List.mem_cons.1 hx with rfl | hx
          · exact ⟨sb, wb i3, by rw [h5]; simpa using h4⟩
          · exact hs x (by simp [hx])
        · intro ls hls
          -- the first part, with the kerning that it had
          obtain ⟨p0, hp0, hp1⟩ : ∃ p0, w.gaps = p0 ++ s ∧ unkern p0 = p := by
            have hp := h3.ne
            rw [i1] at h1
            cases hg : w.gaps with
            | nil => exact absurd hg hw.2.2
            | cons x l =>
              obtain ⟨k, c, st⟩ := x
              rw [hg] at h1
              cases p with
              | nil => exact absurd rfl hp
              | cons y p =>
                simp only [unkern, List.cons_append, List.cons.injEq] at h1
                exact ⟨(k, c, st) :: p, by rw [List.cons_append, h1.2], by simp [unkern, h1.1]⟩
          have hne : p0 ≠ [] := by
            rintro rfl
            exact h3.ne (by rw [← hp1]; rfl)
          refine .more _ p0 g [] (s ++ gapsOf rest) _ _ _ ?_ (.inr ?_) (.inr ⟨(HyphenGap.of_unkern (by rw [hp1]; exact h3)), rfl, append_ne h4⟩) (.inl rfl) (.inl ?_) hls
          · rw [gapsOf_cons, hp0]; simp
          · rw [TLine.gaps, e2, gapsOf_cons, h2, unkern_append hne, hp1]; simp
          · rw [gapsOf_cons, h5, unkern_append h4]

theorem LinesFrom.gaps {width : ℚ} {q q' : Option (List WordLike)} {lines : List TLine} (h : LinesFrom env width q lines q') :
    ∀ ws, q = some ws → Sound ws → (∀ l ∈ lines, ∀ w ∈ l.words, w.Strict) ∧ (q' = none → Broken env true (gapsOf ws) (lines.map TLine.gaps)) ∧
      ∀ ws' ∈ q', Sound ws' ∧ ∀ ls, Broken env true (gapsOf ws') ls → Broken env true (gapsOf ws) (lines.map TLine.gaps ++ ls) := by
  induction h with
  | nil q =>
    rintro ws rfl hs
    refine ⟨by simp, by simp, ?_⟩
    intro ws' hw
    simp only [Option.mem_def, Option.some.injEq] at hw; subst hw
    exact ⟨hs, fun ls h => h⟩
  | cons ws0 q ln lines q' h1 h2 ih =>
    intro ws e hs
    simp only [Option.some.injEq] at e; subst e
    obtain ⟨i1, i2, i3⟩ := (takeLine_ending h1).1.gaps hs
    cases q with
    | none =>
      obtain ⟨rfl, rfl⟩ := h2.from_none
      exact ⟨by simpa using i2, fun _ => i1 rfl, by simp⟩
    | some ws1 =>
      obtain ⟨j1, j2⟩ := i3 ws1 rfl
      obtain ⟨k1, k2, k3⟩ := ih ws1 rfl j1
      refine ⟨?_, fun e => j2 _ (k2 e), ?_⟩
      · intro l hl
        rcases List.mem_cons.1 hl with rfl | hl
        · exact i2
        · exact k1 l hl
      · intro ws' hw
        obtain ⟨m1, m2⟩ := k3 ws' hw
        exact ⟨m1, fun ls hls => j2 _ (m2 ls hls)⟩

theorem Chunks.gaps {cols : Cols} {lead : ℚ} {i : Nat} {ae : Bool} {ws : List WordLike} {out : List (List TLine)}
    (h : Chunks env cols lead i ae ws out) : Sound ws → (∀ c ∈ out, ∀ l ∈ c, ∀ w ∈ l.words, w.Strict) ∧ Broken env true (gapsOf ws) (out.flatten.map TLine.gaps) := by
  induction h with
  | last i ae ws lines h _ =>
    intro hs
    obtain ⟨h1, h2, -⟩ := h.gaps ws rfl hs
    exact ⟨by simpa using h1, by simpa using h2 rfl⟩
  | more i ae ws lines ws' rest h1 _ _ h2 ih =>
    intro hs
    obtain ⟨j1, -, j3⟩ := h1.gaps ws rfl hs
    obtain ⟨k1, k2⟩ := j3 ws' rfl
    obtain ⟨l1, l2⟩ := ih k1
    refine ⟨?_, ?_⟩
    · intro c hc
      rcases List.mem_cons.1 hc with rfl | hc
      · exact j1
      · exact l1 c hc
    · rw [List.flatten_cons, List.map_append]
      exact k2 _ l2

/-! ### What is true of the lines -/

/-- A relation that does not look at the kerning before the first of the two. -/
def Blind (R : Gap → Gap → Prop) : Prop := ∀ a b k, R a b → R (k, a.2) b

/-- Hyphens are put as the relation asks. -/
def Hyphens (env : Env) (R : Gap → Gap → Prop) : Prop := ∀ a st, R a (env.kernOf st a.2.1 '-', '-', st)

theorem chain_unkern {R : Gap → Gap → Prop} (hR : Blind R) {l : List Gap} : l.IsChain R → (unkern l).IsChain R := by
  match l with
  | [] => exact id
  | [(_, _, _)] => exact fun _ => .singleton _
  | (k, c, st) :: b :: l =>
    intro h
    cases h with
    | cons_cons h1 h2 => exact .cons_cons (hR _ _ _ h1) h2

theorem chain_hyphen {R : Gap → Gap → Prop} (hh : Hyphens env R) {p g : List Gap} (hp : p.IsChain R) (hg : g = [] ∨ HyphenGap env p g) : (p ++ g).IsChain R := by
  rcases hg with rfl | ⟨a, st, ha, rfl⟩
  · simpa using hp
  · refine List.isChain_append.2 ⟨hp, .singleton _, ?_⟩
    intro x hx y hy
    rw [ha] at hx
    simp only [Option.mem_def, Option.some.injEq, List.head?_cons] at hx hy
    subst hx hy
    exact hh _ _

theorem chain_left {R : Gap → Gap → Prop} {a b : List Gap} (h : (a ++ b).IsChain R) : a.IsChain R := (List.isChain_append.1 h).1
theorem chain_right {R : Gap → Gap → Prop} {a b : List Gap} (h : (a ++ b).IsChain R) : b.IsChain R := (List.isChain_append.1 h).2.1

theorem Broken.chain {R : Gap → Gap → Prop} (hR : Blind R) (hh : Hyphens env R) {ff : Bool} {q : List Gap} {ls : List (List Gap)} (h : Broken env ff q ls) :
    q.IsChain R → ∀ l ∈ ls, l.IsChain R := by
  induction h with
  | last q p d line h1 h2 h3 =>
    intro hq l hl
    rw [List.mem_singleton] at hl; subst hl
    rw [h1] at hq
    rcases h3 with rfl | rfl
    · exact chain_left hq
    · exact chain_unkern hR (chain_left hq)
  | more q p g d s line r ls h1 h2 h3 h4 h5 _ ih =>
    intro hq l hl
    rw [h1] at hq
    rcases List.mem_cons.1 hl with rfl | hl
    · have := chain_hyphen hh (chain_left (chain_left hq)) (h3.imp_right And.left)
      rcases h2 with rfl | rfl
      · exact this
      · exact chain_unkern hR this
    · refine ih ?_ l hl
      rcases h5 with rfl | ⟨rfl, -⟩
      · exact chain_unkern hR (chain_right hq)
      · exact chain_right hq

/-- No character but the last is a break. -/
def Wordy (l : List Gap) : Prop := ∀ g ∈ l.dropLast, isBreak g.2.1 = false

theorem unkern_dropLast (l : List Gap) : (unkern l).dropLast = unkern l.dropLast := by
  match l with
  | [] => rfl
  | [(_, _, _)] => rfl
  | (_, _, _) :: b :: l => simp [unkern]

theorem unkern_mem {l : List Gap} {g : Gap} (h : g ∈ unkern l) : ∃ g' ∈ l, g'.2 = g.2 := by
  match l with
  | [] => simp [unkern] at h
  | (k, c, st) :: l =>
    simp only [unkern, List.mem_cons] at h
    rcases h with rfl | h
    · exact ⟨_, List.mem_cons_self, rfl⟩
    · exact ⟨g, List.mem_cons_of_mem _ h, rfl⟩

theorem Wordy.unkern {l : List Gap} (h : Wordy l) : Wordy (unkern l) := by
  intro g hg
  rw [unkern_dropLast] at hg
  obtain ⟨g', h1, h2⟩ := unkern_mem hg
  rw [← h2]; exact h g' h1

theorem Wordy.left {a b : List Gap} (h : Wordy (a ++ b)) : Wordy a := by
  intro g hg
  rcases eq_or_ne b [] with rfl | hb
  · rw [List.append_nil] at h; exact h g hg
  · exact h g (by rw [List.dropLast_append_of_ne_nil hb]; exact List.mem_append_left _ (List.dropLast_subset _ hg))

theorem Wordy.right {a b : List Gap} (h : Wordy (a ++ b)) : Wordy b := by
  intro g hg
  rcases eq_or_ne b [] with rfl | hb
  · simp at hg
  · exact h g (by rw [List.dropLast_append_of_ne_nil hb]; exact List.mem_append_right _ hg)

theorem Wordy.hyphen {p g s : List Gap} (h : Wordy (p ++ s)) (hg : g = [] ∨ HyphenGap env p g ∧ s ≠ []) : Wordy (p ++ g) := by
  rcases hg with rfl | ⟨⟨a, st, ha, rfl⟩, hs⟩
  · simpa using h.left
  · intro x hx
    rw [List.dropLast_concat] at hx
    exact h x (by rw [List.dropLast_append_of_ne_nil hs]; exact List.mem_append_left _ hx)

theorem Broken.oneWord {ff : Bool} {q : List Gap} {ls : List (List Gap)} (h : Broken env ff q ls) : Wordy q → ∀ l ∈ ls, Wordy l := by
  induction h with
  | last q p d line h1 h2 h3 =>
    intro hq l hl
    rw [List.mem_singleton] at hl; subst hl
    rw [h1] at hq
    rcases h3 with rfl | rfl
    · exact hq.left
    · exact hq.left.unkern
  | more q p g d s line r ls h1 h2 h3 h4 h5 _ ih =>
    intro hq l hl
    rw [h1] at hq
    rcases List.mem_cons.1 hl with rfl | hl
    · have : Wordy (p ++ g) := by
        rcases h3 with rfl | ⟨h3, rfl, hne⟩
        · simpa using hq.left.left
        · exact Wordy.hyphen (by simpa using hq) (.inr ⟨h3, hne⟩)
      rcases h2 with rfl | rfl
      · exact this
      · exact this.unkern
    · refine ih ?_ l hl
      rcases h5 with rfl | ⟨rfl, -⟩
      · exact hq.right.unkern
      · exact hq.right

theorem fits_blind : Blind (Fits env) := fun _ _ _ h => h
theorem fits_hyphens : Hyphens env (Fits env) := by
  intro a st
  unfold Fits
  split
  · rfl
  · exact .inl rfl

/-- Two neighbours on a line of these are kerned, but maybe not where the text after the last break starts. -/
def KernedBut (env : Env) (ls : List (List Gap)) : Prop := ∀ pre line post, ls = pre ++ line :: post → ∀ a x y b, line = a ++ x :: y :: b →
  Fits env x y ∨ y.1 = 0 ∧ isBreak x.2.1 = true ∧ Wordy (y :: b) ∧ ∀ l ∈ post, Wordy l

/-- Two parts, each of them kerned; the second is the text after the last break. -/
structure Parts (env : Env) (a b : List Gap) : Prop where
  left : a.IsChain (Fits env)
  right : b.IsChain (Fits env)
  ub : Wordy b
  zero : ∀ y ∈ b.head?, y.1 = 0
  brk : ∀ x ∈ a.getLast?, isBreak x.2.1 = true

theorem chain_pair {R : Gap → Gap → Prop} {a b : List Gap} {x y : Gap} (h : (a ++ x :: y :: b).IsChain R) : R x y := by
  have := chain_right h
  cases this with
  | cons_cons h _ => exact h

theorem pair_append {A B a b : List Gap} {x y : Gap} (h : A ++ B = a ++ x :: y :: b) :
    (∃ b', A = a ++ x :: y :: b') ∨ (∃ a', B = a' ++ x :: y :: b) ∨ (A = a ++ [x] ∧ B = y :: b) := by
  rcases List.append_eq_append_iff.1 h with ⟨a', h1, h2⟩ | ⟨c', h1, h2⟩
  · exact .inr (.inl ⟨a', h2⟩)
  · match c' with
    | [] => exact .inr (.inl ⟨[], by simpa using h2.symm⟩)
    | [z] =>
      simp only [List.cons_append, List.nil_append, List.cons.injEq] at h2
      obtain ⟨rfl, rfl⟩ := h2
      exact .inr (.inr ⟨h1, rfl⟩)
    | z :: w :: c' =>
      simp only [List.cons_append, List.cons.injEq] at h2
      obtain ⟨rfl, rfl, rfl⟩ := h2
      exact .inl ⟨c', h1⟩

theorem Parts.line {a b : List Gap} (h : Parts env a b) {x y : Gap} {u v : List Gap} (e : a ++ b = u ++ x :: y :: v) : Fits env x y ∨ y.1 = 0 ∧ isBreak x.2.1 = true ∧ Wordy (y :: v) := by
  rcases pair_append e with ⟨b', rfl⟩ | ⟨a', rfl⟩ | ⟨rfl, rfl⟩
  · exact .inl (chain_pair h.left)
  · exact .inl (chain_pair h.right)
  · exact .inr ⟨h.zero y rfl, h.brk x (by simp), h.ub⟩

theorem Parts.unkern_left {a b : List Gap} (h : Parts env a b) : Parts env (unkern a) b := by
  refine ⟨chain_unkern fits_blind h.left, h.right, h.ub, h.zero, ?_⟩
  intro x hx
  have := unkern_last (p := a)
  rw [hx] at this
  obtain ⟨b, hb, e⟩ := Option.map_eq_some_iff.1 this.symm
  simp only at e
  rw [← e]; exact h.brk b hb

theorem Parts.unkern_append {a b : List Gap} (h : Parts env a b) : ∃ a' b', Parts env a' b' ∧ a' ++ b' = unkern (a ++ b) := by
  cases a with
  | nil =>
    refine ⟨[], unkern b, ⟨.nil, chain_unkern fits_blind h.right, h.ub.unkern, ?_, by simp⟩, rfl⟩
    cases b with
    | nil => simp [unkern]
    | cons y b => simp [unkern]
  | cons x a => exact ⟨unkern (x :: a), b, h.unkern_left, rfl⟩

/-- What is left of two parts. -/
theorem Parts.drop {a b p s : List Gap} (h : Parts env a b) (e : a ++ b = p ++ s) : (∃ a', a = p ++ a' ∧ Parts env a' b ∧ s = a' ++ b) ∨
    (∃ b1, p = a ++ b1 ∧ b = b1 ++ s ∧ Parts env a b1 ∧ s.IsChain (Fits env) ∧ Wordy s) := by
  rcases List.append_eq_append_iff.1 e with ⟨b1, rfl, rfl⟩ | ⟨a', rfl, rfl⟩
  · refine .inr ⟨b1, rfl, rfl, ⟨h.left, chain_left h.right, h.ub.left, ?_, h.brk⟩, chain_right h.right, h.ub.right⟩
    intro y hy
    exact h.zero y (by rw [List.head?_append, hy]; rfl)
  · refine .inl ⟨a', rfl, ⟨chain_right h.left, h.right, h.ub, h.zero, ?_⟩, rfl⟩
    intro x hx
    exact h.brk x (by rw [List.getLast?_append, hx]; rfl)

theorem kernedBut_cons {l : List Gap} {ls : List (List Gap)} (h1 : ∀ a x y b, l = a ++ x :: y :: b → Fits env x y ∨ y.1 = 0 ∧ isBreak x.2.1 = true ∧ Wordy (y :: b) ∧ ∀ l ∈ ls, Wordy l)
    (h2 : KernedBut env ls) : KernedBut env (l :: ls) := by
  intro pre line post e
  cases pre with
  | nil =>
    simp only [List.nil_append, List.cons.injEq] at e
    obtain ⟨rfl, rfl⟩ := e
    exact h1
  | cons x pre =>
    simp only [List.cons_append, List.cons.injEq] at e
    exact h2 pre line post e.2

theorem kernedBut_nil : KernedBut env [] := by
  intro pre line post e
  simp at e

theorem kernedBut_chain {ls : List (List Gap)} (h : ∀ l ∈ ls, l.IsChain (Fits env)) : KernedBut env ls := by
  intro pre line post e a x y b e'
  have := h line (by simp [e])
  rw [e'] at this
  exact .inl (chain_pair this)

theorem HyphenGap.right {a b g : List Gap} (hb : b ≠ []) (h : HyphenGap env (a ++ b) g) : HyphenGap env b g := by
  obtain ⟨x, st, h1, h2⟩ := h
  refine ⟨x, st, ?_, h2⟩
  rw [List.getLast?_append, List.getLast?_eq_some_getLast hb] at h1
  rw [List.getLast?_eq_some_getLast hb]
  simpa using h1

/-- A line from the start of two parts. -/
theorem Parts.first {a b p g s line : List Gap} (h : Parts env a b) (e : a ++ b = p ++ s) (hl : line = p ++ g ∨ line = unkern (p ++ g))
    (hg : g = [] ∨ HyphenGap env p g ∧ s ≠ []) :
    line.IsChain (Fits env) ∨ (s.IsChain (Fits env) ∧ Wordy s ∧ ∃ a' b', Parts env a' b' ∧ line = a' ++ b') := by
  have chain : p.IsChain (Fits env) → line.IsChain (Fits env) := by
    intro hp
    have := chain_hyphen fits_hyphens hp (hg.imp_right And.left)
    rcases hl with rfl | rfl
    · exact this
    · exact chain_unkern fits_blind this
  rcases h.drop e with ⟨a', rfl, -, -⟩ | ⟨b1, rfl, rfl, h1, h2, h3⟩
  · exact .inl (chain (chain_left h.left))
  · rcases eq_or_ne b1 [] with rfl | hb
    · exact .inl (chain (by simpa using h1.left))
    · refine .inr ⟨h2, h3, ?_⟩
      have hp : Parts env a (b1 ++ g) := by
        refine ⟨h1.left, chain_hyphen fits_hyphens h1.right (hg.imp_right fun h => h.1.right hb), ?_, ?_, h1.brk⟩
        · exact h.ub.hyphen (hg.imp_right fun h => ⟨h.1.right hb, h.2⟩)
        · intro y hy
          refine h1.zero y ?_
          cases b1 with
          | nil => exact absurd rfl hb
          | cons z b1 => exact hy
      rcases hl with rfl | rfl
      · exact ⟨a, b1 ++ g, hp, by simp⟩
      · obtain ⟨a', b', i1, i2⟩ := hp.unkern_append
        exact ⟨a', b', i1, by rw [i2]; simp⟩

theorem Broken.kernedBut {ff : Bool} {q : List Gap} {ls : List (List Gap)} (h : Broken env ff q ls) : ∀ a b, q = a ++ b → Parts env a b → KernedBut env ls := by
  have line : ∀ (l : List Gap) (post : List (List Gap)), (l.IsChain (Fits env) ∨ ((∀ l ∈ post, Wordy l) ∧ ∃ a' b', Parts env a' b' ∧ l = a' ++ b')) →
      ∀ a x y b, l = a ++ x :: y :: b → Fits env x y ∨ y.1 = 0 ∧ isBreak x.2.1 = true ∧ Wordy (y :: b) ∧ ∀ l ∈ post, Wordy l := by
    intro l post hl a x y b e
    rcases hl with hl | ⟨hu, a', b', hp, rfl⟩
    · rw [e] at hl; exact .inl (chain_pair hl)
    · exact (hp.line e).imp_right fun ⟨i1, i2, i3⟩ => ⟨i1, i2, i3, hu⟩
  induction h with
  | last q p d l h1 h2 h3 =>
    intro a b e hp
    refine kernedBut_cons (line _ _ ?_) kernedBut_nil
    rcases hp.first (g := []) (line := l) (e.symm.trans h1) (by simpa using h3) (.inl rfl) with h | ⟨-, -, h⟩
    · exact .inl h
    · exact .inr ⟨by simp, h⟩
  | more q p g d s l r ls h1 h2 h3 h4 h5 h6 ih =>
    intro a b e hp
    have e' : a ++ b = p ++ (d ++ s) := by rw [← e, h1, List.append_assoc]
    have unb : Wordy (d ++ s) → ∀ l ∈ ls, Wordy l := fun hu => h6.oneWord (by
      rcases h5 with rfl | ⟨rfl, -⟩
      · exact hu.right.unkern
      · exact hu.right)
    have chain : s.IsChain (Fits env) → KernedBut env ls := fun hc => kernedBut_chain (h6.chain fits_blind fits_hyphens (by
      rcases h5 with rfl | ⟨rfl, -⟩
      · exact chain_unkern fits_blind hc
      · exact hc))
    refine kernedBut_cons (line _ _ ?_) ?_
    · rcases hp.first e' h2 (h3.imp_right fun h => ⟨h.1, by simp [h.2.2]⟩) with h | ⟨hc, hu, h⟩
      · exact .inl h
      · exact .inr ⟨unb hu, h⟩
    · rcases hp.drop e' with ⟨a', -, hp', e2⟩ | ⟨b1, -, -, -, hc, -⟩
      · rcases hp'.drop e2.symm with ⟨a'', -, hp'', e3⟩ | ⟨b1, -, -, -, hc, -⟩
        · rcases h5 with rfl | ⟨rfl, -⟩
          · obtain ⟨a3, b3, k1, k2⟩ := hp''.unkern_append
            exact ih a3 b3 (by rw [k2, e3]) k1
          · exact ih a'' b e3 hp''
        · exact chain hc
      · exact chain (chain_right hc)

/-! ### Starts of lines -/

/-- The kerning is that with the character before, or none. -/
def Given (env : Env) (a b : Gap) : Prop := b.1 = 0 ∨ (b.2.1 = '-' ∨ a.2.2.font = b.2.2.font ∧ a.2.2.size = b.2.2.size) ∧ b.1 = env.kernOf b.2.2 a.2.1 b.2.1

theorem given_blind : Blind (Given env) := fun _ _ _ h => h
theorem given_hyphens : Hyphens env (Given env) := fun _ _ => .inr ⟨.inl rfl, rfl⟩

/-- The character with which the first of a line was kerned in the text: the last of the line before, or (not with `ff`) a space dropped at its end or the character before an added hyphen. -/
def Before (ff : Bool) (l : List Gap) (c : Char) : Prop :=
  (∃ x ∈ l.getLast?, x.2.1 = c) ∨ ff = false ∧ (c = ' ' ∨ (∃ x ∈ l.getLast?, x.2.1 = '-') ∧ ∃ x ∈ l.dropLast.getLast?, x.2.1 = c)

/-- Each line after the first starts without kerning, or with that of the character before it. -/
def StartsGiven (env : Env) (ff : Bool) (ls : List (List Gap)) : Prop := ∀ pre l l' post, ls = pre ++ l :: l' :: post → ∀ y ∈ l'.head?,
  y.1 = 0 ∨ ∃ c, Before ff l c ∧ y.1 = env.kernOf y.2.2 c y.2.1

theorem Broken.head {ff : Bool} {q : List Gap} {l : List Gap} {ls : List (List Gap)} (h : Broken env ff q (l :: ls)) : ∀ y ∈ l.head?, ∃ z ∈ q.head?, z.2 = y.2 ∧ (y.1 = 0 ∨ y.1 = z.1) := by
  have main : ∀ (p g : List Gap), (g = [] ∨ HyphenGap env p g) → (l = p ++ g ∨ l = unkern (p ++ g)) → ∀ y ∈ l.head?, ∃ z ∈ p.head?, z.2 = y.2 ∧ (y.1 = 0 ∨ y.1 = z.1) := by
    intro p g hg hl y hy
    cases p with
    | nil =>
      rcases hg with rfl | hg
      · rcases hl with rfl | rfl <;> simp [unkern] at hy
      · exact absurd rfl hg.ne
    | cons z p =>
      refine ⟨z, rfl, ?_⟩
      obtain ⟨k, c, st⟩ := z
      rcases hl with rfl | rfl
      · simp only [List.cons_append, List.head?_cons, Option.mem_def, Option.some.injEq] at hy
        subst hy; exact ⟨rfl, .inr rfl⟩
      · simp only [List.cons_append, unkern, List.head?_cons, Option.mem_def, Option.some.injEq] at hy
        subst hy; exact ⟨rfl, .inl rfl⟩
  cases h with
  | last q p d line h1 h2 h3 =>
    intro y hy
    obtain ⟨z, hz, e⟩ := main p [] (.inl rfl) (by simpa using h3) y hy
    exact ⟨z, by rw [h1, List.head?_append, hz]; rfl, e⟩
  | more q p g d s line r ls h1 h2 h3 h4 h5 _ =>
    intro y hy
    obtain ⟨z, hz, e⟩ := main p g (h3.imp_right And.left) h2 y hy
    exact ⟨z, by rw [h1, List.append_assoc, List.head?_append, hz]; rfl, e⟩

theorem Broken.startsGiven {ff : Bool} {q : List Gap} {ls : List (List Gap)} (h : Broken env ff q ls) : q.IsChain (Given env) → StartsGiven env ff ls := by
  induction h with
  | last q p d line h1 h2 h3 =>
    intro _ pre l l' post e
    have := congrArg List.length e
    simp at this
    omega
  | more q p g d s line r ls h1 h2 h3 h4 h5 h6 ih =>
    intro hq pre l l' post e
    rw [h1] at hq
    have hr : r.IsChain (Given env) := by
      rcases h5 with rfl | ⟨rfl, -⟩
      · exact chain_unkern given_blind (chain_right hq)
      · exact chain_right hq
    cases pre with
    | cons z pre =>
      simp only [List.cons_append, List.cons.injEq] at e
      exact ih hr pre l l' post e.2
    | nil =>
      simp only [List.nil_append, List.cons.injEq] at e
      obtain ⟨rfl, rfl⟩ := e
      intro y hy
      obtain ⟨z, hz, e1, e2⟩ := h6.head y hy
      rcases e2 with e2 | e2
      · exact .inl e2
      rcases h5 with rfl | ⟨rfl, hne, hff⟩
      · left
        cases s with
        | nil => simp [unkern] at hz
        | cons x s =>
          obtain ⟨k, c, st⟩ := x
          simp only [unkern, List.head?_cons, Option.mem_def, Option.some.injEq] at hz
          rw [e2, ← hz]
      · -- the character before it in the text
        obtain ⟨x, hx⟩ : ∃ x, (p ++ d).getLast? = some x := ⟨_, List.getLast?_eq_some_getLast hne⟩
        have hg : Given env x z := (List.isChain_append.1 hq).2.2 x hx z hz
        rcases hg with hg | ⟨-, hg⟩
        · exact .inl (e2.trans hg)
        right
        refine ⟨x.2.1, ?_, by rw [e2, hg, e1]⟩
        have last : g = [] → d = [] → ∃ x' ∈ line.getLast?, x'.2.1 = x.2.1 := by
          rintro rfl rfl
          rw [List.append_nil] at hx h2
          rcases h2 with rfl | rfl
          · exact ⟨x, hx, rfl⟩
          · have := unkern_last (p := p)
            rw [hx] at this
            obtain ⟨b, hb, e⟩ := Option.map_eq_some_iff.1 this
            exact ⟨b, hb, by rw [e]⟩
        cases ff with
        | true => exact .inl (last (hff rfl).1 (hff rfl).2)
        | false =>
          rcases h4 with rfl | ⟨k, st, rfl⟩
          · rcases h3 with rfl | ⟨⟨a, st, ha, rfl⟩, -, -⟩
            · exact .inl (last rfl rfl)
            · refine .inr ⟨rfl, .inr ?_⟩
              rw [List.append_nil, ha] at hx
              simp only [Option.some.injEq] at hx; subst hx
              rcases h2 with rfl | rfl
              · exact ⟨⟨(env.kernOf st a.2.1 '-', '-', st), by simp, rfl⟩, a, by simpa using ha, rfl⟩
              · rw [unkern_append (by rintro rfl; simp at ha)]
                refine ⟨⟨(env.kernOf st a.2.1 '-', '-', st), by simp, rfl⟩, ?_⟩
                have := unkern_last (p := p)
                rw [ha] at this
                obtain ⟨b, hb, e⟩ := Option.map_eq_some_iff.1 this
                exact ⟨b, by simpa using hb, by rw [e]⟩
          · refine .inr ⟨rfl, .inl ?_⟩
            rw [List.getLast?_append] at hx
            simp at hx; rw [← hx]

end Pdfje
