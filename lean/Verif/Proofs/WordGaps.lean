import Verif.Proofs.Placed
import Verif.Proofs.FirstFit
/-
The gaps of words after hyphenation, pruning, indentation.
-/

namespace Pdfje

variable {env : Env}

/-- Without the kerning before the first character. -/
def unkern : List Gap → List Gap
  | [] => []
  | (_, c, st) :: l => (0, c, st) :: l

@[simp] theorem unkern_unkern (l : List Gap) : unkern (unkern l) = unkern l := by
  cases l <;> rfl

@[simp] theorem unkern_eq_nil {l : List Gap} : unkern l = [] ↔ l = [] := by
  cases l <;> simp [unkern]

theorem unkern_append {a : List Gap} (h : a ≠ []) (b : List Gap) : unkern (a ++ b) = unkern a ++ b := by
  cases a with
  | nil => exact absurd rfl h
  | cons x a => rfl

theorem gapsFrom_ne {k : List (Nat × ℚ)} {st : State} {i : Nat} : ∀ {s : List Char}, s ≠ [] → gapsFrom k st i s ≠ []
  | [], h => absurd rfl h
  | _ :: _, _ => by simp [gapsFrom]

theorem gapsFrom_last {k : List (Nat × ℚ)} {st : State} : ∀ {s : List Char} {i : Nat}, ((gapsFrom k st i s).getLast?).map (·.2) = s.getLast?.map (·, st)
  | [], i => rfl
  | [c], i => rfl
  | c :: d :: s, i => by
    have := gapsFrom_last (k := k) (st := st) (s := d :: s) (i := i + 1)
    simp only [gapsFrom] at this ⊢
    rw [List.getLast?_cons_cons, this, List.getLast?_cons_cons]

theorem Slug.gaps_ne {s : Slug} (h : s.Strict) : s.gaps ≠ [] := gapsFrom_ne h.ne

theorem Slug.gaps_last (s : Slug) : s.gaps.getLast?.map (·.2) = s.last.map (·, s.state) := gapsFrom_last

theorem Slug.withoutInitKern_gaps {s : Slug} (h : s.Strict) : s.withoutInitKern.gaps = unkern s.gaps ∧ s.withoutInitKern.Strict := by
  obtain ⟨txt, k, w, st⟩ := s
  obtain ⟨h1, h2, h3⟩ := h
  simp only at h1 h2 h3
  obtain ⟨c, cs, rfl⟩ := List.exists_cons_of_ne_nil h1
  unfold Slug.withoutInitKern
  split
  · rename_i a rest e
    simp only at e; subst e
    simp only [List.map_cons, List.pairwise_cons, List.mem_map, forall_exists_index, and_imp, forall_apply_eq_imp_iff₂] at h2
    refine ⟨?_, ⟨h1, h2.2, fun e he => h3 e (List.mem_cons_of_mem _ he)⟩⟩
    simp only [Slug.gaps, gapsFrom, unkern]
    rw [kernAt_zero (fun e he => by have := h2.1 e he; omega),
      gapsFrom_congr (k := rest) (k' := (0, a) :: rest) st cs _ (fun j h1 _ => (kernAt_cons_ne (by omega)).symm)]
  · rename_i hne
    refine ⟨?_, ⟨h1, h2, h3⟩⟩
    simp only [Slug.gaps, gapsFrom, unkern]
    rw [kernAt_zero]
    intro e he e0
    cases k with
    | nil => simp at he
    | cons x k =>
      obtain ⟨i, a⟩ := x
      simp only [List.map_cons, List.pairwise_cons, List.mem_map, forall_exists_index, and_imp, forall_apply_eq_imp_iff₂] at h2
      rcases List.mem_cons.1 he with rfl | he
      · simp only at e0; subst e0
        exact hne a k rfl
      · have := h2.1 e he; omega

theorem Box.gaps_ne {b : Box} (h : b.Strict) : b.gaps ≠ [] := by
  cases b with
  | slug s => exact s.gaps_ne h
  | mixed segs st =>
    obtain ⟨h1, h2⟩ := h
    obtain ⟨x, segs, rfl⟩ := List.exists_cons_of_ne_nil h1
    simp only [Box.gaps, List.flatMap_cons, ne_eq, List.append_eq_nil_iff, not_and]
    intro h
    exact absurd h (x.1.gaps_ne (h2 x List.mem_cons_self))

theorem Box.withoutInitKern_gaps {b : Box} (h : b.Strict) : b.withoutInitKern.gaps = unkern b.gaps ∧ b.withoutInitKern.Strict := by
  cases b with
  | slug s => exact s.withoutInitKern_gaps h
  | mixed segs st =>
    obtain ⟨h1, h2⟩ := h
    obtain ⟨⟨s, c⟩, segs, rfl⟩ := List.exists_cons_of_ne_nil h1
    have hs : s.Strict := h2 (s, c) List.mem_cons_self
    obtain ⟨i1, i2⟩ := s.withoutInitKern_gaps hs
    simp only [Box.withoutInitKern, Box.gaps, List.flatMap_cons, Box.Strict]
    refine ⟨by rw [i1, unkern_append (s.gaps_ne hs)], by simp, ?_⟩
    intro e he
    rcases List.mem_cons.1 he with rfl | he
    · exact i2
    · exact h2 e (List.mem_cons_of_mem _ he)

/-- The kerning that the font of a state asks for. -/
def Env.kernOf (env : Env) (st : State) (a b : Char) : ℚ := (env.metrics st.font).kerning (a, b)

/-- The kerning before `b` is that with `a` before it, if they are in the same font and size; otherwise there is none (except maybe before a hyphen). -/
def Fits (env : Env) (a b : Gap) : Prop :=
  if a.2.2.font = b.2.2.font ∧ a.2.2.size = b.2.2.size then b.1 = env.kernOf b.2.2 a.2.1 b.2.1 else b.2.1 = '-' ∨ b.1 = 0

theorem kernsWith_iff {a b : State} : a.kernsWith b = true ↔ a.font = b.font ∧ a.size = b.size := by simp [State.kernsWith]

theorem Fits.same {a b : Gap} (h : Fits env a b) (hk : a.2.2.kernsWith b.2.2 = true) : b.1 = env.kernOf b.2.2 a.2.1 b.2.1 := by
  rw [Fits, if_pos (kernsWith_iff.1 hk)] at h; exact h

theorem Fits.self {a b : Gap} (hs : a.2.2 = b.2.2) (h : b.1 = env.kernOf b.2.2 a.2.1 b.2.1) : Fits env a b := by
  rw [Fits, if_pos (by rw [hs]; exact ⟨rfl, rfl⟩)]; exact h

theorem kern_strict (t : Char × Char → ℚ) (s : List Char) (prev : Option Char) :
    ((kern t s prev).map (·.1)).Pairwise (· < ·) ∧ ∀ e ∈ kern t s prev, e.1 < s.length := by
  refine ⟨?_, ?_⟩
  · rw [List.pairwise_map]; exact kern_sorted t s prev
  · rintro ⟨i, k⟩ he
    obtain ⟨a, b, h1, -⟩ := (mem_kern t s prev i k).1 he
    exact (List.getElem?_eq_some_iff.1 h1).1

theorem Slug.new_strict (env : Env) {s : List Char} (h : s ≠ []) (st : State) (prev : Option Char) : (Slug.new env s st prev).Strict :=
  ⟨h, (kern_strict _ _ _).1, (kern_strict _ _ _).2⟩

theorem kernAt_mem {k : List (Nat × ℚ)} (h : (k.map (·.1)).Pairwise (· < ·)) {i : Nat} {x : ℚ} (hm : (i, x) ∈ k) : kernAt k i = x := by
  induction k with
  | nil => simp at hm
  | cons e k ih =>
    obtain ⟨j, y⟩ := e
    simp only [List.map_cons, List.pairwise_cons, List.mem_map, forall_exists_index, and_imp, forall_apply_eq_imp_iff₂] at h
    rcases List.mem_cons.1 hm with e | hm
    · simp only [Prod.mk.injEq] at e
      obtain ⟨rfl, rfl⟩ := e
      rw [kernAt_cons_eq, kernAt_zero (fun e he => by have := h.1 e he; omega), add_zero]
    · have := h.1 (i, x) hm
      rw [kernAt_cons_ne (by simp only at this; omega)]
      exact ih h.2 hm

theorem kernAt_new (t : Char × Char → ℚ) (s : List Char) (prev : Option Char) (i : Nat) (b : Char) (hb : s[i]? = some b) :
    kernAt (kern t s prev) i = match (match i with | 0 => prev | j + 1 => s[j]?) with | some a => t (a, b) | none => 0 := by
  have hs := (kern_strict t s prev).1
  cases ha : (match i with | 0 => prev | j + 1 => s[j]?) with
  | none =>
    simp only
    apply kernAt_zero
    rintro ⟨i', k⟩ he rfl
    obtain ⟨a, b', h1, h2, -⟩ := (mem_kern t s prev i' k).1 he
    simp only at hb ha
    rcases h2 with ⟨rfl, h2⟩ | ⟨j, rfl, h2⟩
    · simp only at ha; rw [ha] at h2; simp at h2
    · simp only at ha; rw [ha] at h2; simp at h2
  | some a =>
    simp only
    by_cases hk : t (a, b) = 0
    · rw [hk]
      apply kernAt_zero
      rintro ⟨i', k⟩ he rfl
      obtain ⟨a', b', h1, h2, h3, h4⟩ := (mem_kern t s prev i' k).1 he
      simp only at hb ha
      rw [hb] at h1; simp at h1; subst h1
      apply h4; rw [← h3]
      rcases h2 with ⟨rfl, h2⟩ | ⟨j, rfl, h2⟩
      · simp only at ha; rw [ha] at h2; simp at h2; subst h2; exact hk
      · simp only at ha; rw [ha] at h2; simp at h2; subst h2; exact hk
    · apply kernAt_mem hs
      rw [mem_kern]
      refine ⟨a, b, hb, ?_, rfl, hk⟩
      cases i with
      | zero => exact .inl ⟨rfl, ha⟩
      | succ j => exact .inr ⟨j, rfl, ha⟩

/-- The kerning after `prev`, if there is anything before. -/
def Env.kernAfter (env : Env) (st : State) (prev : Option Char) (b : Char) : ℚ := match prev with | some a => env.kernOf st a b | none => 0

/-- The gaps of new text after `prev`. -/
def newGaps (env : Env) (st : State) : Option Char → List Char → List Gap
  | _, [] => []
  | prev, c :: s => (env.kernAfter st prev c, c, st) :: newGaps env st (some c) s

theorem newGaps_ne {st : State} {prev : Option Char} : ∀ {s : List Char}, s ≠ [] → newGaps env st prev s ≠ []
  | [], h => absurd rfl h
  | _ :: _, _ => by simp [newGaps]

theorem newGaps_append (st : State) : ∀ (a b : List Char) (prev : Option Char), newGaps env st prev (a ++ b) =
    newGaps env st prev a ++ newGaps env st (a.getLast?.or prev) b
  | [], b, prev => rfl
  | [c], b, prev => rfl
  | c :: d :: a, b, prev => by
    have := newGaps_append st (d :: a) b (some c)
    simp only [List.cons_append, newGaps] at this ⊢
    rw [this, List.getLast?_cons_cons]
    rw [List.getLast?_eq_some_getLast (l := d :: a) (by simp)]
    simp

theorem newGaps_last {st : State} : ∀ {s : List Char} {prev : Option Char}, ((newGaps env st prev s).getLast?).map (·.2) = s.getLast?.map (·, st)
  | [], prev => rfl
  | [c], prev => rfl
  | c :: d :: s, prev => by
    have := newGaps_last (st := st) (s := d :: s) (prev := some c)
    simp only [newGaps] at this ⊢
    rw [List.getLast?_cons_cons, this, List.getLast?_cons_cons]

theorem newGaps_chain {st : State} : ∀ {s : List Char} {prev : Option Char}, (newGaps env st prev s).IsChain (Fits env)
  | [], prev => .nil
  | [c], prev => .singleton _
  | c :: d :: s, prev => .cons_cons (.self rfl rfl) (newGaps_chain (s := d :: s) (prev := some c))

theorem newGaps_unkern (st : State) (prev : Option Char) (s : List Char) : unkern (newGaps env st prev s) = newGaps env st none s := by
  cases s <;> rfl

theorem gapsFrom_new (st : State) (t : List Char) (prev : Option Char) : ∀ (a b : List Char), t = a ++ b →
    gapsFrom (kern (env.metrics st.font).kerning t prev) st a.length b = newGaps env st (a.getLast?.or prev) b
  | a, [], h => rfl
  | a, c :: b, h => by
    have ih := gapsFrom_new st t prev (a ++ [c]) b (by simp [h])
    have e := kernAt_new (env.metrics st.font).kerning t prev a.length c (by simp [h])
    simp only [gapsFrom, newGaps]
    simp only [List.length_append, List.length_singleton, List.getLast?_append, List.getLast?_singleton, Option.some_or] at ih
    rw [ih, e]
    congr 1
    rw [Prod.mk.injEq]
    refine ⟨?_, rfl⟩
    rcases List.eq_nil_or_concat a with rfl | ⟨a', x, rfl⟩
    · simp only [List.length_nil, List.getLast?_nil, Option.none_or]; rfl
    · subst h
      simp [Env.kernAfter, Env.kernOf]

theorem Slug.new_gaps (s : List Char) (st : State) (prev : Option Char) : (Slug.new env s st prev).gaps = newGaps env st prev s := by
  have := gapsFrom_new (env := env) st s prev [] s rfl
  simpa [Slug.gaps, Slug.new] using this

theorem Slug.withHyphen_gaps {s : Slug} (h : s.Strict) : (s.withHyphen env).Strict ∧
    (s.withHyphen env).gaps = s.gaps ++ [(env.kernAfter s.state s.last '-', '-', s.state)] := by
  obtain ⟨txt, k, w, st⟩ := s
  obtain ⟨h1, h2, h3⟩ := h
  simp only at h1 h2 h3
  have hh : Slug.hyphenKern env ⟨txt, k, w, st⟩ = env.kernAfter st txt.getLast? '-' := rfl
  simp only [Slug.withHyphen, Slug.gaps, Slug.last]
  rw [hh]
  have e0 : kernAt k txt.length = 0 := kernAt_zero fun e he => (h3 e he).ne
  split
  · refine ⟨⟨by simp, ?_, ?_⟩, ?_⟩
    · simp only [List.map_append, List.map_cons, List.map_nil, List.pairwise_append, List.pairwise_singleton, List.mem_map, List.mem_singleton,
        true_and, forall_eq, forall_exists_index, and_imp, forall_apply_eq_imp_iff₂]
      exact ⟨h2, h3⟩
    · intro e he
      simp only [List.mem_append, List.mem_singleton, List.length_append, List.length_singleton] at he ⊢
      rcases he with he | rfl
      · have := h3 e he; omega
      · simp
    · have hk : ∀ i, kernAt (k ++ [(txt.length, env.kernAfter st txt.getLast? '-')]) i = kernAt k i + kernAt [(txt.length, env.kernAfter st txt.getLast? '-')] i := by
        intro i; simp [kernAt]
      rw [gapsFrom_append, zero_add]
      congr 1
      · apply gapsFrom_congr
        intro j _ hj
        rw [hk, kernAt_cons_ne (by omega)]
        simp [kernAt]
      · simp only [gapsFrom]
        rw [hk, e0, kernAt_cons_eq]
        simp [kernAt]
  · rename_i hk
    simp only [ne_eq, not_not] at hk
    refine ⟨⟨by simp, h2, ?_⟩, ?_⟩
    · intro e he
      have := h3 e he
      simp only [List.length_append, List.length_singleton]; omega
    · rw [gapsFrom_append, zero_add]
      simp only [gapsFrom]
      rw [e0, hk]

/-- The gap before a hyphen that is added. -/
def HyphenGap (env : Env) (p h : List Gap) : Prop := ∃ a st, p.getLast? = some a ∧ h = [(env.kernOf st a.2.1 '-', '-', st)]

theorem Box.withHyphen_gaps {b : Box} (h : b.Strict) : (b.withHyphen env).Strict ∧ ∃ g, HyphenGap env b.gaps g ∧ (b.withHyphen env).gaps = b.gaps ++ g := by
  cases b with
  | slug s =>
    obtain ⟨h1, h2⟩ := s.withHyphen_gaps (env := env) h
    refine ⟨h1, _, ?_, h2⟩
    have e1 := s.gaps_last
    obtain ⟨c, hc⟩ : ∃ c, s.last = some c := by
      rw [Slug.last]; exact ⟨_, List.getLast?_eq_some_getLast h.ne⟩
    rw [hc] at e1 ⊢
    simp only [Option.map_some, Option.map_eq_some_iff] at e1
    obtain ⟨a, ha, ea⟩ := e1
    exact ⟨a, s.state, ha, by rw [ea]; rfl⟩
  | mixed segs st =>
    obtain ⟨h1, h2⟩ := h
    rcases List.eq_nil_or_concat segs with rfl | ⟨init, ⟨s, c⟩, rfl⟩
    · exact absurd rfl h1
    have hs : s.Strict := h2 (s, c) (by simp)
    obtain ⟨d, hd⟩ : ∃ c, s.last = some c := by
      rw [Slug.last]; exact ⟨_, List.getLast?_eq_some_getLast hs.ne⟩
    have e1 := s.gaps_last
    rw [hd] at e1
    simp only [Option.map_some, Option.map_eq_some_iff] at e1
    obtain ⟨a, ha, ea⟩ := e1
    refine ⟨⟨by simp, ?_⟩, [(env.kernOf st a.2.1 '-', '-', st)], ⟨a, st, ?_, rfl⟩, ?_⟩
    · intro e he
      rcases List.mem_append.1 he with he | he
      · exact h2 e he
      · rw [List.mem_singleton] at he; subst he
        exact Slug.new_strict _ (by simp) _ _
    · simp only [Box.gaps, List.concat_eq_append, List.flatMap_append, List.flatMap_cons, List.flatMap_nil, List.append_nil, List.getLast?_append, ha, Option.some_or]
    · simp only [Box.withHyphen, Box.gaps, List.concat_eq_append, List.flatMap_append, List.flatMap_cons, List.flatMap_nil, List.append_nil, Slug.new_gaps]
      congr 1
      simp only [newGaps, Box.last, List.getLast?_append, List.getLast?_singleton, Option.some_or, hd, Env.kernAfter, ea]

/-! ### Words -/

theorem boxes_gaps_unkern {b : Box} {rest : List Box} (h : b.Strict) :
    (b.withoutInitKern :: rest).flatMap Box.gaps = unkern ((b :: rest).flatMap Box.gaps) := by
  simp only [List.flatMap_cons]
  rw [(b.withoutInitKern_gaps h).1, unkern_append (b.gaps_ne h)]

theorem Box.withoutInitKern_not {b : Box} (h : b.hasInitKern = false) : b.withoutInitKern = b := by
  have hs : ∀ s : Slug, s.hasInitKern = false → s.withoutInitKern = s := by
    intro s hs
    unfold Slug.hasInitKern at hs
    unfold Slug.withoutInitKern
    split at hs
    · simp at hs
    · rfl
  cases b with
  | slug s => simp only [Box.withoutInitKern, hs s h]
  | mixed segs st =>
    match segs with
    | [] => rfl
    | (s, c) :: rest => simp only [Box.withoutInitKern, hs s h]

theorem Word.withoutInitKern_gaps {w : Word} (h : ∀ b ∈ w.boxes, b.Strict) :
    (WordLike.word w.withoutInitKern).gaps = unkern (WordLike.word w).gaps ∧ ∀ b ∈ w.withoutInitKern.boxes, b.Strict := by
  obtain ⟨bs, t, st⟩ := w
  simp only at h
  cases bs with
  | nil =>
    simp only [Word.withoutInitKern]
    split
    · split
      · exact ⟨rfl, by simp⟩
      · rename_i hk
        simp only [ne_eq, not_not] at hk
        refine ⟨?_, by simp⟩
        simp [WordLike.gaps, tailGaps, unkern, hk]
    · exact ⟨rfl, by simp⟩
  | cons b rest =>
    have hb := h b List.mem_cons_self
    have e : (Word.withoutInitKern ⟨b :: rest, t, st⟩) = ⟨b.withoutInitKern :: rest, t, st⟩ := by
      simp only [Word.withoutInitKern]
      split
      · rfl
      · rename_i hk; rw [Box.withoutInitKern_not (by simpa using hk)]
    rw [e]
    simp only [WordLike.gaps]
    rw [boxes_gaps_unkern hb]
    refine ⟨(unkern_append ?_ _).symm, ?_⟩
    · simp only [List.flatMap_cons, ne_eq, List.append_eq_nil_iff, not_and]
      exact fun h => absurd h (b.gaps_ne hb)
    · intro x hx
      rcases List.mem_cons.1 hx with rfl | hx
      · exact (b.withoutInitKern_gaps hb).2
      · exact h x (List.mem_cons_of_mem _ hx)

/-- It is not a bare box. -/
def WordLike.IsWord : WordLike → Prop
  | .box _ => False
  | .word _ => True
  | .withCmd w _ => w.IsWord

theorem WordLike.addCmd_gaps (w : WordLike) (c : Command) : (w.addCmd c).gaps = w.gaps ∧ ((w.addCmd c).Strict ↔ w.Strict) ∧ ((w.addCmd c).IsWord ↔ w.IsWord) := by
  cases c <;> exact ⟨rfl, Iff.rfl, Iff.rfl⟩

theorem hyphenateLoop_split : ∀ (rest : List Box) (b : Box) (space : ℚ) fit n r st, hyphenateLoop env b rest space = some (fit, n, r, st) →
    ∃ pre last, b :: rest = pre ++ last :: n :: r ∧ fit = pre ++ [last.withHyphen env]
  | [], _, _, _, _, _, _, h => by simp [hyphenateLoop] at h
  | next :: rest, b, space, fit, n, r, st, h => by
    simp only [hyphenateLoop] at h
    split at h
    · simp only [Option.some.injEq, Prod.mk.injEq] at h
      obtain ⟨rfl, rfl, rfl, -⟩ := h
      exact ⟨[], b, rfl, rfl⟩
    · simp only [Option.map_eq_some_iff, Prod.exists, Prod.mk.injEq] at h
      obtain ⟨fit', n', r', st', h, rfl, rfl, rfl, -⟩ := h
      obtain ⟨pre, last, e1, e2⟩ := hyphenateLoop_split rest next _ _ _ _ _ h
      exact ⟨b :: pre, last, by rw [e1]; rfl, by rw [e2]; rfl⟩

/-- A word cut in two: the first part with a hyphen, the second without kerning before it. -/
structure CutGaps (env : Env) (w a b : WordLike) : Prop where
  parts : ∃ p g s, w.gaps = p ++ s ∧ a.gaps = p ++ g ∧ HyphenGap env p g ∧ s ≠ [] ∧ b.gaps = unkern s
  sa : a.Strict
  sb : b.Strict
  wb : w.IsWord → b.IsWord

theorem cutGaps {bs pre : List Box} {last n : Box} {r : List Box} {t : Option TrailingSpace} {st st' : State} (h : ∀ b ∈ bs, b.Strict)
    (e : bs = pre ++ last :: n :: r) : CutGaps env (.word ⟨bs, t, st⟩) (.word ⟨pre ++ [last.withHyphen env], none, st'⟩) (.word ⟨n.withoutInitKern :: r, t, st⟩) := by
  subst e
  have hl : last.Strict := h last (by simp)
  have hn : n.Strict := h n (by simp)
  obtain ⟨i1, g, ⟨a, s, ha, hg⟩, i3⟩ := last.withHyphen_gaps (env := env) hl
  refine ⟨⟨pre.flatMap Box.gaps ++ last.gaps, g, (n :: r).flatMap Box.gaps ++ tailGaps t st, ?_, ?_, ⟨a, s, ?_, hg⟩, ?_, ?_⟩, ?_, ?_, fun _ => trivial⟩
  · simp [WordLike.gaps]
  · simp [WordLike.gaps, i3, tailGaps]
  · rw [List.getLast?_append, ha]; rfl
  · simp only [List.flatMap_cons, ne_eq, List.append_eq_nil_iff, not_and]
    exact fun h => absurd h.1 (n.gaps_ne hn)
  · simp only [WordLike.gaps]
    rw [boxes_gaps_unkern hn, unkern_append]
    simp only [List.flatMap_cons, ne_eq, List.append_eq_nil_iff, not_and]
    exact fun h => absurd h (n.gaps_ne hn)
  · intro x hx
    simp only [WordLike.boxes, List.mem_append, List.mem_singleton] at hx
    rcases hx with hx | rfl
    · exact h x (by simp [hx])
    · exact i1
  · intro x hx
    simp only [WordLike.boxes, List.mem_cons] at hx
    rcases hx with rfl | hx
    · exact (n.withoutInitKern_gaps hn).2
    · exact h x (by simp [hx])

theorem WordLike.hyphenate_gaps_some {space : ℚ} : ∀ {w a b : WordLike}, w.Strict → w.hyphenate env space = some (some a, b) → CutGaps env w a b := by
  intro w
  induction w with
  | box b => intro a d _ h; simp [WordLike.hyphenate] at h
  | word w =>
    intro a d hs h
    simp only [WordLike.hyphenate, Option.map_eq_some_iff, Prod.exists, Prod.mk.injEq] at h
    obtain ⟨a', b', h, ha, rfl⟩ := h
    obtain ⟨bs, t, st⟩ := w
    unfold Word.hyphenate at h
    split at h
    · simp only [Option.some.injEq, Prod.mk.injEq] at h
      rw [← h.1] at ha; simp at ha
    · rename_i b rest eb
      simp only at eb; subst eb
      split at h
      · simp only [Option.some.injEq, Prod.mk.injEq] at h
        rw [← h.1] at ha; simp at ha
      · simp only [Option.map_eq_some_iff, Prod.exists, Prod.mk.injEq] at h
        obtain ⟨fit, n, r, st', h1, h2, rfl⟩ := h
        obtain ⟨pre, last, e1, rfl⟩ := hyphenateLoop_split _ _ _ _ _ _ _ h1
        obtain ⟨x, hx, rfl⟩ := ha
        rw [hx] at h2
        simp only [Option.some.injEq] at h2
        subst h2
        exact cutGaps hs e1
  | withCmd w c ih =>
    intro a d hs h
    simp only [WordLike.hyphenate, Option.map_eq_some_iff, Prod.exists, Prod.mk.injEq] at h
    obtain ⟨a', b, h, rfl, rfl⟩ := h
    obtain ⟨h1, h2, h3, h4⟩ := ih hs h
    obtain ⟨e1, e2, e3⟩ := b.addCmd_gaps c
    exact ⟨by rw [e1]; exact h1, h2, e2.2 h3, fun h => e3.2 (h4 h)⟩

theorem WordLike.hyphenate_gaps_none {space : ℚ} : ∀ {w d : WordLike}, w.IsWord → w.Strict → w.hyphenate env space = some (none, d) →
    d.gaps = unkern w.gaps ∧ d.Strict ∧ d.IsWord := by
  intro w
  induction w with
  | box b => intro d hw; exact absurd hw id
  | word w =>
    intro d _ hs h
    simp only [WordLike.hyphenate, Option.map_eq_some_iff, Prod.exists, Prod.mk.injEq, Option.map_eq_none_iff] at h
    obtain ⟨a, b, h, rfl, rfl⟩ := h
    rw [Word.hyphenate_none h]
    obtain ⟨i1, i2⟩ := Word.withoutInitKern_gaps (w := w) hs
    exact ⟨i1, i2, trivial⟩
  | withCmd w c ih =>
    intro d hw hs h
    simp only [WordLike.hyphenate, Option.map_eq_some_iff, Prod.exists, Prod.mk.injEq] at h
    obtain ⟨a, b, h, rfl, rfl⟩ := h
    obtain ⟨e1, e2, e3⟩ := b.addCmd_gaps c
    obtain ⟨h1, h2, h3⟩ := ih hw hs h
    exact ⟨by rw [e1]; exact h1, e2.2 h2, e3.2 h3⟩

theorem WordLike.minimalBox_gaps_some : ∀ {w b : WordLike}, w.Strict → (w.minimalBox env).2 = some b → CutGaps env w (w.minimalBox env).1 b := by
  intro w
  induction w with
  | box b => intro d _ h; simp [WordLike.minimalBox] at h
  | word w =>
    intro d hs h
    obtain ⟨bs, t, st⟩ := w
    match bs with
    | [] => simp [WordLike.minimalBox, Word.minimalBox] at h
    | [b] => simp [WordLike.minimalBox, Word.minimalBox] at h
    | b :: b2 :: rest =>
      simp only [WordLike.minimalBox, Word.minimalBox, Option.map_some, Option.some.injEq] at h ⊢
      subst h
      exact cutGaps (pre := []) hs rfl
  | withCmd w c ih =>
    intro d hs h
    simp only [WordLike.minimalBox] at h ⊢
    split at h
    · simp at h
    · rename_i a b e
      simp only [Option.some.injEq] at h
      subst h
      obtain ⟨h1, h2, h3, h4⟩ := ih (b := b) hs (by rw [e])
      rw [e] at h1 h2
      obtain ⟨e1, e2, e3⟩ := b.addCmd_gaps c
      exact ⟨by rw [e1]; exact h1, h2, e2.2 h3, fun h => e3.2 (h4 h)⟩

theorem WordLike.minimalBox_gaps_none : ∀ {w : WordLike}, (w.minimalBox env).2 = none → (w.minimalBox env).1.gaps = w.gaps ∧ (w.Strict → (w.minimalBox env).1.Strict) := by
  intro w
  induction w with
  | box b => intro _; exact ⟨rfl, id⟩
  | word w =>
    intro h
    obtain ⟨bs, t, st⟩ := w
    match bs with
    | [] => exact ⟨rfl, id⟩
    | [b] => exact ⟨rfl, id⟩
    | b :: b2 :: rest => simp [WordLike.minimalBox, Word.minimalBox] at h
  | withCmd w c ih =>
    intro h
    simp only [WordLike.minimalBox] at h ⊢
    split at h
    · rename_i a e
      have := ih (by rw [e])
      rw [e] at this
      obtain ⟨e1, e2, e3⟩ := a.addCmd_gaps c
      exact ⟨by rw [e1]; exact this.1, fun h => e2.2 (this.2 h)⟩
    · simp at h

theorem WordLike.pruned_gaps : ∀ (w : WordLike), (w.pruned.Strict ↔ w.Strict) ∧ (w.pruned.IsWord ↔ w.IsWord) ∧ ∃ d, w.gaps = w.pruned.gaps ++ d ∧ (d = [] ∨ ∃ k st, d = [(k, ' ', st)])
  | .box b => ⟨Iff.rfl, Iff.rfl, [], by simp [WordLike.pruned], .inl rfl⟩
  | .word ⟨bs, none, st⟩ => ⟨Iff.rfl, Iff.rfl, [], by simp [WordLike.pruned, Word.pruned], .inl rfl⟩
  | .word ⟨bs, some t, st⟩ => ⟨Iff.rfl, Iff.rfl, [(t.kern, ' ', st)], by simp [WordLike.pruned, Word.pruned, WordLike.gaps, tailGaps], .inr ⟨_, _, rfl⟩⟩
  | .withCmd w c => w.pruned_gaps

end Pdfje
