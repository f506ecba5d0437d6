import Verif.Proofs.Hyphenate
import Verif.Spec.Liang
/-
The built-in hyphenator follows Liang's method.
-/

namespace Pdfje

theorem isDigit09_iff (c : Char) : isDigit09 c = true ↔ Digit c := by simp [isDigit09, Digit]

theorem lettersOf_eq (p : List Char) : lettersOf p = p.filter fun c => !isDigit09 c := by
  unfold lettersOf
  apply List.filter_congr
  intro c _
  have := isDigit09_iff c
  by_cases h : Digit c
  · simp [h, this.2 h]
  · have h' : isDigit09 c = false := by
      cases e : isDigit09 c with
      | false => rfl
      | true => exact absurd (this.1 e) h
    simp [h, h']

theorem decimal_eq (ds : List Char) : decimal ds = ds.foldl (fun n c => n * 10 + (c.toNat - '0'.toNat)) 0 := by
  unfold decimal
  congr 1
  funext n c
  have : '0'.toNat = 48 := rfl
  omega

/-- The class at which patterns are split. -/
def isPatternLetter (c : Char) : Bool := c == '.' || isAZ c

theorem patternLetter_iff {p : List Char} (hp : PatternText p) : ∀ c ∈ p, (isPatternLetter c = true ↔ ¬ Digit c) := by
  intro c hc
  constructor
  · intro h hd
    simp only [isPatternLetter, isAZ, Bool.or_eq_true, beq_iff_eq, Bool.and_eq_true, decide_eq_true_eq] at h
    rcases h with rfl | h
    · revert hd; decide
    · have h1 : 'a'.toNat ≤ c.toNat := h.1
      have h2 : c.toNat ≤ '9'.toNat := hd.2
      have e1 : 'a'.toNat = 97 := rfl
      have e2 : '9'.toNat = 57 := rfl
      omega
  · intro h
    rcases hp c hc with rfl | h' | h'
    · rfl
    · simp [isPatternLetter, isAZ, h']
    · exact absurd h' h

theorem PatternText.tail {c : Char} {p : List Char} (h : PatternText (c :: p)) : PatternText p := fun d hd => h d (List.mem_cons_of_mem _ hd)

theorem lettersOf_cons_digit {c : Char} (h : Digit c) (p : List Char) : lettersOf (c :: p) = lettersOf p := by simp [lettersOf, h]

theorem lettersOf_cons {c : Char} (h : ¬ Digit c) (p : List Char) : lettersOf (c :: p) = c :: lettersOf p := by simp [lettersOf, h]

/-- The parts of a pattern between its letters. -/
def PartAt (p : List Char) (j : Nat) (ds : List Char) : Prop :=
  ∃ a b, p = a ++ ds ++ b ∧ (lettersOf a).length = j ∧ (∀ c ∈ ds, Digit c) ∧ (∀ c ∈ a.getLast?, ¬ Digit c) ∧ (∀ c ∈ b.head?, ¬ Digit c)

theorem split_digits (ds b : List Char) (hp : PatternText (ds ++ b)) (hds : ∀ c ∈ ds, Digit c) (hb : ∀ c ∈ b.head?, ¬ Digit c) :
    (splitWhere isPatternLetter (ds ++ b))[0]? = some ds := by
  induction ds with
  | nil =>
    match b with
    | [] => rfl
    | c :: b =>
      have := (patternLetter_iff hp c (by simp)).2 (hb c rfl)
      simp [splitWhere, this]
  | cons c ds ih =>
    have hc : isPatternLetter c = false := by
      have := patternLetter_iff hp c (by simp)
      cases e : isPatternLetter c with
      | false => rfl
      | true => exact absurd (hds c (by simp)) (this.1 e)
    have := ih hp.tail fun d hd => hds d (List.mem_cons_of_mem _ hd)
    simp only [List.cons_append, splitWhere, hc, Bool.false_eq_true, if_false]
    split
    · rename_i x xs e
      rw [e] at this
      simpa using this
    · rename_i e
      rw [e] at this
      simp at this

theorem PartAt.split {p : List Char} (hp : PatternText p) {j : Nat} {ds : List Char} (h : PartAt p j ds) : (splitWhere isPatternLetter p)[j]? = some ds := by
  obtain ⟨a, b, rfl, rfl, h1, h2, h3⟩ := h
  induction a with
  | nil => exact split_digits ds b (by simpa using hp) h1 h3
  | cons c a ih =>
    have ha : ∀ d ∈ a.getLast?, ¬ Digit d := by
      intro d hd
      apply h2
      cases a with
      | nil => simp at hd
      | cons e a => simpa using hd
    have := ih (PatternText.tail hp) ha
    by_cases hc : Digit c
    · have hl : isPatternLetter c = false := by
        cases e : isPatternLetter c with
        | false => rfl
        | true => exact absurd hc ((patternLetter_iff hp c (by simp)).1 e)
      have hne : 0 < (lettersOf a).length := by
        rcases List.eq_nil_or_concat a with rfl | ⟨a', d, rfl⟩
        · exact absurd hc (h2 c rfl)
        · have := ha d (by simp)
          simp [lettersOf, this]
      rw [lettersOf_cons_digit hc]
      obtain ⟨m, hm⟩ : ∃ m, (lettersOf a).length = m + 1 := ⟨(lettersOf a).length - 1, by omega⟩
      rw [hm] at this ⊢
      simp only [List.cons_append, splitWhere, hl, Bool.false_eq_true, if_false]
      split
      · rename_i x xs e
        rw [e] at this
        simpa using this
      · rename_i e
        rw [e] at this
        simp at this
    · rw [lettersOf_cons hc]
      have hl : isPatternLetter c = true := (patternLetter_iff hp c (by simp)).2 hc
      simpa [splitWhere, hl] using this

theorem partAt_exists (p : List Char) : ∀ j, j ≤ (lettersOf p).length → ∃ ds, PartAt p j ds := by
  induction p with
  | nil =>
    intro j hj
    have : j = 0 := by simpa [lettersOf] using hj
    subst this
    exact ⟨[], [], [], rfl, rfl, by simp, by simp, by simp⟩
  | cons c p ih =>
    intro j hj
    by_cases hc : Digit c
    · rw [lettersOf_cons_digit hc] at hj
      obtain ⟨ds, a, b, h1, h2, h3, h4, h5⟩ := ih j hj
      by_cases ha : a = []
      · subst ha
        refine ⟨c :: ds, [], b, by simp [h1], h2, ?_, by simp, h5⟩
        intro d hd
        rcases List.mem_cons.1 hd with rfl | hd
        · exact hc
        · exact h3 d hd
      · refine ⟨ds, c :: a, b, by simp [h1], by rw [lettersOf_cons_digit hc, h2], h3, ?_, h5⟩
        intro d hd
        apply h4
        cases a with
        | nil => exact absurd rfl ha
        | cons e a => simpa using hd
    · rw [lettersOf_cons hc] at hj
      match j with
      | 0 => exact ⟨[], [], c :: p, rfl, rfl, by simp, by simp, by simpa using hc⟩
      | j + 1 =>
        obtain ⟨ds, a, b, h1, h2, h3, h4, h5⟩ := ih j (by simpa using hj)
        refine ⟨ds, c :: a, b, by simp [h1], by rw [lettersOf_cons hc]; simp [h2], h3, ?_, h5⟩
        intro d hd
        cases a with
        | nil => simp at hd; subst hd; exact hc
        | cons e a => exact h4 d (by simpa using hd)

theorem intOr0_digits {ds : List Char} (h : ∀ c ∈ ds, Digit c) : intOr0 ds = some (decimal ds) := by
  have : ds.all isDigit09 = true := by rw [List.all_eq_true]; exact fun c hc => (isDigit09_iff c).2 (h c hc)
  rw [intOr0, if_pos this, decimal_eq]

theorem mapM_get {α β : Type} (f : α → Option β) : ∀ (l : List α) (r : List β), l.mapM f = some r → ∀ j : Nat, ∀ x, l[j]? = some x → r[j]? = f x
  | [], r, h, j, x, hx => by simp at hx
  | a :: l, r, h, j, x, hx => by
    rw [List.mapM_cons] at h
    simp only [Option.bind_eq_bind, Option.bind_eq_some_iff, Option.pure_def, Option.some.injEq] at h
    obtain ⟨b, hb, r', h2, rfl⟩ := h
    match j with
    | 0 => simp at hx; subst hx; simp [hb]
    | j + 1 => simpa using mapM_get f l r' h2 j x (by simpa using hx)

theorem split_letters {p : List Char} (hp : PatternText p) : (splitWhere isPatternLetter p).length = (lettersOf p).length + 1 := by
  rw [splitWhere_length]
  congr 2
  unfold lettersOf
  apply List.filter_congr
  intro c hc
  have := patternLetter_iff hp c hc
  by_cases h : Digit c
  · cases e : isPatternLetter c with
    | false => simp [h]
    | true => exact absurd h (this.1 e)
  · simp [h, this.2 h]

theorem patternOf_eq (p : List Char) :
    patternOf p = ((splitWhere isPatternLetter p).mapM intOr0).map fun points => (p.filter fun c => !isDigit09 c, points) := rfl

/-- The points of a pattern are its numbers. -/
theorem patternOf_marks {p chars : List Char} {points : List Nat} (hp : PatternText p) (h : patternOf p = some (chars, points)) :
    chars = lettersOf p ∧ ∀ j v, points[j]? = some v ↔ Marks p j v := by
  rw [patternOf_eq] at h
  simp only [Option.map_eq_some_iff, Prod.mk.injEq] at h
  obtain ⟨r, h1, rfl, rfl⟩ := h
  refine ⟨(lettersOf_eq p).symm, fun j v => ?_⟩
  have hlen := mapM_length _ _ _ h1
  rw [split_letters hp] at hlen
  have key : ∀ ds, PartAt p j ds → r[j]? = some (decimal ds) := by
    intro ds hd
    rw [mapM_get _ _ _ h1 j ds (hd.split hp)]
    obtain ⟨-, -, -, -, h3, -, -⟩ := hd
    exact intOr0_digits h3
  constructor
  · intro hv
    have hj : j < r.length := (List.getElem?_eq_some_iff.1 hv).1
    obtain ⟨ds, hd⟩ := partAt_exists p j (by omega)
    have := key ds hd
    rw [hv] at this
    obtain ⟨a, b, h1, h2, h3, h4, h5⟩ := hd
    exact ⟨a, ds, b, h1, h2, h3, h4, h5, by simpa using this⟩
  · rintro ⟨a, ds, b, h1, h2, h3, h4, h5, rfl⟩
    exact key ds ⟨a, b, h1, h2, h3, h4, h5⟩

/-- What the tree holds. -/
theorem buildTree_get : ∀ {ps : List (List Char)} {t t' : Trie}, (∀ p ∈ ps, PatternText p) → buildTree ps t = some t' → ∀ s q, t'.get s = some q ↔
    (∃ p, LastWith lettersOf ps p ∧ lettersOf p ≠ [] ∧ lettersOf p = s ∧ patternOf p = some (s, q)) ∨ ((∀ p ∈ ps, lettersOf p ≠ s) ∧ t.get s = some q)
  | [], t, t', _, h, s, q => by
    simp only [buildTree, Option.some.injEq] at h
    subst h
    simp [LastWith]
  | p :: ps, t, t', hp, h, s, q => by
    simp only [buildTree] at h
    split at h
    · simp at h
    · rename_i chars points e
      have ec := (patternOf_marks (hp p (by simp)) e).1
      subst ec
      rw [buildTree_get (fun x hx => hp x (by simp [hx])) h s q, Trie.insert_get]
      constructor
      · rintro (⟨x, ⟨a, b, rfl, h2⟩, h3, h4, h5⟩ | ⟨h1, h2⟩)
        · exact .inl ⟨x, ⟨p :: a, b, rfl, h2⟩, h3, h4, h5⟩
        · split at h2
          · rename_i hs
            obtain ⟨rfl, hne⟩ := hs
            simp only [Option.some.injEq] at h2
            subst h2
            exact .inl ⟨p, ⟨[], ps, rfl, h1⟩, hne, rfl, e⟩
          · rename_i hs
            refine .inr ⟨?_, h2⟩
            intro x hx
            rcases List.mem_cons.1 hx with rfl | hx
            · rintro rfl
              by_cases hn : lettersOf x = []
              · rw [hn, Trie.get] at h2; simp at h2
              · exact hs ⟨rfl, hn⟩
            · exact h1 x hx
      · rintro (⟨x, ⟨a, b, h1, h2⟩, h3, h4, h5⟩ | ⟨h1, h2⟩)
        · match a with
          | [] =>
            simp only [List.nil_append, List.cons.injEq] at h1
            obtain ⟨rfl, rfl⟩ := h1
            refine .inr ⟨fun y hy => by rw [← h4]; exact h2 y hy, ?_⟩
            rw [if_pos ⟨h4.symm, h3⟩]
            rw [e] at h5
            simp only [Option.some.injEq, Prod.mk.injEq] at h5
            rw [h5.2]
          | y :: a =>
            simp only [List.cons_append, List.cons.injEq] at h1
            exact .inl ⟨x, ⟨a, b, h1.2, h2⟩, h3, h4, h5⟩
        · refine .inr ⟨fun x hx => h1 x (by simp [hx]), ?_⟩
          rw [if_neg]
          · exact h2
          · rintro ⟨rfl, -⟩
            exact h1 p (by simp) rfl

/-- Where the cuts are. -/
theorem cutPieces_after : ∀ (l : List (Char × Nat)) (cur : List Char) (k : Nat),
    CutAfter (cutPieces l cur) k ↔ ∃ m c p, l[m]? = some (c, p) ∧ p % 2 = 1 ∧ cur.length + m + 1 = k
  | [], cur, k => by
    simp only [cutPieces, CutAfter, List.getElem?_nil, reduceCtorEq, false_and, exists_false, iff_false]
    rintro ⟨a, b, h1, h2, h3, -⟩
    match a, b, h2, h3 with
    | x :: a, y :: b, _, _ => have := congrArg List.length h1; simp at this
  | (c, p) :: r, cur, k => by
    simp only [cutPieces]
    have hsplit : (∃ m c' p', ((c, p) :: r)[m]? = some (c', p') ∧ p' % 2 = 1 ∧ cur.length + m + 1 = k) ↔
        (p % 2 = 1 ∧ cur.length + 1 = k) ∨ ∃ m c' p', r[m]? = some (c', p') ∧ p' % 2 = 1 ∧ cur.length + 1 + m + 1 = k := by
      constructor
      · rintro ⟨m, c', p', h1, h2, h3⟩
        match m with
        | 0 =>
          simp only [List.getElem?_cons_zero, Option.some.injEq, Prod.mk.injEq] at h1
          obtain ⟨rfl, rfl⟩ := h1
          exact .inl ⟨h2, by simpa using h3⟩
        | m + 1 => exact .inr ⟨m, c', p', by simpa using h1, h2, by omega⟩
      · rintro (⟨h1, h2⟩ | ⟨m, c', p', h1, h2, h3⟩)
        · exact ⟨0, c, p, by simp, h1, by simpa using h2⟩
        · exact ⟨m + 1, c', p', by simpa using h1, h2, by omega⟩
    rw [hsplit]
    split
    · rename_i hp
      have ih := cutPieces_after r []
      constructor
      · rintro ⟨a, b, h1, h2, h3, h4⟩
        match a, h2 with
        | x :: a, _ =>
          simp only [List.cons_append, List.cons.injEq] at h1
          obtain ⟨rfl, h1⟩ := h1
          by_cases ha : a = []
          · subst ha
            exact .inl ⟨hp, by simpa using h4⟩
          · obtain ⟨m, c', p', k1, k2, k3⟩ := (ih a.flatten.length).1 ⟨a, b, h1, ha, h3, rfl⟩
            refine .inr ⟨m, c', p', k1, k2, ?_⟩
            simp only [List.flatten_cons, List.length_append, List.length_cons, List.length_nil] at h4 k3
            omega
      · rintro (⟨-, h⟩ | ⟨m, c', p', k1, k2, k3⟩)
        · exact ⟨[cur ++ [c]], cutPieces r [], rfl, by simp, cutPieces_ne _ _, by simpa using h⟩
        · obtain ⟨a, b, h1, h2, h3, h4⟩ := (ih (m + 1)).2 ⟨m, c', p', k1, k2, by simp⟩
          exact ⟨(cur ++ [c]) :: a, b, by simp [h1], by simp, h3, by simp [h4]; omega⟩
    · rename_i hp
      rw [cutPieces_after r (cur ++ [c]) k]
      simp only [List.length_append, List.length_cons, List.length_nil, hp, false_and, false_or]

end Pdfje
