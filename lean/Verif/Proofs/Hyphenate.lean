import Verif.Model.Hyphenate
import Verif.Spec.Words
import Mathlib.Data.List.Basic
/-
The hyphenators cut words into pieces.
-/

namespace Pdfje

theorem splitWhere_length (p : Char → Bool) (s : List Char) : (splitWhere p s).length = (s.filter p).length + 1 := by
  induction s with
  | nil => rfl
  | cons c s ih =>
    simp only [splitWhere]
    by_cases h : p c
    · simp [h, ih]
    · simp only [h, Bool.false_eq_true, if_false, List.filter_cons]
      cases e : splitWhere p s with
      | nil => rw [e] at ih; simp at ih
      | cons x xs => rw [e] at ih; simpa using ih

theorem mapM_length {α β : Type} (f : α → Option β) : ∀ (l : List α) (r : List β), l.mapM f = some r → r.length = l.length
  | [], r, h => by simp at h; subst h; rfl
  | a :: l, r, h => by
    rw [List.mapM_cons] at h
    simp only [Option.bind_eq_bind, Option.bind_eq_some_iff, Option.pure_def, Option.some.injEq] at h
    obtain ⟨b, _, r', h2, rfl⟩ := h
    simp [mapM_length f l r' h2]

/-- The points stored for these letters. -/
def Trie.get : Trie → List Char → Option (List Nat)
  | _, [] => none
  | t, [c] => (t.find c).bind fun e => e.1
  | t, c :: d :: s => (t.find c).bind fun e => e.2.get (d :: s)

theorem Trie.get_one (t : Trie) (c : Char) : t.get [c] = (t.find c).bind fun e => e.1 := rfl

theorem Trie.get_more (t : Trie) (c d : Char) (s : List Char) : t.get (c :: d :: s) = (t.find c).bind fun e => e.2.get (d :: s) := rfl

theorem Trie.get_nil_left (s : List Char) : Trie.nil.get s = none := by
  match s with
  | [] => rfl
  | [c] => rfl
  | c :: d :: s => rfl

theorem Trie.get_entry_self (e : Char) (q : Option (List Nat)) (b r : Trie) (s : List Char) :
    (Trie.entry e q b r).get (e :: s) = if s = [] then q else b.get s := by
  match s with
  | [] => simp [Trie.get_one, Trie.find]
  | d :: s => simp [Trie.get_more, Trie.find]

theorem Trie.get_entry_ne {e c : Char} (h : c ≠ e) (q : Option (List Nat)) (b r : Trie) (s : List Char) :
    (Trie.entry e q b r).get (c :: s) = r.get (c :: s) := by
  match s with
  | [] => simp [Trie.get_one, Trie.find, h]
  | d :: s => simp [Trie.get_more, Trie.find, h]

theorem Trie.path_get (c : Char) (k : List Char) (p : List Nat) (s : List Char) : (Trie.path c k p).get s = if s = c :: k then some p else none := by
  induction k generalizing c s with
  | nil =>
    simp only [Trie.path]
    match s with
    | [] => simp [Trie.get]
    | d :: s =>
      by_cases h : d = c
      · subst h; rw [get_entry_self]; simp [get_nil_left]
      · rw [get_entry_ne h]; simp [h, get_nil_left]
  | cons d k ih =>
    simp only [Trie.path]
    match s with
    | [] => simp [Trie.get]
    | x :: s =>
      by_cases h : x = c
      · subst h
        rw [get_entry_self, ih]
        by_cases hs : s = []
        · subst hs; simp
        · simp [hs]
      · rw [get_entry_ne h]; simp [h, get_nil_left]

/-- The tree is a map from letters to points. -/
theorem Trie.insert_get (t : Trie) (k : List Char) (p : List Nat) (s : List Char) :
    (t.insert k p).get s = if s = k ∧ k ≠ [] then some p else t.get s := by
  match k with
  | [] => cases t <;> simp [Trie.insert]
  | c :: k =>
    match t with
    | .nil =>
      simp only [Trie.insert]
      rw [Trie.path_get, Trie.get_nil_left]
      simp
    | .entry e q b r =>
      simp only [Trie.insert]
      by_cases hc : c = e
      · subst hc
        have ih := Trie.insert_get b k p
        rw [if_pos rfl]
        match s with
        | [] => simp [Trie.get]
        | x :: s =>
          by_cases h : x = c
          · subst h
            rw [get_entry_self, get_entry_self, ih]
            by_cases hs : s = []
            · subst hs
              by_cases hk : k = []
              · simp [hk]
              · simp [hk, Ne.symm hk]
            · by_cases hk : s = k
              · subst hk; simp [hs]
              · simp [hs, hk]
          · rw [get_entry_ne h, get_entry_ne h]; simp [h]
      · have ih := Trie.insert_get r (c :: k) p
        rw [if_neg hc]
        match s with
        | [] => simp [Trie.get]
        | x :: s =>
          by_cases h : x = e
          · subst h
            rw [get_entry_self, get_entry_self]
            simp [Ne.symm hc]
          · rw [get_entry_ne h, get_entry_ne h, ih]
termination_by (k.length, sizeOf t)

/-- All points are at most one more than letters. -/
def PointsFit (t : Trie) : Prop := ∀ s p, t.get s = some p → p.length ≤ s.length + 1

theorem patternOf_fit {p chars : List Char} {points : List Nat} (h : patternOf p = some (chars, points)) :
    points.length ≤ chars.length + 1 := by
  simp only [patternOf, Option.map_eq_some_iff, Prod.mk.injEq] at h
  obtain ⟨r, h1, rfl, rfl⟩ := h
  rw [mapM_length _ _ _ h1, splitWhere_length]
  have : ∀ l : List Char, (l.filter fun c => c == '.' || isAZ c).length ≤ (l.filter fun c => !isDigit09 c).length := by
    intro l
    apply List.Sublist.length_le
    apply List.monotone_filter_right
    intro c hc
    simp only [Bool.or_eq_true, beq_iff_eq] at hc
    rcases hc with rfl | hc
    · decide
    · simp only [isAZ, isDigit09, Bool.and_eq_true, decide_eq_true_eq, Bool.not_eq_true', Bool.and_eq_false_imp,
        decide_eq_false_iff_not] at hc ⊢
      intro _ h9
      have h1 : 'a'.toNat ≤ c.toNat := hc.1
      have h2 : c.toNat ≤ '9'.toNat := h9
      have e1 : 'a'.toNat = 97 := rfl
      have e2 : '9'.toNat = 57 := rfl
      omega
  have := this p
  omega

theorem buildTree_fit : ∀ {ps : List (List Char)} {t t' : Trie}, PointsFit t → buildTree ps t = some t' → PointsFit t'
  | [], t, t', h, e => by simp [buildTree] at e; subst e; exact h
  | p :: ps, t, t', h, e => by
    simp only [buildTree] at e
    split at e
    · simp at e
    · rename_i chars points hp
      refine buildTree_fit ?_ e
      intro s q hq
      rw [Trie.insert_get] at hq
      split at hq
      · rename_i hs
        simp only [Option.some.injEq] at hq
        subst hq
        rw [hs.1]
        exact patternOf_fit hp
      · exact h s q hq

theorem mem_of_lookup {α β} [BEq α] [LawfulBEq α] {l : List (α × β)} {k : α} {v : β} (h : l.lookup k = some v) : (k, v) ∈ l := by
  induction l with
  | nil => simp at h
  | cons a l ih =>
    obtain ⟨k', v'⟩ := a
    simp only [List.lookup_cons] at h
    split at h
    · rename_i hk
      have : k = k' := by simpa using hk
      subst this
      simp at h; subst h
      exact List.mem_cons_self
    · exact List.mem_cons_of_mem _ (ih h)

/-- The points are raised to the greatest of those that count. -/
def Raised (S : Nat → Nat → Prop) (a b : List Nat) : Prop :=
  b.length = a.length ∧ ∀ k, a.getD k 0 ≤ b.getD k 0 ∧ (∀ v, S k v → v ≤ b.getD k 0) ∧ (b.getD k 0 = a.getD k 0 ∨ S k (b.getD k 0))

theorem Raised.trans {S T U : Nat → Nat → Prop} {a b c : List Nat} (h : Raised S a b) (h' : Raised T b c) (hu : ∀ k v, U k v ↔ S k v ∨ T k v) : Raised U a c := by
  refine ⟨h'.1.trans h.1, fun k => ?_⟩
  obtain ⟨h1, h2, h3⟩ := h.2 k
  obtain ⟨k1, k2, k3⟩ := h'.2 k
  refine ⟨h1.trans k1, ?_, ?_⟩
  · intro v hv
    rcases (hu k v).1 hv with hv | hv
    · exact (h2 v hv).trans k1
    · exact k2 v hv
  · rcases k3 with e | k3
    · rw [e]
      rcases h3 with h3 | h3
      · exact .inl h3
      · exact .inr ((hu k _).2 (.inl h3))
    · exact .inr ((hu k _).2 (.inr k3))

theorem Raised.congr {S T : Nat → Nat → Prop} {a b : List Nat} (h : Raised S a b) (ht : ∀ k v, T k v ↔ S k v) : Raised T a b := by
  refine ⟨h.1, fun k => ⟨(h.2 k).1, fun v hv => (h.2 k).2.1 v ((ht k v).1 hv), ?_⟩⟩
  rw [ht]
  exact (h.2 k).2.2

theorem Raised.refl {S : Nat → Nat → Prop} (a : List Nat) (hs : ∀ k v, ¬ S k v) : Raised S a a :=
  ⟨rfl, fun k => ⟨le_refl _, fun v h => absurd h (hs k v), .inl rfl⟩⟩

theorem raisePoints_some {points : List Nat} {i : Nat} {p : List Nat} (h : i + p.length ≤ points.length) :
    ∃ q, raisePoints points i p = some q ∧ Raised (fun k v => ∃ j, p[j]? = some v ∧ i + j = k) points q := by
  unfold raisePoints
  rw [if_pos h]
  refine ⟨_, rfl, by simp, fun k => ?_⟩
  by_cases hk : i ≤ k ∧ k < i + p.length
  · have hk2 : k < points.length := by omega
    have hk3 : k - i < p.length := by omega
    have e : (points.mapIdx fun k x => if i ≤ k ∧ k < i + p.length then max x (p.getD (k - i) 0) else x).getD k 0 = max points[k] p[k - i] := by
      simp [List.getD_eq_getElem?_getD, hk2, hk.1, hk.2, hk3]
    rw [e]
    have e2 : points.getD k 0 = points[k] := by simp [List.getD_eq_getElem?_getD, hk2]
    rw [e2]
    refine ⟨le_max_left _ _, ?_, ?_⟩
    · rintro v ⟨j, hj, rfl⟩
      obtain ⟨hj1, rfl⟩ := List.getElem?_eq_some_iff.1 hj
      simp only [Nat.add_sub_cancel_left]
      exact le_max_right _ _
    · rcases le_total p[k - i] points[k] with hm | hm
      · left; exact max_eq_left hm
      · right; refine ⟨k - i, ?_, by omega⟩
        rw [max_eq_right hm, List.getElem?_eq_getElem hk3]
  · have e : (points.mapIdx fun k x => if i ≤ k ∧ k < i + p.length then max x (p.getD (k - i) 0) else x).getD k 0 = points.getD k 0 := by
      simp only [List.getD_eq_getElem?_getD, List.getElem?_mapIdx]
      cases points[k]? with
      | none => rfl
      | some x => simp [hk]
    rw [e]
    refine ⟨le_refl _, ?_, .inl rfl⟩
    rintro v ⟨j, hj, rfl⟩
    exact absurd ⟨by omega, by have := (List.getElem?_eq_some_iff.1 hj).1; omega⟩ hk

/-- What a walk down the tree counts: the points of all prefixes. -/
def WalkCounts (i : Nat) (t : Trie) (s : List Char) (k v : Nat) : Prop := ∃ pre post p j, s = pre ++ post ∧ t.get pre = some p ∧ p[j]? = some v ∧ i + j = k

theorem walkCounts_none {i : Nat} {t : Trie} {c : Char} {s : List Char} (h : t.find c = none) (k v : Nat) : ¬ WalkCounts i t (c :: s) k v := by
  rintro ⟨pre, post, p, j, h1, h2, -, -⟩
  match pre with
  | [] => simp [Trie.get] at h2
  | [d] =>
    simp only [List.cons_append, List.cons.injEq] at h1
    rw [Trie.get_one, ← h1.1, h] at h2; simp at h2
  | d :: e :: pre =>
    simp only [List.cons_append, List.cons.injEq] at h1
    rw [Trie.get_more, ← h1.1, h] at h2; simp at h2

theorem walkCounts_some {i : Nat} {t : Trie} {c : Char} {s : List Char} {q : Option (List Nat)} {b : Trie} (h : t.find c = some (q, b)) (k v : Nat) :
    WalkCounts i t (c :: s) k v ↔ (∃ p j, q = some p ∧ p[j]? = some v ∧ i + j = k) ∨ WalkCounts i b s k v := by
  constructor
  · rintro ⟨pre, post, p, j, h1, h2, h3, h4⟩
    match pre with
    | [] => simp [Trie.get] at h2
    | [d] =>
      simp only [List.cons_append, List.cons.injEq] at h1
      rw [Trie.get_one, ← h1.1, h] at h2
      exact .inl ⟨p, j, by simpa using h2, h3, h4⟩
    | d :: e :: pre =>
      simp only [List.cons_append, List.cons.injEq] at h1
      rw [Trie.get_more, ← h1.1, h] at h2
      exact .inr ⟨e :: pre, post, p, j, by simpa using h1.2, by simpa using h2, h3, h4⟩
  · rintro (⟨p, j, h1, h2, h3⟩ | ⟨pre, post, p, j, h1, h2, h3, h4⟩)
    · exact ⟨[c], s, p, j, rfl, by rw [Trie.get_one, h]; simpa using h1, h2, h3⟩
    · refine ⟨c :: pre, post, p, j, by simp [h1], ?_, h3, h4⟩
      match pre with
      | [] => simp [Trie.get] at h2
      | d :: pre => rw [Trie.get_more, h]; simpa using h2

theorem walkTree_some (i : Nat) : ∀ (s : List Char) (t : Trie) (points : List Nat),
    (∀ pre post p, s = pre ++ post → t.get pre = some p → i + p.length ≤ points.length) →
    ∃ q, walkTree i t s points = some q ∧ Raised (WalkCounts i t s) points q
  | [], t, points, h => by
    refine ⟨points, by simp [walkTree], Raised.refl _ ?_⟩
    rintro k v ⟨pre, post, p, j, h1, h2, -, -⟩
    have : pre = [] := (List.append_eq_nil_iff.1 h1.symm).1
    subst this
    simp [Trie.get] at h2
  | c :: s, t, points, h => by
    simp only [walkTree]
    cases e : t.find c with
    | none => exact ⟨points, rfl, Raised.refl _ (walkCounts_none e)⟩
    | some r =>
      obtain ⟨q, b⟩ := r
      have hb : ∀ pre post p, s = pre ++ post → b.get pre = some p → i + p.length ≤ points.length := by
        intro pre post p h1 h2
        refine h (c :: pre) post p (by simp [h1]) ?_
        match pre with
        | [] => simp [Trie.get] at h2
        | d :: pre => rw [Trie.get_more, e]; simpa using h2
      cases q with
      | none =>
        obtain ⟨q, h1, h2⟩ := walkTree_some i s b points hb
        exact ⟨q, h1, h2.congr fun k v => by rw [walkCounts_some e]; simp⟩
      | some p =>
        obtain ⟨q, h1, h2⟩ := raisePoints_some (points := points) (i := i) (p := p) (h [c] s p rfl (by rw [Trie.get_one, e]; rfl))
        obtain ⟨q', h3, h4⟩ := walkTree_some i s b q (by rw [h2.1]; exact hb)
        refine ⟨q', by simp only [h1, Option.bind_some, h3], h2.trans h4 fun k v => ?_⟩
        rw [walkCounts_some e]
        simp

/-- What counts in a text that starts at position `i`. -/
def StartCounts (t : Trie) (i : Nat) (s : List Char) (k v : Nat) : Prop :=
  ∃ a pre b p j, s = a ++ pre ++ b ∧ t.get pre = some p ∧ p[j]? = some v ∧ i + a.length + j = k

theorem startLoop_some {t : Trie} (ht : PointsFit t) : ∀ (s : List Char) (i : Nat) (points : List Nat),
    i + s.length < points.length → ∃ q, startLoop t i s points = some q ∧ Raised (StartCounts t i s) points q
  | [], i, points, h => by
    refine ⟨points, rfl, Raised.refl _ ?_⟩
    rintro k v ⟨a, pre, b, p, j, h1, h2, -, -⟩
    have : pre = [] := (List.append_eq_nil_iff.1 (List.append_eq_nil_iff.1 h1.symm).1).2
    subst this
    simp [Trie.get] at h2
  | c :: s, i, points, h => by
    simp only [startLoop]
    obtain ⟨q, h1, h2⟩ := walkTree_some i (c :: s) t points (by
      intro pre post p h1 h2
      have := ht _ _ h2
      have := congrArg List.length h1
      simp at this h
      omega)
    simp only [h1, Option.bind_some]
    obtain ⟨q', h3, h4⟩ := startLoop_some ht s (i + 1) q (by rw [h2.1]; simp at h; omega)
    refine ⟨q', h3, h2.trans h4 fun k v => ?_⟩
    constructor
    · rintro ⟨a, pre, b, p, j, k1, k2, k3, k4⟩
      match a with
      | [] => exact .inl ⟨pre, b, p, j, by simpa using k1, k2, k3, by simpa using k4⟩
      | d :: a =>
        simp only [List.cons_append, List.cons.injEq] at k1
        exact .inr ⟨a, pre, b, p, j, k1.2, k2, k3, by simp at k4; omega⟩
    · rintro (⟨pre, b, p, j, k1, k2, k3, k4⟩ | ⟨a, pre, b, p, j, k1, k2, k3, k4⟩)
      · exact ⟨[], pre, b, p, j, by simpa using k1, k2, k3, by simpa using k4⟩
      · exact ⟨c :: a, pre, b, p, j, by simp [k1], k2, k3, by simp; omega⟩

theorem cutPieces_flatten : ∀ (l : List (Char × Nat)) (cur : List Char), (cutPieces l cur).flatten = cur ++ l.map (·.1)
  | [], cur => by simp [cutPieces]
  | (c, p) :: r, cur => by
    simp only [cutPieces]
    split <;> simp [cutPieces_flatten]

theorem cutPieces_ne (l : List (Char × Nat)) (cur : List Char) : cutPieces l cur ≠ [] := by
  induction l generalizing cur with
  | nil => simp [cutPieces]
  | cons a l ih =>
    obtain ⟨c, p⟩ := a
    simp only [cutPieces]; split
    · simp
    · exact ih _

theorem cutPieces_nonempty : ∀ (l : List (Char × Nat)) (cur : List Char), ∀ x ∈ (cutPieces l cur).dropLast, x ≠ []
  | [], cur => by simp [cutPieces]
  | (c, p) :: r, cur => by
    simp only [cutPieces]
    split
    · intro x hx
      cases e : cutPieces r [] with
      | nil => exact absurd e (cutPieces_ne _ _)
      | cons y ys =>
        rw [e, List.dropLast_cons_cons] at hx
        rcases List.mem_cons.1 hx with rfl | hx
        · simp
        · exact cutPieces_nonempty r [] x (by rw [e]; exact hx)
    · exact cutPieces_nonempty r (cur ++ [c])

theorem cutPieces_head : ∀ (l : List (Char × Nat)) (cur : List Char), ∀ x ∈ (cutPieces l cur).head?, cur.length ≤ x.length
  | [], cur => by simp [cutPieces]
  | (c, p) :: r, cur => by
    simp only [cutPieces]
    split
    · simp
    · intro x hx
      have := cutPieces_head r (cur ++ [c]) x hx
      simp at this; omega

/-- If the last two characters are not followed by a break, the last piece has both. -/
theorem cutPieces_last : ∀ (l : List (Char × Nat)) (cur : List Char) (a b : Char),
    ∃ y, (cutPieces (l ++ [(a, 0), (b, 0)]) cur).getLast? = some (y ++ [a, b])
  | [], cur, a, b => by simp [cutPieces]
  | (c, p) :: r, cur, a, b => by
    simp only [List.cons_append, cutPieces]
    split
    · obtain ⟨y, hy⟩ := cutPieces_last r [] a b
      refine ⟨y, ?_⟩
      cases e : cutPieces (r ++ [(a, 0), (b, 0)]) [] with
      | nil => exact absurd e (cutPieces_ne _ _)
      | cons z zs => rw [e] at hy; simpa using hy
    · exact cutPieces_last r (cur ++ [c]) a b

/-- Every exception comes from the list. -/
theorem exceptions_mem : ∀ (exs : List (List Char)) (d : List (List Char × List Nat)) (P : List Char × List Nat → Prop),
    (∀ e ∈ d, P e) → (∀ ex ∈ exs, P (exceptionOf ex)) →
    ∀ e ∈ exs.foldl (fun d ex => dictSet d (exceptionOf ex).1 (exceptionOf ex).2) d, P e
  | [], d, P, hd, _ => hd
  | ex :: exs, d, P, hd, h => by
    rw [List.foldl_cons]
    apply exceptions_mem exs _ P ?_ (fun x hx => h x (List.mem_cons_of_mem _ hx))
    have hx : P (exceptionOf ex) := h ex List.mem_cons_self
    clear h
    induction d with
    | nil => intro e he; simp [dictSet] at he; subst he; exact hx
    | cons a d ih =>
      obtain ⟨k', v'⟩ := a
      simp only [dictSet]
      split
      · rename_i hk
        have : k' = (exceptionOf ex).1 := by simpa using hk
        subst this
        intro e he
        rcases List.mem_cons.1 he with rfl | he
        · exact hx
        · exact hd e (List.mem_cons_of_mem _ he)
      · intro e he
        rcases List.mem_cons.1 he with rfl | he
        · exact hd _ List.mem_cons_self
        · exact ih (fun e he => hd e (List.mem_cons_of_mem _ he)) e he

theorem exceptionOf_length (ex : List Char) (h : ∀ c ∈ ex, isAZ c = true ∨ c = '-') :
    (exceptionOf ex).2.length = (exceptionOf ex).1.length + 2 := by
  simp only [exceptionOf, List.length_cons, List.length_map, splitWhere_length]
  have : ex.filter isAZ = ex.filter (· ≠ '-') := by
    apply List.filter_congr
    intro c hc
    rcases h c hc with h | rfl
    · have : c ≠ '-' := by rintro rfl; revert h; decide
      simp [h, this]
    · decide
  rw [this]

theorem Hyphenator.points_spec {patterns exceptions : List (List Char)} (hex : ∀ ex ∈ exceptions, ∀ c ∈ ex, isAZ c = true ∨ c = '-')
    {lower : List Char → List Char} (hl : ∀ s, s.length ≤ (lower s).length) {h : Hyphenator}
    (hnew : Hyphenator.new patterns exceptions = some h) (word : List Char) :
    ∃ points, h.points lower word = some points ∧ word.length + 2 ≤ points.length ∧
      ((∀ ex ∈ exceptions, lower word ≠ ex.filter (· ≠ '-')) →
        points.length = (lower word).length + 3 ∧ points.getD 2 0 = 0 ∧ points.getD (points.length - 2) 0 = 0 ∧
        points.getD (points.length - 3) 0 = 0) := by
  simp only [Hyphenator.new, Option.map_eq_some_iff] at hnew
  obtain ⟨t, ht, rfl⟩ := hnew
  have hfit : PointsFit t := buildTree_fit (by intro s p h; rw [Trie.get_nil_left] at h; simp at h) ht
  unfold Hyphenator.points
  split
  · rename_i points e
    have hm := mem_of_lookup e
    refine ⟨points, rfl, ?_, ?_⟩
    · have := exceptions_mem exceptions [] (fun e => e.2.length = e.1.length + 2) (by simp)
        (fun ex hx => exceptionOf_length ex (hex ex hx)) _ hm
      simp only at this
      have := hl word
      omega
    · intro hne
      exfalso
      have := exceptions_mem exceptions [] (fun e => ∃ ex ∈ exceptions, e.1 = ex.filter (· ≠ '-')) (by simp)
        (fun ex hx => ⟨ex, hx, rfl⟩) _ hm
      obtain ⟨ex, hx, e⟩ := this
      exact hne ex hx e
  · obtain ⟨q, h1, h2⟩ := startLoop_some hfit ('.' :: lower word ++ ['.']) 0
      (List.replicate (('.' :: lower word ++ ['.']).length + 1) 0) (by simp)
    have hlen : q.length = (lower word).length + 3 := by rw [h2.1]; simp
    simp only [h1, Option.map_some]
    refine ⟨_, rfl, ?_, ?_⟩
    · have := hl word
      simp only [List.length_set]
      omega
    · intro _
      have hset : ∀ (l : List Nat) (i j : Nat), l.getD i 0 = 0 → (l.set j 0).getD i 0 = 0 := by
        intro l i j h0
        rw [List.getD_eq_getElem?_getD] at h0 ⊢
        rw [List.getElem?_set]
        split
        · split <;> rfl
        · exact h0
      have hself : ∀ (l : List Nat) (i : Nat), (l.set i 0).getD i 0 = 0 := by
        intro l i
        rw [List.getD_eq_getElem?_getD, List.getElem?_set]
        simp only [if_true]
        split <;> rfl
      simp only [List.length_set]
      refine ⟨hlen, ?_, ?_, ?_⟩
      · exact hset _ _ _ (hset _ _ _ (hself _ _))
      · exact hset _ _ _ (hself _ _)
      · exact hself _ _

end Pdfje
