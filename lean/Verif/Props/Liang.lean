import Verif.Proofs.Liang
import Verif.Proofs.Kerning
import Verif.Model.English
import Verif.Props.Words
/-
C79: the built-in hyphenator follows Liang's method.
-/

namespace Pdfje

theorem getD_set_zero (l : List Nat) (i k : Nat) : (l.set i 0).getD k 0 = if k = i then 0 else l.getD k 0 := by
  rw [List.getD_eq_getElem?_getD, List.getD_eq_getElem?_getD, List.getElem?_set]
  by_cases h : i = k
  · subst h; simp only [if_true]; split <;> rfl
  · rw [if_neg h, if_neg (Ne.symm h)]

/-- C79 for words that are not exceptions. For every list of patterns: a word of more than four characters, whose lower-casing keeps its length, is cut into pieces, none of them empty, that join to
the word; and it is cut after its first `k` characters exactly if there are at least two characters before and after that place and the greatest number that counts for it, of the numbers in
the patterns whose letters occur there, is odd. -/
theorem C79_patterns {patterns exceptions : List (List Char)} (hp : ∀ p ∈ patterns, PatternText p) {H : Hyphenator}
    (hnew : Hyphenator.new patterns exceptions = some H) (lower : List Char → List Char) (word : List Char) (h4 : 4 < word.length)
    (hl : (lower word).length = word.length) (hne : ∀ ex ∈ exceptions, lower word ≠ ex.filter (· ≠ '-')) :
    ∃ pieces, H.hyphenate lower word = some pieces ∧ pieces.flatten = word ∧ (∀ x ∈ pieces, x ≠ []) ∧
      ∀ k, CutAfter pieces k ↔ 2 ≤ k ∧ k + 2 ≤ word.length ∧ BreakPlace patterns (lower word) k := by
  simp only [Hyphenator.new, Option.map_eq_some_iff] at hnew
  obtain ⟨t, ht, rfl⟩ := hnew
  have hfit : PointsFit t := buildTree_fit (by intro s p h; rw [Trie.get_nil_left] at h; simp at h) ht
  have hnone : (exceptions.foldl (fun d ex => dictSet d (exceptionOf ex).1 (exceptionOf ex).2) []).lookup (lower word) = none := by
    cases e : (exceptions.foldl (fun d ex => dictSet d (exceptionOf ex).1 (exceptionOf ex).2) []).lookup (lower word) with
    | none => rfl
    | some q =>
      obtain ⟨ex, hx, e⟩ := exceptions_mem exceptions [] (fun e => ∃ ex ∈ exceptions, e.1 = ex.filter (· ≠ '-')) (by simp) (fun ex hx => ⟨ex, hx, rfl⟩) _ (mem_of_lookup e)
      exact absurd e (hne ex hx)
  obtain ⟨q, h1, h2⟩ := startLoop_some hfit ('.' :: lower word ++ ['.']) 0 (List.replicate (('.' :: lower word ++ ['.']).length + 1) 0) (by simp)
  have hlen : q.length = word.length + 3 := by rw [h2.1]; simp [hl]
  -- the numbers that count
  have hcount : ∀ k v, StartCounts t 0 ('.' :: lower word ++ ['.']) (k + 1) v ↔ Counts patterns (lower word) k v := by
    intro k v
    constructor
    · rintro ⟨a, pre, b, p, j, k1, k2, k3, k4⟩
      rcases (buildTree_get hp ht pre p).1 k2 with ⟨x, i1, i2, i3, i4⟩ | ⟨-, i⟩
      · subst i3
        have hx : PatternText x := by
          obtain ⟨a, b, rfl, -⟩ := i1
          exact hp x (by simp)
        exact ⟨x, a, b, j, i1, i2, k1, ((patternOf_marks hx i4).2 j v).1 k3, by omega⟩
      · rw [Trie.get_nil_left] at i; simp at i
    · rintro ⟨x, a, b, j, i1, i2, k1, k2, k3⟩
      have hx : PatternText x := by
        obtain ⟨a, b, rfl, -⟩ := i1
        exact hp x (by simp)
      obtain ⟨r, hr⟩ : ∃ r, patternOf x = some r := by
        rw [patternOf_eq]
        obtain ⟨r, hr⟩ : ∃ r, (splitWhere isPatternLetter x).mapM intOr0 = some r := by
          apply mapM_isSome
          intro y hy
          have : ∀ c ∈ y, Digit c := by
            intro c hc
            obtain ⟨hm, hn⟩ := splitWhere_mem _ x y hy c hc
            by_contra hd
            rw [(patternLetter_iff hx c hm).2 hd] at hn
            simp at hn
          rw [intOr0_digits this]; rfl
        exact ⟨_, by rw [hr]; rfl⟩
      obtain ⟨s, p⟩ := r
      obtain ⟨rfl, hm⟩ := patternOf_marks hx hr
      exact ⟨a, lettersOf x, b, p, j, k1, (buildTree_get hp ht _ p).2 (.inl ⟨x, i1, i2, rfl, hr⟩), (hm j v).2 k2, by omega⟩
  -- the greatest decides
  have hodd : ∀ k, q.getD (k + 1) 0 % 2 = 1 ↔ BreakPlace patterns (lower word) k := by
    intro k
    obtain ⟨-, g2, g3⟩ := h2.2 (k + 1)
    have hz : (List.replicate (('.' :: lower word ++ ['.']).length + 1) 0).getD (k + 1) 0 = 0 := by
      rw [List.getD_eq_getElem?_getD, List.getElem?_replicate]
      split <;> rfl
    rw [hz] at g3
    constructor
    · intro hm
      rcases g3 with g3 | g3
      · rw [g3] at hm; simp at hm
      · exact ⟨_, (hcount k _).1 g3, fun u hu => g2 u ((hcount k u).2 hu), hm⟩
    · rintro ⟨v, v1, v2, v3⟩
      have i1 := g2 v ((hcount k v).2 v1)
      rcases g3 with g3 | g3
      · have : v = 0 := by omega
        subst this; simp at v3
      · have := v2 _ ((hcount k _).1 g3)
        have : q.getD (k + 1) 0 = v := by omega
        rw [this]; exact v3
  let pts := (((q.set 1 0).set 2 0).set (q.length - 2) 0).set (q.length - 3) 0
  have hpts : ∀ k, k < word.length → (pts.getD (k + 2) 0 % 2 = 1 ↔ (2 ≤ k + 1 ∧ (k + 1) + 2 ≤ word.length ∧ BreakPlace patterns (lower word) (k + 1))) := by
    intro k hk
    rw [← hodd (k + 1)]
    simp only [pts, getD_set_zero]
    by_cases c : k + 2 = q.length - 3 ∨ k + 2 = q.length - 2 ∨ k + 2 = 2
    · have e : (if k + 2 = q.length - 3 then 0 else if k + 2 = q.length - 2 then 0 else if k + 2 = 2 then 0 else if k + 2 = 1 then 0 else q.getD (k + 2) 0) = 0 := by
        rcases c with c | c | c
        · rw [if_pos c]
        · rw [if_pos c]; simp
        · rw [if_pos c]; simp
      rw [e]
      constructor
      · intro h; simp at h
      · rintro ⟨i1, i2, -⟩; omega
    · rw [if_neg (by omega), if_neg (by omega), if_neg (by omega), if_neg (by omega)]
      constructor
      · exact fun h => ⟨by omega, by omega, h⟩
      · exact fun h => h.2.2
  have hlp : pts.length = word.length + 3 := by simp [pts, hlen]
  have hz : (word.zip (pts.drop 2)).map (·.1) = word := by
    rw [List.map_fst_zip]; simp; omega
  have hget : ∀ m : Nat, (word.zip (pts.drop 2))[m]? = (word[m]?).map fun c => (c, pts.getD (m + 2) 0) := by
    intro m
    by_cases hm : m < word.length
    · have h2 : 2 + m < pts.length := by omega
      rw [List.getElem?_eq_getElem (by simp; omega), List.getElem?_eq_getElem hm]
      simp only [List.getElem_zip, List.getElem_drop, Option.map_some, Option.some.injEq, Prod.mk.injEq, true_and]
      rw [List.getD_eq_getElem?_getD, show m + 2 = 2 + m by omega, List.getElem?_eq_getElem h2]; rfl
    · rw [List.getElem?_eq_none (by simp; omega), List.getElem?_eq_none (by omega)]; rfl
  have hcut : ∀ k, CutAfter (cutPieces (word.zip (pts.drop 2)) []) k ↔ 2 ≤ k ∧ k + 2 ≤ word.length ∧ BreakPlace patterns (lower word) k := by
    intro k
    rw [cutPieces_after]
    constructor
    · rintro ⟨m, c, p, i1, i2, i3⟩
      rw [hget, Option.map_eq_some_iff] at i1
      obtain ⟨d, i4, i5⟩ := i1
      simp only [Prod.mk.injEq] at i5
      obtain ⟨-, rfl⟩ := i5
      have := (hpts m (List.getElem?_eq_some_iff.1 i4).1).1 i2
      simp only [List.length_nil, Nat.zero_add] at i3
      rw [← i3]; exact this
    · intro h
      have hk : k - 1 < word.length := by omega
      refine ⟨k - 1, word[k - 1], pts.getD (k - 1 + 2) 0, by rw [hget, List.getElem?_eq_getElem hk]; rfl, ?_, by simp; omega⟩
      rw [hpts (k - 1) hk, show k - 1 + 1 = k by omega]
      exact h
  refine ⟨cutPieces (word.zip (pts.drop 2)) [], ?_, ?_, ?_, ?_⟩
  · rw [Hyphenator.hyphenate, if_neg (by omega)]
    simp only [Hyphenator.points, hnone, h1, Option.map_some]
    rfl
  · rw [cutPieces_flatten, hz]; rfl
  · intro x hx
    rcases List.eq_nil_or_concat (cutPieces (word.zip (pts.drop 2)) []) with e | ⟨a, y, e⟩
    · exact absurd e (cutPieces_ne _ _)
    · have hn := cutPieces_nonempty (word.zip (pts.drop 2)) []
      have hf := cutPieces_flatten (word.zip (pts.drop 2)) []
      rw [List.concat_eq_append] at e
      rw [e] at hx hn hf
      rw [hz] at hf
      simp only [List.dropLast_concat, List.nil_append, List.flatten_append, List.flatten_singleton] at hn hf
      rcases List.mem_append.1 hx with hx | hx
      · exact hn x hx
      · simp only [List.mem_singleton] at hx
        subst hx
        rintro rfl
        by_cases ha : a = []
        · subst ha; simp at hf; subst hf; simp at h4
        · have := (hcut a.flatten.length).1 ⟨a, [[]], e, ha, by simp, rfl⟩
          rw [List.append_nil] at hf
          rw [hf] at this
          omega
  · exact hcut

/-! ### Exceptions -/

/-- The points between the letters of syllables. -/
def breakMarks : List (List Char) → List Nat
  | [] => []
  | [s] => List.replicate s.length 0
  | s :: t :: r => List.replicate (s.length - 1) 0 ++ 1 :: breakMarks (t :: r)

theorem splitWhere_letters (s r : List Char) (h : ∀ c ∈ s, isAZ c = true) : splitWhere isAZ (s ++ r) = List.replicate s.length [] ++ splitWhere isAZ r := by
  induction s with
  | nil => rfl
  | cons c s ih =>
    simp only [List.cons_append, splitWhere, h c (by simp), if_true, List.length_cons, List.replicate_succ]
    rw [ih fun d hd => h d (by simp [hd])]

theorem splitWhere_syllables : ∀ (syls : List (List Char)), syls ≠ [] → (∀ s ∈ syls, s ≠ [] ∧ ∀ c ∈ s, isAZ c = true) →
    ((splitWhere isAZ (List.intercalate ['-'] syls)).map fun h => if h = ['-'] then 1 else 0) = 0 :: breakMarks syls
  | [], h, _ => absurd rfl h
  | [s], _, h => by
    have : List.intercalate ['-'] [s] = s ++ [] := by simp [List.intercalate]
    rw [this, splitWhere_letters s [] (h s (by simp)).2]
    simp [splitWhere, breakMarks, ← List.replicate_succ', List.replicate_succ]
  | s :: t :: r, _, h => by
    have e : List.intercalate ['-'] (s :: t :: r) = s ++ '-' :: List.intercalate ['-'] (t :: r) := by simp [List.intercalate]
    have ih := splitWhere_syllables (t :: r) (by simp) fun x hx => h x (by simp [hx])
    obtain ⟨c, t', ht⟩ := List.exists_cons_of_ne_nil (h t (by simp)).1
    obtain ⟨y, hy⟩ : ∃ y, List.intercalate ['-'] (t :: r) = c :: y := by
      rw [ht]
      cases r with
      | nil => exact ⟨t', by simp [List.intercalate]⟩
      | cons u r => exact ⟨t' ++ '-' :: List.intercalate ['-'] (u :: r), by simp [List.intercalate]⟩
    have hc : isAZ c = true := (h t (by simp)).2 c (by simp [ht])
    rw [hy] at ih
    rw [e, splitWhere_letters s _ (h s (by simp)).2, hy]
    have hd : isAZ '-' = false := by decide
    simp only [splitWhere, hc, hd, if_true, Bool.false_eq_true, if_false, List.map_cons, List.map_append, List.map_replicate] at ih ⊢
    have ih' := (List.cons.inj ih).2
    rw [ih']
    obtain ⟨d, s', hs⟩ := List.exists_cons_of_ne_nil (h s (by simp)).1
    rw [hs]
    simp [breakMarks, List.replicate_succ]

theorem cutPieces_zeros (n : Nat) (ms : List Nat) : ∀ (w cur : List Char), n ≤ w.length →
    cutPieces (w.zip (List.replicate n 0 ++ ms)) cur = cutPieces ((w.drop n).zip ms) (cur ++ w.take n) := by
  induction n with
  | zero => simp
  | succ n ih =>
    intro w cur h
    match w with
    | c :: w =>
      rw [List.replicate_succ, List.cons_append, List.zip_cons_cons, cutPieces, if_neg (by simp), ih w _ (by simpa using h)]
      simp

theorem cutPieces_syllables : ∀ (syls : List (List Char)) (w : List Char), syls ≠ [] → (∀ s ∈ syls, s ≠ []) → w.length = syls.flatten.length →
    (cutPieces (w.zip (breakMarks syls)) []).map List.length = syls.map List.length
  | [], w, h, _, _ => absurd rfl h
  | [s], w, _, _, hw => by
    have hw' : w.length = s.length := by simpa using hw
    have := cutPieces_zeros s.length [] w [] (by omega)
    rw [List.append_nil] at this
    rw [breakMarks, this]
    simp [cutPieces, hw']
  | s :: t :: r, w, _, hs, hw => by
    have hs0 : 0 < s.length := List.length_pos_iff.2 (hs s (by simp))
    rw [List.flatten_cons, List.length_append] at hw
    rw [breakMarks, cutPieces_zeros _ _ _ _ (by omega)]
    have hlt : s.length - 1 < w.length := by omega
    rw [List.drop_eq_getElem_cons hlt, List.zip_cons_cons, cutPieces, if_pos rfl, List.map_cons,
      cutPieces_syllables (t :: r) _ (by simp) (fun x hx => hs x (by simp [hx])) (by rw [List.length_drop]; omega)]
    simp
    omega

theorem lookup_foldl_dictSet (b : List (List Char)) (d : List (List Char × List Nat)) (k : List Char) (h : ∀ q ∈ b, (exceptionOf q).1 ≠ k) :
    (b.foldl (fun d ex => dictSet d (exceptionOf ex).1 (exceptionOf ex).2) d).lookup k = d.lookup k := by
  induction b generalizing d with
  | nil => rfl
  | cons q b ih =>
    rw [List.foldl_cons, ih _ fun x hx => h x (by simp [hx]), lookup_dictSet, if_neg]
    simpa using (h q (by simp)).symm

/-- C79 for exceptions: a word of more than four characters that is, in lower case, an exception without its hyphens (of several the last counts), is cut as the exception is by its hyphens,
whatever the patterns are. -/
theorem C79_exceptions {patterns exceptions : List (List Char)} {H : Hyphenator} (hnew : Hyphenator.new patterns exceptions = some H) (lower : List Char → List Char) (word : List Char)
    (h4 : 4 < word.length) (hl : (lower word).length = word.length) {ex : List Char} {syls : List (List Char)} (hex : LastWith (fun x => x.filter (· ≠ '-')) exceptions ex)
    (hsyl : Syllables ex syls) (hw : lower word = syls.flatten) :
    ∃ pieces, H.hyphenate lower word = some pieces ∧ pieces.flatten = word ∧ pieces.map List.length = syls.map List.length := by
  simp only [Hyphenator.new, Option.map_eq_some_iff] at hnew
  obtain ⟨t, ht, rfl⟩ := hnew
  obtain ⟨a, b, rfl, hb⟩ := hex
  obtain ⟨rfl, hne, hs⟩ := hsyl
  have hs' : ∀ s ∈ syls, s ≠ [] ∧ ∀ c ∈ s, isAZ c = true := fun s h => ⟨(hs s h).1, fun c hc => by simpa [isAZ] using (hs s h).2 c hc⟩
  have hkey : (List.intercalate ['-'] syls).filter (· ≠ '-') = syls.flatten := by
    clear hb hw hne
    have hf : ∀ s : List Char, (∀ c ∈ s, isAZ c = true) → s.filter (· ≠ '-') = s := by
      intro s h
      rw [List.filter_eq_self]
      intro c hc
      have := h c hc
      simp only [ne_eq, decide_not, Bool.not_eq_eq_eq_not, Bool.not_true, decide_eq_false_iff_not]
      rintro rfl
      revert this; decide
    clear hs
    induction syls with
    | nil => rfl
    | cons s r ih =>
      have ih := ih fun x hx => hs' x (by simp [hx])
      cases r with
      | nil =>
        have : List.intercalate ['-'] [s] = s := by simp [List.intercalate]
        rw [this, hf s (hs' s (by simp)).2]; simp
      | cons t r =>
        have : List.intercalate ['-'] (s :: t :: r) = s ++ '-' :: List.intercalate ['-'] (t :: r) := by simp [List.intercalate]
        rw [this, List.filter_append, hf s (hs' s (by simp)).2, List.filter_cons_of_neg (by simp), ih]
        simp
  have hlook : ((a ++ List.intercalate ['-'] syls :: b).foldl (fun d ex => dictSet d (exceptionOf ex).1 (exceptionOf ex).2) []).lookup (lower word) =
      some (0 :: 0 :: breakMarks syls) := by
    rw [List.foldl_append, List.foldl_cons, lookup_foldl_dictSet]
    · have e1 : (exceptionOf (List.intercalate ['-'] syls)).1 = lower word := hkey.trans hw.symm
      rw [lookup_dictSet, e1, if_pos (by simp)]
      simp only [exceptionOf, splitWhere_syllables syls hne hs']
    · intro q hq he
      refine hb q hq ?_
      show q.filter (· ≠ '-') = (List.intercalate ['-'] syls).filter (· ≠ '-')
      rw [hkey, ← hw]; exact he
  have hlw : word.length = syls.flatten.length := by rw [← hl, hw]
  have hz : (word.zip (breakMarks syls)).map (·.1) = word := by
    have hbm : ∀ l : List (List Char), (∀ s ∈ l, s ≠ []) → (breakMarks l).length = l.flatten.length := by
      intro l
      induction l with
      | nil => intro _; rfl
      | cons s r ih =>
        intro h
        have ih := ih fun x hx => h x (by simp [hx])
        have := List.length_pos_iff.2 (h s (by simp))
        cases r with
        | nil => simp [breakMarks]
        | cons t r =>
          simp only [breakMarks, List.length_append, List.length_replicate, List.length_cons, List.flatten_cons] at ih ⊢
          omega
    rw [List.map_fst_zip]
    rw [hbm syls fun s h => (hs s h).1, hlw]
  refine ⟨cutPieces (word.zip (breakMarks syls)) [], ?_, by rw [cutPieces_flatten, hz]; rfl, cutPieces_syllables syls word hne (fun s h => (hs s h).1) hlw⟩
  rw [Hyphenator.hyphenate, if_neg (by omega)]
  simp only [Hyphenator.points, hlook, Option.map_some]
  rfl

/-! ### The English hyphenator -/

theorem lastWith_of_nodup {key : List Char → List Char} {l : List (List Char)} (h : (l.map key).Nodup) {p : List Char} (hp : p ∈ l) : LastWith key l p := by
  obtain ⟨a, b, rfl⟩ := List.append_of_mem hp
  refine ⟨a, b, rfl, fun q hq he => ?_⟩
  rw [List.map_append, List.nodup_append] at h
  have := (List.nodup_cons.1 (by simpa using h.2.1 : (key p :: b.map key).Nodup)).1
  exact this (by rw [← he]; exact List.mem_map_of_mem hq)

instance (p : List Char) : Decidable (PatternText p) := inferInstanceAs (Decidable (∀ c ∈ p, _))

set_option maxRecDepth 100000 in
/-- C79: the patterns and exceptions of the English hyphenator meet the conditions of C79_patterns and C79_exceptions. -/
theorem C79_english : (∃ H, englishHyphenator = some H) ∧ (∀ p ∈ englishPatterns, PatternText p) ∧
    ∀ ex ∈ englishExceptions, LastWith (fun x => x.filter (· ≠ '-')) englishExceptions ex ∧ ∃ syls, Syllables ex syls := by
  have h : ∀ p ∈ englishPatterns, PatternText p := by decide +kernel
  refine ⟨C30_new _ _ h, h, fun ex hx => ⟨lastWith_of_nodup (by decide +kernel) hx, splitWhere (· == '-') ex, ?_⟩⟩
  have : ∀ ex ∈ englishExceptions, ex = List.intercalate ['-'] (splitWhere (· == '-') ex) ∧ splitWhere (· == '-') ex ≠ [] ∧
    ∀ s ∈ splitWhere (· == '-') ex, s ≠ [] ∧ ∀ c ∈ s, 'a' ≤ c ∧ c ≤ 'z' := by decide +kernel
  exact this ex hx

/-- "hyphenation". -/
def hyphenation : List Char := ['h', 'y', 'p', 'h', 'e', 'n', 'a', 't', 'i', 'o', 'n']

set_option maxRecDepth 100000 in
theorem hyphenation_pieces : englishHyphenator.bind (fun H => H.hyphenate id hyphenation) = some [['h', 'y'], ['p', 'h', 'e', 'n'], ['a', 't', 'i', 'o', 'n']] := by
  decide +kernel

set_option maxRecDepth 100000 in
/-- So "hyphenation" has break places after 2 and 6 letters, and not, for example, after 4. -/
example : BreakPlace englishPatterns hyphenation 2 ∧ BreakPlace englishPatterns hyphenation 6 ∧ ¬ BreakPlace englishPatterns hyphenation 4 := by
  obtain ⟨⟨H, hH⟩, h1, -⟩ := C79_english
  obtain ⟨pieces, k1, -, -, k2⟩ := C79_patterns h1 hH id hyphenation (by decide) rfl (by decide +kernel)
  have e := hyphenation_pieces
  rw [hH, Option.bind_some, k1] at e
  simp only [Option.some.injEq] at e
  subst e
  refine ⟨((k2 2).1 ⟨[['h', 'y']], _, rfl, by simp, by simp, rfl⟩).2.2, ((k2 6).1 ⟨[['h', 'y'], ['p', 'h', 'e', 'n']], _, rfl, by simp, by simp, rfl⟩).2.2, fun h => ?_⟩
  obtain ⟨a, b, h1, h2, h3, h4⟩ := (k2 4).2 ⟨by omega, by decide, h⟩
  match a, h2 with
  | [x], _ => simp at h1; obtain ⟨rfl, -⟩ := h1; simp at h4
  | [x, y], _ => simp at h1; obtain ⟨rfl, rfl, -⟩ := h1; simp at h4
  | [x, y, z], _ => simp at h1; exact h3 h1.2.2.2
  | _ :: _ :: _ :: _ :: _, _ => have := congrArg List.length h1; simp at this

/-- "Associates" is cut as the exceptions say. -/
example : ∃ H pieces, englishHyphenator = some H ∧ H.hyphenate (fun s => s.map Char.toLower) "Associates".toList = some pieces ∧ pieces.map List.length = [2, 2, 6] := by
  obtain ⟨⟨H, hH⟩, -, h2⟩ := C79_english
  obtain ⟨hx, -⟩ := h2 "as-so-ciates".toList (by decide +kernel)
  obtain ⟨pieces, k1, -, k3⟩ := C79_exceptions hH (fun s => s.map Char.toLower) "Associates".toList (by decide) (by simp) hx
    (syls := ["as".toList, "so".toList, "ciates".toList]) (by
      have : "as-so-ciates".toList = List.intercalate ['-'] ["as".toList, "so".toList, "ciates".toList] ∧ ["as".toList, "so".toList, "ciates".toList] ≠ [] ∧
        ∀ s ∈ ["as".toList, "so".toList, "ciates".toList], s ≠ [] ∧ ∀ c ∈ s, 'a' ≤ c ∧ c ≤ 'z' := by decide +kernel
      exact this) (by decide +kernel)
  exact ⟨H, pieces, hH, k1, k3⟩

end Pdfje
