import Verif.Model.Resources
import Verif.Spec.FontSpec
import Verif.Spec.Denotes
import Verif.Proofs.Strings
import Verif.Proofs.Objects
import Mathlib.Data.Finset.Card
import Mathlib.Data.Finset.Dedup
import Mathlib.Data.List.Nodup
import Mathlib.Data.List.Sort
/-
Lemmas about encodings, kerning and embedded font tables.
-/

namespace Pdfje
open PdfSpec

/-! ### cp1252 -/

theorem winAnsi_cp1252 (c : Char) (b : UInt8) (h : winAnsi b = some c.toNat) : cp1252Char c = b := by
  have key : ∀ b : UInt8, ∀ n, winAnsi b = some n →
      (n < 0x80 ∨ (0xA0 ≤ n ∧ n ≤ 0xFF)) ∧ UInt8.ofNat n = b ∨
      ¬ (n < 0x80 ∨ (0xA0 ≤ n ∧ n ≤ 0xFF)) ∧ ∃ i, cp1252High.findIdx? (fun x => x == n) = some i ∧ UInt8.ofNat (0x80 + i) = b := by
    have : ∀ b : UInt8, (winAnsi b).all (fun n =>
        (decide (n < 0x80 ∨ (0xA0 ≤ n ∧ n ≤ 0xFF)) && UInt8.ofNat n == b) ||
        (!decide (n < 0x80 ∨ (0xA0 ≤ n ∧ n ≤ 0xFF)) &&
          (cp1252High.findIdx? (fun x => x == n)).any (fun i => UInt8.ofNat (0x80 + i) == b))) = true := by
      apply forall_byte
      decide +kernel
    intro b n hn
    have := this b
    rw [hn] at this
    simp only [Option.all_some, Bool.or_eq_true, Bool.and_eq_true, decide_eq_true_eq, beq_iff_eq,
      Bool.not_eq_true', decide_eq_false_iff_not, Option.any_eq_true] at this
    exact this
  unfold cp1252Char
  rcases key b _ h with ⟨h1, h2⟩ | ⟨h1, i, hi, h2⟩
  · simp only [h1, if_true, h2]
  · simp only [h1, if_false, hi, h2]

theorem cp1252_unknown (c : Char) (h : ∀ b, winAnsi b ≠ some c.toNat) : cp1252Char c = 0x3F := by
  have h1 : ¬ (c.toNat < 0x80 ∨ (0xA0 ≤ c.toNat ∧ c.toNat ≤ 0xFF)) := by
    intro hc
    have hlt : c.toNat < 256 := by omega
    have hw : ∀ n : Fin 256, (n.val < 0x80 ∨ (0xA0 ≤ n.val ∧ n.val ≤ 0xFF)) →
        winAnsi (UInt8.ofNat n.val) = some n.val := by decide +kernel
    exact h _ (hw ⟨c.toNat, hlt⟩ hc)
  unfold cp1252Char
  simp only [h1, if_false]
  split
  · rename_i i hi
    exfalso
    rw [List.findIdx?_eq_some_iff_getElem] at hi
    obtain ⟨hlt, hx, -⟩ := hi
    have hl : cp1252High.length = 32 := rfl
    have key : ∀ i : Fin 32, cp1252High[i.val]? ≠ some 0 →
        winAnsi (UInt8.ofNat (0x80 + i.val)) = cp1252High[i.val]? := by decide +kernel
    have hx' : cp1252High[i] = c.toNat := by simpa using hx
    have hne : c.toNat ≠ 0 := by
      intro h0; apply h1; left; omega
    have hg : cp1252High[i]? = some c.toNat := by rw [List.getElem?_eq_getElem hlt, hx']
    have := key ⟨i, by omega⟩ (by simp only [hg]; simpa using hne)
    simp only [hg] at this
    exact h _ this
  · rfl

/-! ### kerning -/

theorem mem_enumerateFrom {α} (l : List α) (n i : Nat) (x : α) :
    (i, x) ∈ enumerateFrom n l ↔ n ≤ i ∧ l[i - n]? = some x := by
  induction l generalizing n with
  | nil => simp [enumerateFrom]
  | cons a l ih =>
    simp only [enumerateFrom, List.mem_cons, Prod.mk.injEq, ih]
    constructor
    · rintro (⟨rfl, rfl⟩ | ⟨h1, h2⟩)
      · simp
      · refine ⟨by omega, ?_⟩
        rw [show i - n = (i - (n + 1)) + 1 by omega]; simpa using h2
    · rintro ⟨h1, h2⟩
      rcases Nat.eq_or_lt_of_le h1 with rfl | h
      · left; simp at h2; exact ⟨rfl, h2.symm⟩
      · right
        refine ⟨h, ?_⟩
        rw [show i - n = (i - (n + 1)) + 1 by omega] at h2; simpa using h2

theorem enumerateFrom_sorted {α} (l : List α) (n : Nat) :
    (enumerateFrom n l).Pairwise (fun a b => a.1 < b.1) := by
  induction l generalizing n with
  | nil => simp [enumerateFrom]
  | cons a l ih =>
    simp only [enumerateFrom, List.pairwise_cons]
    refine ⟨?_, ih _⟩
    rintro ⟨i, x⟩ hx
    have := (mem_enumerateFrom l (n + 1) i x).1 hx
    simp; omega

theorem pairwise_getElem? {α} (l : List α) (i : Nat) (a b : α) :
    (pairwise l)[i]? = some (a, b) ↔ l[i]? = some a ∧ l[i + 1]? = some b := by
  unfold pairwise
  rw [List.getElem?_zip_eq_some]
  simp

theorem mem_kern (t : Char × Char → ℚ) (s : List Char) (prev : Option Char) (i : Nat) (k : ℚ) :
    (i, k) ∈ kern t s prev ↔ ∃ a b, s[i]? = some b ∧
      ((i = 0 ∧ prev = some a) ∨ ∃ j, i = j + 1 ∧ s[j]? = some a) ∧ t (a, b) = k ∧ k ≠ 0 := by
  unfold kern
  simp only [List.mem_filterMap, Prod.exists]
  constructor
  · rintro ⟨i', a, b, hm, hk⟩
    rw [mem_enumerateFrom, pairwise_getElem?] at hm
    split at hk
    · simp at hk
    · rename_i hne
      simp at hk
      obtain ⟨rfl, rfl⟩ := hk
      refine ⟨a, b, ?_⟩
      cases prev with
      | none =>
        simp at hm
        obtain ⟨h1, h2, h3⟩ := hm
        obtain ⟨j, rfl⟩ : ∃ j, i' = j + 1 := ⟨i' - 1, by omega⟩
        exact ⟨by simpa using h3, Or.inr ⟨j, rfl, by simpa using h2⟩, rfl, hne⟩
      | some p =>
        simp at hm
        obtain ⟨h2, h3⟩ := hm
        refine ⟨h3, ?_, rfl, hne⟩
        cases i' with
        | zero => left; simp at h2; simp [h2]
        | succ j => right; exact ⟨j, rfl, by simpa using h2⟩
  · rintro ⟨a, b, hb, hp, hk, hk0⟩
    refine ⟨i, a, b, ?_, by rw [hk]; simp [hk0]⟩
    rw [mem_enumerateFrom, pairwise_getElem?]
    cases prev with
    | none =>
      rcases hp with ⟨_, h⟩ | ⟨j, rfl, hj⟩
      · simp at h
      · simp; exact ⟨hj, hb⟩
    | some p =>
      rcases hp with ⟨rfl, h⟩ | ⟨j, rfl, hj⟩
      · simp at h; subst h; simp; simpa using hb
      · simp; exact ⟨hj, hb⟩

theorem kern_sorted (t : Char × Char → ℚ) (s : List Char) (prev : Option Char) :
    (kern t s prev).Pairwise (fun a b => a.1 < b.1) := by
  unfold kern
  rw [List.pairwise_filterMap]
  refine (enumerateFrom_sorted _ _).imp ?_
  rintro ⟨i, p⟩ ⟨j, q⟩ h
  intro a ha b hb
  simp only [Option.ite_none_left_eq_some, Option.some.injEq] at ha hb
  rw [← ha.2, ← hb.2]; exact h

/-! ### UTF-16 -/

theorem hexVal_hexDigitU {d : Nat} (h : d < 16) : hexVal (hexDigitU d) = some d := by
  have : ∀ d : Fin 16, hexVal (hexDigitU d) = some d.val := by decide
  exact this ⟨d, h⟩

theorem hexDigitU_facts {d : Nat} (h : d < 16) : hexDigitU d ≠ 0x3E ∧ isWs (hexDigitU d) = false := by
  have : ∀ d : Fin 16, hexDigitU d ≠ 0x3E ∧ isWs (hexDigitU d) = false := by decide
  exact this ⟨d, h⟩

/-- Two bytes of a number below 0x10000. -/
def be16 (n : Nat) : Bytes := [UInt8.ofNat (n / 256), UInt8.ofNat (n % 256)]

theorem readHex_hex4 (n : Nat) (hn : n < 0x10000) (s : Bytes) :
    readHex none (hex4 n ++ s) = (readHex none s).map fun (str, r) => (be16 n ++ str, r) := by
  have h1 := hexVal_hexDigitU (d := n / 4096 % 16) (by omega)
  have h2 := hexVal_hexDigitU (d := n / 256 % 16) (by omega)
  have h3 := hexVal_hexDigitU (d := n / 16 % 16) (by omega)
  have h4 := hexVal_hexDigitU (d := n % 16) (by omega)
  have f1 := hexDigitU_facts (d := n / 4096 % 16) (by omega)
  have f2 := hexDigitU_facts (d := n / 256 % 16) (by omega)
  have f3 := hexDigitU_facts (d := n / 16 % 16) (by omega)
  have f4 := hexDigitU_facts (d := n % 16) (by omega)
  simp only [hex4, List.cons_append, List.nil_append]
  have step : ∀ (a b x y : _) (t : Bytes), hexVal a = some x → hexVal b = some y → a ≠ 0x3E → b ≠ 0x3E →
      isWs a = false → isWs b = false →
      readHex none (a :: b :: t) = (readHex none t).map fun (str, r) => (UInt8.ofNat (16 * x + y) :: str, r) := by
    intro a b x y t ha hb ha1 hb1 ha2 hb2
    rw [readHex]
    simp only [ha1, if_false, ha2, Bool.false_eq_true, ha]
    rw [readHex]
    simp only [hb1, if_false, hb2, Bool.false_eq_true, hb]
  rw [step _ _ _ _ _ h1 h2 f1.1 f2.1 f1.2 f2.2, step _ _ _ _ _ h3 h4 f3.1 f4.1 f3.2 f4.2]
  cases readHex none s with
  | none => rfl
  | some p =>
    obtain ⟨str, r⟩ := p
    simp only [Option.map_some, be16, List.cons_append, List.nil_append]
    have e1 : 16 * (n / 4096 % 16) + n / 256 % 16 = n / 256 := by omega
    have e2 : 16 * (n / 16 % 16) + n % 16 = n % 256 := by omega
    rw [e1, e2]

theorem units16_be16 (n : Nat) (hn : n < 0x10000) (s : Bytes) :
    units16 (be16 n ++ s) = (units16 s).map (n :: ·) := by
  simp only [be16, List.cons_append, List.nil_append, units16]
  have h1 : (UInt8.ofNat (n / 256)).toNat = n / 256 := by
    rw [UInt8.toNat_ofNat']; omega
  have h2 : (UInt8.ofNat (n % 256)).toNat = n % 256 := by
    rw [UInt8.toNat_ofNat']; omega
  rw [h1, h2, show n / 256 * 256 + n % 256 = n by omega]

theorem char_bounds (c : Char) : c.toNat < 0xD800 ∨ (0xDFFF < c.toNat ∧ c.toNat < 0x110000) := by
  have := c.valid
  rcases this with h | ⟨h1, h2⟩
  · left; exact h
  · right; exact ⟨h1, h2⟩

/-- The two surrogates of a code point from 0x10000 on. -/
theorem surrogates (c : Nat) (h1 : 0x10000 ≤ c) (h2 : c < 0x110000) :
    (((c - 0x10000) >>> 10) ||| 0xD800) = 0xD800 + (c - 0x10000) / 1024 ∧
    ((c &&& 0x3FF) ||| 0xDC00) = 0xDC00 + c % 1024 := by
  have o1 : ∀ x : Fin 1024, x.val ||| 0xD800 = 0xD800 + x.val := by decide +kernel
  have o2 : ∀ x : Fin 1024, x.val ||| 0xDC00 = 0xDC00 + x.val := by decide +kernel
  constructor
  · rw [Nat.shiftRight_eq_div_pow]
    exact o1 ⟨(c - 0x10000) / 2 ^ 10, by omega⟩
  · have : c &&& 0x3FF = c % 1024 := Nat.and_two_pow_sub_one_eq_mod c 10
    rw [this]
    exact o2 ⟨c % 1024, by omega⟩

theorem utf16_bmp (u : Nat) (h : u < 0xD800 ∨ 0xDFFF < u) : utf16 [u] = some [u] := by
  simp only [utf16, Option.map_some]
  rw [if_pos h]

theorem utf16_pair (u v : Nat) (h1 : 0xD800 ≤ u) (h2 : u < 0xDC00) (h3 : 0xDC00 ≤ v) (h4 : v ≤ 0xDFFF) (c : Nat)
    (hc : 0x10000 + (u - 0xD800) * 0x400 + (v - 0xDC00) = c) : utf16 [u, v] = some [c] := by
  simp only [utf16, Option.map_some]
  rw [if_neg (by omega), if_pos (by omega), if_pos (by omega), hc]

/-- Reading the hexadecimal string written for a character gives its UTF-16BE bytes. -/
theorem readHex_utf16 (c : Char) (s : Bytes) :
    ∃ bs, readHex none (utf16beHex c.toNat ++ b!">" ++ s) = some (bs, s) ∧ utf16be bs = some [c.toNat] := by
  have hend : readHex none (b!">" ++ s) = some ([], s) := by simp [readHex]
  have hb := char_bounds c
  generalize c.toNat = n at *
  unfold utf16beHex
  by_cases h : n ≤ 0xFFFF
  · rw [if_pos h, List.append_assoc, readHex_hex4 _ (by omega), hend]
    refine ⟨be16 n ++ [], by rw [Option.map_some], ?_⟩
    unfold utf16be
    rw [units16_be16 _ (by omega), units16, Option.map_some, Option.bind_some]
    exact utf16_bmp n (by omega)
  · rw [if_neg h]
    obtain ⟨s1, s2⟩ := surrogates n (by omega) (by omega)
    rw [s1, s2]
    have h1 : 0xD800 + (n - 0x10000) / 1024 < 0xDC00 := by omega
    have h2 : 0xDC00 + n % 1024 ≤ 0xDFFF := by omega
    have h3 : 0xD800 ≤ 0xD800 + (n - 0x10000) / 1024 := by omega
    have h4 : 0xDC00 ≤ 0xDC00 + n % 1024 := by omega
    have h5 : 0x10000 + (0xD800 + (n - 0x10000) / 1024 - 0xD800) * 0x400 + (0xDC00 + n % 1024 - 0xDC00) = n := by omega
    generalize 0xD800 + (n - 0x10000) / 1024 = u at *
    generalize 0xDC00 + n % 1024 = v at *
    rw [List.append_assoc, List.append_assoc, readHex_hex4 _ (by omega), readHex_hex4 _ (by omega), hend]
    refine ⟨be16 u ++ (be16 v ++ []), by rw [Option.map_some, Option.map_some], ?_⟩
    unfold utf16be
    rw [units16_be16 _ (by omega), units16_be16 _ (by omega), units16, Option.map_some, Option.map_some, Option.bind_some]
    exact utf16_pair u v h3 h1 h4 h2 n h5

/-! ### Codes of an embedded font -/

/-- The character list after looking up `s`. -/
def cidsAfter (cids : List Char) (s : List Char) : List Char := (encodeCids cids s).2

theorem cidOf_spec (cids : List Char) (h : cids.Nodup) (c : Char) :
    (cidOf cids c).2.Nodup ∧ cids <+: (cidOf cids c).2 ∧ (cidOf cids c).2[(cidOf cids c).1]? = some c ∧
    ∀ x, x ∈ (cidOf cids c).2 ↔ x ∈ cids ∨ x = c := by
  unfold cidOf
  split
  · rename_i i hi
    rw [List.findIdx?_eq_some_iff_getElem] at hi
    obtain ⟨hlt, hx, -⟩ := hi
    have hx : cids[i] = c := by simpa using hx
    refine ⟨h, List.prefix_rfl, by rw [List.getElem?_eq_getElem hlt, hx], ?_⟩
    intro x
    constructor
    · exact Or.inl
    · rintro (h | rfl)
      · exact h
      · rw [← hx]; exact List.getElem_mem hlt
  · rename_i hn
    rw [List.findIdx?_eq_none_iff] at hn
    have hnot : c ∉ cids := by
      intro hc; have := hn c hc; simp at this
    refine ⟨?_, List.prefix_append _ _, by simp, by simp⟩
    rw [List.nodup_append]
    refine ⟨h, by simp, ?_⟩
    rintro a ha b hb rfl
    simp at hb; subst hb; exact hnot ha

/-- Everything `encode` does, in one lemma. -/
theorem encodeCids_spec (s : List Char) (cids : List Char) (h : cids.Nodup) :
    (cidsAfter cids s).Nodup ∧ cids <+: cidsAfter cids s ∧
    (∀ x, x ∈ cidsAfter cids s ↔ x ∈ cids ∨ x ∈ s) ∧
    ∃ codes : List Nat, (encodeCids cids s).1 = codes.flatMap utf16Cid ∧
      codes.map (fun k => (cidsAfter cids s)[k]?) = s.map some := by
  induction s generalizing cids with
  | nil => exact ⟨h, List.prefix_rfl, by simp [cidsAfter, encodeCids], [], rfl, rfl⟩
  | cons c s ih =>
    obtain ⟨h1, h2, h3, h4⟩ := cidOf_spec cids h c
    obtain ⟨i1, i2, i3, codes, i4, i5⟩ := ih (cidOf cids c).2 h1
    have e : cidsAfter cids (c :: s) = cidsAfter (cidOf cids c).2 s := rfl
    have eb : (encodeCids cids (c :: s)).1 = utf16Cid (cidOf cids c).1 ++ (encodeCids (cidOf cids c).2 s).1 := rfl
    rw [e]
    refine ⟨i1, h2.trans i2, ?_, (cidOf cids c).1 :: codes, ?_, ?_⟩
    · intro x; rw [i3, h4]; simp [or_assoc]
    · rw [eb, i4]; rfl
    · simp only [List.map_cons, i5, List.cons.injEq, and_true]
      obtain ⟨t, ht⟩ := i2
      rw [← ht, List.getElem?_append_left]
      · exact h3
      · rw [List.getElem?_eq_some_iff] at h3; exact h3.1

/-- Encoding a history of strings, one after the other: outputs and final character list. -/
def encodeHistory (cids : List Char) : List (List Char) → List Bytes × List Char
  | [] => ([], cids)
  | s :: ss =>
    let (b, c1) := encodeCids cids s
    let (bs, c2) := encodeHistory c1 ss
    (b :: bs, c2)

theorem encodeHistory_spec (hist : List (List Char)) (cids : List Char) (h : cids.Nodup) :
    (encodeHistory cids hist).2.Nodup ∧ cids <+: (encodeHistory cids hist).2 ∧
    (∀ x, x ∈ (encodeHistory cids hist).2 ↔ x ∈ cids ∨ x ∈ hist.flatten) ∧
    List.Forall₂ (fun s b => ∃ codes : List Nat, b = codes.flatMap utf16Cid ∧
      codes.map (fun k => (encodeHistory cids hist).2[k]?) = s.map some) hist (encodeHistory cids hist).1 := by
  induction hist generalizing cids with
  | nil => exact ⟨h, List.prefix_rfl, by simp [encodeHistory], .nil⟩
  | cons s hist ih =>
    obtain ⟨h1, h2, h3, codes, h4, h5⟩ := encodeCids_spec s cids h
    obtain ⟨i1, i2, i3, i4⟩ := ih (cidsAfter cids s) h1
    have e : (encodeHistory cids (s :: hist)).2 = (encodeHistory (cidsAfter cids s) hist).2 := rfl
    have eb : (encodeHistory cids (s :: hist)).1 =
      (encodeCids cids s).1 :: (encodeHistory (cidsAfter cids s) hist).1 := rfl
    rw [e, eb]
    refine ⟨i1, h2.trans i2, ?_, .cons ⟨codes, h4, ?_⟩ i4⟩
    · intro x; rw [i3, h3]; simp [or_assoc]
    · obtain ⟨t, ht⟩ := i2
      rw [← h5]
      apply List.map_congr_left
      intro k hk
      have : ((cidsAfter cids s)[k]?) ∈ s.map some := by
        rw [← h5]; exact List.mem_map_of_mem hk
      obtain ⟨x, -, hx⟩ := List.mem_map.1 this
      have hx' := hx.symm
      rw [List.getElem?_eq_some_iff] at hx'
      rw [← ht, List.getElem?_append_left hx'.1]

/-- The characters of a history in order of first use. -/
theorem encodeHistory_firstUse (hist : List (List Char)) (cids : List Char) (h : cids.Nodup) (k : Nat) (c : Char)
    (hk : (encodeHistory cids hist).2[k]? = some c) :
    k = ((cids ++ hist.flatten).takeWhile (· != c)).toFinset.card := by
  -- the list of codes is the insertion-ordered deduplication
  have ded : ∀ (s : List Char) (cids : List Char), cids.Nodup → ∀ k c, (cidsAfter cids s)[k]? = some c →
      k = ((cids ++ s).takeWhile (· != c)).toFinset.card := by
    intro s
    induction s with
    | nil =>
      intro cids h k c hk
      simp only [cidsAfter, encodeCids] at hk
      rw [List.getElem?_eq_some_iff] at hk
      obtain ⟨hlt, hk⟩ := hk
      have ht : (cids ++ []).takeWhile (· != c) = cids.take k := by
        rw [List.append_nil]
        conv_lhs => rw [← List.take_append_drop k cids, List.drop_eq_getElem_cons hlt, hk]
        apply takeWhile_run
        · intro x hx
          simp only [bne_iff_ne]
          rintro rfl
          rw [List.mem_take_iff_getElem] at hx
          obtain ⟨j, hj, hjx⟩ := hx
          have := (List.nodup_iff_injective_get.1 h) (a₁ := ⟨j, by omega⟩) (a₂ := ⟨k, hlt⟩) (by simp [hjx, hk])
          simp at this; omega
        · intro x hx; simp at hx; simp [hx]
      rw [ht, List.toFinset_card_of_nodup (h.sublist (List.take_sublist _ _)), List.length_take]
      omega
    | cons a s ih =>
      intro cids h k c hk
      obtain ⟨h1, h2, h3, h4⟩ := cidOf_spec cids h a
      have e : cidsAfter cids (a :: s) = cidsAfter (cidOf cids a).2 s := rfl
      rw [e] at hk
      rw [ih _ h1 k c hk]
      -- cidOf either appends `a` or leaves the list alone
      unfold cidOf
      split
      · rename_i i hi
        rw [List.findIdx?_eq_some_iff_getElem] at hi
        obtain ⟨hlt, hx, -⟩ := hi
        have hmem : a ∈ cids := by
          have : cids[i] = a := by simpa using hx
          rw [← this]; exact List.getElem_mem hlt
        -- dropping a repeated character changes nothing
        by_cases hc : c ∈ cids
        · obtain ⟨p, q, rfl, hp⟩ := List.eq_append_cons_of_mem hc
          have tw : ∀ r : List Char, ((p ++ c :: q) ++ r).takeWhile (· != c) = p := by
            intro r
            rw [List.append_assoc, List.cons_append]
            apply takeWhile_run
            · intro x hxp; simp only [bne_iff_ne]; intro hxc; rw [hxc] at hxp; exact hp hxp
            · intro x hx; simp at hx; simp [hx]
          simp only [tw]
        · have all : ∀ x ∈ cids, (x != c) = true := by
            intro x hx; simp only [bne_iff_ne]; rintro rfl; exact hc hx
          have tw : ∀ r : List Char, (cids ++ r).takeWhile (· != c) = cids ++ r.takeWhile (· != c) := by
            intro r; exact List.takeWhile_append_of_pos all
          have hac : (a != c) = true := all a hmem
          simp only [tw, List.takeWhile_cons, hac, if_true]
          congr 1
          ext x
          simp only [List.mem_toFinset, List.mem_append, List.mem_cons]
          constructor
          · rintro (h | h) <;> simp [h]
          · rintro (h | rfl | h)
            · exact Or.inl h
            · exact Or.inl hmem
            · exact Or.inr h
      · simp
  have comp : ∀ (hist : List (List Char)) (cids : List Char),
      (encodeHistory cids hist).2 = cidsAfter cids hist.flatten := by
    intro hist
    induction hist with
    | nil => intro cids; rfl
    | cons s hist ih =>
      intro cids
      have e : (encodeHistory cids (s :: hist)).2 = (encodeHistory (cidsAfter cids s) hist).2 := rfl
      rw [e, ih]
      have app : ∀ (s t : List Char) (cids : List Char),
          cidsAfter (cidsAfter cids s) t = cidsAfter cids (s ++ t) := by
        intro s
        induction s with
        | nil => intro t cids; rfl
        | cons a s ih => intro t cids; exact ih t (cidOf cids a).2
      rw [app]; rfl
  rw [comp] at hk
  exact ded _ _ h k c hk

theorem utf16Cid_be16 (n : Nat) (h : n < 0x10000) : utf16Cid n = be16 n := by
  simp [utf16Cid, h, be16]

theorem units16_flatMap (codes : List Nat) (h : ∀ k ∈ codes, k < 0x10000) :
    units16 (codes.flatMap utf16Cid) = some codes := by
  induction codes with
  | nil => rfl
  | cons k codes ih =>
    rw [List.flatMap_cons, utf16Cid_be16 k (h k (by simp)), units16_be16 k (h k (by simp)),
      ih (fun x hx => h x (by simp [hx]))]
    rfl

/-! ### The tables written for an embedded font -/

theorem cidGidMap_get (gid : Char → Nat) (cids : List Char) (k : Nat) (c : Char) (hk : cids[k]? = some c)
    (hg : gid c < 0x10000) : cidToGid (cidGidMap gid cids) k = some (gid c) := by
  induction cids generalizing k with
  | nil => simp at hk
  | cons a cids ih =>
    cases k with
    | zero =>
      simp at hk; subst hk
      have h1 : (UInt8.ofNat (gid a / 256)).toNat = gid a / 256 := by rw [UInt8.toNat_ofNat']; omega
      have h2 : (UInt8.ofNat (gid a % 256)).toNat = gid a % 256 := by rw [UInt8.toNat_ofNat']; omega
      simp only [cidToGid, cidGidMap, List.flatMap_cons, List.cons_append, List.nil_append, Nat.mul_zero,
        List.getElem?_cons_zero, Nat.zero_add, List.getElem?_cons_succ, h1, h2]
      congr 1; omega
    | succ k =>
      have := ih k (by simpa using hk)
      simp only [cidToGid, cidGidMap] at this ⊢
      rw [show 2 * (k + 1) = 2 * k + 1 + 1 by omega]
      simpa using this

theorem itemsDenote_ints (ws : List ℚ) (ps : List PObj)
    (h : ItemsDenote (ws.map fun w => Atom.int (truncQ w)) ps) (k : Nat) :
    ps[k]? = (ws[k]?).map fun w => PObj.num (truncQ w) := by
  induction ws generalizing ps k with
  | nil => simp only [List.map_nil] at h; cases h; simp
  | cons w ws ih =>
    simp only [List.map_cons] at h
    cases h with
    | cons ha has =>
      cases ha
      cases k with
      | zero => simp
      | succ k => simpa using ih _ has k

theorem cidWidth_encodeWidths (ws : List ℚ) (p : PObj) (h : (encodeWidths ws).Denotes p) (k : Nat) (w : ℚ)
    (hk : ws[k]? = some w) : cidWidth p k = some ((truncQ w : ℤ) : ℚ) := by
  unfold encodeWidths at h
  cases h with
  | array h =>
    cases h with
    | cons h0 h =>
      cases h with
      | cons h1 h =>
        cases h
        cases h0
        cases h1 with
        | array h =>
          have := itemsDenote_ints ws _ h k
          rw [hk] at this
          simp [cidWidth, this]

/-- Reading back the lines of the ToUnicode map. -/
theorem readBfchar_lines (cids : List Char) (n : Nat) (hn : n + cids.length ≤ 0x10000) (fuel : Nat)
    (hf : cids.length < fuel) :
    ∃ es, readBfchar fuel (bfcharLines n cids ++ toUnicodePost) = some es ∧ es.length = cids.length ∧
      ∀ k (c : Char), cids[k]? = some c → ∃ e, es[k]? = some e ∧ e.1 = be16 (n + k) ∧ utf16be e.2 = some [c.toNat] := by
  induction cids generalizing n fuel with
  | nil =>
    obtain ⟨f, rfl⟩ : ∃ f, fuel = f + 1 := ⟨fuel - 1, by omega⟩
    exact ⟨[], rfl, rfl, by simp⟩
  | cons a cids ih =>
    obtain ⟨f, rfl⟩ : ∃ f, fuel = f + 1 := ⟨fuel - 1, by omega⟩
    simp only [List.length_cons] at hn hf
    obtain ⟨es, h1, h2, h3⟩ := ih (n + 1) (by omega) f (by omega)
    obtain ⟨bs, hb1, hb2⟩ := readHex_utf16 a (b!"\n" ++ (bfcharLines (n + 1) cids ++ toUnicodePost))
    refine ⟨(be16 n, bs) :: es, ?_, by simp [h2], ?_⟩
    · have e0 : bfcharLines n (a :: cids) ++ toUnicodePost = 0x3C :: (hex4 n ++ (b!"> <" ++ (utf16beHex a.toNat ++ b!">" ++
          (b!"\n" ++ (bfcharLines (n + 1) cids ++ toUnicodePost))))) := by
        simp [bfcharLines, bfcharLine]
      have hrest : readBfchar f (b!"\n" ++ (bfcharLines (n + 1) cids ++ toUnicodePost)) = some es := by
        rw [← h1]
        cases f with
        | zero => rfl
        | succ f =>
          have : skipWs (b!"\n" ++ (bfcharLines (n + 1) cids ++ toUnicodePost)) =
              skipWs (bfcharLines (n + 1) cids ++ toUnicodePost) := by simp [skipWs, isWs]
          rw [readBfchar, readBfchar, this]
      have e1 : skipWs (bfcharLines n (a :: cids) ++ toUnicodePost) = bfcharLines n (a :: cids) ++ toUnicodePost := by
        rw [e0]; simp [skipWs, isWs]
      have hend : ∀ s : Bytes, readHex none (b!"> <" ++ s) = some ([], b!" <" ++ s) := by
        intro s; simp [readHex]
      have e2 : ∀ s : Bytes, skipWs (b!" <" ++ s) = 0x3C :: s := by
        intro s; simp [skipWs, isWs]
      rw [readBfchar, e1, e0]
      simp only [readHex_hex4 n (by omega), hend, Option.map_some, e2, hb1, hrest, List.append_nil]
    · intro k c hk
      cases k with
      | zero => simp at hk; subst hk; exact ⟨_, rfl, rfl, hb2⟩
      | succ k =>
        obtain ⟨e, he1, he2, he3⟩ := h3 k c (by simpa using hk)
        exact ⟨e, by simpa using he1, by rw [he2]; congr 1; omega, he3⟩

set_option maxRecDepth 4000 in
theorem afterFirst_pre (compress : Bytes → Bytes) (s : Bytes) :
    afterFirst b!"endcodespacerange" (toUnicodePre compress ++ s) = some (b!"\n    " ++ s) := by
  have : ∃ L : Bytes, (∀ compress, toUnicodePre compress = L) ∧
      ∀ s, afterFirst b!"endcodespacerange" (L ++ s) = some (b!"\n    " ++ s) := by
    refine ⟨toUnicodePre id, fun _ => ?_, fun s => ?_⟩
    · simp [toUnicodePre, cidsysInfo, Atom.write, writeEntries]
    · have d0 : decInt 0 = b!"0" := by simp only [decInt]; unfold decNat; rfl
      simp only [toUnicodePre, cidsysInfo, Atom.write, writeEntries, d0]
      rfl
  obtain ⟨L, h1, h2⟩ := this
  rw [h1 compress, h2]

theorem bfcharLines_length (cids : List Char) (n : Nat) : cids.length ≤ (bfcharLines n cids).length := by
  induction cids generalizing n with
  | nil => simp
  | cons a cids ih =>
    have := ih (n + 1)
    simp only [bfcharLines, bfcharLine, List.length_append, List.length_cons]; omega

theorem bfchars_unicodeMap (compress : Bytes → Bytes) (cids : List Char) (hn : cids.length ≤ 0x10000) :
    ∃ es, bfchars (unicodeMap compress cids) = some es ∧ es.length = cids.length ∧
      ∀ k (c : Char), cids[k]? = some c → ∃ e, es[k]? = some e ∧ e.1 = be16 (0 + k) ∧ utf16be e.2 = some [c.toNat] := by
  have hb : afterFirst b!"endcodespacerange" (unicodeMap compress cids) =
      some (b!"\n    " ++ (decNat cids.length ++ (b!" beginbfchar" ++ (b!"\n" ++ (bfcharLines 0 cids ++ toUnicodePost))))) := by
    unfold unicodeMap
    rw [List.append_assoc, List.append_assoc, afterFirst_pre]
    simp
  set T := b!"\n" ++ (bfcharLines 0 cids ++ toUnicodePost) with hT
  have hlen : cids.length < T.length + 1 := by
    have := bfcharLines_length cids 0
    simp only [hT, List.length_append]; omega
  obtain ⟨es, h1, h2, h3⟩ := readBfchar_lines cids 0 (by omega) (T.length + 1) hlen
  have hT1 : readBfchar (T.length + 1) T = some es := by
    rw [← h1, readBfchar, readBfchar]
    have : skipWs T = skipWs (bfcharLines 0 cids ++ toUnicodePost) := by simp [hT, skipWs, isWs]
    rw [this]
  have hs : skipWs (b!"\n    " ++ (decNat cids.length ++ (b!" beginbfchar" ++ T))) = decNat cids.length ++ (b!" beginbfchar" ++ T) := by
    have e : skipWs (b!"\n    " ++ (decNat cids.length ++ (b!" beginbfchar" ++ T))) = skipWs (decNat cids.length ++ (b!" beginbfchar" ++ T)) := by simp [skipWs, isWs]
    rw [e]
    cases hd : decNat cids.length with
    | nil => exact absurd hd (decNat_ne_nil _)
    | cons d ds =>
      have := decNat_all cids.length d (by rw [hd]; simp)
      have hw : isWs d = false := (numChar_facts d (digit_numChar d this)).2.1
      simp [skipWs, hw]
  have hn' : readNat (decNat cids.length ++ (b!" beginbfchar" ++ T)) = some (cids.length, b!" beginbfchar" ++ T) :=
    readNat_decNat _ _ (by intro x hx; simp at hx; subst hx; rfl)
  have hs2 : afterStart b!"beginbfchar" (skipWs (b!" beginbfchar" ++ T)) = some T := by simp [skipWs, isWs, afterStart, startsWith]
  have hbf : bfchars (unicodeMap compress cids) = some es := by
    unfold bfchars
    rw [hb]
    simp only [Option.bind_eq_bind, Option.bind_some, hs, hn', hs2, hT1, h2, if_true]
  exact ⟨es, hbf, h2, h3⟩

theorem toUnicode_unicodeMap (compress : Bytes → Bytes) (cids : List Char) (hn : cids.length ≤ 0x10000)
    (k : Nat) (c : Char) (hk : cids[k]? = some c) :
    toUnicode (unicodeMap compress cids) k = some [c.toNat] := by
  obtain ⟨es, hbf, h2, h3⟩ := bfchars_unicodeMap compress cids hn
  obtain ⟨e, he1, he2, he3⟩ := h3 k c hk
  have hfind : es.find? (fun e => units16 e.1 == some [k]) = some e := by
    rw [List.find?_eq_some_iff_getElem]
    have hk' := he1
    rw [List.getElem?_eq_some_iff] at hk'
    obtain ⟨hlt, hek⟩ := hk'
    have hu : ∀ j, j < cids.length → ∀ x, es[j]? = some x → units16 x.1 = some [j] := by
      intro j hj x hx
      obtain ⟨e', he'1, he'2, -⟩ := h3 j cids[j] (by rw [List.getElem?_eq_getElem hj])
      rw [hx] at he'1
      have : x = e' := Option.some.inj he'1
      rw [this, he'2, ← List.append_nil (be16 _), units16_be16 _ (by omega)]
      simp [units16]
    refine ⟨?_, k, hlt, hek, ?_⟩
    · rw [hu k (by omega) e he1]; simp
    · intro j hj
      rw [hu j (by omega) es[j] (by rw [List.getElem?_eq_getElem])]
      simp; omega
  unfold toUnicode
  simp only [hbf, Option.bind_some, hfind, he3]

end Pdfje
