import Verif.Proofs.Strings
import Verif.Proofs.NumRange
import Verif.Spec.Denotes
/- Round trip of objects. -/

namespace Pdfje
open PdfSpec

/-- What may follow an object: not a regular character, and not something that would turn a preceding
integer into a reference. -/
def SafeTail (r : Bytes) : Prop :=
  (∀ x, r.head? = some x → isRegular x = false) ∧ readRefTail r = none

theorem skipWs_ws (w s : Bytes) (hw : ∀ c ∈ w, isWs c = true) : skipWs (w ++ s) = skipWs s := by
  induction w with
  | nil => rfl
  | cons c w ih =>
    simp only [skipWs, List.cons_append, List.dropWhile_cons, hw c (by simp), if_true]
    exact ih (fun x hx => hw x (by simp [hx]))

theorem skipWs_cons_not {c : UInt8} (s : Bytes) (h : isWs c = false) : skipWs (c :: s) = c :: s := by
  simp [skipWs, h]

/-- Characters of a number token. -/
def isNumChar (c : UInt8) : Bool := isDigit c || c == 0x2E || c == 0x2D

theorem numChar_facts : ∀ c : UInt8, isNumChar c = true →
    isRegular c = true ∧ isWs c = false ∧ c ≠ 0x2F ∧ c ≠ 0x28 ∧ c ≠ 0x5B ∧ c ≠ 0x3C ∧ c ≠ 0x5D ∧
      c ≠ 0x52 ∧ c ≠ 0x3E := by
  apply forall_byte; decide +kernel

theorem digit_numChar : ∀ c : UInt8, isDigit c = true → isNumChar c = true := by
  intro c h; simp [isNumChar, h]

theorem readObj_num (f : Nat) (w tok rest : Bytes) (v : ℚ) (hw : ∀ c ∈ w, isWs c = true)
    (hne : tok ≠ []) (hch : ∀ c ∈ tok, isNumChar c = true) (hp : parseNumber tok = some v)
    (hr : SafeTail rest) :
    readObj (f + 1) (w ++ tok ++ rest) = some (.num v, rest) := by
  obtain ⟨c, t, rfl⟩ : ∃ c t, tok = c :: t := by
    cases tok with
    | nil => exact absurd rfl hne
    | cons c t => exact ⟨c, t, rfl⟩
  have hc := numChar_facts c (hch c (by simp))
  have e0 : skipWs (w ++ (c :: t) ++ rest) = c :: (t ++ rest) := by
    rw [List.append_assoc, skipWs_ws _ _ hw, List.cons_append, skipWs_cons_not _ hc.2.1]
  have hreg : ∀ x ∈ c :: t, isRegular x = true := fun x hx => (numChar_facts x (hch x hx)).1
  have e1 : (c :: (t ++ rest)).takeWhile isRegular = c :: t := by
    have := takeWhile_run isRegular (c :: t) rest hreg hr.1
    simpa using this
  have e2 : (c :: (t ++ rest)).dropWhile isRegular = rest := by
    have := dropWhile_run isRegular (c :: t) rest hreg hr.1
    simpa using this
  unfold readObj
  simp only [e0, hc.2.2.1, hc.2.2.2.1, hc.2.2.2.2.1, hc.2.2.2.2.2.1, if_false, e1, e2, hp, hr.2]
  split <;> rfl

theorem readRefTail_gen0 (rest : Bytes) : readRefTail (b!" 0 R" ++ rest) = some (0, rest) := by
  have e1 : skipWs (b!" 0 R" ++ rest) = b!"0" ++ (b!" R" ++ rest) := by
    simp [skipWs, isWs]
  have e2 : readNat (b!"0" ++ (b!" R" ++ rest)) = some (0, b!" R" ++ rest) := by
    have := readNat_decNat 0 (b!" R" ++ rest) (by intro x hx; simp at hx; subst hx; rfl)
    have h0 : decNat 0 = b!"0" := by unfold decNat; rfl
    rwa [h0] at this
  unfold readRefTail
  simp only [List.cons_append, List.nil_append] at e1 e2 ⊢
  simp only [e1, e2]
  simp [isWs, skipWs]

theorem readObj_ref (f n : Nat) (w rest : Bytes) (hw : ∀ c ∈ w, isWs c = true) :
    readObj (f + 1) (w ++ (decNat n ++ b!" 0 R") ++ rest) = some (.ref n 0, rest) := by
  obtain ⟨c, t, hct⟩ : ∃ c t, decNat n = c :: t := by
    cases h : decNat n with
    | nil => exact absurd h (decNat_ne_nil n)
    | cons c t => exact ⟨c, t, rfl⟩
  have hall := decNat_all n
  have hdv := digitsVal_decNat n
  have hpn := parseNumber_decNat n
  rw [hct] at hall hdv hpn
  have hc := numChar_facts c (digit_numChar _ (hall c (by simp)))
  have e0 : skipWs (w ++ (decNat n ++ b!" 0 R") ++ rest) = c :: (t ++ (b!" 0 R" ++ rest)) := by
    rw [List.append_assoc, skipWs_ws _ _ hw, hct]
    simp only [List.cons_append, List.append_assoc]
    rw [skipWs_cons_not _ hc.2.1]
  have hreg : ∀ x ∈ c :: t, isRegular x = true :=
    fun x hx => (numChar_facts x (digit_numChar _ (hall x hx))).1
  have hsp : ∀ x, (b!" 0 R" ++ rest).head? = some x → isRegular x = false := by
    intro x hx; simp at hx; subst hx; rfl
  have e1 : (c :: (t ++ (b!" 0 R" ++ rest))).takeWhile isRegular = c :: t := by
    have := takeWhile_run isRegular (c :: t) (b!" 0 R" ++ rest) hreg hsp
    simpa using this
  have e2 : (c :: (t ++ (b!" 0 R" ++ rest))).dropWhile isRegular = b!" 0 R" ++ rest := by
    have := dropWhile_run isRegular (c :: t) (b!" 0 R" ++ rest) hreg hsp
    simpa using this
  have e3 : (c :: t).all isDigit = true := by rw [List.all_eq_true]; exact hall
  unfold readObj
  simp only [e0, hc.2.2.1, hc.2.2.2.1, hc.2.2.2.2.1, hc.2.2.2.2.2.1, if_false, e1, e2, hpn, e3,
    readRefTail_gen0, hdv, if_true]

/-! ### shape of the tokens written -/

theorem fmtG_token (q : ℚ) (h : GoodReal q) :
    fmtG q ≠ [] ∧ (∀ c ∈ fmtG q, isNumChar c = true) ∧
    ∃ v, parseNumber (fmtG q) = some v ∧ |v - q| ≤ |q| * (5 / 1000000) := by
  unfold fmtG
  split
  · rename_i h0; subst h0
    refine ⟨by simp, by decide, 0, rfl, by simp⟩
  · rename_i h0
    rcases h with h | h
    · exact absurd h h0
    split
    · rename_i hpos
      rw [abs_of_pos hpos] at h
      have hf := (fixed_iff q hpos).2 h
      obtain ⟨p1, p2, c, p3, p4⟩ := parse_fmtGPos q hpos hf
      refine ⟨by intro hh; simp [hh] at p3, ?_, ((sciDigits q).2 : ℚ) * 10 ^ ((sciDigits q).1 - 5), ?_, ?_⟩
      · intro c hc
        rcases p2 c hc with h | h <;> simp [isNumChar, h]
      · rw [parseNumber_noSign, p1]
        intro c' hc'
        rw [p3] at hc'; cases hc'
        exact isDigit_ne_sign p4
      · rw [abs_of_pos hpos]
        exact (sciDigits_spec q hpos).2.2
    · rename_i hneg
      have hpos : 0 < -q := by
        have : q < 0 := lt_of_le_of_ne (not_lt.1 hneg) h0
        linarith
      have habs : |q| = -q := abs_of_neg (by linarith)
      rw [habs] at h
      have hf := (fixed_iff (-q) hpos).2 h
      obtain ⟨p1, p2, c, p3, p4⟩ := parse_fmtGPos (-q) hpos hf
      refine ⟨by simp, ?_, -(((sciDigits (-q)).2 : ℚ) * 10 ^ ((sciDigits (-q)).1 - 5)), ?_, ?_⟩
      · intro c hc
        rcases List.mem_append.1 hc with hc | hc
        · simp at hc; subst hc; rfl
        · rcases p2 c hc with h | h <;> simp [isNumChar, h]
      · simp [parseNumber, p1]
      · rw [habs]
        have := (sciDigits_spec (-q) hpos).2.2
        rw [← abs_neg]
        convert this using 2
        ring

theorem decInt_token (z : Int) : decInt z ≠ [] ∧ ∀ c ∈ decInt z, isNumChar c = true := by
  match z with
  | .ofNat n =>
    exact ⟨decNat_ne_nil n, fun c hc => digit_numChar c (decNat_all n c hc)⟩
  | .negSucc n =>
    refine ⟨by simp [decInt], ?_⟩
    intro c hc
    rcases List.mem_append.1 hc with hc | hc
    · simp at hc; subst hc; rfl
    · exact digit_numChar c (decNat_all _ c hc)

/-- First byte of everything an atom writes. -/
def isObjStart (c : UInt8) : Bool :=
  isNumChar c || c == 0x2F || c == 0x28 || c == 0x5B || c == 0x3C

theorem objStart_facts : ∀ c : UInt8, isObjStart c = true →
    isWs c = false ∧ c ≠ 0x5D ∧ c ≠ 0x52 ∧ c ≠ 0x3E := by
  apply forall_byte; decide +kernel

variable (compress : Bytes → Bytes)

theorem write_start (a : Atom) (h : a.Ok) : ∃ c t, a.write compress = c :: t ∧ isObjStart c = true := by
  have tokc : ∀ tok : Bytes, tok ≠ [] → (∀ c ∈ tok, isNumChar c = true) →
      ∃ c t, tok = c :: t ∧ isObjStart c = true := by
    intro tok h1 h2
    cases tok with
    | nil => exact absurd rfl h1
    | cons c t => exact ⟨c, t, rfl, by simp [isObjStart, h2 c (by simp)]⟩
  match a with
  | .name v => exact ⟨_, _, by simp only [Atom.write, List.cons_append]; rfl, rfl⟩
  | .int z => simp only [Atom.write]; exact tokc _ (decInt_token z).1 (decInt_token z).2
  | .real q =>
    simp only [Atom.write]
    have := fmtG_token q (by simpa [Atom.Ok] using h)
    exact tokc _ this.1 this.2.1
  | .lit v => exact ⟨_, _, by simp only [Atom.write, List.cons_append]; rfl, rfl⟩
  | .hex v => exact ⟨_, _, by simp only [Atom.write, List.cons_append]; rfl, rfl⟩
  | .array _ => exact ⟨_, _, by simp only [Atom.write, List.cons_append]; rfl, rfl⟩
  | .dict _ => exact ⟨_, _, by simp only [Atom.write, List.cons_append]; rfl, rfl⟩
  | .stream _ _ => simp [Atom.Ok] at h
  | .ref n =>
    simp only [Atom.write]
    obtain ⟨c, t, h1, h2⟩ := tokc _ (decNat_ne_nil n) (fun c hc => digit_numChar c (decNat_all n c hc))
    exact ⟨c, t ++ b!" 0 R", by rw [h1]; rfl, h2⟩

theorem readNat_notDigit (c : UInt8) (s : Bytes) (h : isDigit c = false) : readNat (c :: s) = none := by
  simp [readNat, h]

/-- Number tokens never complete a reference when what follows does not start with `R`. -/
theorem refTail_numTok (w : UInt8) (tok t : Bytes) (hw : isWs w = true) (hne : tok ≠ [])
    (hch : ∀ c ∈ tok, isNumChar c = true) (ht : ∀ x, t.head? = some x → isDigit x = false)
    (hR : ∀ r, skipWs t ≠ 0x52 :: r) :
    readRefTail (w :: (tok ++ t)) = none := by
  obtain ⟨c, tk, rfl⟩ : ∃ c t, tok = c :: t := by
    cases tok with
    | nil => exact absurd rfl hne
    | cons c t => exact ⟨c, t, rfl⟩
  have hcw := (numChar_facts c (hch c (by simp))).2.1
  have e0 : skipWs (w :: (c :: tk ++ t)) = c :: (tk ++ t) := by
    have := skipWs_ws [w] (c :: tk ++ t) (by simpa using hw)
    simp only [List.cons_append, List.nil_append] at this ⊢
    rw [this, skipWs_cons_not _ hcw]
  unfold readRefTail
  simp only [hw, if_true, e0]
  cases hn : readNat (c :: (tk ++ t)) with
  | none => rfl
  | some p =>
    obtain ⟨g, s2⟩ := p
    have hs2 : s2 = (c :: (tk ++ t)).dropWhile isDigit := by
      unfold readNat at hn
      simp only at hn
      split at hn
      · simp at hn
      · simp at hn; exact hn.2.symm
    -- split the token into digits and the rest
    have hsplit := List.takeWhile_append_dropWhile (p := isDigit) (l := c :: tk)
    cases hdw : (c :: tk).dropWhile isDigit with
    | nil =>
      have hd : ∀ x ∈ c :: tk, isDigit x = true := by
        intro x hx
        rw [hdw, List.append_nil] at hsplit
        rw [← hsplit] at hx
        exact mem_takeWhile_imp _ _ hx
      have : s2 = t := by
        rw [hs2, ← List.cons_append, dropWhile_run _ _ _ hd ht]
      rw [this]
      cases t with
      | nil => rfl
      | cons c2 t2 =>
        simp only
        split
        · rfl
        · rfl
    | cons d dr =>
      have hdn : isDigit d = false := by
        have := List.head?_dropWhile_not isDigit (c :: tk)
        rw [hdw] at this
        simpa using this
      have hdw' : (c :: (tk ++ t)).dropWhile isDigit = d :: (dr ++ t) := by
        rw [← List.cons_append, ← hsplit, hdw, List.append_assoc]
        exact dropWhile_run _ _ _ (fun x hx => mem_takeWhile_imp _ _ hx) (by
          intro x hx; simp at hx; subst hx; exact hdn)
      rw [hs2, hdw']
      have hdmem : d ∈ c :: tk := by
        rw [← hsplit, hdw]; simp
      have := (numChar_facts d (hch d hdmem)).2.1
      simp [this]

theorem refTail_other (w c : UInt8) (s : Bytes) (hw : isWs w = true) (hc : isWs c = false)
    (hd : isDigit c = false) : readRefTail (w :: c :: s) = none := by
  have e0 : skipWs (w :: c :: s) = c :: s := by
    have := skipWs_ws [w] (c :: s) (by simpa using hw)
    simp only [List.cons_append, List.nil_append] at this
    rw [this, skipWs_cons_not _ hc]
  unfold readRefTail
  simp only [hw, if_true, e0, readNat_notDigit c s hd]

/-- After an item, ` ` and another object never look like the rest of a reference. -/
theorem refTail_obj (a : Atom) (h : a.Ok) (w : UInt8) (hw : isWs w = true) (t : Bytes)
    (ht : ∀ x, t.head? = some x → isDigit x = false) (hR : ∀ r, skipWs t ≠ 0x52 :: r) :
    readRefTail (w :: (a.write compress ++ t)) = none := by
  match a with
  | .name v => simp only [Atom.write]; exact refTail_other _ _ _ hw rfl rfl
  | .int z =>
    simp only [Atom.write]
    exact refTail_numTok w _ t hw (decInt_token z).1 (decInt_token z).2 ht hR
  | .real q =>
    simp only [Atom.write]
    have := fmtG_token q (by simpa [Atom.Ok] using h)
    exact refTail_numTok w _ t hw this.1 this.2.1 ht hR
  | .lit v => simp only [Atom.write]; exact refTail_other _ _ _ hw rfl rfl
  | .hex v => simp only [Atom.write]; exact refTail_other _ _ _ hw rfl rfl
  | .array _ => simp only [Atom.write]; exact refTail_other _ _ _ hw rfl rfl
  | .dict _ => simp only [Atom.write]; exact refTail_other _ _ _ hw rfl rfl
  | .stream _ _ => simp [Atom.Ok] at h
  | .ref n =>
    simp only [Atom.write, List.append_assoc]
    refine refTail_numTok w _ _ hw (decNat_ne_nil n)
      (fun c hc => digit_numChar c (decNat_all n c hc)) ?_ ?_
    · intro x hx; simp at hx; subst hx; rfl
    · intro r hr
      simp [skipWs, isWs] at hr

theorem items_start (as : List Atom) (h : itemsOk as) (rest : Bytes) :
    ∃ c t, writeItems compress as ++ b!"]" ++ rest = c :: t ∧ isWs c = false ∧ c ≠ 0x52 := by
  match as with
  | [] => exact ⟨0x5D, rest, rfl, rfl, by decide⟩
  | a :: as =>
    simp only [itemsOk] at h
    obtain ⟨c, t, h1, h2⟩ := write_start compress a h.1
    refine ⟨c, t ++ b!" " ++ writeItems compress as ++ b!"]" ++ rest, ?_,
      (objStart_facts c h2).1, (objStart_facts c h2).2.2.1⟩
    simp only [writeItems, h1, List.cons_append]

theorem safe_items (as : List Atom) (h : itemsOk as) (rest : Bytes) :
    SafeTail (b!" " ++ writeItems compress as ++ b!"]" ++ rest) := by
  refine ⟨by intro x hx; simp at hx; subst hx; rfl, ?_⟩
  match as with
  | [] => simp only [writeItems, List.append_nil]; exact refTail_other _ _ _ rfl rfl rfl
  | a :: as =>
    simp only [itemsOk] at h
    have e : b!" " ++ writeItems compress (a :: as) ++ b!"]" ++ rest =
      (32 : UInt8) :: (a.write compress ++ (b!" " ++ (writeItems compress as ++ b!"]" ++ rest))) := by
      simp [writeItems]
    rw [e]
    refine refTail_obj compress a h.1 _ rfl _ (by intro x hx; simp at hx; subst hx; rfl) ?_
    obtain ⟨c, t, h1, h2, h3⟩ := items_start compress as h.2 rest
    intro r hr
    rw [h1, skipWs_ws b!" " _ (by intro c hc; simp at hc; subst hc; rfl), skipWs_cons_not _ h2] at hr
    exact h3 (List.cons.inj hr).1

theorem safe_newline (c : UInt8) (s : Bytes) (hc : isWs c = false) (hd : isDigit c = false) :
    SafeTail (b!"\n" ++ c :: s) :=
  ⟨by intro x hx; simp at hx; subst hx; rfl, refTail_other _ _ _ rfl hc hd⟩

theorem entries_tail (es : List (Bytes × Atom)) (rest : Bytes) :
    ∃ c s, writeEntries compress es ++ b!">>" ++ rest = c :: s ∧ isWs c = false ∧ isDigit c = false := by
  match es with
  | [] => exact ⟨_, _, rfl, rfl, rfl⟩
  | (k, a) :: es => exact ⟨0x2F, _, by simp only [writeEntries, List.cons_append]; rfl, rfl, rfl⟩

mutual
/-- Fuel that suffices to read an atom. -/
def Atom.size : Atom → Nat
  | .array as => 2 + itemsSize as
  | .dict es => 2 + entriesSize es
  | _ => 1
def itemsSize : List Atom → Nat
  | [] => 0
  | a :: as => 1 + a.size + itemsSize as
def entriesSize : List (Bytes × Atom) → Nat
  | [] => 0
  | (_, a) :: es => 1 + a.size + entriesSize es
end

mutual
theorem size_le (a : Atom) (h : a.Ok) : a.size ≤ (a.write compress).length := by
  match a with
  | .array as =>
    have := itemsSize_le as (by simpa [Atom.Ok] using h)
    simp only [Atom.size, Atom.write, List.length_append, List.length_cons, List.length_nil]; omega
  | .dict es =>
    have := entriesSize_le es (by simpa [Atom.Ok] using h)
    simp only [Atom.size, Atom.write, List.length_append, List.length_cons, List.length_nil]; omega
  | .name v | .lit v | .hex v => simp [Atom.size, Atom.write]
  | .int z =>
    have := (decInt_token z).1
    simp only [Atom.size, Atom.write]
    exact List.length_pos_iff.2 this
  | .real q =>
    have := (fmtG_token q (by simpa [Atom.Ok] using h)).1
    simp only [Atom.size, Atom.write]
    exact List.length_pos_iff.2 this
  | .stream _ _ => simp [Atom.Ok] at h
  | .ref n => simp [Atom.size, Atom.write]
theorem itemsSize_le (as : List Atom) (h : itemsOk as) : itemsSize as ≤ (writeItems compress as).length := by
  match as with
  | [] => simp [itemsSize]
  | a :: as =>
    simp only [itemsOk] at h
    have h1 := size_le a h.1
    have h2 := itemsSize_le as h.2
    simp only [itemsSize, writeItems, List.length_append, List.length_cons, List.length_nil]; omega
theorem entriesSize_le (es : List (Bytes × Atom)) (h : entriesOk es) :
    entriesSize es ≤ (writeEntries compress es).length := by
  match es with
  | [] => simp [entriesSize]
  | (k, a) :: es =>
    simp only [entriesOk] at h
    have h1 := size_le a h.2.1
    have h2 := entriesSize_le es h.2.2
    simp only [entriesSize, writeEntries, List.length_append, List.length_cons, List.length_nil]; omega
end

theorem readObj_char (_f : Nat) (w s : Bytes) (c : UInt8) (hw : ∀ c ∈ w, isWs c = true)
    (hc : isWs c = false) : skipWs (w ++ c :: s) = c :: s := by
  rw [skipWs_ws _ _ hw, skipWs_cons_not _ hc]

theorem hexlify_head (v rest : Bytes) : ∀ x s, hexlify v ++ b!">" ++ rest = x :: s → x ≠ 0x3C := by
  intro x s h
  cases v with
  | nil => simp [hexlify] at h; rw [← h.1]; decide
  | cons c v =>
    simp [hexlify] at h
    rw [← h.1]
    have : ∀ d : Fin 16, hexDigitL d ≠ 0x3C := by decide
    have hc := c.toNat_lt
    exact this ⟨c.toNat / 16, by omega⟩

theorem name_run (v rest : Bytes) (h : GoodName v) (hr : ∀ x, rest.head? = some x → isRegular x = false) :
    (v ++ rest).takeWhile isRegular = v ∧ (v ++ rest).dropWhile isRegular = rest :=
  ⟨takeWhile_run _ _ _ h.1 hr, dropWhile_run _ _ _ h.1 hr⟩

mutual
/-- Reading back any well-formed atom. -/
theorem readObj_write (a : Atom) (h : a.Ok) (fuel : Nat) (hf : a.size ≤ fuel) (w rest : Bytes)
    (hw : ∀ c ∈ w, isWs c = true) (hr : SafeTail rest) :
    ∃ p, a.Denotes p ∧ readObj fuel (w ++ a.write compress ++ rest) = some (p, rest) := by
  obtain ⟨f, rfl⟩ : ∃ f, fuel = f + 1 := ⟨fuel - 1, by cases a <;> simp [Atom.size] at hf <;> omega⟩
  match a with
  | .name v =>
    simp only [Atom.Ok] at h
    obtain ⟨d, hd⟩ := h.2
    refine ⟨.name d, .name hd, ?_⟩
    have hn := name_run v rest h hr.1
    have e0 : skipWs (w ++ (b!"/" ++ v) ++ rest) = 0x2F :: (v ++ rest) := by
      have := readObj_char f w (v ++ rest) 0x2F hw rfl
      simpa using this
    unfold readObj
    simp only [Atom.write, e0, if_true, hn.1, hn.2, hd, Option.map_some]
  | .int z =>
    refine ⟨.num z, .int z, ?_⟩
    simp only [Atom.write]
    exact readObj_num f w _ rest _ hw (decInt_token z).1 (decInt_token z).2 (parseNumber_decInt z) hr
  | .real q =>
    simp only [Atom.Ok] at h
    obtain ⟨h1, h2, v, h3, h4⟩ := fmtG_token q h
    refine ⟨.num v, .real h4, ?_⟩
    simp only [Atom.write]
    exact readObj_num f w _ rest _ hw h1 h2 h3 hr
  | .lit v =>
    refine ⟨.str v, .lit v, ?_⟩
    have e0 : skipWs (w ++ (b!"(" ++ escape v ++ b!")") ++ rest) = 0x28 :: (escape v ++ b!")" ++ rest) := by
      have := readObj_char f w (escape v ++ b!")" ++ rest) 0x28 hw rfl
      simpa using this
    have h2 := readLit_escape v rest ((escape v ++ b!")" ++ rest).length + 1) (by
      have := escape_length v
      simp only [List.length_append]; omega)
    unfold readObj
    simp only [Atom.write, e0, h2]
    rfl
  | .hex v =>
    refine ⟨.str v, .hex v, ?_⟩
    have e0 : skipWs (w ++ (b!"<" ++ hexlify v ++ b!">") ++ rest) = 0x3C :: (hexlify v ++ b!">" ++ rest) := by
      have := readObj_char f w (hexlify v ++ b!">" ++ rest) 0x3C hw rfl
      simpa using this
    have h2 := readHex_hexlify v rest
    have h3 := hexlify_head v rest
    unfold readObj
    simp only [Atom.write, e0]
    generalize hexlify v ++ b!">" ++ rest = X at h2 h3
    have n1 : (0x3C : UInt8) ≠ 0x2F := by decide
    have n2 : (0x3C : UInt8) ≠ 0x28 := by decide
    have n3 : (0x3C : UInt8) ≠ 0x5B := by decide
    simp only [n1, n2, n3, if_false, if_true]
    split
    · rename_i s'; exact absurd rfl (h3 _ _ rfl)
    · simp [h2]
  | .array as =>
    simp only [Atom.Ok] at h
    simp only [Atom.size] at hf
    obtain ⟨ps, h1, h2⟩ := readItems_write as h f (by omega) [] rest (by simp)
    refine ⟨.arr ps, .array h1, ?_⟩
    have e0 : skipWs (w ++ (b!"[" ++ writeItems compress as ++ b!"]") ++ rest) =
        0x5B :: (writeItems compress as ++ b!"]" ++ rest) := by
      have := readObj_char f w (writeItems compress as ++ b!"]" ++ rest) 0x5B hw rfl
      simpa using this
    unfold readObj
    simp only [Atom.write, e0]
    rw [List.nil_append] at h2
    have n1 : (0x5B : UInt8) ≠ 0x2F := by decide
    have n2 : (0x5B : UInt8) ≠ 0x28 := by decide
    simp only [n1, n2, if_false, if_true, h2, Option.map_some]
  | .dict es =>
    simp only [Atom.Ok] at h
    simp only [Atom.size] at hf
    obtain ⟨ps, h1, h2⟩ := readEntries_write es h f (by omega) b!"\n" rest
      (by intro c hc; simp at hc; subst hc; rfl)
    refine ⟨.dict ps, .dict h1, ?_⟩
    have e0 : skipWs (w ++ (b!"<<\n" ++ writeEntries compress es ++ b!">>") ++ rest) =
        0x3C :: (0x3C :: (b!"\n" ++ writeEntries compress es ++ b!">>" ++ rest)) := by
      have := readObj_char f w (0x3C :: (b!"\n" ++ writeEntries compress es ++ b!">>" ++ rest)) 0x3C hw rfl
      simpa using this
    unfold readObj
    simp only [Atom.write, e0]
    have n1 : (0x3C : UInt8) ≠ 0x2F := by decide
    have n2 : (0x3C : UInt8) ≠ 0x28 := by decide
    have n3 : (0x3C : UInt8) ≠ 0x5B := by decide
    simp only [n1, n2, n3, if_false, if_true, h2, Option.map_some]
  | .stream _ _ => simp [Atom.Ok] at h
  | .ref n =>
    refine ⟨.ref n 0, .ref n, ?_⟩
    simp only [Atom.write]
    exact readObj_ref f n w rest hw
theorem readItems_write (as : List Atom) (h : itemsOk as) (fuel : Nat) (hf : itemsSize as < fuel)
    (w rest : Bytes) (hw : ∀ c ∈ w, isWs c = true) :
    ∃ ps, ItemsDenote as ps ∧
      readItems fuel (w ++ (writeItems compress as ++ b!"]" ++ rest)) = some (ps, rest) := by
  obtain ⟨f, rfl⟩ : ∃ f, fuel = f + 1 := ⟨fuel - 1, by omega⟩
  match as with
  | [] =>
    refine ⟨[], .nil, ?_⟩
    have e0 := readObj_char f w rest 0x5D hw rfl
    unfold readItems
    simp only [writeItems, List.nil_append, List.cons_append, e0]
  | a :: as =>
    simp only [itemsOk] at h
    simp only [itemsSize] at hf
    have hsafe := safe_items compress as h.2 rest
    obtain ⟨p, hp1, hp2⟩ := readObj_write a h.1 f (by omega) w _ hw hsafe
    obtain ⟨ps, hps1, hps2⟩ := readItems_write as h.2 f (by omega) b!" " rest
      (by intro c hc; simp at hc; subst hc; rfl)
    refine ⟨p :: ps, .cons hp1 hps1, ?_⟩
    obtain ⟨c, t, hc1, hc2⟩ := write_start compress a h.1
    have e1 : w ++ (writeItems compress (a :: as) ++ b!"]" ++ rest) =
        w ++ a.write compress ++ (b!" " ++ writeItems compress as ++ b!"]" ++ rest) := by
      simp [writeItems]
    have e0 : ∃ t', skipWs (w ++ (writeItems compress (a :: as) ++ b!"]" ++ rest)) = c :: t' := by
      rw [e1, hc1]
      refine ⟨t ++ (b!" " ++ writeItems compress as ++ b!"]" ++ rest), ?_⟩
      have := readObj_char f w (t ++ (b!" " ++ writeItems compress as ++ b!"]" ++ rest)) c hw (objStart_facts c hc2).1
      simpa using this
    obtain ⟨t', e0⟩ := e0
    have e2 : readItems f (b!" " ++ writeItems compress as ++ b!"]" ++ rest) = some (ps, rest) := by
      simpa using hps2
    unfold readItems
    simp only [e0]
    split
    · rename_i heq; exact absurd (List.cons.inj heq).1 (objStart_facts c hc2).2.1
    · rw [e1, hp2]
      simp only [e2, Option.map_some]
theorem readEntries_write (es : List (Bytes × Atom)) (h : entriesOk es) (fuel : Nat)
    (hf : entriesSize es < fuel) (w rest : Bytes) (hw : ∀ c ∈ w, isWs c = true) :
    ∃ ps, EntriesDenote es ps ∧
      readEntries fuel (w ++ writeEntries compress es ++ b!">>" ++ rest) = some (ps, rest) := by
  obtain ⟨f, rfl⟩ : ∃ f, fuel = f + 1 := ⟨fuel - 1, by omega⟩
  match es with
  | [] =>
    refine ⟨[], .nil, ?_⟩
    have e0 := readObj_char f w (0x3E :: rest) 0x3E hw rfl
    unfold readEntries
    simp only [writeEntries, List.append_nil, List.append_assoc, List.nil_append, List.cons_append, e0]
  | (k, a) :: es =>
    simp only [entriesOk] at h
    simp only [entriesSize] at hf
    obtain ⟨c, s, hcs, hc1, hc2⟩ := entries_tail compress es rest
    have hsafe := safe_newline c s hc1 hc2
    rw [← hcs] at hsafe
    obtain ⟨p, hp1, hp2⟩ := readObj_write a h.2.1 f (by omega) b!" " _
      (by intro c hc; simp at hc; subst hc; rfl) hsafe
    obtain ⟨ps, hps1, hps2⟩ := readEntries_write es h.2.2 f (by omega) b!"\n" rest
      (by intro c hc; simp at hc; subst hc; rfl)
    obtain ⟨d, hd⟩ := h.1.2
    refine ⟨(d, p) :: ps, .cons hd hp1 hps1, ?_⟩
    have e0 := readObj_char f w (k ++ (b!" " ++ a.write compress ++
      (b!"\n" ++ (writeEntries compress es ++ b!">>" ++ rest)))) 0x2F hw rfl
    have hn := name_run k (b!" " ++ a.write compress ++
      (b!"\n" ++ (writeEntries compress es ++ b!">>" ++ rest))) h.1
      (by intro x hx; simp at hx; subst hx; rfl)
    have e1 : w ++ writeEntries compress ((k, a) :: es) ++ b!">>" ++ rest =
      w ++ 0x2F :: (k ++ (b!" " ++ a.write compress ++
      (b!"\n" ++ (writeEntries compress es ++ b!">>" ++ rest)))) := by
      simp [writeEntries]
    have e2 : readEntries f (b!"\n" ++ (writeEntries compress es ++ b!">>" ++ rest)) = some (ps, rest) := by
      simpa using hps2
    unfold readEntries
    simp only [e1, e0, hn.1, hn.2, hd, hp2, e2, Option.map_some]
end

end Pdfje
