/-
Bytes, byte-string literals and small shared helpers.
-/

/-- Python `bytes`. -/
abbrev Bytes := List UInt8

/-- `b!"text"`: the list of bytes of an ASCII/UTF-8 string literal, i.e. Python's `b"text"`. -/
syntax:max "b!" str : term
macro_rules
  | `(b! $s:str) => do
    let bytes := s.getString.toUTF8.toList
    let elems ← bytes.mapM fun b => `(($(Lean.quote b.toNat) : UInt8))
    `(([ $(elems.toArray),* ] : List UInt8))

/-- Case analysis over all bytes: what holds for the 256 values `UInt8.ofNat n` holds for every byte. -/
theorem forall_byte {P : UInt8 → Prop} (h : ∀ n : Fin 256, P (UInt8.ofNat n.val)) : ∀ b, P b := by
  intro b
  have := h ⟨b.toNat, b.toNat_lt⟩
  simpa using this

/-- Does `s` start with `p`? (`bytes.startswith`) -/
def startsWith : Bytes → Bytes → Bool
  | [], _ => true
  | _ :: _, [] => false
  | p :: ps, c :: cs => p == c && startsWith ps cs

theorem startsWith_iff (p s : Bytes) : startsWith p s = true ↔ ∃ t, s = p ++ t := by
  induction p generalizing s with
  | nil => simp [startsWith]
  | cons a p ih =>
    cases s with
    | nil => simp [startsWith]
    | cons c s =>
      simp only [startsWith, Bool.and_eq_true, beq_iff_eq, ih, List.cons_append, List.cons.injEq]
      constructor
      · rintro ⟨rfl, t, rfl⟩; exact ⟨t, rfl, rfl⟩
      · rintro ⟨t, h1, h2⟩; exact ⟨h1.symm, t, h2⟩

@[simp] theorem startsWith_append (p t : Bytes) : startsWith p (p ++ t) = true :=
  (startsWith_iff _ _).2 ⟨t, rfl⟩
