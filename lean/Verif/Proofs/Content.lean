import Verif.Spec.Stands
import Verif.Proofs.Reach
import Verif.Props.EndToEnd
import Verif.Props.Fonts
/-
Reading back the operators of a page.
-/

namespace Pdfje
open PdfSpec

/-! ### Tokens -/

/-! What can be written: numbers that are printed without an exponent, and fonts that were requested. -/

/-- Elements of `TJ`. -/
def ShowItem.Good (r : Res) : ShowItem → Prop
  | .adj x => GoodReal x
  | .txt f _ => r.Knows f

/-- Text operators. -/
def TextOp.Good (r : Res) : TextOp → Prop
  | .tf f z => r.Knows f ∧ GoodReal z
  | .rg c => GoodReal c.red ∧ GoodReal c.green ∧ GoodReal c.blue
  | .tj is => ∀ i ∈ is, i.Good r
  | .td x y => GoodReal x ∧ GoodReal y
  | .tdl x y => GoodReal x ∧ GoodReal y
  | .tl l => GoodReal l
  | .tstar => True

/-- Operators of a page. -/
def PageOp.Good (r : Res) : PageOp → Prop
  | .moveTo x y => GoodReal x ∧ GoodReal y
  | .lineTo x y => GoodReal x ∧ GoodReal y
  | .curveTo x1 y1 x2 y2 x3 y3 => GoodReal x1 ∧ GoodReal y1 ∧ GoodReal x2 ∧ GoodReal y2 ∧ GoodReal x3 ∧ GoodReal y3
  | .rect x y w h => GoodReal x ∧ GoodReal y ∧ GoodReal w ∧ GoodReal h
  | .fillColor c => GoodReal c.red ∧ GoodReal c.green ∧ GoodReal c.blue
  | .strokeColor c => GoodReal c.red ∧ GoodReal c.green ∧ GoodReal c.blue
  | .paint _ => True
  | .text ops => ∀ op ∈ ops, op.Good r

theorem tokens_nil {s : Bytes} (h : skipWs s = []) (n : Nat) : tokens n s = some [] := by
  unfold tokens; rw [h]

theorem tokens_cons {s : Bytes} {c : UInt8} {s' : Bytes} (h : skipWs s = c :: s') (n : Nat) :
    tokens (n + 1) s = (match readTok (c :: s') with | none => none | some (t, r) => (tokens n r).map (t :: ·)) := by
  conv_lhs => unfold tokens
  rw [h]
  rfl

theorem tokens_mono : ∀ (n : Nat) (s : Bytes) (ts : List Tok) (k : Nat), tokens n s = some ts → tokens (n + k) s = some ts := by
  intro n
  induction n with
  | zero =>
    intro s ts k h
    cases e : skipWs s with
    | nil => rw [tokens_nil e] at h ⊢; exact h
    | cons c s' => unfold tokens at h; rw [e] at h; simp at h
  | succ n ih =>
    intro s ts k h
    cases e : skipWs s with
    | nil => rw [tokens_nil e] at h ⊢; exact h
    | cons c s' =>
      have : n + 1 + k = (n + k) + 1 := by omega
      rw [this, tokens_cons e]
      rw [tokens_cons e] at h
      cases e2 : readTok (c :: s') with
      | none => rw [e2] at h; simp at h
      | some x =>
        obtain ⟨t, r⟩ := x
        rw [e2] at h
        simp only [Option.map_eq_some_iff] at h ⊢
        obtain ⟨us, h1, h2⟩ := h
        exact ⟨us, ih r us k h1, h2⟩

theorem tokens_skip (n : Nat) (w s : Bytes) (hw : ∀ c ∈ w, isWs c = true) : tokens n (w ++ s) = tokens n s := by
  unfold tokens
  rw [skipWs_ws w s hw]

/-- The bytes `b` are these tokens, whatever follows. -/
def Lexes (b : Bytes) (ts : List Tok) : Prop :=
  ∀ n rest us, tokens n rest = some us → tokens (b.length + n) (b ++ rest) = some (ts ++ us)

theorem Lexes.nil : Lexes [] [] := fun n rest us h => by simpa using h

theorem Lexes.append {a b : Bytes} {ts us : List Tok} (h1 : Lexes a ts) (h2 : Lexes b us) : Lexes (a ++ b) (ts ++ us) := by
  intro n rest xs h
  have := h1 _ _ _ (h2 n rest xs h)
  rw [List.append_assoc, List.length_append, Nat.add_assoc, List.append_assoc]
  exact this

/-- White space. -/
theorem Lexes.ws {w : Bytes} (hw : ∀ c ∈ w, isWs c = true) : Lexes w [] := by
  intro n rest us h
  rw [tokens_skip _ _ _ hw, Nat.add_comm]
  exact tokens_mono _ _ _ _ h

/-- A token. -/
theorem Lexes.tok {c : UInt8} {b : Bytes} {t : Tok} (hc : isWs c = false) (h : ∀ rest, readTok (c :: b ++ rest) = some (t, rest)) : Lexes (c :: b) [t] := by
  intro n rest us hu
  unfold tokens
  rw [List.cons_append, skipWs_cons_not _ hc]
  have : (c :: b).length + n = (b.length + n) + 1 := by simp; omega
  rw [this]
  simp only
  rw [← List.cons_append, h rest]
  simp only [Option.map_eq_some_iff]
  exact ⟨us, by rw [Nat.add_comm]; exact tokens_mono _ _ _ _ hu, by simp⟩

/-- A token that ends before a white space. -/
theorem Lexes.tok_ws {c w : UInt8} {b : Bytes} {t : Tok} (hc : isWs c = false) (hw : isWs w = true)
    (h : ∀ rest, readTok (c :: b ++ w :: rest) = some (t, w :: rest)) : Lexes (c :: b ++ [w]) [t] := by
  intro n rest us hu
  unfold tokens
  rw [List.append_assoc, List.cons_append, skipWs_cons_not _ hc]
  have : (c :: b ++ [w]).length + n = (b.length + 1 + n) + 1 := by simp; omega
  rw [this]
  simp only
  have e := h rest
  simp only [List.cons_append] at e
  rw [List.singleton_append, e]
  simp only [Option.map_eq_some_iff]
  refine ⟨us, ?_, by simp⟩
  have := tokens_skip (b.length + 1 + n) [w] rest (by simpa using hw)
  rw [List.singleton_append] at this
  rw [this, Nat.add_comm]
  exact tokens_mono _ _ _ _ hu

theorem ws_notRegular {w : UInt8} (h : isWs w = true) : isRegular w = false := by simp [isRegular, h]

/-- A number. -/
theorem lexes_num {q : ℚ} (h : GoodReal q) {w : UInt8} (hw : isWs w = true) : ∃ v, Near v q ∧ Lexes (fmtG q ++ [w]) [.num v] := by
  obtain ⟨h1, h2, v, h3, h4⟩ := fmtG_token q h
  refine ⟨v, h4, ?_⟩
  obtain ⟨c, t, e⟩ : ∃ c t, fmtG q = c :: t := by
    cases hf : fmtG q with
    | nil => exact absurd hf h1
    | cons c t => exact ⟨c, t, rfl⟩
  rw [e] at h2 h3 ⊢
  have hc := numChar_facts c (h2 c (by simp))
  have hreg : ∀ x ∈ c :: t, isRegular x = true := fun x hx => (numChar_facts x (h2 x hx)).1
  refine Lexes.tok_ws hc.2.1 hw ?_
  intro rest
  have hr : ∀ x, (w :: rest).head? = some x → isRegular x = false := by
    intro x hx; simp at hx; subst hx; exact ws_notRegular hw
  have e1 := takeWhile_run isRegular (c :: t) (w :: rest) hreg hr
  have e2 := dropWhile_run isRegular (c :: t) (w :: rest) hreg hr
  simp only [List.cons_append] at e1 e2
  unfold readTok
  simp only [List.cons_append]
  rw [if_neg hc.2.2.1, if_neg hc.2.2.2.1, if_neg hc.2.2.2.2.2.1, if_neg hc.2.2.2.2.1, if_neg hc.2.2.2.2.2.2.1, if_pos hc.1]
  simp only [e1, e2, h3]

/-- An operator. -/
theorem lexes_op {c : UInt8} {t : Bytes} (hreg : ∀ x ∈ c :: t, isRegular x = true) (hn : parseNumber (c :: t) = none) {w : UInt8} (hw : isWs w = true) :
    Lexes (c :: t ++ [w]) [.op (c :: t)] := by
  have hc := hreg c (by simp)
  have hcw : isWs c = false := by
    simp only [isRegular, Bool.and_eq_true, Bool.not_eq_true'] at hc; exact hc.1
  have hd : isDelim c = false := by
    simp only [isRegular, Bool.and_eq_true, Bool.not_eq_true'] at hc; exact hc.2
  refine Lexes.tok_ws hcw hw ?_
  intro rest
  have hr : ∀ x, (w :: rest).head? = some x → isRegular x = false := by
    intro x hx; simp at hx; subst hx; exact ws_notRegular hw
  have e1 := takeWhile_run isRegular (c :: t) (w :: rest) hreg hr
  have e2 := dropWhile_run isRegular (c :: t) (w :: rest) hreg hr
  simp only [List.cons_append] at e1 e2
  simp only [isDelim, Bool.or_eq_false_iff, beq_eq_false_iff_ne] at hd
  unfold readTok
  simp only [List.cons_append]
  rw [if_neg hd.1.2, if_neg hd.1.1.1.1.1.1.1.1.1, if_neg hd.1.1.1.1.1.1.1.2, if_neg hd.1.1.1.1.1.2, if_neg hd.1.1.1.1.2, if_pos hc]
  simp only [e1, e2, hn]

/-- A name. -/
theorem lexes_name {v d : Bytes} (h : GoodName v) (hd : decodeName v = some d) {w : UInt8} (hw : isWs w = true) :
    Lexes (b!"/" ++ v ++ [w]) [.name d] := by
  refine Lexes.tok_ws (c := 0x2F) (b := v) (by decide) hw ?_
  intro rest
  obtain ⟨e1, e2⟩ := name_run v (w :: rest) h (by intro x hx; simp at hx; subst hx; exact ws_notRegular hw)
  unfold readTok
  simp only [List.cons_append, if_true, e1, e2, hd, Option.map_some]

/-- A string. -/
theorem lexes_str (v : Bytes) : Lexes (b!"(" ++ escape v ++ b!")") [.str v] := by
  refine Lexes.tok (c := 0x28) (b := escape v ++ b!")") (by decide) ?_
  intro rest
  unfold readTok
  have := readLit_escape v rest ((escape v ++ b!")" ++ rest).length + 1) (by
    have := escape_length v
    simp only [List.length_append]; omega)
  simp only [List.cons_append]
  rw [if_neg (by decide), if_pos trivial, this]
  rfl

theorem lexes_open : Lexes b!"[" [.openArr] := Lexes.tok (c := 0x5B) (b := []) (by decide) (fun rest => rfl)
theorem lexes_close : Lexes b!"]" [.closeArr] := Lexes.tok (c := 0x5D) (b := []) (by decide) (fun rest => rfl)

/-! ### Instructions -/

/-- The bytes `b` are these operators, whatever follows. -/
def Reads (b : Bytes) (cs : List COp) : Prop := ∃ ts is, Lexes b ts ∧
  (∀ us, instructions (ts ++ us) [] none = (instructions us [] none).map (is ++ ·)) ∧ is.mapM operator = some cs

theorem Reads.nil : Reads [] [] := ⟨[], [], .nil, fun us => by cases h : instructions us [] none <;> simp [h], rfl⟩

theorem mapM_append_some {α β} {f : α → Option β} : ∀ {a b : List α} {x y : List β}, a.mapM f = some x → b.mapM f = some y → (a ++ b).mapM f = some (x ++ y)
  | [], b, x, y, h1, h2 => by simp at h1; subst h1; simpa using h2
  | c :: a, b, x, y, h1, h2 => by
    rw [List.mapM_cons] at h1
    simp only [Option.bind_eq_bind, Option.bind_eq_some_iff, Option.pure_def, Option.some.injEq] at h1
    obtain ⟨d, h3, e, h4, rfl⟩ := h1
    rw [List.cons_append, List.mapM_cons]
    simp only [h3, mapM_append_some h4 h2, Option.bind_eq_bind, Option.bind_some, Option.pure_def, List.cons_append]

theorem Reads.append {a b : Bytes} {x y : List COp} (h1 : Reads a x) (h2 : Reads b y) : Reads (a ++ b) (x ++ y) := by
  obtain ⟨ts, is, l1, i1, o1⟩ := h1
  obtain ⟨us, js, l2, i2, o2⟩ := h2
  refine ⟨ts ++ us, is ++ js, l1.append l2, fun zs => ?_, mapM_append_some o1 o2⟩
  rw [List.append_assoc, i1, i2]
  cases instructions zs [] none <;> simp

theorem Reads.content {b : Bytes} {cs : List COp} (h : Reads b cs) : readContent b = some cs := by
  obtain ⟨ts, is, l, i, o⟩ := h
  have h1 := l 0 [] [] (by simp [tokens, skipWs])
  simp only [List.append_nil, Nat.add_zero] at h1
  have h2 := i []
  simp only [List.append_nil, instructions, Option.map_some] at h2
  unfold readContent
  simp only [h1, h2, Option.bind_some, o]

/-! ### Operators with numbers -/

/-- Numbers, each followed by a space. -/
def numsBytes (qs : List ℚ) : Bytes := qs.flatMap fun q => fmtG q ++ b!" "

theorem lexes_nums : ∀ {qs : List ℚ}, (∀ q ∈ qs, GoodReal q) → ∃ vs, List.Forall₂ Near vs qs ∧ Lexes (numsBytes qs) (vs.map Tok.num)
  | [], _ => ⟨[], .nil, .nil⟩
  | q :: qs, h => by
    obtain ⟨v, h1, h2⟩ := lexes_num (h q List.mem_cons_self) (w := 0x20) (by decide)
    obtain ⟨vs, h3, h4⟩ := lexes_nums (qs := qs) fun x hx => h x (List.mem_cons_of_mem _ hx)
    exact ⟨v :: vs, .cons h1 h3, h2.append h4⟩

theorem instructions_nums : ∀ (vs : List ℚ) (us : List Tok) (st : List Operand),
    instructions (vs.map Tok.num ++ us) st none = instructions us (st ++ vs.map Operand.num) none
  | [], us, st => by simp
  | v :: vs, us, st => by
    simp only [List.map_cons, List.cons_append, instructions]
    rw [instructions_nums vs us]; simp

/-- An operator of regular characters that is not a number. -/
def IsOp (k : Bytes) : Prop := k ≠ [] ∧ (∀ x ∈ k, isRegular x = true) ∧ parseNumber k = none

instance (k : Bytes) : Decidable (IsOp k) := inferInstanceAs (Decidable (_ ∧ _ ∧ _))

theorem IsOp.lexes {k : Bytes} (h : IsOp k) {w : UInt8} (hw : isWs w = true) : Lexes (k ++ [w]) [.op k] := by
  obtain ⟨h1, h2, h3⟩ := h
  cases k with
  | nil => exact absurd rfl h1
  | cons c t => exact lexes_op h2 h3 hw

theorem reads_nums {qs : List ℚ} (h : ∀ q ∈ qs, GoodReal q) {k : Bytes} (hk : IsOp k) {w : UInt8} (hw : isWs w = true) :
    ∃ vs, List.Forall₂ Near vs qs ∧ ∀ c, operator (vs.map Operand.num, k) = some c → Reads (numsBytes qs ++ (k ++ [w])) [c] := by
  obtain ⟨vs, h1, h2⟩ := lexes_nums h
  refine ⟨vs, h1, fun c hc => ⟨_, [(vs.map Operand.num, k)], h2.append (hk.lexes hw), fun us => ?_, ?_⟩⟩
  · rw [List.append_assoc, instructions_nums]
    simp only [List.nil_append, List.cons_append, instructions]
  · simp only [List.mapM_cons, hc, List.mapM_nil, Option.bind_eq_bind, Option.bind_some, Option.pure_def]

theorem forall₂_one {R : ℚ → ℚ → Prop} {vs : List ℚ} {a : ℚ} (h : List.Forall₂ R vs [a]) : ∃ x, vs = [x] ∧ R x a := by
  cases h with
  | cons h1 h2 => cases h2; exact ⟨_, rfl, h1⟩
theorem forall₂_two {R : ℚ → ℚ → Prop} {vs : List ℚ} {a b : ℚ} (h : List.Forall₂ R vs [a, b]) : ∃ x y, vs = [x, y] ∧ R x a ∧ R y b := by
  cases h with
  | cons h1 h2 => obtain ⟨y, rfl, h3⟩ := forall₂_one h2; exact ⟨_, _, rfl, h1, h3⟩
theorem forall₂_three {R : ℚ → ℚ → Prop} {vs : List ℚ} {a b c : ℚ} (h : List.Forall₂ R vs [a, b, c]) :
    ∃ x y z, vs = [x, y, z] ∧ R x a ∧ R y b ∧ R z c := by
  cases h with
  | cons h1 h2 => obtain ⟨y, z, rfl, h3⟩ := forall₂_two h2; exact ⟨_, _, _, rfl, h1, h3⟩
theorem forall₂_four {R : ℚ → ℚ → Prop} {vs : List ℚ} {a b c d : ℚ} (h : List.Forall₂ R vs [a, b, c, d]) :
    ∃ x y z t, vs = [x, y, z, t] ∧ R x a ∧ R y b ∧ R z c ∧ R t d := by
  cases h with
  | cons h1 h2 => obtain ⟨y, z, t, rfl, h3⟩ := forall₂_three h2; exact ⟨_, _, _, _, rfl, h1, h3⟩

/-! ### Text -/

theorem winAnsiChar_eq (c : Char) [Decidable (∃ b, winAnsi b = some c.toNat)] : (if ∃ b, winAnsi b = some c.toNat then c.toNat else 0x3F) = winAnsiChar c := by
  have : (∃ b, winAnsi b = some c.toNat) ↔ ∃ b : Fin 256, winAnsi (UInt8.ofNat b) = some c.toNat :=
    ⟨fun ⟨b, h⟩ => ⟨⟨b.toNat, b.toNat_lt⟩, by simpa using h⟩, fun ⟨b, h⟩ => ⟨_, h⟩⟩
  unfold winAnsiChar
  by_cases h : ∃ b, winAnsi b = some c.toNat
  · rw [if_pos h, if_pos (this.1 h)]
  · rw [if_neg h, if_neg (fun hh => h (this.2 hh))]

theorem Res.charOf_le {r R : Res} (hr : r.WF) (h : r.Le R) {i k : Nat} {c : Char} (hc : r.charOf i k = some c) : R.charOf i k = some c := by
  unfold Res.charOf at hc ⊢
  rw [Option.bind_eq_some_iff] at hc
  obtain ⟨e, h1, h2⟩ := hc
  obtain ⟨e', g1, -, -, -, g2⟩ := h.subsets i e h1
  obtain ⟨-, t, ht⟩ := g2 (hr.sub i e h1).2.2
  rw [g1, Option.bind_some, ← ht]
  rw [List.getElem?_append_left (List.getElem?_eq_some_iff.1 h2).1]; exact h2

/-- What is encoded is read back through the font as it is at the end. -/
theorem encode_encodes {r r' R : Res} {f : FontRef} {s : List Char} {b : Bytes} (hr : r.WF) (h : r.encode f s = some (b, r')) (hle : r'.Le R) (hs : R.Small) :
    Encodes R f s b := by
  obtain ⟨-, hr'⟩ := r.encode_spec hr f s b r' h
  cases f with
  | builtin g =>
    simp only [Res.encode, Option.some.injEq, Prod.mk.injEq] at h
    obtain ⟨rfl, -⟩ := h
    show _ = _
    rw [(C13_builtin_encode s).2]
    exact List.map_congr_left fun c _ => by rw [winAnsiChar_eq]
  | subset i =>
    simp only [Res.encode] at h
    split at h
    · cases h
    · rename_i e he
      simp only [Option.some.injEq, Prod.mk.injEq] at h
      obtain ⟨rfl, rfl⟩ := h
      have hi := (List.getElem?_eq_some_iff.mp he).1
      obtain ⟨-, -, -, codes, q4, q5⟩ := encodeCids_spec s e.2.cids (hr.sub i e he).2.2
      have hmap : codes.map (R.charOf i) = s.map some := by
        rw [← q5]
        apply List.map_congr_left
        intro k hk
        have : (cidsAfter e.2.cids s)[k]? ∈ s.map some := by rw [← q5]; exact List.mem_map_of_mem hk
        obtain ⟨c, -, hc⟩ := List.mem_map.1 this
        rw [← hc]
        refine Res.charOf_le hr' hle ?_
        unfold Res.charOf
        simp only
        rw [List.getElem?_set_self hi, Option.bind_some]
        exact hc.symm
      refine ⟨codes, ?_, hmap⟩
      rw [q4]
      have hk : ∀ k ∈ codes, k < 0x10000 := by
        intro k hk
        have : R.charOf i k ∈ s.map some := by rw [← hmap]; exact List.mem_map_of_mem hk
        obtain ⟨c, -, hc⟩ := List.mem_map.1 this
        unfold Res.charOf at hc
        symm at hc
        rw [Option.bind_eq_some_iff] at hc
        obtain ⟨e', h1, h2⟩ := hc
        have := hs i e' h1
        have := (List.getElem?_eq_some_iff.1 h2).1
        omega
      exact units16_flatMap codes hk

theorem Res.Reach.le {r r' : Res} (hr : r.WF) (h : r.Reach r') : r.Le r' ∧ r'.WF := by
  obtain ⟨ops, outs, hok, h⟩ := h
  obtain ⟨h1, h2, -⟩ := Res.run_spec ops r hr hok outs r' h
  exact ⟨h1, h2⟩

theorem Res.Knows.le {r R : Res} (h : r.Le R) {f : FontRef} (hf : r.Knows f) : R.Knows f := by
  cases f with
  | builtin g => obtain ⟨e, h1, h2⟩ := hf; exact ⟨e, h.builtins.subset h1, h2⟩
  | subset i =>
    obtain ⟨e', h1, -⟩ := h.subsets i _ (List.getElem?_eq_getElem hf)
    exact (List.getElem?_eq_some_iff.1 h1).1

theorem builtin_fid_plain : ∀ f ∈ builtinTypefaces, ∀ b i, ((f.font b i).fid.all fun c => isRegular c && c != 0x23) = true := by decide +kernel

theorem goodName_plain {s : Bytes} (h : ∀ c ∈ s, isRegular c = true ∧ c ≠ 0x23) : GoodName s ∧ decodeName s = some s :=
  ⟨⟨fun c hc => (h c hc).1, s, decodeName_plain s fun c hc => (h c hc).2⟩, decodeName_plain s fun c hc => (h c hc).2⟩

theorem fontKey_plain (n : Nat) : ∀ c ∈ b!"F" ++ decNat n, isRegular c = true ∧ c ≠ 0x23 := by
  intro c hc
  rcases List.mem_append.mp hc with hc | hc
  · exact (by decide +kernel : ∀ c ∈ b!"F", isRegular c = true ∧ c ≠ 0x23) c hc
  · have key : ∀ c : UInt8, isDigit c = true → isRegular c = true ∧ c ≠ 0x23 := by
      apply forall_byte
      decide +kernel
    exact key c (decNat_all n c hc)

/-- The name of a font that was requested. -/
theorem Res.Knows.name {r : Res} (hr : r.WF) {f : FontRef} (hf : r.Knows f) : ∃ n, r.fontId f = some n ∧ GoodName n ∧ decodeName n = some n := by
  cases f with
  | builtin g =>
    obtain ⟨e, h1, rfl⟩ := hf
    obtain ⟨t, h2, -, h3⟩ := hr.built e h1
    refine ⟨_, rfl, ?_⟩
    rw [h3]
    refine goodName_plain fun c hc => ?_
    have := List.all_eq_true.1 (builtin_fid_plain t h2 e.1.2.1 e.1.2.2) c hc
    simpa using this
  | subset i =>
    refine ⟨_, by simp only [Res.fontId, List.getElem?_eq_getElem hf, Option.map_some]; rfl, ?_⟩
    rw [(hr.sub i _ (List.getElem?_eq_getElem hf)).1]
    exact goodName_plain (fontKey_plain i)

theorem Res.fontId_le {r R : Res} (h : r.Le R) {f : FontRef} {n : Bytes} (hf : r.fontId f = some n) : R.fontId f = some n := by
  cases f with
  | builtin g => exact hf
  | subset i =>
    simp only [Res.fontId, Option.map_eq_some_iff] at hf
    obtain ⟨e, h1, h2⟩ := hf
    obtain ⟨e', g1, -, g2, -⟩ := h.subsets i e h1
    simp only [Res.fontId, g1, Option.map_some, g2, h2]

theorem lexes_items : ∀ {is : List ShowItem} {r r' R : Res} {b : Bytes}, r.WF → (∀ i ∈ is, i.Good r) → itemsBytes is r = some (b, r') → r'.Le R → R.Small →
    ∃ es ts, List.Forall₂ (ItemStands R) is es ∧ Lexes b ts ∧ ∀ us st acc, instructions (ts ++ us) st (some acc) = instructions us st (some (acc ++ es))
  | [], r, r', R, b, hr, hg, h, hle, hs => by
    simp only [itemsBytes, Option.some.injEq, Prod.mk.injEq] at h
    obtain ⟨rfl, -⟩ := h
    exact ⟨[], [], .nil, .nil, by simp⟩
  | i :: is, r, r', R, b, hr, hg, h, hle, hs => by
    rw [itemsBytes] at h
    split at h
    · cases h
    · rename_i b1 r1 e1
      split at h
      · cases h
      · rename_i b2 r2 e2
        simp only [Option.some.injEq, Prod.mk.injEq] at h
        obtain ⟨rfl, rfl⟩ := h
        have hr1 : r.Le r1 ∧ r1.WF := by
          cases i with
          | adj x =>
            simp only [ShowItem.bytes, Option.some.injEq, Prod.mk.injEq] at e1
            obtain ⟨-, rfl⟩ := e1
            exact ⟨.refl _, hr⟩
          | txt f s =>
            simp only [ShowItem.bytes] at e1
            split at e1
            · cases e1
            · rename_i e3
              simp only [Option.some.injEq, Prod.mk.injEq] at e1
              obtain ⟨-, rfl⟩ := e1
              exact r.encode_spec hr f s _ _ e3
        have hg1 : ∀ j ∈ is, j.Good r1 := by
          intro j hj
          have := hg j (List.mem_cons_of_mem _ hj)
          cases j with
          | adj x => exact this
          | txt f s => exact Res.Knows.le hr1.1 this
        have hle1 : r1.Le R := ((itemsBytes_reach is e2).le hr1.2).1.trans hle
        obtain ⟨es, ts, h1, h2, h3⟩ := lexes_items hr1.2 hg1 e2 hle hs
        cases i with
        | adj x =>
          obtain ⟨v, k1, k2⟩ := lexes_num (hg _ List.mem_cons_self) (w := 0x20) (by decide)
          simp only [ShowItem.bytes, Option.some.injEq, Prod.mk.injEq] at e1
          obtain ⟨rfl, rfl⟩ := e1
          refine ⟨.num v :: es, .num v :: ts, .cons (.adj k1) h1, k2.append h2, fun us st acc => ?_⟩
          rw [List.cons_append, instructions, h3]; simp
        | txt f s =>
          simp only [ShowItem.bytes] at e1
          split at e1
          · cases e1
          · rename_i b3 r3 e3
            simp only [Option.some.injEq, Prod.mk.injEq] at e1
            obtain ⟨rfl, rfl⟩ := e1
            have k2 : Lexes (b!"(" ++ escape b3 ++ b!")" ++ b!" ") [.str b3] := by
              have := (lexes_str b3).append (Lexes.ws (w := b!" ") (by decide))
              simpa using this
            refine ⟨.str b3 :: es, .str b3 :: ts, .cons (.txt (encode_encodes hr e3 hle1 hs)) h1, k2.append h2, fun us st acc => ?_⟩
            rw [List.cons_append, instructions, h3]; simp

theorem textOp_reads {op : TextOp} {r r' R : Res} {b : Bytes} (hr : r.WF) (hg : op.Good r) (h : op.bytes r = some (b, r')) (hle : r'.Le R) (hs : R.Small) :
    ∃ c, TextStands R op c ∧ Reads b [c] := by
  cases op with
  | tf f z =>
    obtain ⟨n, h1, h2, h3⟩ := hg.1.name hr
    simp only [TextOp.bytes, h1, Option.some.injEq, Prod.mk.injEq] at h
    obtain ⟨rfl, rfl⟩ := h
    obtain ⟨v, k1, k2⟩ := lexes_num hg.2 (w := 0x20) (by decide)
    refine ⟨.font n v, .tf (Res.fontId_le hle h1) k1, [.name n] ++ ([.num v] ++ [.op b!"Tf"]), [([.name n, .num v], b!"Tf")], ?_, ?_, rfl⟩
    · have e : b!"/" ++ n ++ b!" " ++ fmtG z ++ b!" Tf\n" = (b!"/" ++ n ++ [0x20]) ++ ((fmtG z ++ [0x20]) ++ (b!"Tf" ++ [0x0A])) := by simp
      rw [e]
      exact (lexes_name h2 h3 (by decide)).append (k2.append ((show IsOp b!"Tf" by decide +kernel).lexes (by decide)))
    · intro us; simp [instructions]
  | rg c =>
    obtain ⟨vs, h1, h2⟩ := reads_nums (qs := [c.red, c.green, c.blue]) (by simpa [TextOp.Good] using hg) (k := b!"rg") (by decide +kernel) (w := 0x0A) (by decide)
    obtain ⟨x, y, z, rfl, h3, h4, h5⟩ := forall₂_three h1
    simp only [TextOp.bytes, Option.some.injEq, Prod.mk.injEq] at h
    obtain ⟨rfl, rfl⟩ := h
    refine ⟨.fillColor x y z, .rg h3 h4 h5, ?_⟩
    have := h2 (.fillColor x y z) rfl
    simpa [numsBytes] using this
  | td x y =>
    obtain ⟨vs, h1, h2⟩ := reads_nums (qs := [x, y]) (by simpa [TextOp.Good] using hg) (k := b!"Td") (by decide +kernel) (w := 0x0A) (by decide)
    obtain ⟨v, w, rfl, h3, h4⟩ := forall₂_two h1
    simp only [TextOp.bytes, Option.some.injEq, Prod.mk.injEq] at h
    obtain ⟨rfl, rfl⟩ := h
    refine ⟨.move v w, .td h3 h4, ?_⟩
    have := h2 (.move v w) rfl
    simpa [numsBytes] using this
  | tdl x y =>
    obtain ⟨vs, h1, h2⟩ := reads_nums (qs := [x, y]) (by simpa [TextOp.Good] using hg) (k := b!"TD") (by decide +kernel) (w := 0x0A) (by decide)
    obtain ⟨v, w, rfl, h3, h4⟩ := forall₂_two h1
    simp only [TextOp.bytes, Option.some.injEq, Prod.mk.injEq] at h
    obtain ⟨rfl, rfl⟩ := h
    refine ⟨.moveLeading v w, .tdl h3 h4, ?_⟩
    have := h2 (.moveLeading v w) rfl
    simpa [numsBytes] using this
  | tl l =>
    obtain ⟨vs, h1, h2⟩ := reads_nums (qs := [l]) (by simpa [TextOp.Good] using hg) (k := b!"TL") (by decide +kernel) (w := 0x0A) (by decide)
    obtain ⟨v, rfl, h3⟩ := forall₂_one h1
    simp only [TextOp.bytes, Option.some.injEq, Prod.mk.injEq] at h
    obtain ⟨rfl, rfl⟩ := h
    refine ⟨.leading v, .tl h3, ?_⟩
    have := h2 (.leading v) rfl
    simpa [numsBytes] using this
  | tstar =>
    obtain ⟨vs, h1, h2⟩ := reads_nums (qs := []) (by simp) (k := b!"T*") (by decide +kernel) (w := 0x0A) (by decide)
    cases h1
    simp only [TextOp.bytes, Option.some.injEq, Prod.mk.injEq] at h
    obtain ⟨rfl, rfl⟩ := h
    refine ⟨.nextLine, .tstar, ?_⟩
    have := h2 .nextLine rfl
    simpa [numsBytes] using this
  | tj is =>
    simp only [TextOp.bytes] at h
    split at h
    · cases h
    · rename_i b1 r1 e1
      simp only [Option.some.injEq, Prod.mk.injEq] at h
      obtain ⟨rfl, rfl⟩ := h
      obtain ⟨es, ts, h1, h2, h3⟩ := lexes_items hr hg e1 hle hs
      refine ⟨.showText es, .tj h1, [.openArr] ++ (ts ++ ([.closeArr] ++ [.op b!"TJ"])), [([.arr es], b!"TJ")], ?_, ?_, rfl⟩
      · have e : b!"[" ++ b1 ++ b!"] TJ\n" = b!"[" ++ (b1 ++ ((b!"]" ++ b!" ") ++ (b!"TJ" ++ [0x0A]))) := by simp
        rw [e]
        refine lexes_open.append (h2.append (Lexes.append ?_ ((show IsOp b!"TJ" by decide +kernel).lexes (by decide))))
        simpa using lexes_close.append (Lexes.ws (w := b!" ") (by decide))
      · intro us
        simp only [List.append_assoc, List.cons_append, List.nil_append, instructions, h3]

theorem TextOp.Good.le {r R : Res} (h : r.Le R) {op : TextOp} (hg : op.Good r) : op.Good R := by
  cases op with
  | tf f z => exact ⟨hg.1.le h, hg.2⟩
  | tj is =>
    intro i hi
    have := hg i hi
    cases i with
    | adj x => exact this
    | txt f s => exact Res.Knows.le h this
  | _ => exact hg

theorem PageOp.Good.le {r R : Res} (h : r.Le R) {op : PageOp} (hg : op.Good r) : op.Good R := by
  cases op with
  | text ops => exact fun op hop => (hg op hop).le h
  | _ => exact hg

theorem textOps_reads : ∀ {ops : List TextOp} {r r' R : Res} {b : Bytes}, r.WF → (∀ op ∈ ops, op.Good r) → textOpsBytes ops r = some (b, r') → r'.Le R → R.Small →
    ∃ cs, List.Forall₂ (TextStands R) ops cs ∧ Reads b cs
  | [], r, r', R, b, hr, hg, h, hle, hs => by
    simp only [textOpsBytes, Option.some.injEq, Prod.mk.injEq] at h
    obtain ⟨rfl, -⟩ := h
    exact ⟨[], .nil, .nil⟩
  | op :: ops, r, r', R, b, hr, hg, h, hle, hs => by
    rw [textOpsBytes] at h
    split at h
    · cases h
    · rename_i b1 r1 e1
      split at h
      · cases h
      · rename_i b2 r2 e2
        simp only [Option.some.injEq, Prod.mk.injEq] at h
        obtain ⟨rfl, rfl⟩ := h
        obtain ⟨l1, w1⟩ := (TextOp.reach e1).le hr
        have hle1 : r1.Le R := ((textOpsBytes_reach ops e2).le w1).1.trans hle
        obtain ⟨c, h1, h2⟩ := textOp_reads hr (hg op List.mem_cons_self) e1 hle1 hs
        obtain ⟨cs, h3, h4⟩ := textOps_reads w1 (fun o ho => (hg o (List.mem_cons_of_mem _ ho)).le l1) e2 hle hs
        exact ⟨c :: cs, .cons h1 h3, h2.append h4⟩

theorem paint_reads (p : Paint) : Reads p.bytes [p.cop] := by
  have key : ∀ (k : Bytes) (c : COp), IsOp k → operator ([], k) = some c → Reads (k ++ b!"\n") [c] := by
    intro k c hk hc
    obtain ⟨vs, h1, h2⟩ := reads_nums (qs := []) (by simp) hk (w := 0x0A) (by decide)
    cases h1
    simpa [numsBytes] using h2 c hc
  cases p
  · exact key b!"n" _ (by decide +kernel) rfl
  · exact key b!"S" _ (by decide +kernel) rfl
  · exact key b!"s" _ (by decide +kernel) rfl
  · exact key b!"f" _ (by decide +kernel) rfl
  · exact key b!"B" _ (by decide +kernel) rfl
  · exact key b!"b" _ (by decide +kernel) rfl

theorem pageOp_reads {op : PageOp} {r r' R : Res} {b : Bytes} (hr : r.WF) (hg : op.Good r) (h : op.bytes r = some (b, r')) (hle : r'.Le R) (hs : R.Small) :
    ∃ cs, PageStands R op cs ∧ Reads b cs := by
  cases op with
  | moveTo x y =>
    obtain ⟨vs, h1, h2⟩ := reads_nums (qs := [x, y]) (by simpa [PageOp.Good] using hg) (k := b!"m") (by decide +kernel) (w := 0x20) (by decide)
    obtain ⟨v, w, rfl, h3, h4⟩ := forall₂_two h1
    simp only [PageOp.bytes, Option.some.injEq, Prod.mk.injEq] at h
    obtain ⟨rfl, rfl⟩ := h
    exact ⟨_, .moveTo h3 h4, by simpa [numsBytes] using h2 (.moveTo v w) rfl⟩
  | lineTo x y =>
    obtain ⟨vs, h1, h2⟩ := reads_nums (qs := [x, y]) (by simpa [PageOp.Good] using hg) (k := b!"l") (by decide +kernel) (w := 0x20) (by decide)
    obtain ⟨v, w, rfl, h3, h4⟩ := forall₂_two h1
    simp only [PageOp.bytes, Option.some.injEq, Prod.mk.injEq] at h
    obtain ⟨rfl, rfl⟩ := h
    exact ⟨_, .lineTo h3 h4, by simpa [numsBytes] using h2 (.lineTo v w) rfl⟩
  | curveTo x1 y1 x2 y2 x3 y3 =>
    obtain ⟨vs, h1, h2⟩ := reads_nums (qs := [x1, y1, x2, y2, x3, y3]) (by simpa [PageOp.Good] using hg) (k := b!"c") (by decide +kernel) (w := 0x20) (by decide)
    cases h1 with
    | cons k1 h1 =>
    cases h1 with
    | cons k2 h1 =>
    obtain ⟨a, b, c, d, rfl, k3, k4, k5, k6⟩ := forall₂_four h1
    simp only [PageOp.bytes, Option.some.injEq, Prod.mk.injEq] at h
    obtain ⟨rfl, rfl⟩ := h
    exact ⟨_, .curveTo k1 k2 k3 k4 k5 k6, by simpa [numsBytes] using h2 (.curveTo _ _ a b c d) rfl⟩
  | rect x y w h' =>
    obtain ⟨vs, h1, h2⟩ := reads_nums (qs := [x, y, w, h']) (by simpa [PageOp.Good] using hg) (k := b!"re") (by decide +kernel) (w := 0x20) (by decide)
    obtain ⟨a, b, c, d, rfl, k3, k4, k5, k6⟩ := forall₂_four h1
    simp only [PageOp.bytes, Option.some.injEq, Prod.mk.injEq] at h
    obtain ⟨rfl, rfl⟩ := h
    exact ⟨_, .rect k3 k4 k5 k6, by simpa [numsBytes] using h2 (.rect a b c d) rfl⟩
  | fillColor c =>
    obtain ⟨vs, h1, h2⟩ := reads_nums (qs := [c.red, c.green, c.blue]) (by simpa [PageOp.Good] using hg) (k := b!"rg") (by decide +kernel) (w := 0x20) (by decide)
    obtain ⟨x, y, z, rfl, h3, h4, h5⟩ := forall₂_three h1
    simp only [PageOp.bytes, Option.some.injEq, Prod.mk.injEq] at h
    obtain ⟨rfl, rfl⟩ := h
    exact ⟨_, .fillColor h3 h4 h5, by simpa [numsBytes] using h2 (.fillColor x y z) rfl⟩
  | strokeColor c =>
    obtain ⟨vs, h1, h2⟩ := reads_nums (qs := [c.red, c.green, c.blue]) (by simpa [PageOp.Good] using hg) (k := b!"RG") (by decide +kernel) (w := 0x20) (by decide)
    obtain ⟨x, y, z, rfl, h3, h4, h5⟩ := forall₂_three h1
    simp only [PageOp.bytes, Option.some.injEq, Prod.mk.injEq] at h
    obtain ⟨rfl, rfl⟩ := h
    exact ⟨_, .strokeColor h3 h4 h5, by simpa [numsBytes] using h2 (.strokeColor x y z) rfl⟩
  | paint p =>
    simp only [PageOp.bytes, Option.some.injEq, Prod.mk.injEq] at h
    obtain ⟨rfl, rfl⟩ := h
    exact ⟨_, .paint p, paint_reads p⟩
  | text ops =>
    simp only [PageOp.bytes] at h
    split at h
    · cases h
    · rename_i b1 r1 e1
      simp only [Option.some.injEq, Prod.mk.injEq] at h
      obtain ⟨rfl, rfl⟩ := h
      obtain ⟨cs, h1, h2⟩ := textOps_reads hr hg e1 hle hs
      have key : ∀ (k : Bytes) (c : COp), IsOp k → operator ([], k) = some c → Reads (k ++ b!"\n") [c] := by
        intro k c hk hc
        obtain ⟨vs, h1, h2⟩ := reads_nums (qs := []) (by simp) hk (w := 0x0A) (by decide)
        cases h1
        simpa [numsBytes] using h2 c hc
      refine ⟨_, .text h1, ?_⟩
      have := ((key b!"BT" .beginText (by decide +kernel) rfl).append h2).append (key b!"ET" .endText (by decide +kernel) rfl)
      simpa using this

/-- The operators of a page are read back from its content stream. -/
theorem ops_read : ∀ {ops : List PageOp} {r r' R : Res} {b : Bytes}, r.WF → (∀ op ∈ ops, op.Good r) → opsBytes ops r = some (b, r') → r'.Le R → R.Small →
    ∃ cs, OpsStand R ops cs ∧ Reads b cs
  | [], r, r', R, b, hr, hg, h, hle, hs => by
    simp only [opsBytes, Option.some.injEq, Prod.mk.injEq] at h
    obtain ⟨rfl, -⟩ := h
    exact ⟨[], ⟨[], .nil, rfl⟩, .nil⟩
  | op :: ops, r, r', R, b, hr, hg, h, hle, hs => by
    rw [opsBytes] at h
    split at h
    · cases h
    · rename_i b1 r1 e1
      split at h
      · cases h
      · rename_i b2 r2 e2
        simp only [Option.some.injEq, Prod.mk.injEq] at h
        obtain ⟨rfl, rfl⟩ := h
        obtain ⟨l1, w1⟩ := (PageOp.reach e1).le hr
        have hle1 : r1.Le R := ((opsBytes_reach ops e2).le w1).1.trans hle
        obtain ⟨c, h1, h2⟩ := pageOp_reads hr (hg op List.mem_cons_self) e1 hle1 hs
        obtain ⟨cs, ⟨css, h3, rfl⟩, h4⟩ := ops_read w1 (fun o ho => (hg o (List.mem_cons_of_mem _ ho)).le l1) e2 hle hs
        exact ⟨_, ⟨c :: css, .cons h1 h3, rfl⟩, h2.append h4⟩

end Pdfje
