import Verif.Proofs.Style
import Verif.Spec.Color
import Mathlib.Tactic.Linarith
import Mathlib.Tactic.NormNum
import Mathlib.Tactic.FieldSimp
/-
C22-C26, C54, C57: styles, colours, spans, style commands, newlines, leading.
-/

namespace Pdfje

/-! ### C22 -/

/-- C22. Combining styles with `|`: associative; `Style.EMPTY` is neutral; idempotent; every attribute of `a | b`
is `b`'s if it is set there and `a`'s otherwise; applying `a | b` to a full style is applying `a`, then `b`. -/
theorem C22_or (a b c : Style) (base : StyleFull) :
    (a.or b).or c = a.or (b.or c) ∧ Style.empty.or a = a ∧ a.or Style.empty = a ∧ a.or a = a ∧
    ((a.or b).font = b.font.or a.font ∧ (a.or b).size = b.size.or a.size ∧ (a.or b).bold = b.bold.or a.bold ∧
      (a.or b).italic = b.italic.or a.italic ∧ (a.or b).color = b.color.or a.color ∧
      (a.or b).lineSpacing = b.lineSpacing.or a.lineSpacing ∧ (a.or b).hyphens = b.hyphens.or a.hyphens) ∧
    base.or (a.or b) = (base.or a).or b ∧ base.or Style.empty = base := by
  have key : ∀ {α : Type} (x y : Option α), fallbackO y x = y.or x := by
    intro α x y; cases y <;> rfl
  have key2 : ∀ {α : Type} (x y : Option α) (d : α), fallback (y.or x) d = fallback y (fallback x d) := by
    intro α x y d; cases y <;> rfl
  have key3 : ∀ {α : Type} (d : α), fallback none d = d := fun _ => rfl
  refine ⟨?_, ?_, ?_, ?_, ⟨?_, ?_, ?_, ?_, ?_, ?_, ?_⟩, ?_, ?_⟩ <;>
    simp only [Style.or, Style.empty, StyleFull.or, key, key2, key3, Option.or_assoc, Option.or_none, Option.none_or,
      Option.or_self]

/-- Applying a style on top of a full style, attribute by attribute. -/
theorem C22_full (base : StyleFull) (s : Style) :
    (base.or s).font = s.font.getD base.font ∧ (base.or s).size = s.size.getD base.size ∧
    (base.or s).bold = s.bold.getD base.bold ∧ (base.or s).italic = s.italic.getD base.italic ∧
    (base.or s).color = s.color.getD base.color ∧ (base.or s).lineSpacing = s.lineSpacing.getD base.lineSpacing ∧
    (base.or s).hyphens = s.hyphens.getD base.hyphens := by
  have key : ∀ {α : Type} (x : Option α) (d : α), fallback x d = x.getD d := by intro α x d; cases x <;> rfl
  simp only [StyleFull.or, key, and_self]

example : (({ size := some 12, bold := some true } : Style).or { size := some 24 }) =
    { size := some 24, bold := some true } := by decide

/-! ### C54 -/

/-- C54, first part, as stated: every accepted colour is in range. -/
def C54_Statement : Prop :=
  (∀ r g b c, RGB.new r g b = some c → c.InRange) ∧ (∀ U s c, RGB.parseStr U s = some c → c.InRange)

/-- It is false: `RGB(-1, 0, 0)` is accepted, and so is the string `"#-f0000"`. -/
theorem C54_counterexample : ¬ C54_Statement ∧
    ¬ (∀ U s c, RGB.parseStr U s = some c → c.InRange) := by
  constructor
  · rintro ⟨h, -⟩
    have := h (-1) 0 0 ⟨-1, 0, 0⟩ (by decide +kernel)
    have h1 := this.1
    norm_num at h1
  · intro h
    have h1 := (h ⟨fun _ => none, fun _ => false, fun _ => false⟩ "#-f0000".toList ⟨-15/255, 0, 0⟩ (by decide +kernel)).1
    norm_num at h1

theorem hexDigit_of_isHex (U : Unicode) {c : Char} {n : Nat} (h : IsHex c n) : hexDigit U c = some n ∧ n < 16 := by
  have hn : n < 16 := by
    by_contra hn
    rcases h with h | h
    · have hl : hexChars.length = 16 := by decide +kernel
      rw [List.getElem?_eq_none (by rw [hl]; omega)] at h; cases h
    · have hl : hexCharsUp.length = 16 := by decide +kernel
      rw [List.getElem?_eq_none (by rw [hl]; omega)] at h; cases h
  refine ⟨?_, hn⟩
  have key : ∀ n < 16, ∀ c ∈ hexChars[n]?.toList ++ hexCharsUp[n]?.toList, ('0' ≤ c ∧ c ≤ '9' ∧ c.toNat - 48 = n) ∨
      (¬ ('0' ≤ c ∧ c ≤ '9') ∧ 'a' ≤ c ∧ c ≤ 'f' ∧ c.toNat - 87 = n) ∨
      (¬ ('0' ≤ c ∧ c ≤ '9') ∧ ¬ ('a' ≤ c ∧ c ≤ 'f') ∧ 'A' ≤ c ∧ c ≤ 'F' ∧ c.toNat - 55 = n) := by decide +kernel
  have hm : c ∈ hexChars[n]?.toList ++ hexCharsUp[n]?.toList := by
    rcases h with h | h <;> simp [h]
  rcases key n hn c hm with ⟨h1, h2, h3⟩ | ⟨h0, h1, h2, h3⟩ | ⟨h0, h0', h1, h2, h3⟩
  · rw [hexDigit, if_pos ⟨h1, h2⟩, h3]
  · rw [hexDigit, if_neg h0, if_pos ⟨h1, h2⟩, h3]
  · rw [hexDigit, if_neg h0, if_neg h0', if_pos ⟨h1, h2⟩, h3]

/-- C54, the true part: no accepted colour has a component above 1; a six-digit hex string is accepted, its
component k is its k-th byte divided by 255, and it is in range; different bytes give different colours. -/
theorem C54_colours_partial (U : Unicode) :
    (∀ r g b c, RGB.new r g b = some c → c = ⟨r, g, b⟩ ∧ c.red ≤ 1 ∧ c.green ≤ 1 ∧ c.blue ≤ 1) ∧
    (∀ s c, RGB.parseStr U s = some c → c.red ≤ 1 ∧ c.green ≤ 1 ∧ c.blue ≤ 1) ∧
    (∀ s r g b, IsHexColor s r g b →
      RGB.parseStr U s = some ⟨(r : ℚ) / 255, (g : ℚ) / 255, (b : ℚ) / 255⟩ ∧
      RGB.InRange ⟨(r : ℚ) / 255, (g : ℚ) / 255, (b : ℚ) / 255⟩) ∧
    (∀ s r g b t r' g' b', IsHexColor s r g b → IsHexColor t r' g' b' → (r, g, b) ≠ (r', g', b') →
      RGB.parseStr U s ≠ RGB.parseStr U t) := by
  have hnew : ∀ r g b c, RGB.new r g b = some c → c = ⟨r, g, b⟩ ∧ c.red ≤ 1 ∧ c.green ≤ 1 ∧ c.blue ≤ 1 := by
    intro r g b c h
    simp only [RGB.new] at h
    split at h
    · rename_i h1
      cases h; exact ⟨rfl, h1⟩
    · cases h
  have hhex : ∀ s r g b, IsHexColor s r g b →
      RGB.parseStr U s = some ⟨(r : ℚ) / 255, (g : ℚ) / 255, (b : ℚ) / 255⟩ ∧
      RGB.InRange ⟨(r : ℚ) / 255, (g : ℚ) / 255, (b : ℚ) / 255⟩ := by
    rintro s r g b ⟨c1, c2, c3, c4, c5, c6, n1, n2, n3, n4, n5, n6, rfl, h1, h2, h3, h4, h5, h6, hr, hg, hb⟩
    obtain ⟨e1, l1⟩ := hexDigit_of_isHex U h1
    obtain ⟨e2, l2⟩ := hexDigit_of_isHex U h2
    obtain ⟨e3, l3⟩ := hexDigit_of_isHex U h3
    obtain ⟨e4, l4⟩ := hexDigit_of_isHex U h4
    obtain ⟨e5, l5⟩ := hexDigit_of_isHex U h5
    obtain ⟨e6, l6⟩ := hexDigit_of_isHex U h6
    have hr' : (r : ℚ) ≤ 255 := by have : r ≤ 255 := by omega
                                   exact_mod_cast this
    have hg' : (g : ℚ) ≤ 255 := by have : g ≤ 255 := by omega
                                   exact_mod_cast this
    have hb' : (b : ℚ) ≤ 255 := by have : b ≤ 255 := by omega
                                   exact_mod_cast this
    have r1 : (r : ℚ) / 255 ≤ 1 := by rw [div_le_one (by norm_num)]; exact hr'
    have g1 : (g : ℚ) / 255 ≤ 1 := by rw [div_le_one (by norm_num)]; exact hg'
    have b1 : (b : ℚ) / 255 ≤ 1 := by rw [div_le_one (by norm_num)]; exact hb'
    refine ⟨?_, by positivity, r1, by positivity, g1, by positivity, b1⟩
    have er : ((16 * (n1 : ℤ) + n2 : ℤ) : ℚ) = r := by rw [hr]; push_cast; ring
    have eg : ((16 * (n3 : ℤ) + n4 : ℤ) : ℚ) = g := by rw [hg]; push_cast; ring
    have eb : ((16 * (n5 : ℤ) + n6 : ℤ) : ℚ) = b := by rw [hb]; push_cast; ring
    simp only [RGB.parseStr, int16, e1, e2, e3, e4, e5, e6, Option.bind_eq_bind, Option.bind_some, er, eg, eb]
    rw [RGB.new, if_pos ⟨r1, g1, b1⟩]
  refine ⟨hnew, ?_, hhex, ?_⟩
  · intro s c h
    unfold RGB.parseStr at h
    split at h
    · simp only [Option.bind_eq_bind, Option.bind_eq_some_iff] at h
      obtain ⟨r, _, g, _, b, _, h⟩ := h
      exact (hnew _ _ _ _ h).2
    · cases h
  · intro s r g b t r' g' b' hs ht hne h
    rw [(hhex s r g b hs).1, (hhex t r' g' b' ht).1] at h
    simp only [Option.some.injEq, RGB.mk.injEq] at h
    obtain ⟨h1, h2, h3⟩ := h
    apply hne
    have e1 : (r : ℚ) = r' := by field_simp at h1; exact h1
    have e2 : (g : ℚ) = g' := by field_simp at h2; exact h2
    have e3 : (b : ℚ) = b' := by field_simp at h3; exact h3
    norm_cast at e1 e2 e3
    rw [e1, e2, e3]

theorem isHex_inj {l : List Char} (hl : l.Nodup) {c : Char} {n m : Nat} (h1 : l[n]? = some c) (h2 : l[m]? = some c) : n = m := by
  obtain ⟨a, b⟩ := List.getElem?_eq_some_iff.mp h1
  obtain ⟨a', b'⟩ := List.getElem?_eq_some_iff.mp h2
  exact (List.Nodup.getElem_inj_iff hl).mp (b.trans b'.symm)

/-- Different lower-case hex strings give different colours. -/
theorem C54_distinct_partial (U : Unicode) (s t : List Char) (d e : List (Fin 16))
    (hd : d.length = 6) (he : e.length = 6)
    (hs : s = '#' :: d.map fun n => hexChars[n.val]'(by exact n.isLt))
    (ht : t = '#' :: e.map fun n => hexChars[n.val]'(by exact n.isLt)) (hne : s ≠ t) :
    ∃ a b, RGB.parseStr U s = some a ∧ RGB.parseStr U t = some b ∧ a ≠ b := by
  have col : ∀ (s : List Char) (d : List (Fin 16)), d.length = 6 →
      s = '#' :: (d.map fun n => hexChars[n.val]'(by exact n.isLt)) →
      ∃ d0 d1 d2 d3 d4 d5, d = [d0, d1, d2, d3, d4, d5] ∧
      IsHexColor s (16 * d0.val + d1.val) (16 * d2.val + d3.val) (16 * d4.val + d5.val) := by
    intro s d hd hs
    match d, hd with
    | [d0, d1, d2, d3, d4, d5], _ =>
      have hx : ∀ n : Fin 16, IsHex (hexChars[n.val]'(by exact n.isLt)) n.val := fun n =>
        Or.inl (List.getElem?_eq_getElem (by exact n.isLt))
      exact ⟨d0, d1, d2, d3, d4, d5, rfl, _, _, _, _, _, _, _, _, _, _, _, _, hs, hx _, hx _, hx _, hx _, hx _, hx _, rfl, rfl, rfl⟩
  obtain ⟨d0, d1, d2, d3, d4, d5, rfl, hs'⟩ := col s d hd hs
  obtain ⟨e0, e1, e2, e3, e4, e5, rfl, ht'⟩ := col t e he ht
  obtain ⟨-, -, h3, h4⟩ := C54_colours_partial U
  refine ⟨_, _, (h3 _ _ _ _ hs').1, (h3 _ _ _ _ ht').1, ?_⟩
  have := h4 _ _ _ _ _ _ _ _ hs' ht' (by
    intro h
    simp only [Prod.mk.injEq] at h
    apply hne
    rw [hs, ht]
    have q0 : d0 = e0 := by ext; omega
    have q1 : d1 = e1 := by ext; omega
    have q2 : d2 = e2 := by ext; omega
    have q3 : d3 = e3 := by ext; omega
    have q4 : d4 = e4 := by ext; omega
    have q5 : d5 = e5 := by ext; omega
    rw [q0, q1, q2, q3, q4, q5])
  rw [(h3 _ _ _ _ hs').1, (h3 _ _ _ _ ht').1] at this
  exact fun h => this (by rw [h])

example : IsHexColor "#fa9225".toList 250 146 37 :=
  ⟨'f', 'a', '9', '2', '2', '5', 15, 10, 9, 2, 2, 5, by decide, .inl rfl, .inl rfl, .inl rfl, .inl rfl, .inl rfl, .inl rfl,
    by decide, by decide, by decide⟩

/-! ### C23 -/

/-- C23 as stated: where `a | b` is defined, it is the combination of the styles that `a` and `b` stand for (an
error if one of them stands for none), and strings that are not hex colours are rejected. -/
def C23_Statement : Prop := ∀ U : Unicode,
  (∀ a b res, opOr U a b = some res →
    res = (Style.parse U a).bind fun x => (Style.parse U b).map fun y => x.or y) ∧
  (∀ s, (¬ ∃ r g b, IsHexColor s r g b) → Style.parse U (.str s) = none)

/-- It is false: `"nonsense" | RGB(0, 0, 0)` gives a style. -/
theorem C23_counterexample : ¬ C23_Statement := by
  intro h
  have := (h ⟨fun _ => none, fun _ => false, fun _ => false⟩).1 (.str "nonsense".toList) (.rgb ⟨0, 0, 0⟩) _ rfl
  exact absurd this (by decide +kernel)

/-- The other half is false as well: `"#+f0000"` is taken for the colour `#0f0000`. -/
theorem C23_counterexample_hex : ¬ ∀ U s, (¬ ∃ r g b, IsHexColor s r g b) → Style.parse U (.str s) = none := by
  intro h
  have h1 := h ⟨fun _ => none, fun _ => false, fun _ => false⟩ "#+f0000".toList ?_
  · exact absurd h1 (by decide +kernel)
  · rintro ⟨r, g, b, c1, c2, c3, c4, c5, c6, n1, n2, n3, n4, n5, n6, hs, h1, -⟩
    have hc : c1 = '+' := by
      have : ['#', '+', 'f', '0', '0', '0', '0'] = ['#', c1, c2, c3, c4, c5, c6] := hs
      simp only [List.cons.injEq] at this
      exact this.2.1.symm
    subst hc
    have := (hexDigit_of_isHex ⟨fun _ => none, fun _ => false, fun _ => false⟩ h1).1
    exact absurd this (by simp [hexDigit])

/-- C23, the true part: `a | b` is defined unless both are strings; it is the combination of the styles that the
operands stand for, except that a malformed string to the left of an RGB is ignored; strings that do not start with
`#` or do not have 7 characters are rejected everywhere else, and hex colours give their colour. -/
theorem C23_operands_partial (U : Unicode) :
    (∀ a b, opOr U a b = none ↔ ∃ s t, a = .str s ∧ b = .str t) ∧
    (∀ a b res, opOr U a b = some res → (¬ ∃ s c, a = .str s ∧ b = .rgb c ∧ Style.parse U (.str s) = none) →
      res = (Style.parse U a).bind fun x => (Style.parse U b).map fun y => x.or y) ∧
    (∀ s, s.head? ≠ some '#' ∨ s.length ≠ 7 → Style.parse U (.str s) = none) ∧
    (∀ s r g b, IsHexColor s r g b →
      Style.parse U (.str s) = some { color := some ⟨(r : ℚ) / 255, (g : ℚ) / 255, (b : ℚ) / 255⟩ }) := by
  have hp : ∀ s, Style.parse U (.str s) = (RGB.parseStr U s).map fun c => { color := some c } := by
    intro s
    simp only [Style.parse]
    split
    · rfl
    · rename_i hs
      rw [show RGB.parseStr U s = none from ?_]; · rfl
      unfold RGB.parseStr
      split
      · exact absurd rfl hs
      · rfl
  refine ⟨?_, ?_, ?_, ?_⟩
  · intro a b
    cases a <;> cases b <;> simp [opOr]
  · intro a b res h hne
    cases a with
    | style x =>
      simp only [opOr, Option.some.injEq] at h; subst h
      cases b with
      | style y => rfl
      | rgb c => simp [Style.orLike, Style.parse, Style.or, fallbackO]
      | font f => simp [Style.orLike, Style.parse, Style.or, fallbackO]
      | str t => rw [hp]; cases ht : RGB.parseStr U t <;> simp [Style.orLike, Style.parse, Style.or, fallbackO, ht]
    | rgb x =>
      simp only [opOr, Option.some.injEq] at h; subst h
      cases b with
      | style y => rfl
      | rgb c => simp [Style.orLike, Style.parse, Style.or, fallbackO]
      | font f => simp [Style.orLike, Style.parse, Style.or, fallbackO]
      | str t => rw [hp]; cases ht : RGB.parseStr U t <;> simp [Style.orLike, Style.parse, Style.or, fallbackO, ht]
    | font x =>
      simp only [opOr, Option.some.injEq] at h; subst h
      cases b with
      | style y => rfl
      | rgb c => simp [Style.orLike, Style.parse, Style.or, fallbackO]
      | font f => simp [Style.orLike, Style.parse, Style.or, fallbackO]
      | str t => rw [hp]; cases ht : RGB.parseStr U t <;> simp [Style.orLike, Style.parse, Style.or, fallbackO, ht]
    | str x =>
      cases b with
      | style y =>
        simp only [opOr, Option.some.injEq] at h; subst h
        rw [hp]; cases RGB.parseStr U x <;> simp [Style.parse]
      | rgb c =>
        simp only [opOr, Option.some.injEq] at h; subst h
        have : Style.parse U (.str x) ≠ none := fun h => hne ⟨x, c, rfl, rfl, h⟩
        rw [hp] at this ⊢
        cases hx : RGB.parseStr U x with
        | none => simp [hx] at this
        | some y => simp [Style.parse, Style.or, fallbackO]
      | font f =>
        simp only [opOr, Option.some.injEq] at h; subst h
        rw [hp]; cases RGB.parseStr U x <;> simp [Style.parse, Style.orLike, Style.or, fallbackO]
      | str t => simp [opOr] at h
  · intro s hs
    rw [hp, show RGB.parseStr U s = none from ?_]; · rfl
    unfold RGB.parseStr
    split
    · rcases hs with hs | hs <;> simp at hs
    · rfl
  · intro s r g b hs
    rw [hp, ((C54_colours_partial U).2.2.1 s r g b hs).1]; rfl

example : opOr ⟨fun _ => none, fun _ => false, fun _ => false⟩ (.font (.builtin timesRoman)) (.str "#ff0000".toList) =
    some (some { font := some (.builtin timesRoman), color := some ⟨1, 0, 0⟩ }) := by decide +kernel

/-! ### C25 -/

/-- C25 as stated: merging commands keeps their effect on the text state, and what their operators do to a PDF
viewer (whatever its state). -/
def C25_Statement : Prop := ∀ cmds : List Command,
  (∀ st, (squash cmds).apply st = applyAll cmds st) ∧
  (∀ W v, Viewer.run W (squash cmds).ops v = Viewer.run W (opsAll cmds) v)

/-- It is false when merged commands are merged again: of two chains only the last survives. (This happens:
`C27_counterexample_style` shows a paragraph that loses its colour this way.) -/
theorem C25_counterexample : ¬ C25_Statement := by
  intro h
  have := (h [.chain [.setFont (.subset 0) 20, .setColor ⟨1, 0, 0⟩], .chain [.setLineSpacing 2, .setHyphens 0]]).1
    ⟨.subset 0, 12, ⟨0, 0, 0⟩, 1, 0⟩
  have h2 : squash [.chain [.setFont (.subset 0) 20, .setColor ⟨1, 0, 0⟩], .chain [.setLineSpacing 2, .setHyphens 0]] =
    .chain [.setLineSpacing 2, .setHyphens 0] := rfl
  rw [h2] at this
  simp only [Command.apply, applyAll, State.mk.injEq] at this
  norm_num at this

/-- C25 for commands that are not chains (the only ones `flatten` merges), and for a single command of any kind. -/
theorem C25_squash_partial (cmds : List Command) (h : (∀ c ∈ cmds, c.Flat) ∨ cmds.length = 1) :
    (∀ st, (squash cmds).apply st = applyAll cmds st) ∧
    (∀ W v, Viewer.run W (squash cmds).ops v = Viewer.run W (opsAll cmds) v) := by
  rcases h with h | h
  · exact ⟨squash_apply cmds h, fun W v => squash_view W cmds h v⟩
  · match cmds, h with
    | [c], _ =>
      refine ⟨fun st => ?_, fun W v => ?_⟩
      · rw [squash_single, applyAll, applyAll]
      · rw [squash_single, opsAll, opsAll, List.append_nil]

example : ∀ c ∈ [Command.setFont (.subset 0) 20, .setColor ⟨1, 0, 0⟩, .setFont (.subset 1) 10], c.Flat := by
  intro c hc; simp at hc; rcases hc with rfl | rfl | rfl <;> trivial

/-! ### C24 -/

/-- C24. For any span (or paragraph or text drawing) with any tree of spans inside, in any registry: the passages
have exactly the strings of the tree, in order; the state at each is the state of the base style overlaid with the
styles of the enclosing spans; and applying the commands that are left over for what follows gives back the state
from before the span. -/
theorem C24_spans (base : StyleFull) (style : Style) (content : List Item) (r0 : Res) :
    let st0 := (base.asState r0).1
    let out := flattenSpan style base [] content (base.asState r0).2
    out.1.map (·.txt) = (itemsStrings [style] content).map (·.1) ∧
    stateAt out.1 st0 = (itemsStrings [style] content).map (fun e => ((base.overlay e.2).asState out.2.2).1) ∧
    applyAll (runTodo out.2.1 out.2.2).1 (endState out.1 st0) = st0 ∧
    (base.asState out.2.2).1 = st0 := by
  have h := flattenSpan_spec base [] style [] content (base.asState r0).2 base (base.asState r0).1
    (by rw [overlay_nil]; rfl) (match_asState r0 base)
  rw [overlay_nil] at h
  intro st0 out
  obtain ⟨⟨b, h1, h2⟩, h3, h4, h5, h6⟩ := h
  have h7 := h4 _ (Res.Le.refl _)
  have hbase : Match out.2.2 st0 base := (match_asState r0 base).mono h3
  refine ⟨h5, ?_, ?_, ?_⟩
  · have gen : ∀ (l : List State) (m : List (List Char × List Style)), List.Forall₂ (fun s e => Match out.2.2 s (base.overlay e.2)) l m →
        l = m.map (fun e => ((base.overlay e.2).asState out.2.2).1) := by
      intro l m h
      induction h with
      | nil => rfl
      | cons h _ ih => rw [List.map_cons, ← ih, h.eq_asState]
    exact gen _ _ h7
  · obtain ⟨g1, g2, -⟩ := runTodo_spec _ b base out.2.2 _ h1 h2
    have e1 := g1.eq_asState
    have e2 := (hbase.mono g2).eq_asState
    rw [e1] at e2
    exact congrArg Prod.fst e2
  · rw [hbase.eq_asState]

/-- A tree: `Span(["a", Span("b", bold), "c"], size 20)`. -/
example : itemsStrings [{ size := some 20 }] [.str "a".toList, .span [.str "b".toList] { bold := some true }, .str "c".toList] =
    [("a".toList, [{ size := some 20 }]), ("b".toList, [{ size := some 20 }, { bold := some true }]),
     ("c".toList, [{ size := some 20 }])] := by decide +kernel

theorem overlay_one (base : StyleFull) (s : Style) : base.overlay [s] = base.or s := by
  have := overlay_snoc base [] s
  rwa [List.nil_append, overlay_nil] at this

theorem differs_same {α} [DecidableEq α] (a : Option α) (b : α) (h : a.getD b = b) : differs a b = false := by
  cases a with
  | none => rfl
  | some x => simpa [differs] using h

theorem diff_keeps {base : StyleFull} {s : Style} (h : base.overlay [s] = base) (r : Res) : s.diff base r = ([], r) := by
  rw [overlay_one] at h
  obtain ⟨f1, f2, f3, f4, f5, f6, f7⟩ := C22_full base s
  rw [h] at f1 f2 f3 f4 f5 f6 f7
  simp [Style.diff, diffRest, differs_same _ _ f1.symm, differs_same _ _ f2.symm, differs_same _ _ f3.symm, differs_same _ _ f4.symm,
    differs_same _ _ f5.symm, differs_same _ _ f6.symm, differs_same _ _ f7.symm]

theorem fullDiff_self (base : StyleFull) (r : Res) : base.diff base r = ([], r) := by
  simp [StyleFull.diff]

theorem runTodo_keeps (todo : List Pending) (h : ∀ p ∈ todo, ∀ r, p.run r = ([], r)) (r : Res) : runTodo todo r = ([], r) := by
  induction todo with
  | nil => rfl
  | cons p ps ih =>
    rw [runTodo, h p (by simp)]
    simp only [ih fun q hq => h q (by simp [hq]), List.append_nil]

mutual
theorem flattenSpan_keeps (base : StyleFull) (style : Style) (todo : List Pending) (content : List Item) (r : Res)
    (hs : base.overlay [style] = base) (hc : itemsKeep base content) (ht : ∀ p ∈ todo, ∀ r, p.run r = ([], r)) :
    (∀ p ∈ (flattenSpan style base todo content r).1, p.cmd = .noop) ∧
    (∀ p ∈ (flattenSpan style base todo content r).2.1, ∀ r, p.run r = ([], r)) ∧ (flattenSpan style base todo content r).2.2 = r := by
  rw [flattenSpan]
  have hor : base.or style = base := by rw [← overlay_one, hs]
  have h := flattenItems_keeps base (todo ++ [.style style base]) content r hc (by
    intro p hp
    rcases List.mem_append.1 hp with hp | hp
    · exact ht p hp
    · rw [List.mem_singleton] at hp
      subst hp
      exact diff_keeps hs)
  rw [hor]
  obtain ⟨h1, h2, h3⟩ := h
  refine ⟨h1, fun p hp => ?_, h3⟩
  rcases List.mem_append.1 hp with hp | hp
  · exact h2 p hp
  · rw [List.mem_singleton] at hp
    subst hp
    exact fullDiff_self base
termination_by (sizeOf content, 1)
theorem flattenItems_keeps (base : StyleFull) (todo : List Pending) (content : List Item) (r : Res)
    (hc : itemsKeep base content) (ht : ∀ p ∈ todo, ∀ r, p.run r = ([], r)) :
    (∀ p ∈ (flattenItems base todo content r).1, p.cmd = .noop) ∧
    (∀ p ∈ (flattenItems base todo content r).2.1, ∀ r, p.run r = ([], r)) ∧ (flattenItems base todo content r).2.2 = r := by
  match content with
  | [] =>
    rw [flattenItems]
    exact ⟨by simp, ht, rfl⟩
  | .str s :: rest =>
    rw [flattenItems, runTodo_keeps todo ht]
    rw [itemsKeep] at hc
    obtain ⟨h1, h2, h3⟩ := flattenItems_keeps base [] rest r hc.2 (by simp)
    refine ⟨fun p hp => ?_, h2, h3⟩
    rcases List.mem_cons.1 hp with rfl | hp
    · rfl
    · exact h1 p hp
  | .span c style :: rest =>
    rw [flattenItems]
    rw [itemsKeep, Item.Keeps] at hc
    obtain ⟨h1, h2, h3⟩ := flattenSpan_keeps base style todo c r hc.1.1 hc.1.2 ht
    obtain ⟨h4, h5, h6⟩ := flattenItems_keeps base (flattenSpan style base todo c r).2.1 rest r hc.2 h2
    simp only [h3]
    refine ⟨fun p hp => ?_, h5, h6⟩
    rcases List.mem_append.1 hp with hp | hp
    · exact h1 p hp
    · exact h4 p hp
termination_by (sizeOf content, 0)
end

/-- C24 for spans that change nothing: they are free. If no style in a tree changes anything of the style around it then no
operation is written before any of its strings nor after it, and no font is registered. -/
theorem C24_unchanged (base : StyleFull) (style : Style) (content : List Item) (r : Res) (hs : base.overlay [style] = base)
    (hc : itemsKeep base content) :
    (∀ p ∈ (flattenSpan style base [] content r).1, p.cmd.ops = []) ∧
    (runTodo (flattenSpan style base [] content r).2.1 r).1 = [] ∧
    (runTodo (flattenSpan style base [] content r).2.1 r).2 = r ∧ (flattenSpan style base [] content r).2.2 = r := by
  obtain ⟨h1, h2, h3⟩ := flattenSpan_keeps base style [] content r hs hc (by simp)
  have := runTodo_keeps _ h2 r
  exact ⟨fun p hp => by rw [h1 p hp]; rfl, by rw [this], by rw [this], h3⟩

/-- `Span(["a", Span("b", size 12), "c"], bold=False)` in the default style. -/
example : StyleFull.default.overlay [{ bold := some false }] = StyleFull.default ∧
    itemsKeep .default [.str "a".toList, .span [.str "b".toList] { size := some 12 }, .str "c".toList] := by
  refine ⟨by decide +kernel, ?_⟩
  simp only [itemsKeep, Item.Keeps, and_true, true_and]
  decide +kernel

/-! ### C26 -/

/-- The specification's `textLines` is what it should be: it takes the newlines out of the string, and nothing
else, and leaves none. -/
theorem textLines_spec (s : List Char) :
    (∀ l ∈ textLines s, '\n' ∉ l) ∧
    ∃ seps : List (List Char), (∀ x ∈ seps, x = ['\n'] ∨ x = ['\r', '\n']) ∧ seps.length + 1 = (textLines s).length ∧
      s = ((textLines s).zipWith (· ++ ·) (seps ++ [[]])).flatten := by
  induction s using textLines.induct with
  | case1 => exact ⟨by simp [textLines], [], by simp, by simp [textLines], by simp [textLines]⟩
  | case2 rest ih =>
    obtain ⟨h1, seps, h2, h3, h4⟩ := ih
    refine ⟨?_, ['\r', '\n'] :: seps, ?_, ?_, ?_⟩
    · simpa [textLines] using h1
    · simpa using h2
    · simp [textLines, h3]
    · simp only [textLines, List.cons_append, List.zipWith_cons_cons, List.flatten_cons, List.nil_append]
      rw [← h4]
  | case3 rest ih =>
    obtain ⟨h1, seps, h2, h3, h4⟩ := ih
    refine ⟨?_, ['\n'] :: seps, ?_, ?_, ?_⟩
    · simpa [textLines] using h1
    · simpa using h2
    · simp [textLines, h3]
    · simp only [textLines, List.cons_append, List.zipWith_cons_cons, List.flatten_cons, List.nil_append]
      rw [← h4]
  | case4 c rest n1 n2 l ls hl ih =>
    obtain ⟨h1, seps, h2, h3, h4⟩ := ih
    rw [hl] at h1 h3 h4
    have ht : textLines (c :: rest) = (c :: l) :: ls := by
      rw [textLines, hl]
      · exact n1
      · exact n2
    rw [ht]
    refine ⟨?_, seps, h2, by simpa using h3, ?_⟩
    · intro x hx
      rcases List.mem_cons.mp hx with rfl | hx
      · rw [List.mem_cons, not_or]
        exact ⟨fun h => n2 h.symm, h1 l List.mem_cons_self⟩
      · exact h1 x (List.mem_cons_of_mem _ hx)
    · cases seps with
      | nil => simp only [List.nil_append, List.zipWith_cons_cons] at h4 ⊢; conv_lhs => rw [h4]
               rfl
      | cons x xs => simp only [List.cons_append, List.zipWith_cons_cons] at h4 ⊢; conv_lhs => rw [h4]
                     rfl
  | case5 c rest n1 n2 hl ih => exact absurd hl (textLines_ne _)

/-- C26. Splitting styled text at newlines, in any state: the groups, one after the other, have exactly the
characters of the lines of the text, each in its style; there is one more group than newlines. Nothing gives no
group. -/
theorem C26_newlines (ps : List Passage) (st : State) (h : ps ≠ []) :
    groupsStyled (splitlines ps) st = styledLines ps st ∧
    (splitlines ps).length = (ps.flatMap (·.txt)).count '\n' + 1 ∧ splitlines [] = [] := by
  cases ps with
  | nil => exact absurd rfl h
  | cons p ps =>
    have h1 : groupsStyled (splitlines (p :: ps)) st = styledLines (p :: ps) st := by
      rw [splitlines, splitFrom_spec]; rfl
    refine ⟨h1, ?_, rfl⟩
    rw [← groupsStyled_length _ st, h1, styledLines_length]

example : textLines "a\r\nb\n\nc".toList = ["a".toList, "b".toList, [], "c".toList] := by decide +kernel

/-! ### C57 -/

theorem maxLeadLoop_spec (ps : List Passage) : ∀ st lead, maxLeadLoop ps st lead =
    (endState ps st, (((ps.zip (stateAt ps st)).filter (fun e => e.1.txt ≠ [])).map (fun e => e.2.lead)).foldl max lead) := by
  induction ps with
  | nil => intro st lead; rfl
  | cons p ps ih =>
    intro st lead
    simp only [maxLeadLoop, ih, endState, stateAt, List.zip_cons_cons]
    by_cases hp : p.txt = []
    · simp [hp]
    · simp [hp]

theorem foldl_max_spec (l : List ℚ) : ∀ a : ℚ, (∀ x ∈ a :: l, x ≤ l.foldl max a) ∧ l.foldl max a ∈ a :: l := by
  induction l with
  | nil => intro a; simp
  | cons b l ih =>
    intro a
    obtain ⟨h1, h2⟩ := ih (max a b)
    simp only [List.foldl_cons]
    constructor
    · intro x hx
      simp only [List.mem_cons] at hx
      have := h1 (max a b) List.mem_cons_self
      rcases hx with rfl | rfl | hx
      · exact le_trans (le_max_left _ _) this
      · exact le_trans (le_max_right _ _) this
      · exact h1 x (List.mem_cons_of_mem _ hx)
    · rcases List.mem_cons.mp h2 with h2 | h2
      · rw [h2]
        rcases max_choice a b with h | h <;> rw [h] <;> simp
      · exact List.mem_cons_of_mem _ (List.mem_cons_of_mem _ h2)

/-- C57. When sizes and line spacings of the text are positive, the leading is the largest `size * line_spacing` over
the non-empty pieces of text; with no text, that of the final state. -/
theorem C57_leading (ps : List Passage) (st : State)
    (hpos : ∀ e ∈ ps.zip (stateAt ps st), e.1.txt ≠ [] → 0 < e.2.size ∧ 0 < e.2.lineSpacing) :
    ((∀ e ∈ ps.zip (stateAt ps st), e.1.txt = []) → maxLead ps st = (endState ps st).size * (endState ps st).lineSpacing) ∧
    ((∃ e ∈ ps.zip (stateAt ps st), e.1.txt ≠ []) →
      (∃ e ∈ ps.zip (stateAt ps st), e.1.txt ≠ [] ∧ maxLead ps st = e.2.size * e.2.lineSpacing) ∧
      ∀ e ∈ ps.zip (stateAt ps st), e.1.txt ≠ [] → e.2.size * e.2.lineSpacing ≤ maxLead ps st) := by
  have hml : maxLead ps st = if (((ps.zip (stateAt ps st)).filter (fun e => e.1.txt ≠ [])).map (fun e => e.2.lead)).foldl max 0 = 0
      then (endState ps st).lead
      else (((ps.zip (stateAt ps st)).filter (fun e => e.1.txt ≠ [])).map (fun e => e.2.lead)).foldl max 0 := by
    simp only [maxLead, maxLeadLoop_spec]
  constructor
  · intro hall
    have : (ps.zip (stateAt ps st)).filter (fun e => e.1.txt ≠ []) = [] := by
      rw [List.filter_eq_nil_iff]
      intro e he
      simp [hall e he]
    rw [hml, this]
    simp [State.lead]
  · rintro ⟨e0, he0, hne0⟩
    set ls := ((ps.zip (stateAt ps st)).filter (fun e => e.1.txt ≠ [])).map (fun e => e.2.lead) with hls
    obtain ⟨h1, h2⟩ := foldl_max_spec ls 0
    have mem : ∀ e ∈ ps.zip (stateAt ps st), e.1.txt ≠ [] → e.2.lead ∈ ls := by
      intro e he hne
      rw [hls, List.mem_map]
      exact ⟨e, List.mem_filter.mpr ⟨he, by simpa using hne⟩, rfl⟩
    have hp0 : 0 < e0.2.lead := mul_pos (hpos e0 he0 hne0).1 (hpos e0 he0 hne0).2
    have hgt : 0 < ls.foldl max 0 := lt_of_lt_of_le hp0 (h1 _ (List.mem_cons_of_mem _ (mem e0 he0 hne0)))
    rw [hml, if_neg hgt.ne']
    constructor
    · rcases List.mem_cons.mp h2 with h2 | h2
      · rw [h2] at hgt; exact absurd hgt (lt_irrefl _)
      · rw [hls, List.mem_map] at h2
        obtain ⟨e, he, hel⟩ := h2
        obtain ⟨he, hne⟩ := List.mem_filter.mp he
        exact ⟨e, he, by simpa using hne, by rw [hls, ← hel]; rfl⟩
    · intro e he hne
      exact h1 _ (List.mem_cons_of_mem _ (mem e he hne))

example : maxLead [⟨.noop, "a".toList⟩, ⟨.setFont (.subset 0) 24, []⟩, ⟨.setLineSpacing 2, "b".toList⟩, ⟨.setFont (.subset 0) 100, []⟩]
    ⟨.subset 0, 12, ⟨0, 0, 0⟩, 5/4, 0⟩ = 48 := by decide +kernel

end Pdfje
