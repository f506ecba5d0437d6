import Verif.Proofs.Content
/-
Every font that a page names was requested from the registry.
-/

namespace Pdfje

section
variable (P : FontRef → Prop)

@[inherit_doc ShowItem.Fonts] def Command.Fonts (c : Command) : Prop := ∀ op ∈ c.ops, op.Fonts P

@[inherit_doc ShowItem.Fonts] def Box.Fonts : Box → Prop
  | .slug s => P s.state.font
  | .mixed segs st => (∀ e ∈ segs, P e.1.state.font ∧ e.2.Fonts P) ∧ P st.font

@[inherit_doc ShowItem.Fonts] def Word.Fonts (w : Word) : Prop := (∀ b ∈ w.boxes, b.Fonts P) ∧ P w.state.font

@[inherit_doc ShowItem.Fonts] def WordLike.Fonts : WordLike → Prop
  | .box b => b.Fonts P
  | .word w => w.Fonts P
  | .withCmd w c => w.Fonts ∧ c.Fonts P

end

variable {P : FontRef → Prop}

/-! ### Commands -/

theorem Command.fonts_noop : Command.noop.Fonts P := by simp [Command.Fonts, Command.ops]

theorem Command.fonts_chain {l : List Command} (h : ∀ c ∈ l, c.Fonts P) : (Command.chain l).Fonts P := by
  induction l with
  | nil => simp [Command.Fonts, Command.ops, opsAll]
  | cons c l ih =>
    intro op hop
    simp only [Command.ops, opsAll, List.mem_append] at hop
    rcases hop with hop | hop
    · exact h c (by simp) op hop
    · exact ih (fun c hc => h c (by simp [hc])) op (by simpa [Command.ops] using hop)

mutual
theorem Command.fonts_apply (c : Command) (s : State) (hc : c.Fonts P) (hs : P s.font) : P (c.apply s).font := by
  match c with
  | .noop => exact hs
  | .setFont f z => exact hc (.tf f z) (by simp [Command.ops])
  | .setColor _ => exact hs
  | .setLineSpacing _ => exact hs
  | .setHyphens _ => exact hs
  | .chain l => exact applyAll_fonts l s (by simpa [Command.Fonts, Command.ops] using hc) hs
theorem applyAll_fonts (l : List Command) (s : State) (hc : ∀ op ∈ opsAll l, op.Fonts P) (hs : P s.font) : P (applyAll l s).font := by
  match l with
  | [] => exact hs
  | c :: cs =>
    rw [applyAll]
    exact applyAll_fonts cs _ (fun op h => hc op (by simp [opsAll, h])) (c.fonts_apply s (fun op h => hc op (by simp [opsAll, h])) hs)
end

theorem mem_dictSet {α β} [BEq α] : ∀ {d : List (α × β)} {k : α} {v : β} {e : α × β}, e ∈ dictSet d k v → e.2 = v ∨ e ∈ d
  | [], k, v, e, h => by simp only [dictSet, List.mem_singleton] at h; exact .inl (by rw [h])
  | (k', v') :: d, k, v, e, h => by
    rw [dictSet] at h
    split at h
    · rcases List.mem_cons.mp h with h | h
      · exact .inl (by rw [h])
      · exact .inr (by simp [h])
    · rcases List.mem_cons.mp h with h | h
      · exact .inr (by simp [h])
      · rcases mem_dictSet h with h | h
        · exact .inl h
        · exact .inr (by simp [h])

theorem mem_byType {it : List Command} {e : Nat × Command} (h : e ∈ byType it) : e.2 ∈ it := by
  unfold byType at h
  have key : ∀ (it : List Command) (d : List (Nat × Command)), e ∈ it.foldl (fun d c => dictSet d c.kind c) d → e ∈ d ∨ e.2 ∈ it := by
    intro it
    induction it with
    | nil => intro d h; exact .inl h
    | cons c it ih =>
      intro d h
      rcases ih _ h with h | h
      · rcases mem_dictSet h with h | h
        · exact .inr (by simp [h])
        · exact .inl h
      · exact .inr (by simp [h])
  rcases key it [] h with h | h
  · simp at h
  · exact h

theorem squash_fonts {it : List Command} (h : ∀ c ∈ it, c.Fonts P) : (squash it).Fonts P := by
  unfold squash
  split
  · rename_i e he
    exact h _ (mem_byType (by rw [he]; simp))
  · exact Command.fonts_noop
  · apply Command.fonts_chain
    intro c hc
    obtain ⟨e, he, rfl⟩ := List.mem_map.mp hc
    exact h _ (mem_byType he)

/-! ### Words -/

theorem Slug.state_withHyphen (env : Env) (s : Slug) : (s.withHyphen env).state = s.state := rfl

theorem Slug.state_withoutInitKern (s : Slug) : s.withoutInitKern.state = s.state := by
  unfold Slug.withoutInitKern; split <;> rfl

theorem Slug.state_indent (s : Slug) (a : ℚ) : (s.indent a).state = s.state := by
  unfold Slug.indent; split <;> rfl

theorem Box.Fonts.state {b : Box} (h : b.Fonts P) : P b.state.font := by
  cases b with
  | slug s => exact h
  | mixed segs st => exact h.2

theorem Box.Fonts.withHyphen {b : Box} (h : b.Fonts P) (env : Env) : (b.withHyphen env).Fonts P := by
  cases b with
  | slug s => exact h
  | mixed segs st =>
    refine ⟨?_, h.2⟩
    intro e he
    rcases List.mem_append.mp he with he | he
    · exact h.1 e he
    · simp only [List.mem_singleton] at he
      subst he
      exact ⟨h.2, Command.fonts_noop⟩

theorem Box.Fonts.withoutInitKern {b : Box} (h : b.Fonts P) : b.withoutInitKern.Fonts P := by
  cases b with
  | slug s => show P _; rw [Slug.state_withoutInitKern]; exact h
  | mixed segs st =>
    cases segs with
    | nil => exact h
    | cons e segs =>
      obtain ⟨s, c⟩ := e
      refine ⟨?_, h.2⟩
      intro e he
      rcases List.mem_cons.mp he with rfl | he
      · exact ⟨by rw [Slug.state_withoutInitKern]; exact (h.1 (s, c) (by simp)).1, (h.1 (s, c) (by simp)).2⟩
      · exact h.1 e (by simp [he])

theorem Box.Fonts.indent {b : Box} (h : b.Fonts P) (a : ℚ) : (b.indent a).Fonts P := by
  cases b with
  | slug s => show P _; rw [Slug.state_indent]; exact h
  | mixed segs st =>
    cases segs with
    | nil => exact h
    | cons e segs =>
      obtain ⟨s, c⟩ := e
      simp only [Box.indent]
      split
      · exact h
      · refine ⟨?_, h.2⟩
        intro e he
        rcases List.mem_cons.mp he with rfl | he
        · exact ⟨by rw [Slug.state_indent]; exact (h.1 (s, c) (by simp)).1, (h.1 (s, c) (by simp)).2⟩
        · exact h.1 e (by simp [he])

theorem Word.Fonts.withoutInitKern {w : Word} (h : w.Fonts P) : w.withoutInitKern.Fonts P := by
  unfold Word.withoutInitKern
  split
  · rename_i b rest hb
    split
    · refine ⟨?_, h.2⟩
      intro x hx
      rcases List.mem_cons.mp hx with rfl | hx
      · exact (h.1 b (by simp [hb])).withoutInitKern
      · exact h.1 x (by simp [hb, hx])
    · exact h
  · split
    · split
      · exact h
      · exact h
    · exact h

theorem Word.Fonts.indent {w : Word} (h : w.Fonts P) (a : ℚ) : (w.indent a).Fonts P := by
  unfold Word.indent
  split
  · exact h
  · split
    · rename_i b rest hb
      refine ⟨?_, h.2⟩
      intro x hx
      rcases List.mem_cons.mp hx with rfl | hx
      · exact (h.1 b (by simp [hb])).indent a
      · exact h.1 x (by simp [hb, hx])
    · split
      · exact h
      · exact h

theorem Word.Fonts.extendTail {w : Word} (h : w.Fonts P) (a : ℚ) : (w.extendTail a).Fonts P := by
  unfold Word.extendTail
  split
  · split
    · exact h
    · exact h
  · exact h

theorem Word.Fonts.stretchTail {w : Word} (h : w.Fonts P) (a : ℚ) : (w.stretchTail a).Fonts P := by
  unfold Word.stretchTail
  split
  · split
    · exact h
    · exact h
  · exact h

theorem Word.Fonts.pruned {w : Word} (h : w.Fonts P) : w.pruned.Fonts P := by
  unfold Word.pruned
  split
  · exact h
  · exact h

theorem hyphenateLoop_fonts (env : Env) : ∀ (rest : List Box) (b : Box) (space : ℚ) (fit : List Box) (n : Box) (r : List Box) (st : State),
    hyphenateLoop env b rest space = some (fit, n, r, st) → b.Fonts P → (∀ x ∈ rest, x.Fonts P) →
    (∀ x ∈ fit, x.Fonts P) ∧ n.Fonts P ∧ (∀ x ∈ r, x.Fonts P) ∧ P st.font
  | [], b, space, fit, n, r, st, h, hb, hr => by simp [hyphenateLoop] at h
  | next :: rest, b, space, fit, n, r, st, h, hb, hr => by
    rw [hyphenateLoop] at h
    simp only at h
    split at h
    · simp only [Option.some.injEq, Prod.mk.injEq] at h
      obtain ⟨rfl, rfl, rfl, rfl⟩ := h
      exact ⟨by simpa using hb.withHyphen env, hr _ (by simp), fun x hx => hr x (by simp [hx]), hb.state⟩
    · simp only [Option.map_eq_some_iff, Prod.mk.injEq, Prod.exists] at h
      obtain ⟨fit', n', r', st', h, rfl, rfl, rfl, rfl⟩ := h
      obtain ⟨h1, h2, h3, h4⟩ := hyphenateLoop_fonts env rest next _ _ _ _ _ h (hr _ (by simp)) fun x hx => hr x (by simp [hx])
      exact ⟨by simpa [hb] using h1, h2, h3, h4⟩

theorem Word.Fonts.hyphenate {w : Word} (h : w.Fonts P) {env : Env} {space : ℚ} {a : Option Word} {b : Word} (he : w.hyphenate env space = some (a, b)) :
    (∀ x, a = some x → x.Fonts P) ∧ b.Fonts P := by
  unfold Word.hyphenate at he
  split at he
  · simp only [Option.some.injEq, Prod.mk.injEq] at he
    obtain ⟨rfl, rfl⟩ := he
    exact ⟨by simp, h.withoutInitKern⟩
  · rename_i b0 rest hb
    split at he
    · simp only [Option.some.injEq, Prod.mk.injEq] at he
      obtain ⟨rfl, rfl⟩ := he
      exact ⟨by simp, h.withoutInitKern⟩
    · simp only [Option.map_eq_some_iff, Prod.mk.injEq, Prod.exists] at he
      obtain ⟨fit, n, r, st, he, rfl, rfl⟩ := he
      obtain ⟨h1, h2, h3, h4⟩ := hyphenateLoop_fonts env rest b0 _ _ _ _ _ he (h.1 _ (by simp [hb])) fun x hx => h.1 x (by simp [hb, hx])
      refine ⟨?_, ?_, h.2⟩
      · rintro x ⟨⟩
        exact ⟨h1, h4⟩
      · intro x hx
        rcases List.mem_cons.mp hx with rfl | hx
        · exact h2.withoutInitKern
        · exact h3 x hx

theorem Word.Fonts.minimalBox {w : Word} (h : w.Fonts P) {env : Env} {a : Word} {b : Option Word} (he : w.minimalBox env = (a, b)) :
    a.Fonts P ∧ ∀ x, b = some x → x.Fonts P := by
  unfold Word.minimalBox at he
  split at he
  · rename_i b0 b2 rest hb
    simp only [Prod.mk.injEq] at he
    obtain ⟨rfl, rfl⟩ := he
    have h0 := h.1 b0 (by simp [hb])
    refine ⟨⟨by simpa using h0.withHyphen env, h0.state⟩, ?_⟩
    rintro x ⟨⟩
    refine ⟨?_, h.2⟩
    intro x hx
    rcases List.mem_cons.mp hx with rfl | hx
    · exact (h.1 b2 (by simp [hb])).withoutInitKern
    · exact h.1 x (by simp [hb, hx])
  · simp only [Prod.mk.injEq] at he
    obtain ⟨rfl, rfl⟩ := he
    exact ⟨h, by simp⟩

namespace WordLike

theorem Fonts.state : ∀ {w : WordLike}, w.Fonts P → P w.state.font
  | .box _, h => Box.Fonts.state h
  | .word _, h => h.2
  | .withCmd _ c, h => c.fonts_apply _ h.2 h.1.state

theorem Fonts.addCmd {w : WordLike} (h : w.Fonts P) {c : Command} (hc : c.Fonts P) : (w.addCmd c).Fonts P := by
  cases c <;> first | exact h | exact ⟨h, hc⟩

theorem Fonts.pruned : ∀ {w : WordLike}, w.Fonts P → w.pruned.Fonts P
  | .box _, h => h
  | .word _, h => Word.Fonts.pruned h
  | .withCmd _ _, h => ⟨h.1.pruned, h.2⟩

theorem Fonts.indent (a : ℚ) : ∀ {w : WordLike}, w.Fonts P → (w.indent a).Fonts P
  | .box _, h => Box.Fonts.indent h a
  | .word _, h => Word.Fonts.indent h a
  | .withCmd _ _, h => by
    rw [WordLike.indent]
    split
    · exact h
    · exact ⟨h.1.indent a, h.2⟩

theorem Fonts.extendTail (a : ℚ) : ∀ {w : WordLike}, w.Fonts P → (w.extendTail a).Fonts P
  | .box _, h => h
  | .word _, h => Word.Fonts.extendTail h a
  | .withCmd _ _, h => by
    rw [WordLike.extendTail]
    split
    · exact ⟨h.1.extendTail a, h.2⟩
    · exact h

theorem Fonts.stretchTail (a : ℚ) : ∀ {w : WordLike}, w.Fonts P → (w.stretchTail a).Fonts P
  | .box _, h => h
  | .word _, h => Word.Fonts.stretchTail h a
  | .withCmd _ _, h => by
    rw [WordLike.stretchTail]
    split
    · exact ⟨h.1.stretchTail a, h.2⟩
    · exact h

theorem Fonts.hyphenate {env : Env} {space : ℚ} : ∀ {w : WordLike} {a : Option WordLike} {b : WordLike}, w.Fonts P → w.hyphenate env space = some (a, b) →
    (∀ x, a = some x → x.Fonts P) ∧ b.Fonts P
  | .box x, a, b, h, he => by
    simp only [WordLike.hyphenate, Option.some.injEq, Prod.mk.injEq] at he
    obtain ⟨rfl, rfl⟩ := he
    exact ⟨by simp, h⟩
  | .word w, a, b, h, he => by
    simp only [WordLike.hyphenate, Option.map_eq_some_iff, Prod.mk.injEq, Prod.exists] at he
    obtain ⟨a', b', he, rfl, rfl⟩ := he
    obtain ⟨h1, h2⟩ := Word.Fonts.hyphenate h he
    refine ⟨?_, h2⟩
    intro x hx
    obtain ⟨y, rfl, rfl⟩ := Option.map_eq_some_iff.mp hx
    exact h1 y rfl
  | .withCmd w c, a, b, h, he => by
    simp only [WordLike.hyphenate, Option.map_eq_some_iff, Prod.mk.injEq, Prod.exists] at he
    obtain ⟨a', b', he, rfl, rfl⟩ := he
    obtain ⟨h1, h2⟩ := Fonts.hyphenate h.1 he
    exact ⟨h1, h2.addCmd h.2⟩

theorem Fonts.minimalBox {env : Env} : ∀ {w : WordLike} {a : WordLike} {b : Option WordLike}, w.Fonts P → w.minimalBox env = (a, b) →
    a.Fonts P ∧ ∀ x, b = some x → x.Fonts P
  | .box x, a, b, h, he => by
    simp only [WordLike.minimalBox, Prod.mk.injEq] at he
    obtain ⟨rfl, rfl⟩ := he
    exact ⟨h, by simp⟩
  | .word w, a, b, h, he => by
    simp only [WordLike.minimalBox, Prod.mk.injEq] at he
    obtain ⟨rfl, rfl⟩ := he
    obtain ⟨h1, h2⟩ := Word.Fonts.minimalBox h (env := env) rfl
    refine ⟨h1, ?_⟩
    intro x hx
    obtain ⟨y, hy, rfl⟩ := Option.map_eq_some_iff.mp hx
    exact h2 y hy
  | .withCmd w c, a, b, h, he => by
    simp only [WordLike.minimalBox] at he
    split at he
    · rename_i a' hm
      simp only [Prod.mk.injEq] at he
      obtain ⟨rfl, rfl⟩ := he
      exact ⟨(Fonts.minimalBox h.1 hm).1.addCmd h.2, by simp⟩
    · rename_i a' b' hm
      simp only [Prod.mk.injEq] at he
      obtain ⟨rfl, rfl⟩ := he
      obtain ⟨h1, h2⟩ := Fonts.minimalBox h.1 hm
      refine ⟨h1, ?_⟩
      rintro x ⟨⟩
      exact (h2 b' rfl).addCmd h.2

theorem Fonts.boxes : ∀ {w : WordLike}, w.Fonts P → ∀ b ∈ w.boxes, b.Fonts P
  | .box b, h => fun x hx => by simp only [WordLike.boxes, List.mem_singleton] at hx; subst hx; exact h
  | .word w, h => h.1
  | .withCmd w c, h => h.1.boxes

end WordLike

theorem Slug.toItems_fonts {s : Slug} (h : P s.state.font) : ∀ i ∈ s.toItems, i.Fonts P := by
  intro i hi
  obtain ⟨p, -, rfl⟩ := List.mem_map.mp hi
  cases p with
  | adj x => trivial
  | str s => exact h

theorem encodeSegments_fonts : ∀ {segs : List (Slug × Command)} {line : List ShowItem}, (∀ e ∈ segs, P e.1.state.font ∧ e.2.Fonts P) →
    (∀ i ∈ line, i.Fonts P) → (∀ op ∈ (encodeSegments segs line).1, op.Fonts P) ∧ ∀ i ∈ (encodeSegments segs line).2, i.Fonts P
  | [], line, h, hl => ⟨by simp [encodeSegments], hl⟩
  | (s, c) :: segs, line, h, hl => by
    obtain ⟨h1, h2⟩ := encodeSegments_fonts (segs := segs) (line := []) (fun e he => h e (by simp [he])) (by simp)
    rw [encodeSegments]
    refine ⟨?_, h2⟩
    intro op hop
    simp only [List.cons_append, List.mem_cons, List.mem_append] at hop
    rcases hop with rfl | hop | hop
    · intro i hi
      rcases List.mem_append.mp hi with hi | hi
      · exact hl i hi
      · exact Slug.toItems_fonts (h (s, c) (by simp)).1 i hi
    · exact (h (s, c) (by simp)).2 op hop
    · exact h1 op hop

theorem Box.encodeInto_fonts {b : Box} {line : List ShowItem} (h : b.Fonts P) (hl : ∀ i ∈ line, i.Fonts P) :
    (∀ op ∈ (b.encodeInto line).1, op.Fonts P) ∧ ∀ i ∈ (b.encodeInto line).2, i.Fonts P := by
  cases b with
  | slug s =>
    refine ⟨by simp [Box.encodeInto], ?_⟩
    intro i hi
    rcases List.mem_append.mp hi with hi | hi
    · exact hl i hi
    · exact Slug.toItems_fonts h i hi
  | mixed segs st => exact encodeSegments_fonts h.1 hl

theorem encodeBoxes_fonts : ∀ {bs : List Box} {line : List ShowItem}, (∀ b ∈ bs, b.Fonts P) → (∀ i ∈ line, i.Fonts P) →
    (∀ op ∈ (encodeBoxes bs line).1, op.Fonts P) ∧ ∀ i ∈ (encodeBoxes bs line).2, i.Fonts P
  | [], line, h, hl => ⟨by simp [encodeBoxes], hl⟩
  | b :: bs, line, h, hl => by
    obtain ⟨h1, h2⟩ := Box.encodeInto_fonts (h b (by simp)) hl
    obtain ⟨h3, h4⟩ := encodeBoxes_fonts (bs := bs) (fun x hx => h x (by simp [hx])) h2
    rw [encodeBoxes]
    refine ⟨?_, h4⟩
    intro op hop
    rcases List.mem_append.mp hop with hop | hop
    · exact h1 op hop
    · exact h3 op hop

theorem WordLike.encodeInto_fonts : ∀ {w : WordLike} {line : List ShowItem}, w.Fonts P → (∀ i ∈ line, i.Fonts P) →
    (∀ op ∈ (w.encodeInto line).1, op.Fonts P) ∧ ∀ i ∈ (w.encodeInto line).2, i.Fonts P
  | .box b, line, h, hl => Box.encodeInto_fonts h hl
  | .word w, line, h, hl => by
    obtain ⟨h1, h2⟩ := encodeBoxes_fonts (bs := w.boxes) h.1 hl
    refine ⟨h1, ?_⟩
    intro i hi
    simp only [WordLike.encodeInto, Word.encodeInto] at hi
    split at hi
    · rename_i t ht
      rcases List.mem_append.mp hi with hi | hi
      · exact h2 i hi
      · unfold TrailingSpace.toItems at hi
        rcases List.mem_append.mp hi with hi | hi
        · split at hi
          · simp only [List.mem_singleton] at hi; subst hi; trivial
          · simp at hi
        · simp only [List.mem_singleton] at hi; subst hi; exact h.2
    · exact h2 i hi
  | .withCmd w c, line, h, hl => by
    obtain ⟨h1, h2⟩ := WordLike.encodeInto_fonts h.1 hl
    rw [WordLike.encodeInto]
    refine ⟨?_, by simp⟩
    intro op hop
    simp only [List.mem_append, List.mem_singleton] at hop
    rcases hop with (hop | rfl) | hop
    · exact h1 op hop
    · exact h2
    · exact h.2 op hop

theorem encodeWords_fonts : ∀ {ws : List WordLike} {line : List ShowItem}, (∀ w ∈ ws, w.Fonts P) → (∀ i ∈ line, i.Fonts P) →
    ∀ op ∈ encodeWords ws line, op.Fonts P
  | [], line, h, hl => by
    intro op hop
    simp only [encodeWords, List.mem_singleton] at hop
    subst hop
    exact hl
  | w :: ws, line, h, hl => by
    obtain ⟨h1, h2⟩ := WordLike.encodeInto_fonts (h w (by simp)) hl
    have h3 := encodeWords_fonts (ws := ws) (fun x hx => h x (by simp [hx])) h2
    intro op hop
    rw [encodeWords] at hop
    rcases List.mem_append.mp hop with hop | hop
    · exact h1 op hop
    · exact h3 op hop

/-! ### Parsing -/

theorem slugsOf_fonts {env : Env} {st : State} (hs : P st.font) : ∀ {parts : List (List Char)} {prev : Option Char} {l : List Slug},
    slugsOf env st parts prev = some l → ∀ s ∈ l, P s.state.font
  | [], prev, l, h => by simp only [slugsOf, Option.some.injEq] at h; subst h; simp
  | part :: rest, prev, l, h => by
    rw [slugsOf] at h
    split at h
    · cases h
    · simp only [Option.map_eq_some_iff] at h
      obtain ⟨l', h, rfl⟩ := h
      intro s hs'
      rcases List.mem_cons.mp hs' with rfl | hs'
      · exact hs
      · exact slugsOf_fonts hs h s hs'

theorem Word.new_fonts {env : Env} {s : List Char} {st : State} {prev : Option Char} {w : Word} (hs : P st.font) (h : Word.new env s st prev = some w) :
    w.Fonts P := by
  unfold Word.new at h
  simp only at h
  split at h
  · cases h
  · simp only [Option.map_eq_some_iff] at h
    obtain ⟨l, h, rfl⟩ := h
    refine ⟨?_, hs⟩
    intro b hb
    obtain ⟨s, hs', rfl⟩ := List.mem_map.mp hb
    exact slugsOf_fonts hs h s hs'

theorem makeWords_fonts {env : Env} {st : State} (hs : P st.font) : ∀ {ms : List (List Char)} {prev : Option Char} {ws : List Word},
    makeWords env st ms prev = some ws → ∀ w ∈ ws, w.Fonts P
  | [], prev, ws, h => by simp only [makeWords, Option.some.injEq] at h; subst h; simp
  | m :: ms, prev, ws, h => by
    rw [makeWords] at h
    split at h
    · cases h
    · rename_i w hw
      simp only [Option.map_eq_some_iff] at h
      obtain ⟨l', h, rfl⟩ := h
      intro x hx
      rcases List.mem_cons.mp hx with rfl | hx
      · exact Word.new_fonts hs hw
      · exact makeWords_fonts hs h x hx

theorem parseSimple_fonts {env : Env} {txt : List Char} {st : State} {prev : Option Char} {ws : List Word} {l : List Char ⊕ Word} (hs : P st.font)
    (h : parseSimple env txt st prev = some (ws, l)) : (∀ w ∈ ws, w.Fonts P) ∧ ∀ w, l = .inr w → w.Fonts P := by
  unfold parseSimple at h
  split at h
  · simp only [Option.some.injEq, Prod.mk.injEq] at h
    obtain ⟨rfl, rfl⟩ := h
    simp
  · split at h
    · cases h
    · rename_i ws' hw
      have := makeWords_fonts hs hw
      split at h
      · simp only [Option.some.injEq, Prod.mk.injEq] at h
        obtain ⟨rfl, rfl⟩ := h
        exact ⟨this, by simp⟩
      · split at h
        · rename_i w hl
          simp only [Option.some.injEq, Prod.mk.injEq] at h
          obtain ⟨rfl, rfl⟩ := h
          refine ⟨fun x hx => this x (List.mem_of_mem_dropLast hx), ?_⟩
          rintro x ⟨⟩
          exact this w (List.mem_of_getLast? hl)
        · cases h

theorem takeParts_fonts : ∀ {it : List Passage} {parts : List (Command × List Char)} {sp : Bool} {l : Option (List Char)} {rest : List Passage},
    (∀ p ∈ it, p.cmd.Fonts P) → takeParts it = (parts, sp, l, rest) → (∀ e ∈ parts, e.1.Fonts P) ∧ ∀ p ∈ rest, p.cmd.Fonts P
  | [], parts, sp, l, rest, hp, h => by
    simp only [takeParts, Prod.mk.injEq] at h
    obtain ⟨rfl, -, -, rfl⟩ := h
    simp
  | p :: ps, parts, sp, l, rest, hp, h => by
    rw [takeParts] at h
    split at h
    · split at h
      all_goals
        simp only [Prod.mk.injEq] at h
        obtain ⟨rfl, -, -, rfl⟩ := h
        exact ⟨by simpa using hp p (by simp), fun q hq => hp q (by simp [hq])⟩
    · simp only [Prod.mk.injEq] at h
      obtain ⟨rfl, -, -, rfl⟩ := h
      obtain ⟨h1, h2⟩ := takeParts_fonts (it := ps) (fun q hq => hp q (by simp [hq])) rfl
      refine ⟨?_, h2⟩
      intro e he
      rcases List.mem_cons.mp he with rfl | he
      · exact hp p (by simp)
      · exact h1 e he

theorem segmentsLoop_fonts {env : Env} : ∀ {parts : List (Command × List Char)} {seg : Slug} {cmds : List Command} {st : State} {prev : Option Char}
    {segs : List (Slug × Command)} {st' : State} {prev' : Option Char}, (∀ e ∈ parts, e.1.Fonts P) → P seg.state.font → (∀ c ∈ cmds, c.Fonts P) → P st.font →
    segmentsLoop env parts seg cmds st prev = (segs, st', prev') → (∀ e ∈ segs, P e.1.state.font ∧ e.2.Fonts P) ∧ P st'.font
  | [], seg, cmds, st, prev, segs, st', prev', hp, hg, hc, hs, h => by
    simp only [segmentsLoop, Prod.mk.injEq] at h
    obtain ⟨rfl, rfl, -⟩ := h
    exact ⟨by simpa using ⟨hg, squash_fonts hc⟩, hs⟩
  | (cmd, txt) :: parts, seg, cmds, st, prev, segs, st', prev', hp, hg, hc, hs, h => by
    have hcmd : cmd.Fonts P := hp (cmd, txt) (by simp)
    have hnew := cmd.fonts_apply st hcmd hs
    have hc' : ∀ c ∈ cmds ++ [cmd], c.Fonts P := by
      intro c h
      rcases List.mem_append.mp h with h | h
      · exact hc c h
      · simp only [List.mem_singleton] at h; subst h; exact hcmd
    have hp' : ∀ e ∈ parts, e.1.Fonts P := fun e he => hp e (by simp [he])
    rw [segmentsLoop] at h
    simp only at h
    split at h
    · simp only [Prod.mk.injEq] at h
      obtain ⟨rfl, rfl, -⟩ := h
      obtain ⟨h1, h2⟩ := segmentsLoop_fonts (env := env) (seg := Slug.new env txt (cmd.apply st) (if st.kernsWith (cmd.apply st) then prev else none)) (cmds := []) (prev := txt.getLast?) hp' hnew (by simp) hnew rfl
      refine ⟨?_, h2⟩
      intro e he
      rcases List.mem_cons.mp he with rfl | he
      · exact ⟨hg, squash_fonts hc'⟩
      · exact h1 e he
    · exact segmentsLoop_fonts hp' hg hc' hnew h

theorem completeWord_fonts {env : Env} {it : List Passage} {head : List Char} {st : State} {prev : Option Char} {w : Word} {l : Option (List Char)}
    {rest : List Passage} (hp : ∀ p ∈ it, p.cmd.Fonts P) (hs : P st.font) (h : completeWord env it head st prev = some (w, l, rest)) :
    w.Fonts P ∧ ∀ p ∈ rest, p.cmd.Fonts P := by
  unfold completeWord at h
  split at h
  · simp only [Option.map_eq_some_iff, Prod.mk.injEq] at h
    obtain ⟨w', h, rfl, -, rfl⟩ := h
    exact ⟨Word.new_fonts hs h, by simp⟩
  · rename_i parts sp left rest' hne ht
    simp only [Option.some.injEq, Prod.mk.injEq] at h
    obtain ⟨rfl, -, rfl⟩ := h
    obtain ⟨h1, h2⟩ := takeParts_fonts hp ht
    obtain ⟨h3, h4⟩ := segmentsLoop_fonts (env := env) (seg := Slug.new env head st prev) (cmds := []) (prev := (Slug.new env head st prev).last) h1 hs (by simp) hs rfl
    exact ⟨⟨by simpa using ⟨h3, h4⟩, h4⟩, h2⟩

theorem parse_fonts (env : Env) (it : List Passage) (st : State) (txt : List Char) {ws : List WordLike} (hp : ∀ p ∈ it, p.cmd.Fonts P) (hs : P st.font)
    (h : parse env it st txt = some ws) : ∀ w ∈ ws, w.Fonts P := by
  rw [parse] at h
  split at h
  · simp only [Option.some.injEq] at h; subst h; simp
  · have words : ∀ {us : List Word}, (∀ w ∈ us, w.Fonts P) → ∀ w ∈ us.map WordLike.word, w.Fonts P := by
      intro us hus w hw
      obtain ⟨u, hu, rfl⟩ := List.mem_map.mp hw
      exact hus u hu
    have glue : ∀ {us : List Word} {x : WordLike} {more : List WordLike}, (∀ w ∈ us, w.Fonts P) → x.Fonts P → (∀ w ∈ more, w.Fonts P) →
        ∀ w ∈ us.map WordLike.word ++ x :: more, w.Fonts P := by
      intro us x more h1 h2 h3 w hw
      rcases List.mem_append.mp hw with hw | hw
      · exact words h1 w hw
      · rcases List.mem_cons.mp hw with rfl | hw
        · exact h2
        · exact h3 w hw
    split at h
    · cases h
    · rename_i us last he
      obtain ⟨h1, h2⟩ := parseSimple_fonts hs he
      split at h
      · simp only [Option.some.injEq] at h; subst h
        exact glue h1 (h2 last rfl) (by simp)
      · rename_i p it'
        simp only [Option.map_eq_some_iff] at h
        obtain ⟨more, h, rfl⟩ := h
        have hc := hp p (by simp)
        exact glue h1 (WordLike.Fonts.addCmd (w := .word last) (h2 last rfl) hc)
          (parse_fonts env it' _ _ (fun q hq => hp q (by simp [hq])) (p.cmd.fonts_apply st hc hs) h)
    · rename_i us head he
      obtain ⟨h1, -⟩ := parseSimple_fonts hs he
      split at h
      · cases h
      · rename_i last x hx
        obtain ⟨h3, -⟩ := completeWord_fonts hp hs hx
        simp only [Option.some.injEq] at h; subst h
        exact glue h1 h3 (by simp)
      · rename_i last left rest hx
        obtain ⟨h3, h4⟩ := completeWord_fonts hp hs hx
        have hlt := completeWord_lt _ _ _ _ _ _ _ _ hx
        split at h
        · simp only [Option.map_eq_some_iff] at h
          obtain ⟨more, h, rfl⟩ := h
          exact glue h1 h3 (parse_fonts env rest _ _ h4 h3.2 h)
        · split at h
          · simp only [Option.some.injEq] at h; subst h
            exact glue h1 h3 (by simp)
          · rename_i p it' _
            simp only [Option.map_eq_some_iff] at h
            obtain ⟨more, h, rfl⟩ := h
            have hc := h4 p (by simp)
            exact glue h1 (WordLike.Fonts.addCmd (w := .word last) h3 hc)
              (parse_fonts env it' _ _ (fun q hq => h4 q (by simp [hq])) (p.cmd.fonts_apply _ hc h3.2) h)
termination_by it.length
decreasing_by
  all_goals simp_wf
  all_goals subst_vars
  all_goals try simp only [List.length_cons] at *
  all_goals omega

theorem foldCommands_fonts : ∀ {it : List Passage} {st : State} {buffer : List Command} {c : Command} {t : Option (List Char)} {st' : State} {rest : List Passage},
    (∀ p ∈ it, p.cmd.Fonts P) → P st.font → (∀ c ∈ buffer, c.Fonts P) → foldCommands it st buffer = (c, t, st', rest) →
    c.Fonts P ∧ P st'.font ∧ ∀ p ∈ rest, p.cmd.Fonts P
  | [], st, buffer, c, t, st', rest, hp, hs, hb, h => by
    simp only [foldCommands, Prod.mk.injEq] at h
    obtain ⟨rfl, -, rfl, rfl⟩ := h
    exact ⟨squash_fonts hb, hs, by simp⟩
  | p :: it, st, buffer, c, t, st', rest, hp, hs, hb, h => by
    have hc := hp p (by simp)
    have hb' : ∀ c ∈ buffer ++ [p.cmd], c.Fonts P := by
      intro c h
      rcases List.mem_append.mp h with h | h
      · exact hb c h
      · simp only [List.mem_singleton] at h; subst h; exact hc
    rw [foldCommands] at h
    split at h
    · simp only [Prod.mk.injEq] at h
      obtain ⟨rfl, -, rfl, rfl⟩ := h
      exact ⟨squash_fonts hb', p.cmd.fonts_apply st hc hs, fun q hq => hp q (by simp [hq])⟩
    · exact foldCommands_fonts (fun q hq => hp q (by simp [hq])) (p.cmd.fonts_apply st hc hs) hb' h

theorem intoWords_fonts {env : Env} {it : List Passage} {st : State} {c : Command} {ws : List WordLike} (hp : ∀ p ∈ it, p.cmd.Fonts P) (hs : P st.font)
    (h : intoWords env it st = some (c, ws)) : c.Fonts P ∧ ∀ w ∈ ws, w.Fonts P := by
  unfold intoWords at h
  split at h
  · rename_i cmd st' rest hf
    simp only [Option.some.injEq, Prod.mk.injEq] at h
    obtain ⟨rfl, rfl⟩ := h
    exact ⟨(foldCommands_fonts hp hs (by simp) hf).1, by simp⟩
  · rename_i cmd txt st' rest hf
    simp only [Option.map_eq_some_iff, Prod.mk.injEq] at h
    obtain ⟨ws', h, rfl, rfl⟩ := h
    obtain ⟨h1, h2, h3⟩ := foldCommands_fonts hp hs (by simp) hf
    exact ⟨h1, parse_fonts env rest st' txt h3 h2 h⟩

end Pdfje
