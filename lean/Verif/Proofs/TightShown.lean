import Verif.Proofs.Tight
import Verif.Proofs.Placed
import Verif.Spec.Tight
/-
Where the glyphs of a paragraph are.
-/

namespace Pdfje

variable {env : Env}

/-- The glyphs of a line are where the gaps say. -/
def ShowsGaps (env : Env) (l : List Gap) (s : ShownLine) : Prop := ∃ x, Spaced env.widths s.left l s.glyphs x

theorem line_gaps {l : TLine} (hs : ∀ w ∈ l.words, w.Strict) {v : Viewer} (h : Showable env [l.toR] v) :
    ∃ x, Spaced env.widths v.x l.gaps (Viewer.run env.widths l.toR.ops v).1 x := by
  rcases h with ⟨st, ⟨mid, h1, -⟩, h2⟩ | h
  · obtain ⟨g2, v2, k1, k2⟩ := encodeWords_placed l.words _ _ h1 hs [] v [] v rfl h2
    have e : l.toR.ops = encodeWords l.words [] := rfl
    rw [e, k1]
    exact ⟨_, k2.2⟩
  · obtain ⟨h1, -⟩ := h l.toR (by simp)
    have h1 : l.words = [] := h1
    have e : l.toR.ops = encodeWords [] [] := by
      show ([] : List TextOp) ++ encodeWords l.words [] = _
      rw [h1]; rfl
    have hg : l.gaps = [] := by rw [TLine.gaps, h1]; rfl
    rw [e, hg]
    exact ⟨v.x, .nil _⟩

theorem chunk_gaps {c : ShapedText} {pre fin : State} (hw : WordsWF env (c.lines.flatMap TLine.words) pre fin) (hq : c.StartsQuiet)
    (hs : ∀ l ∈ c.lines, ∀ w ∈ l.words, w.Strict) (pos : ℚ × ℚ) (width : ℚ) (v : Viewer) :
    List.Forall₂ (ShowsGaps env) (c.lines.map TLine.gaps) (c.shownAt env.widths pos width v) := by
  obtain ⟨ops, ss, h1, h2, h3⟩ := chunk_shown hw hq pos width v
  have e : c.shownAt env.widths pos width v = ss := by
    simp only [ShapedText.shownAt, h1, h2]
    rfl
  rw [e]
  have h4 := h3.run
  clear h3 h2 h1 e hw hq
  generalize c.lines = ls at *
  induction ls generalizing ss with
  | nil => cases h4; exact .nil
  | cons l ls ih =>
    cases h4 with
    | cons h5 h6 =>
      refine .cons ?_ (ih _ (fun x hx => hs x (List.mem_cons_of_mem _ hx)) h6)
      obtain ⟨v', k1, k2, k3⟩ := h5
      obtain ⟨x, k4⟩ := line_gaps (hs l (by simp)) k1
      exact ⟨x, by rw [← k2, k3]; exact k4⟩

theorem forall₂_append {α β : Type} {R : α → β → Prop} {a b : List α} {a' b' : List β} (h1 : List.Forall₂ R a a') (h2 : List.Forall₂ R b b') : List.Forall₂ R (a ++ b) (a' ++ b') := by
  induction h1 with
  | nil => exact h2
  | cons h _ ih => exact .cons h ih

theorem chunks_gaps {cs : List ShapedText} {ss : List ShownLine} (h : ShownFor env.widths cs ss)
    (hw : ∀ c ∈ cs, ∃ pre fin, WordsWF env (c.lines.flatMap TLine.words) pre fin) (hq : ∀ c ∈ cs, c.StartsQuiet)
    (hs : ∀ c ∈ cs, ∀ l ∈ c.lines, ∀ w ∈ l.words, w.Strict) :
    List.Forall₂ (ShowsGaps env) ((cs.flatMap ShapedText.lines).map TLine.gaps) ss := by
  induction h with
  | nil => exact .nil
  | cons c cs pos width v ss _ ih =>
    rw [List.flatMap_cons, List.map_append]
    obtain ⟨pre, fin, hw'⟩ := hw c (by simp)
    exact forall₂_append (chunk_gaps hw' (hq c (by simp)) (hs c (by simp)) pos width v)
      (ih (fun x hx => hw x (List.mem_cons_of_mem _ hx)) (fun x hx => hq x (List.mem_cons_of_mem _ hx)) (fun x hx => hs x (List.mem_cons_of_mem _ hx)))

/-! ### Pairs of glyphs -/

/-- A glyph of this character. -/
def Of (g : Glyph) (e : Gap) : Prop := g.char = e.2.1 ∧ g.font = some (e.2.2.font, e.2.2.size)

theorem Spaced.chars {x : ℚ} {l : List Gap} {gs : List Glyph} {x' : ℚ} (h : Spaced env.widths x l gs x') : List.Forall₂ Of gs l := by
  induction h with
  | nil => exact .nil
  | cons x k c st l g gs x' e1 e2 e3 _ ih => exact .cons ⟨e1, e2⟩ ih

theorem Spaced.pair {u w : List Glyph} {g h : Glyph} : ∀ {x : ℚ} {l : List Gap} {x' : ℚ}, Spaced env.widths x l (u ++ g :: h :: w) x' →
    ∃ a X Y b, l = a ++ X :: Y :: b ∧ a.length = u.length ∧ Of g X ∧ Of h Y ∧ List.Forall₂ Of w b ∧
      h.x = g.x + (env.metrics X.2.2.font).charwidth X.2.1 / 1000 * X.2.2.size + Y.1 / 1000 * Y.2.2.size := by
  induction u with
  | nil =>
    intro x l x' hs
    cases hs with
    | cons _ k c st l _ _ _ e1 e2 e3 e4 =>
      cases e4 with
      | cons _ k' c' st' l' _ _ _ f1 f2 f3 f4 =>
        exact ⟨[], (k, c, st), (k', c', st'), l', rfl, rfl, ⟨e1, e2⟩, ⟨f1, f2⟩, f4.chars, f3⟩
  | cons y u ih =>
    intro x l x' hs
    cases hs with
    | cons _ k c st l _ _ _ e1 e2 e3 e4 =>
      obtain ⟨a, X, Y, b, rfl, h2, h3⟩ := ih e4
      exact ⟨(k, c, st) :: a, X, Y, b, rfl, by simp [h2], h3⟩

theorem Spaced.first {x : ℚ} {l : List Gap} {gs : List Glyph} {x' : ℚ} (hs : Spaced env.widths x l gs x') : ∀ g ∈ gs.head?, ∃ Y ∈ l.head?, Of g Y ∧ g.x = x + Y.1 / 1000 * Y.2.2.size := by
  intro g hg
  cases hs with
  | nil => simp at hg
  | cons _ k c st l g' _ _ e1 e2 e3 e4 =>
    cases hg
    exact ⟨_, rfl, ⟨e1, e2⟩, e3⟩

/-- Kerning by the font. -/
theorem pair_kerned {g h : Glyph} {X Y : Gap} (hg : Of g X) (hh : Of h Y) (hx : h.x = g.x + (env.metrics X.2.2.font).charwidth X.2.1 / 1000 * X.2.2.size + Y.1 / 1000 * Y.2.2.size)
    (hf : Fits env X Y) : KernedPair env.metrics g h := by
  refine ⟨fun hne hm => ?_, ?_⟩
  · intro f z e1
    rw [hg.2] at e1
    rw [hg.2, hh.2] at hne
    simp only [Option.some.injEq, Prod.mk.injEq] at e1
    obtain ⟨rfl, rfl⟩ := e1
    rw [Fits, if_neg (by rintro ⟨h1, h2⟩; exact hne (by rw [h1, h2]))] at hf
    rw [hx, hf.resolve_left (by rw [← hh.1]; exact hm), hg.1]
    ring
  intro f z e1 e2
  rw [hg.2] at e1
  rw [hh.2] at e2
  simp only [Option.some.injEq, Prod.mk.injEq] at e1 e2
  obtain ⟨rfl, rfl⟩ := e1
  obtain ⟨e3, e4⟩ := e2
  rw [Fits, if_pos ⟨e3.symm, e4.symm⟩] at hf
  rw [hx, hf, Env.kernOf, e3, e4, hg.1, hh.1]
  ring

theorem pair_unkerned {g h : Glyph} {X Y : Gap} (hg : Of g X) (hx : h.x = g.x + (env.metrics X.2.2.font).charwidth X.2.1 / 1000 * X.2.2.size + Y.1 / 1000 * Y.2.2.size)
    (hf : Y.1 = 0) : UnkernedPair env.metrics g h := by
  intro f z e1
  rw [hg.2] at e1
  simp only [Option.some.injEq, Prod.mk.injEq] at e1
  obtain ⟨rfl, rfl⟩ := e1
  rw [hx, hf, hg.1]
  ring

theorem pair_loose {g h : Glyph} {X Y : Gap} (hg : Of g X) (hh : Of h Y) (hx : h.x = g.x + (env.metrics X.2.2.font).charwidth X.2.1 / 1000 * X.2.2.size + Y.1 / 1000 * Y.2.2.size)
    (hl : Loose env X Y) : KernedPair env.metrics g h ∨ isBreak g.char = true ∧ UnkernedPair env.metrics g h := by
  by_cases hk : X.2.2.kernsWith Y.2.2 = true
  · rcases hl.2 hk with hf | hb
    · exact .inl (pair_kerned hg hh hx hf)
    · rcases hl.1 with h0 | h0
      · exact .inr ⟨by rw [hg.1]; exact hb, pair_unkerned hg hx h0⟩
      · exact .inl (pair_kerned hg hh hx (by rw [Fits, if_pos (kernsWith_iff.1 hk)]; exact h0.2))
  · have hk' := fun h => hk (kernsWith_iff.2 h)
    rcases hl.1 with h0 | h0
    · exact .inl (pair_kerned hg hh hx (by rw [Fits, if_neg hk']; exact .inr h0))
    · exact .inl (pair_kerned hg hh hx (by rw [Fits, if_neg hk']; exact .inl (h0.1.resolve_right hk')))

theorem stretched_pair {j : Bool} : ∀ {a : List Gap} {l : List Gap} {X Y : Gap} {b : List Gap}, List.Forall₂ (Stretched j) l (a ++ X :: Y :: b) →
    ∃ a' X' Y' b', l = a' ++ X' :: Y' :: b' ∧ Stretched j X' X ∧ Stretched j Y' Y ∧ List.Forall₂ (Stretched j) b' b
  | [], l, X, Y, b, h => by
    cases h with
    | cons h1 h2 =>
      cases h2 with
      | cons h3 h4 => exact ⟨[], _, _, _, rfl, h1, h3, h4⟩
  | c :: a, l, X, Y, b, h => by
    cases h with
    | cons h1 h2 =>
      obtain ⟨a', X', Y', b', rfl, h3⟩ := stretched_pair h2
      exact ⟨_ :: a', X', Y', b', rfl, h3⟩

theorem Stretched.same {j : Bool} {a b : Gap} (h : Stretched j a b) (hj : j = true → b.2.1 ≠ ' ') : b = a := by
  have : b.1 = a.1 := h.2 (by cases j with | false => exact .inl rfl | true => exact .inr (hj rfl))
  exact Prod.ext this h.1

theorem of_stretched {j : Bool} {g : Glyph} {a b : Gap} (h : Stretched j a b) (hg : Of g b) : Of g a := by
  rw [Of, ← h.1]; exact hg

theorem forall₂_of_stretched {j : Bool} : ∀ {gs : List Glyph} {b b' : List Gap}, List.Forall₂ Of gs b → List.Forall₂ (Stretched j) b' b → List.Forall₂ Of gs b'
  | [], _, _, h1, h2 => by cases h1; cases h2; exact .nil
  | g :: gs, _, _, h1, h2 => by
    cases h1 with
    | cons h3 h4 =>
      cases h2 with
      | cons h5 h6 => exact .cons (of_stretched h5 h3) (forall₂_of_stretched h4 h6)

theorem noBreakInside_of : ∀ {gs : List Glyph} {b : List Gap}, List.Forall₂ Of gs b → Wordy b → NoBreakInside gs
  | [], _, _, _ => by intro g hg; simp at hg
  | [g], _, _, _ => by intro g hg; simp at hg
  | g :: g' :: gs, _, h, hw => by
    cases h with
    | cons h1 h2 =>
      cases h2 with
      | cons h3 h4 =>
        intro x hx
        rw [List.dropLast_cons_cons] at hx
        rcases List.mem_cons.1 hx with rfl | hx
        · rw [h1.1]; exact hw _ (by simp)
        · exact noBreakInside_of (.cons h3 h4) (fun y hy => hw y (by rw [List.dropLast_cons_cons]; exact List.mem_cons_of_mem _ hy)) x hx

/-- A line shows glyphs, and they come from these gaps. -/
def ShowsStretched (env : Env) (j : Bool) (l : List Gap) (s : ShownLine) : Prop := ∃ l', List.Forall₂ (Stretched j) l l' ∧ ShowsGaps env l' s

theorem forall₂_comp {α β γ : Type} {R : α → β → Prop} {S : β → γ → Prop} : ∀ {a : List α} {b : List β} {c : List γ}, List.Forall₂ R a b → List.Forall₂ S b c →
    List.Forall₂ (fun x z => ∃ y, R x y ∧ S y z) a c
  | [], _, _, h1, h2 => by cases h1; cases h2; exact .nil
  | x :: a, _, _, h1, h2 => by
    cases h1 with
    | cons h3 h4 =>
      cases h2 with
      | cons h5 h6 => exact .cons ⟨_, h3, h5⟩ (forall₂_comp h4 h6)

theorem LinesOf.shown {ff j : Bool} {q : List Gap} {cs : List ShapedText} (h : LinesOf env ff j q cs) {ss : List ShownLine} (hs : ShownFor env.widths cs ss)
    (hw : ∀ c ∈ cs, ∃ pre fin, WordsWF env (c.lines.flatMap TLine.words) pre fin) (hq : ∀ c ∈ cs, c.StartsQuiet) :
    ∃ ls, Broken env ff q ls ∧ List.Forall₂ (ShowsStretched env j) ls ss := by
  obtain ⟨ls, h1, h2⟩ := h.broken
  exact ⟨ls, h1, forall₂_comp h2 (chunks_gaps hs hw hq h.strict)⟩

theorem ShowsStretched.pair {j : Bool} {l : List Gap} {s : ShownLine} (h : ShowsStretched env j l s) {u w : List Glyph} {g k : Glyph} (e : s.glyphs = u ++ g :: k :: w)
    (hj : j = true → k.char ≠ ' ') : ∃ a X Y b, l = a ++ X :: Y :: b ∧ Of g X ∧ Of k Y ∧ List.Forall₂ Of w b ∧
      k.x = g.x + (env.metrics X.2.2.font).charwidth X.2.1 / 1000 * X.2.2.size + Y.1 / 1000 * Y.2.2.size := by
  obtain ⟨l', h1, x, h2⟩ := h
  rw [e] at h2
  obtain ⟨a, X, Y, b, rfl, -, h3, h4, h5, h6⟩ := h2.pair
  obtain ⟨a', X', Y', b', rfl, k1, k2, k3⟩ := stretched_pair h1
  have : Y = Y' := k2.same (fun hj' => by rw [← h4.1]; exact hj hj')
  subst this
  refine ⟨a', X', Y, b', rfl, of_stretched k1 h3, h4, forall₂_of_stretched h5 k3, ?_⟩
  rw [h6, k1.1]

theorem ShowsStretched.chars {j : Bool} {l : List Gap} {s : ShownLine} (h : ShowsStretched env j l s) : List.Forall₂ Of s.glyphs l := by
  obtain ⟨l', h1, x, h2⟩ := h
  exact forall₂_of_stretched h2.chars h1

theorem ShowsStretched.first {j : Bool} {l : List Gap} {s : ShownLine} (h : ShowsStretched env j l s) {g : Glyph} (hg : g ∈ s.glyphs.head?)
    (hj : j = true → g.char ≠ ' ') : ∃ Y ∈ l.head?, Of g Y ∧ g.x = s.left + Y.1 / 1000 * Y.2.2.size := by
  obtain ⟨l', h1, x, h2⟩ := h
  obtain ⟨Y, k1, k2, k3⟩ := h2.first g hg
  cases h1 with
  | nil => simp at k1
  | cons h3 h4 =>
    cases k1
    have := h3.same (fun hj' => by rw [← k2.1]; exact hj hj')
    subst this
    exact ⟨_, rfl, k2, k3⟩

end Pdfje
