import Verif.Proofs.Broken
import Verif.Proofs.OptShape
/-
The gaps of the lines of optimal typesetting.
-/

namespace Pdfje

variable {env : Env}

def fragGaps (fs : List Fragment) : List Gap := fs.flatMap fun f => f.txt.gaps

theorem fragGaps_append (a b : List Fragment) : fragGaps (a ++ b) = fragGaps a ++ fragGaps b := by simp [fragGaps]

theorem dropLast_toList {α} (l : List α) : l.dropLast ++ l.getLast?.toList = l := by
  rcases List.eq_nil_or_concat l with rfl | ⟨a, x, rfl⟩ <;> simp

theorem chunkFrags_gaps (stretch shrink : ℚ) : ∀ (init : List Box) (width : ℚ), (∀ b ∈ init, b.Strict) →
    fragGaps ((chunkFrags env stretch shrink width init).map (·.1)) = init.flatMap Box.gaps ∧ ∀ e ∈ chunkFrags env stretch shrink width init, e.1.txt.Strict
  | [], _, _ => ⟨rfl, by simp [chunkFrags]⟩
  | b :: bs, width, h => by
    obtain ⟨h1, h2⟩ := chunkFrags_gaps stretch shrink bs (width + b.width) fun x hx => h x (List.mem_cons_of_mem _ hx)
    simp only [chunkFrags, List.map_cons, fragGaps, List.flatMap_cons] at h1 ⊢
    refine ⟨by rw [h1]; rfl, ?_⟩
    intro e he
    rcases List.mem_cons.1 he with rfl | he
    · intro x hx
      simp only [WordLike.boxes, List.mem_singleton] at hx
      subst hx; exact h x (by simp)
    · exact h2 e he

theorem endFrag_gaps {justify : Bool} {last : Option Box} {tail : Option TrailingSpace} {st : State} {cmd : Command} {width stretch shrink : ℚ} {f : Fragment × KBox}
    {w s k : ℚ} (h : endFrag justify last tail st cmd width stretch shrink = some (f, w, s, k)) (hs : ∀ b ∈ last, b.Strict) :
    f.1.txt.gaps = last.toList.flatMap Box.gaps ++ tailGaps tail st ∧ f.1.txt.Strict := by
  unfold endFrag at h
  split at h
  · simp only [Option.some.injEq, Prod.mk.injEq] at h
    rw [← h.1]
    refine ⟨rfl, ?_⟩
    intro x hx
    simp only [WordLike.boxes, Option.mem_toList] at hx
    exact hs x hx
  · split at h
    · simp at h
    · simp only [Option.some.injEq, Prod.mk.injEq] at h
      rw [← h.1]
      refine ⟨by simp [WordLike.gaps, tailGaps], ?_⟩
      intro x hx
      simp only [WordLike.boxes, List.mem_singleton] at hx
      subst hx; exact hs x rfl

theorem fragsLoop_gaps (justify : Bool) : ∀ (ws : List WordLike) (width stretch shrink : ℚ) (fbs : List (Fragment × KBox)), (∀ w ∈ ws, w.Plain) → (∀ w ∈ ws, w.Strict) →
    fragsLoop env justify ws width stretch shrink = some fbs → fragGaps (fbs.map (·.1)) = gapsOf ws ∧ ∀ e ∈ fbs, e.1.txt.Strict
  | [], width, stretch, shrink, fbs, _, _, h => by
    simp only [fragsLoop, Option.some.injEq] at h
    subst h
    exact ⟨rfl, by simp⟩
  | word :: ws, width, stretch, shrink, fbs, hp, hs, h => by
    simp only [fragsLoop] at h
    split at h
    · simp at h
    · rename_i f width' stretch' shrink' he
      rw [Option.map_eq_some_iff] at h
      obtain ⟨more, h1, rfl⟩ := h
      obtain ⟨i1, i2⟩ := fragsLoop_gaps justify ws width' stretch' shrink' more (fun w hx => hp w (by simp [hx])) (fun w hx => hs w (by simp [hx])) h1
      obtain ⟨w, cmd, e1, e2, e3⟩ : ∃ (w : Word) (cmd : Command), word.stripCmd = (.word w, cmd) ∧ word.gaps = (WordLike.word w).gaps ∧ ∀ b ∈ w.boxes, b.Strict := by
        have hpw := hp word (by simp)
        have hsw := hs word (by simp)
        cases word with
        | box b => exact hpw.elim
        | word w => exact ⟨w, .noop, rfl, rfl, hsw⟩
        | withCmd x c =>
          cases x with
          | box b => exact hpw.elim
          | word w => exact ⟨w, c, rfl, rfl, hsw⟩
          | withCmd x c => exact hpw.elim
      simp only [e1, WordLike.boxes, WordLike.tail, WordLike.state] at he ⊢
      obtain ⟨j1, j2⟩ := chunkFrags_gaps (env := env) stretch shrink w.boxes.dropLast width fun b hb => e3 b (List.dropLast_subset _ hb)
      obtain ⟨k1, k2⟩ := endFrag_gaps he fun b hb => e3 b (List.mem_of_getLast? hb)
      refine ⟨?_, ?_⟩
      · rw [List.map_append, fragGaps_append, j1, List.map_cons, gapsOf_cons, ← i1, e2]
        simp only [fragGaps, List.flatMap_cons]
        rw [k1, ← List.append_assoc]
        congr 1
        rw [← List.append_assoc, ← List.flatMap_append, dropLast_toList]
        rfl
      · intro e he
        rcases List.mem_append.1 he with he | he
        · exact j2 e he
        · rcases List.mem_cons.1 he with rfl | he
          · exact k2
          · exact i2 e he

theorem FragKind.gaps_ne {f : Fragment} {inner : Bool} (hk : FragKind env f inner) (hs : f.txt.Strict) : f.txt.gaps ≠ [] := by
  cases hk with
  | inner b _ => exact b.gaps_ne (hs b (by simp [WordLike.boxes]))
  | spaced b t st c _ _ _ => simp [WordLike.gaps, tailGaps]
  | space t st c _ => simp [WordLike.gaps, tailGaps]
  | plain b c _ => exact b.gaps_ne (hs b (by simp [WordLike.boxes]))

theorem fragWords_gaps (fs : List Fragment) : gapsOf (fs.map Fragment.word) = fragGaps fs := by
  simp only [gapsOf, fragGaps, List.flatMap_map]
  congr 1
  funext f
  exact (WordLike.addCmd_gaps _ _).1

theorem fragWords_strict {fs : List Fragment} (h : ∀ f ∈ fs, f.txt.Strict) : ∀ w ∈ fs.map Fragment.word, w.Strict := by
  intro w hw
  obtain ⟨f, hf, rfl⟩ := List.mem_map.1 hw
  exact ((WordLike.addCmd_gaps _ _).2.1).2 (h f hf)

/-- The gaps of a line. -/
theorem lineWords_gaps (init : List Fragment) (f : Fragment) {inner : Bool} (hf : FragKind env f inner) (hs : ∀ f' ∈ init ++ [f], f'.txt.Strict) :
    (∀ w ∈ lineWords (init ++ [f]), w.Strict) ∧ ∃ p g d, fragGaps (init ++ [f]) = p ++ d ∧ gapsOf (lineWords (init ++ [f])) = p ++ g ∧
      (g = [] ∨ inner = true ∧ HyphenGap env p g ∧ d = []) ∧ (d = [] ∨ ∃ k st, d = [(k, ' ', st)]) := by
  have hsplit : fragGaps (init ++ [f]) = fragGaps init ++ f.txt.gaps := by simp [fragGaps]
  have hinit := fragWords_strict (fs := init) fun f hf => hs f (by simp [hf])
  have hfs := hs f (by simp)
  rw [hsplit]
  rcases lineWords_cases init f with ⟨t, h1, h2⟩ | ⟨h1, h0, h2⟩ | ⟨h1, init', g, h0, h2⟩
  · obtain ⟨e1, e2, -⟩ := t.addCmd_gaps f.cmd
    have strict : t.Strict → ∀ w ∈ lineWords (init ++ [f]), w.Strict := by
      intro ht w hw
      rw [h2] at hw
      rcases List.mem_append.1 hw with hw | hw
      · exact hinit w hw
      · rw [List.mem_singleton] at hw; subst hw; exact e2.2 ht
    have hg : gapsOf (lineWords (init ++ [f])) = fragGaps init ++ t.gaps := by
      rw [h2, gapsOf_append, fragWords_gaps, gapsOf_cons, e1]; simp
    cases hf with
    | inner b hb =>
      cases h1
      have hbs : b.Strict := hfs b (by simp [WordLike.boxes])
      obtain ⟨i1, g, i2, i3⟩ := b.withHyphen_gaps (env := env) hbs
      refine ⟨strict (by intro x hx; simp only [WordLike.boxes, List.mem_singleton] at hx; subst hx; exact i1), fragGaps init ++ b.gaps, g, [], ?_, ?_, .inr ⟨rfl, i2.prepend _, rfl⟩, .inl rfl⟩
      · simp [WordLike.gaps]
      · rw [hg]; simp only [WordLike.gaps]; rw [i3, List.append_assoc]
    | spaced b t st c hb _ _ =>
      cases h1
      have hbs : b.Strict := hfs b (by simp [WordLike.boxes])
      refine ⟨strict (by intro x hx; simp only [WordLike.boxes, List.mem_singleton] at hx; subst hx; exact hbs), fragGaps init ++ b.gaps, [], [(t.kern, ' ', st)], ?_, ?_, .inl rfl, .inr ⟨_, _, rfl⟩⟩
      · simp [WordLike.gaps, tailGaps]
      · rw [hg]; simp [WordLike.gaps]
    | space t st c ht => simp at h1
    | plain b c hb =>
      cases h1
      have hbs : b.Strict := hfs b (by simp [WordLike.boxes])
      refine ⟨strict (by intro x hx; simp only [WordLike.boxes, List.mem_singleton] at hx; subst hx; exact hbs), fragGaps init ++ b.gaps, [], [], ?_, ?_, .inl rfl, .inl rfl⟩
      · simp [WordLike.gaps]
      · rw [hg]; simp [WordLike.gaps]
  · rw [h2, h0]
    refine ⟨by simp, [], [], f.txt.gaps, by simp [fragGaps], by simp, .inl rfl, .inr ?_⟩
    cases hf with
    | inner b hb => simp at h1
    | spaced b t st c hb _ _ => simp at h1
    | space t st c ht => exact ⟨t.kern, st, by simp [WordLike.gaps, tailGaps]⟩
    | plain b c hb => simp at h1
  · have hgap : gapsOf (lineWords (init ++ [f])) = fragGaps init := by
      rw [h2, h0, ← fragWords_gaps, List.map_append, gapsOf_append, gapsOf_append]
      simp only [List.map_cons, List.map_nil, gapsOf_cons, gapsOf_nil, List.append_nil]
      rw [(WordLike.addCmd_gaps _ _).1]
    refine ⟨?_, fragGaps init, [], f.txt.gaps, rfl, by simp [hgap], .inl rfl, .inr ?_⟩
    · rw [h2]
      intro w hw
      rw [h0] at hinit
      rcases List.mem_append.1 hw with hw | hw
      · exact hinit w (by rw [List.map_append]; exact List.mem_append_left _ hw)
      · rw [List.mem_singleton] at hw; subst hw
        exact ((WordLike.addCmd_gaps _ _).2.1).2 (hinit _ (by simp))
    · cases hf with
      | inner b hb => simp at h1
      | spaced b t st c hb _ _ => simp at h1
      | space t st c ht => exact ⟨t.kern, st, by simp [WordLike.gaps, tailGaps]⟩
      | plain b c hb => simp at h1

theorem raggedLines_gaps {ws : List WordLike} {fs : List Fragment} (hs : FragSeq env ws fs) (hst : ∀ f ∈ fs, f.txt.Strict) : ∀ (brs : List KBreak) (prev : Nat), brs ≠ [] →
    (prev :: brs.map KBreak.pos).Pairwise (· < ·) → (prev :: brs.map KBreak.pos).getLast? = some fs.length →
    Broken env false (fragGaps (fs.drop prev)) ((raggedLines fs prev brs).map TLine.gaps) ∧ ∀ l ∈ raggedLines fs prev brs, ∀ w ∈ l.words, w.Strict
  | [], prev, h, _, _ => absurd rfl h
  | br :: brs, prev, _, hp, hl => by
    have hle := last_ge hp hl br.pos (by simp)
    have hlt : prev < br.pos := (List.pairwise_cons.1 hp).1 br.pos (by simp)
    rw [List.map_cons, List.getLast?_cons_cons] at hl
    obtain ⟨f, hf, e⟩ := seg_concat fs hlt hle
    obtain ⟨inner, hk, hb⟩ := seg_kind hs (by omega) hf
    have hsplit : fragGaps (fs.drop prev) = fragGaps ((fs.take br.pos).drop prev) ++ fragGaps (fs.drop br.pos) := by
      rw [← fragGaps_append, drop_take_append_drop fs prev br.pos hlt.le]
    have hsub : ∀ f' ∈ (fs.take (br.pos - 1)).drop prev ++ [f], f'.txt.Strict := by
      rw [← e]
      intro x hx
      exact hst x (List.mem_of_mem_take (List.mem_of_mem_drop hx))
    obtain ⟨k0, p, g, d, k1, k2, k3, k4⟩ := lineWords_gaps ((fs.take (br.pos - 1)).drop prev) f hk hsub
    rw [← e] at k0 k1 k2
    rw [hsplit, k1]
    have hline : TLine.gaps ⟨lineWords ((fs.take br.pos).drop prev), br.width, 0⟩ = p ++ g := k2
    have hinner : inner = true → fragGaps (fs.drop br.pos) ≠ [] := by
      intro hi
      have hnb := hb.1 hi
      cases hd : fs.drop br.pos with
      | nil => rw [hd] at hnb; exact absurd (Boundary.zero ws) hnb
      | cons x l =>
        have hx := (hd ▸ hs.drop br.pos).1
        obtain ⟨i, hi, -⟩ := hx
        have := hi.gaps_ne (hst x (List.mem_of_mem_drop (i := br.pos) (by rw [hd]; simp)))
        simp [fragGaps, this]
    have hpd : p ++ d ≠ [] := by
      rw [← k1, e]
      have := hk.gaps_ne (hsub f (by simp))
      simp [fragGaps, this]
    cases brs with
    | nil =>
      simp only [List.map_nil, List.getLast?_singleton, Option.some.injEq] at hl
      have hi : inner = false := by
        cases inner with
        | false => rfl
        | true => exact absurd (by rw [hl]; simp [fragGaps]) (hinner rfl)
      subst hi
      have hg : g = [] := by rcases k3 with h | ⟨h, -⟩ <;> simp_all
      subst hg
      simp only [raggedLines, List.map_cons, List.map_nil, hline]
      refine ⟨.last _ p d _ ?_ k4 (.inl (by simp)), by simpa using k0⟩
      rw [hl]; simp [fragGaps]
    | cons br' brs =>
      obtain ⟨i1, i2⟩ := raggedLines_gaps hs hst (br' :: brs) br.pos (by simp) (by simpa using (List.pairwise_cons.1 hp).2) hl
      rw [raggedLines, List.map_cons, hline]
      refine ⟨.more _ p g d (fragGaps (fs.drop br.pos)) _ _ _ rfl (.inl rfl) (k3.imp_right fun ⟨h1, h2, h3⟩ => ⟨h2, h3, hinner h1⟩) k4 (.inr ⟨rfl, hpd, by simp⟩) i1, ?_⟩
      intro l hl
      rcases List.mem_cons.1 hl with rfl | hl
      · exact k0
      · exact i2 l hl

end Pdfje
