import Verif.Proofs.OptShape
/-
Boxes of words for which too long lines stay too long.
-/

namespace Pdfje

variable {env : Env}

/-- The pieces in which a word can be cut, each with its hyphen: its syllables, but no hyphen after the last. -/
def WordLike.pieceWidths (env : Env) (w : WordLike) : List ℚ :=
  w.boxes.dropLast.map (fun b => (b.withHyphen env).width) ++ w.boxes.getLast?.toList.map Box.width

/-- Words of usual measures: no piece has a negative width, no hyphen is wider than the piece after it, and kerning
takes away less than two thirds of a space. -/
structure Tame (env : Env) (ws : List WordLike) : Prop where
  pieces : ∀ w ∈ ws, ∀ x ∈ w.pieceWidths env, 0 ≤ x
  hyphen : ∀ w ∈ ws, ∀ pre b b' post, w.boxes = pre ++ b :: b' :: post →
    (b.withHyphen env).width ≤ b.width + if post = [] then b'.width else (b'.withHyphen env).width
  space : ∀ w ∈ ws, ∀ t ∈ w.tail, 0 ≤ t.widthExclKern ∧ t.widthExclKern * (1/3) ≤ t.width

/-- Widths at the end of a line only grow. -/
def AdjOk : List (Fragment × KBox) → Prop
  | e :: e' :: r => e.1.breakWidth ≤ e.1.txt.width - e.1.txt.spaceWidth * (1/3) + e'.1.breakWidth ∧ AdjOk (e' :: r)
  | _ => True

theorem chunkFrags_mem (stretch shrink : ℚ) : ∀ (bs : List Box) (width : ℚ), ∀ e ∈ chunkFrags env stretch shrink width bs,
    ∃ b ∈ bs, e.1.breakWidth = (b.withHyphen env).width
  | [], _, e, he => by simp [chunkFrags] at he
  | b :: bs, width, e, he => by
    simp only [chunkFrags, List.mem_cons] at he
    rcases he with rfl | he
    · exact ⟨b, by simp, rfl⟩
    · obtain ⟨b', h1, h2⟩ := chunkFrags_mem stretch shrink bs _ e he
      exact ⟨b', by simp [h1], h2⟩

theorem WordLike.stripCmd_boxes (w : WordLike) : w.stripCmd.1.boxes = w.boxes := by cases w <;> rfl
theorem WordLike.stripCmd_tail (w : WordLike) : w.stripCmd.1.tail = w.tail := by cases w <;> rfl

def tailWidth : Option TrailingSpace → ℚ
  | some t => t.width
  | none => 0

def tailSpace : Option TrailingSpace → ℚ
  | some t => t.widthExclKern
  | none => 0

/-- The last fragment of a word. -/
theorem endFrag_break {justify : Bool} {last : Option Box} {tail : Option TrailingSpace} {st : State} {cmd : Command} {width stretch shrink : ℚ}
    {f : Fragment × KBox} {a b c : ℚ} (h : endFrag justify last tail st cmd width stretch shrink = some (f, a, b, c)) :
    (last = none ∧ f.1.breakWidth = 0 ∨ ∃ x, last = some x ∧ f.1.breakWidth = x.width) ∧
    f.1.txt.width = f.1.breakWidth + tailWidth tail ∧ f.1.txt.spaceWidth = tailSpace tail := by
  cases tail with
  | some t =>
    simp only [endFrag, Option.some.injEq, Prod.mk.injEq] at h
    rw [← h.1]
    cases last with
    | none =>
      exact ⟨Or.inl ⟨rfl, rfl⟩, by simp [WordLike.width, Word.width, Word.prunedWidth, Word.prunableSpace, Fragment.breakWidth, tailWidth], rfl⟩
    | some x =>
      exact ⟨Or.inr ⟨x, rfl, rfl⟩, by simp [WordLike.width, Word.width, Word.prunedWidth, Word.prunableSpace, Fragment.breakWidth, tailWidth], rfl⟩
  | none =>
    cases last with
    | none => simp [endFrag] at h
    | some x =>
      simp only [endFrag, Option.some.injEq, Prod.mk.injEq] at h
      rw [← h.1]
      exact ⟨Or.inr ⟨x, rfl, rfl⟩, by simp [WordLike.width, Fragment.breakWidth, tailWidth], rfl⟩

theorem fragsLoop_pieces {justify : Bool} : ∀ {ws : List WordLike} {width stretch shrink : ℚ} {fbs : List (Fragment × KBox)},
    fragsLoop env justify ws width stretch shrink = some fbs →
    ∀ e ∈ fbs, e.1.breakWidth = 0 ∨ ∃ w ∈ ws, e.1.breakWidth ∈ w.pieceWidths env
  | [], _, _, _, fbs, h => by simp only [fragsLoop, Option.some.injEq] at h; subst h; simp
  | word :: ws, width, stretch, shrink, fbs, h => by
    simp only [fragsLoop] at h
    split at h
    · simp at h
    · rename_i f width' stretch' shrink' he
      rw [Option.map_eq_some_iff] at h
      obtain ⟨more, h1, rfl⟩ := h
      intro e hm
      rcases List.mem_append.1 hm with hm | hm
      · obtain ⟨b, h2, h3⟩ := chunkFrags_mem _ _ _ _ e hm
        right
        refine ⟨word, by simp, ?_⟩
        rw [WordLike.stripCmd_boxes] at h2
        rw [h3]
        exact List.mem_append_left _ (List.mem_map_of_mem h2)
      · rcases List.mem_cons.1 hm with rfl | hm
        · rw [WordLike.stripCmd_boxes] at he
          rcases (endFrag_break he).1 with ⟨-, h0⟩ | ⟨b, h2, h3⟩
          · exact Or.inl h0
          · right
            refine ⟨word, by simp, ?_⟩
            rw [h3]
            apply List.mem_append_right
            rw [h2]; simp
        · rcases fragsLoop_pieces h1 e hm with h2 | ⟨w, h2, h3⟩
          · exact Or.inl h2
          · exact Or.inr ⟨w, by simp [h2], h3⟩

/-- The fragments of a word before its last one. -/
theorem chunkFrags_adj (stretch shrink : ℚ) {f : Fragment × KBox} {more : List (Fragment × KBox)} (hf : AdjOk (f :: more)) : ∀ (init : List Box) (last : Box) (width : ℚ),
    (∀ pre b b' post, init ++ [last] = pre ++ b :: b' :: post →
      (b.withHyphen env).width ≤ b.width + if post = [] then b'.width else (b'.withHyphen env).width) →
    f.1.breakWidth = last.width → AdjOk (chunkFrags env stretch shrink width init ++ f :: more)
  | [], last, width, h, hl => hf
  | [b], last, width, h, hl => by
    refine ⟨?_, hf⟩
    have := h [] b last [] rfl
    rw [if_pos rfl, ← hl] at this
    show (b.withHyphen env).width ≤ b.width - 0 * (1/3) + f.1.breakWidth
    linarith
  | b :: b' :: bs, last, width, h, hl => by
    have ih := chunkFrags_adj stretch shrink hf (b' :: bs) last (width + b.width)
      (fun pre x y post e => h (b :: pre) x y post (by rw [List.cons_append, e]; rfl)) hl
    refine ⟨?_, ih⟩
    have := h [] b b' (bs ++ [last]) (by simp)
    rw [if_neg (by simp)] at this
    simpa [WordLike.spaceWidth, WordLike.tail, Fragment.breakWidth, WordLike.width] using this

theorem fragsLoop_adj {justify : Bool} : ∀ {ws : List WordLike} {width stretch shrink : ℚ} {fbs : List (Fragment × KBox)}, Tame env ws →
    fragsLoop env justify ws width stretch shrink = some fbs → AdjOk fbs
  | [], _, _, _, fbs, _, h => by simp only [fragsLoop, Option.some.injEq] at h; subst h; trivial
  | word :: ws, width, stretch, shrink, fbs, ht, h => by
    simp only [fragsLoop] at h
    split at h
    · simp at h
    · rename_i f width' stretch' shrink' he
      rw [Option.map_eq_some_iff] at h
      obtain ⟨more, h1, rfl⟩ := h
      have ht' : Tame env ws := ⟨fun w hw => ht.pieces w (by simp [hw]), fun w hw => ht.hyphen w (by simp [hw]), fun w hw => ht.space w (by simp [hw])⟩
      have ih := fragsLoop_adj ht' h1
      rw [WordLike.stripCmd_boxes, WordLike.stripCmd_tail] at he
      rw [WordLike.stripCmd_boxes]
      obtain ⟨e1, e2, e3⟩ := endFrag_break he
      have hf : AdjOk (f :: more) := by
        cases more with
        | nil => trivial
        | cons g more =>
          refine ⟨?_, ih⟩
          have hg : 0 ≤ g.1.breakWidth := by
            rcases fragsLoop_pieces h1 g (by simp) with h0 | ⟨w, h2, h3⟩
            · rw [h0]
            · exact ht'.pieces w h2 _ h3
          rw [e2, e3]
          cases hta : word.tail with
          | none => simp only [tailWidth, tailSpace]; linarith
          | some t =>
            have := (ht.space word (by simp) t (by simp [hta])).2
            simp only [tailWidth, tailSpace]; linarith
      rcases e1 with ⟨e4, e5⟩ | ⟨x, e4, e5⟩
      · have : word.boxes = [] := List.getLast?_eq_none_iff.1 e4
        rw [this]; exact hf
      · have hb : word.boxes = word.boxes.dropLast ++ [x] := by
          rcases List.eq_nil_or_concat word.boxes with h0 | ⟨l, y, h0⟩
          · rw [h0] at e4; simp at e4
          · rw [List.concat_eq_append] at h0
            rw [h0] at e4 ⊢
            simp at e4
            simp [e4]
        exact chunkFrags_adj stretch shrink hf _ x _ (fun pre b b' post e => ht.hyphen word (by simp) pre b b' post (by rw [hb]; exact e)) e5

/-- Boxes whose lines, shrunk as much as possible, only get longer. -/
structure Growing (bs : List KBox) : Prop where
  stretch : ∀ (i j : Nat) (x y : KBox), i ≤ j → bs[i]? = some x → bs[j]? = some y → x.stretch ≤ y.stretch
  shrink : ∀ (i j : Nat) (x y : KBox), i ≤ j → bs[i]? = some x → bs[j]? = some y → x.shrink ≤ y.shrink
  length : ∀ (i j : Nat) (x y : KBox), i ≤ j → bs[i]? = some x → bs[j]? = some y → x.inclHyphen - x.shrink ≤ y.inclHyphen - y.shrink
  first : ∀ (a : Nat) (x : KBox), bs[a]? = some x → 0 ≤ x.inclHyphen - startWidth bs a
  start : ∀ x : KBox, bs[0]? = some x → 0 ≤ x.stretch ∧ 0 ≤ x.shrink

theorem mono_of_succ {α} {l : List α} {f : α → ℚ} (h : ∀ (i : Nat) x y, l[i]? = some x → l[i + 1]? = some y → f x ≤ f y) :
    ∀ (i j : Nat) x y, i ≤ j → l[i]? = some x → l[j]? = some y → f x ≤ f y := by
  intro i j
  induction j with
  | zero =>
    intro x y hij hx hy
    have : i = 0 := by omega
    subst this
    rw [hx] at hy; simp at hy; rw [hy]
  | succ j ih =>
    intro x y hij hx hy
    rcases Nat.lt_or_ge i (j + 1) with h1 | h1
    · have hj : j < l.length := by have := (List.getElem?_eq_some_iff.1 hy).1; omega
      exact (ih x l[j] (by omega) hx (List.getElem?_eq_getElem hj)).trans (h j _ y (List.getElem?_eq_getElem hj) hy)
    · have : i = j + 1 := by omega
      subst this
      rw [hx] at hy; simp at hy; rw [hy]

theorem AdjOk.get : ∀ {fbs : List (Fragment × KBox)}, AdjOk fbs → ∀ i e e', fbs[i]? = some e → fbs[i + 1]? = some e' →
    e.1.breakWidth ≤ e.1.txt.width - e.1.txt.spaceWidth * (1/3) + e'.1.breakWidth
  | [], _, i, e, e', h1, _ => by simp at h1
  | [_], _, i, e, e', _, h2 => by simp at h2
  | a :: b :: r, h, 0, e, e', h1, h2 => by
    simp at h1 h2; subst h1; subst h2; exact h.1
  | a :: b :: r, h, i + 1, e, e', h1, h2 => AdjOk.get h.2 i e e' (by simpa using h1) (by simpa using h2)

/-- The spaces of fragments are not negative. -/
theorem fragsLoop_space {justify : Bool} : ∀ {ws : List WordLike} {width stretch shrink : ℚ} {fbs : List (Fragment × KBox)}, Tame env ws →
    fragsLoop env justify ws width stretch shrink = some fbs → ∀ e ∈ fbs, 0 ≤ e.1.txt.spaceWidth
  | [], _, _, _, fbs, _, h => by simp only [fragsLoop, Option.some.injEq] at h; subst h; simp
  | word :: ws, width, stretch, shrink, fbs, ht, h => by
    simp only [fragsLoop] at h
    split at h
    · simp at h
    · rename_i f width' stretch' shrink' he
      rw [Option.map_eq_some_iff] at h
      obtain ⟨more, h1, rfl⟩ := h
      have ht' : Tame env ws := ⟨fun w hw => ht.pieces w (by simp [hw]), fun w hw => ht.hyphen w (by simp [hw]), fun w hw => ht.space w (by simp [hw])⟩
      intro e hm
      rcases List.mem_append.1 hm with hm | hm
      · have key : ∀ (bs : List Box) (width : ℚ), ∀ e ∈ chunkFrags env stretch shrink width bs, e.1.txt.spaceWidth = 0 := by
          intro bs
          induction bs with
          | nil => intro _ e he; simp [chunkFrags] at he
          | cons b bs ih =>
            intro width e he
            simp only [chunkFrags, List.mem_cons] at he
            rcases he with rfl | he
            · rfl
            · exact ih _ e he
        rw [key _ _ e hm]
      · rcases List.mem_cons.1 hm with rfl | hm
        · rw [WordLike.stripCmd_boxes, WordLike.stripCmd_tail] at he
          rw [(endFrag_break he).2.2]
          cases hta : word.tail with
          | none => exact le_refl _
          | some t => exact (ht.space word (by simp) t (by simp [hta])).1
        · exact fragsLoop_space ht' h1 e hm

theorem growing {justify : Bool} {ws : List WordLike} (ht : Tame env ws) {s : ℚ} (hs : 0 ≤ s) {fbs : List (Fragment × KBox)}
    (h : fragsLoop env justify ws 0 s 0 = some fbs) (hm : FragMetrics justify fbs 0 s 0) : Growing (fbs.map (·.2)) := by
  have hadj := fragsLoop_adj ht h
  have hsp := fragsLoop_space ht h
  have key : ∀ i e e', fbs[i]? = some e → fbs[i + 1]? = some e' →
      e.2.stretch ≤ e'.2.stretch ∧ e.2.shrink ≤ e'.2.shrink ∧ e.2.inclHyphen - e.2.shrink ≤ e'.2.inclHyphen - e'.2.shrink := by
    intro i e e' he he'
    obtain ⟨-, g2, g3, g4, -⟩ := hm.get i e.1 e.2 he
    obtain ⟨-, k2, k3, k4, -⟩ := hm.get (i + 1) e'.1 e'.2 he'
    have ha := hadj.get i e e' he he'
    have h0 := hsp e (List.mem_of_getElem? he)
    have ht : fbs.take (i + 1) = fbs.take i ++ [e] := by rw [List.take_add_one, he]; rfl
    rw [ht] at k2 k3 k4
    simp only [List.map_append, List.map_cons, List.map_nil, List.sum_append, List.sum_cons, List.sum_nil, add_zero] at k2 k3 k4
    rw [g2, g3, g4, k2, k3, k4]
    cases justify
    · simp only [Bool.false_eq_true, if_false]
      refine ⟨?_, ?_, ?_⟩ <;> linarith
    · simp only [if_true]
      refine ⟨?_, ?_, ?_⟩ <;> linarith
  have lift : ∀ (f : KBox → ℚ), (∀ i e e', fbs[i]? = some e → fbs[i + 1]? = some e' → f e.2 ≤ f e'.2) → ∀ (i j : Nat) x y, i ≤ j →
      (fbs.map (·.2))[i]? = some x → (fbs.map (·.2))[j]? = some y → f x ≤ f y := by
    intro f hf i j x y hij hx hy
    rw [List.getElem?_map, Option.map_eq_some_iff] at hx hy
    obtain ⟨e, he, rfl⟩ := hx
    obtain ⟨e', he', rfl⟩ := hy
    exact mono_of_succ (f := fun e : Fragment × KBox => f e.2) hf i j e e' hij he he'
  refine ⟨lift (·.stretch) fun i e e' h1 h2 => (key i e e' h1 h2).1, lift (·.shrink) fun i e e' h1 h2 => (key i e e' h1 h2).2.1,
    lift (fun b => b.inclHyphen - b.shrink) fun i e e' h1 h2 => (key i e e' h1 h2).2.2, ?_, ?_⟩
  · intro a x hx
    rw [List.getElem?_map, Option.map_eq_some_iff] at hx
    obtain ⟨e, he, rfl⟩ := hx
    have hlt := (List.getElem?_eq_some_iff.1 he).1
    rw [startWidth_metrics hm hlt.le, (hm.get a e.1 e.2 he).2.1]
    have : 0 ≤ e.1.breakWidth := by
      rcases fragsLoop_pieces h e (List.mem_of_getElem? he) with h0 | ⟨w, h1, h2⟩
      · rw [h0]
      · exact ht.pieces w h1 _ h2
    linarith
  · intro x hx
    rw [List.getElem?_map, Option.map_eq_some_iff] at hx
    obtain ⟨e, he, rfl⟩ := hx
    obtain ⟨-, -, g3, g4, -⟩ := hm.get 0 e.1 e.2 he
    rw [g3, g4]
    cases justify <;> simp [hs]

/-- Lines of such boxes that are too long stay so. -/
theorem Growing.monotone {p : FitParams} {bs : List KBox} {width : Nat → ℚ} (h : Growing bs) (hw : ∀ j, 0 < width j)
    (hf : p.ragged = true → ∀ b ∈ bs, 0 < b.stretch ∧ b.shrink = 0) : Monotone' p bs width := by
  intro j a c b hac hcb hb hl hr
  have hc1 : c - 1 < bs.length := by omega
  have hb1 : b - 1 < bs.length := by omega
  have ha1 : a < bs.length := by omega
  have hx := List.getElem?_eq_getElem hc1
  have hy := List.getElem?_eq_getElem hb1
  have hz := List.getElem?_eq_getElem ha1
  have h1 := h.shrink (c - 1) (b - 1) _ _ (by omega) hx hy
  have h2 := h.length (c - 1) (b - 1) _ _ (by omega) hx hy
  have hst : startStretch bs a ≤ bs[c - 1].stretch ∧ startShrink bs a ≤ bs[c - 1].shrink := by
    cases a with
    | zero =>
      have h0 := h.start _ (List.getElem?_eq_getElem (by omega))
      have i1 := h.stretch 0 (c - 1) _ _ (by omega) (List.getElem?_eq_getElem (by omega)) hx
      have i2 := h.shrink 0 (c - 1) _ _ (by omega) (List.getElem?_eq_getElem (by omega)) hx
      exact ⟨h0.1.trans i1, h0.2.trans i2⟩
    | succ a =>
      simp only [startStretch, startShrink, hz]
      exact ⟨h.stretch (a + 1) (c - 1) _ _ (by omega) hz hx, h.shrink (a + 1) (c - 1) _ _ (by omega) hz hx⟩
  have n1 : 0 ≤ bs[c - 1].inclHyphen - startWidth bs a := by
    have := h.first a _ hz
    have i1 := h.length a (c - 1) _ _ (by omega) hz hx
    have i2 := h.shrink a (c - 1) _ _ (by omega) hz hx
    linarith
  obtain ⟨s1, s2⟩ := hst
  have hxm := List.getElem_mem hc1
  have hym := List.getElem_mem hb1
  unfold lineRatio at hr ⊢
  simp only [hx] at hr
  simp only [hy]
  generalize bs[c - 1] = x at *
  generalize bs[b - 1] = y at *
  cases hp : p.ragged with
  | true =>
    rw [hp] at hr
    simp only [if_true] at hr ⊢
    obtain ⟨f1, f2⟩ := hf hp x hxm
    obtain ⟨f3, f4⟩ := hf hp y hym
    have hlt : ¬ x.inclHyphen - startWidth bs a ≤ width j := by
      intro hle
      unfold raggedRatio at hr
      rw [if_pos hle] at hr
      have : 0 ≤ (width j - (x.inclHyphen - startWidth bs a)) / x.stretch := div_nonneg (by linarith) f1.le
      linarith
    unfold raggedRatio
    rw [f2, f4] at h2
    rw [if_neg (by linarith [not_le.1 hlt])]
    norm_num
  | false =>
    rw [hp] at hr
    simp only [Bool.false_eq_true, if_false] at hr ⊢
    have q1 : 0 ≤ (x.inclHyphen - startWidth bs a) / width j := div_nonneg n1 (hw j).le
    unfold justifiedRatio at hr
    split at hr
    · norm_num at hr
    · split at hr
      · rename_i hlt
        split at hr
        · linarith
        · have : 0 ≤ (width j - (x.inclHyphen - startWidth bs a)) / (x.stretch - startStretch bs a) := div_nonneg (by linarith) (by linarith)
          linarith
      · rename_i hne hlt
        split at hr
        · linarith
        · rename_i hs
          have hpos : 0 < x.shrink - startShrink bs a := lt_of_le_of_ne (by linarith) (Ne.symm hs)
          rw [div_lt_iff₀ hpos] at hr
          have hpos' : 0 < y.shrink - startShrink bs a := by linarith
          unfold justifiedRatio
          rw [if_neg (by intro e; linarith), if_neg (by intro e; linarith), if_neg hpos'.ne', div_lt_iff₀ hpos']
          linarith

end Pdfje
