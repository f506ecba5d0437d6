import Verif.Proofs.Parse
/-
Everything that typesetting makes from words is well-formed.
-/

namespace Pdfje

variable {env : Env}

theorem WordsWF.mem {ws : List WordLike} : ∀ {s t : State}, WordsWF env ws s t → ∀ w ∈ ws, w.WF env := by
  induction ws with
  | nil => intro s t _ w hw; simp at hw
  | cons a l ih =>
    intro s t h w hw
    rcases List.mem_cons.1 hw with rfl | hw
    · exact h.1
    · exact ih h.2.2 w hw

theorem WordLike.boxes_wf : ∀ {w : WordLike}, w.WF env → ∀ b ∈ w.boxes, b.WF env
  | .box b, h, x, hx => by simp [WordLike.boxes] at hx; subst hx; exact h
  | .word w, h, x, hx => boxesWF_mem h.boxes x hx
  | .withCmd w c, h, x, hx => WordLike.boxes_wf (w := w) h x hx

theorem boxesWF_last {bs : List Box} : ∀ {fin : State} {b : Box}, BoxesWF env bs fin → bs.getLast? = some b → b.state = fin := by
  induction bs with
  | nil => intro _ _ _ h; simp at h
  | cons a l ih =>
    intro fin b h e
    cases l with
    | nil => simp at e; subst e; exact h.2
    | cons a' l' => exact ih (boxesWF_tail h) (by simpa using e)

theorem Built.wf (henv : env.Ok) {w : WordLike} (h : Built env w) : w.WF env := by
  induction h with
  | parsed ht hi hm =>
    rename_i ps st cmd ws w
    obtain ⟨cmd', ws', h1, -, h3⟩ := intoWords_spec henv ps st
    rw [hi] at h1
    simp only [Option.some.injEq, Prod.mk.injEq] at h1
    obtain ⟨rfl, rfl⟩ := h1
    exact (h3 ht).1.mem w hm
  | withoutInitKern _ ih => exact (WordLike.withoutInitKern_same ih).wf
  | indent a _ hz ih => exact (WordLike.indent_same a ih hz).wf
  | extendTail a _ _ ih => exact (WordLike.extendTail_same a ih).wf
  | stretchTail a _ _ ih => exact (WordLike.stretchTail_same a ih).wf
  | pruned _ ih => exact WordLike.pruned_wf ih
  | hyphenateFirst space _ h ih => exact (WordLike.hyphenate_some ih h).wf1
  | @hyphenateRest w a b space _ h ih =>
    cases a with
    | none => exact (WordLike.hyphenate_none ih h).wf
    | some a => exact (WordLike.hyphenate_some ih h).wf2
  | @minimalFirst w a b _ h ih =>
    cases b with
    | none => exact (WordLike.minimalBox_none ih h).1.wf
    | some b => exact (WordLike.minimalBox_some ih h).wf1
  | minimalRest _ h ih => exact (WordLike.minimalBox_some ih h).wf2
  | box _ hb ih => exact WordLike.boxes_wf ih _ hb
  | boxHyphen _ hb ih => exact Box.withHyphen_wf (WordLike.boxes_wf ih _ hb)
  | lastBox _ hb ih =>
    exact ⟨⟨boxesWF_mem ih.boxes _ (List.mem_of_getLast? hb), boxesWF_last ih.boxes hb⟩, ih.tail⟩
  | noBox _ ih => exact ⟨trivial, ih.tail⟩
  | unwrap _ ih => exact ih
  | addCmd c _ ih => exact WordLike.addCmd_wf ih c

theorem Consecutive.wordsWF : ∀ {ws : List WordLike} {w : WordLike}, (∀ x ∈ w :: ws, x.WF env) → Consecutive (w :: ws) →
    ∃ fin, WordsWF env (w :: ws) w.preState fin
  | [], w, h, _ => ⟨w.state, h w (by simp), rfl, rfl⟩
  | w' :: ws, w, h, hc => by
    obtain ⟨fin, hf⟩ := Consecutive.wordsWF (ws := ws) (w := w') (fun x hx => h x (List.mem_cons_of_mem _ hx)) hc.2
    exact ⟨fin, h w (by simp), rfl, by rw [hc.1]; exact hf⟩

end Pdfje
