import Verif.Spec.Tape
import Mathlib.Tactic.Linarith
import Mathlib.Tactic.Ring
/-
Laying out on pages refines writing on a tape.
-/

namespace Pdfje

theorem slice_length {α} (f : Nat → α) (a n : Nat) : (slice f a n).length = n := by simp [slice]

theorem slice_getElem? {α} (f : Nat → α) (a n i : Nat) : (slice f a n)[i]? = if i < n then some (f (a + i)) else none := by
  simp only [slice, List.getElem?_map]
  split
  · rw [List.getElem?_range (by assumption)]; rfl
  · rw [List.getElem?_eq_none (by simp; omega)]; rfl

theorem slice_append {α} (f : Nat → α) (a n m : Nat) : slice f a n ++ slice f (a + n) m = slice f a (n + m) := by
  apply List.ext_getElem?
  intro i
  rw [List.getElem?_append, slice_length, slice_getElem?, slice_getElem?, slice_getElem?]
  split
  · rename_i h; simp [h, Nat.lt_add_right m h]
  · rename_i h
    have e : a + n + (i - n) = a + i := by omega
    rw [e]
    split <;> split <;> first | rfl | omega

theorem slice_congr {α} {f g : Nat → α} {a n : Nat} (h : ∀ i, a ≤ i → i < a + n → f i = g i) : slice f a n = slice g a n := by
  apply List.map_congr_left
  intro i hi
  simp only [List.mem_range] at hi
  exact h _ (by omega) (by omega)

theorem slice_drop {α} (f : Nat → α) (a n k : Nat) : (slice f a n).drop k = slice f (a + k) (n - k) := by
  apply List.ext_getElem?
  intro i
  rw [List.getElem?_drop, slice_getElem?, slice_getElem?]
  have e : a + k + i = a + (k + i) := by omega
  rw [e]
  split <;> split <;> first | rfl | omega

theorem slice_one {α} (f : Nat → α) (a : Nat) : slice f a 1 = [f a] := by simp [slice]

/-- Looking up in a flattened sequence of lists. -/
theorem flatNth_spec {α} (cells : Nat → α) : ∀ (fuel i : Nat) (f : Nat → List α) (start : Nat → Nat) (len : Nat → Nat),
    (∀ n, f n = slice cells (start n) (len n)) → (∀ n, start (n + 1) = start n + len n) → (∀ n, 0 < len n) → i < fuel →
    flatNth f fuel i = some (cells (start 0 + i)) := by
  intro fuel
  induction fuel with
  | zero => intro i f start len _ _ _ h; omega
  | succ fuel ih =>
    intro i f start len hf hs hl hi
    rw [flatNth]
    have hlen : (f 0).length = len 0 := by rw [hf, slice_length]
    split
    · rename_i h
      rw [hlen] at h
      rw [hf, slice_getElem?, if_pos h]
    · rename_i h
      rw [hlen] at h
      rw [ih (i - (f 0).length) (fun n => f (n + 1)) (fun n => start (n + 1)) (fun n => len (n + 1)) (fun n => hf _) (fun n => hs _)
        (fun n => hl _) (by have := hl 0; omega), hs 0, hlen]
      congr 2
      omega

/-- The tape of a sequence of lists that are not empty. -/
theorem flatNth_tape {α} (d : α) (f : Nat → List α) (off : Nat → Nat) (h0 : off 0 = 0) (hs : ∀ n, off (n + 1) = off n + (f n).length)
    (hl : ∀ n, f n ≠ []) : ∀ n j fuel, off n + j < fuel → j < (f n).length → flatNth f fuel (off n + j) = (f n)[j]? := by
  intro n
  induction n generalizing f off with
  | zero =>
    intro j fuel hfuel hj
    cases fuel with
    | zero => omega
    | succ fuel => rw [flatNth, h0, Nat.zero_add, if_pos hj]
  | succ n ih =>
    intro j fuel hfuel hj
    cases fuel with
    | zero => omega
    | succ fuel =>
      have hpos : 0 < (f 0).length := List.length_pos_iff.2 (hl 0)
      have hge : ∀ m, off (m + 1) ≥ (f 0).length := by
        intro m
        induction m with
        | zero => rw [hs, h0]; omega
        | succ m ihm => rw [hs]; omega
      have hge1 := hge n
      rw [flatNth, if_neg (by omega)]
      have := ih (fun n => f (n + 1)) (fun n => off (n + 1) - (f 0).length) (by show off (0 + 1) - _ = 0; rw [hs, h0]; omega)
        (fun m => by show off (m + 1 + 1) - _ = off (m + 1) - _ + _; rw [hs (m + 1)]; have := hge m; omega) (fun m => hl _) j fuel (by show off (n + 1) - _ + j < fuel; omega) hj
      change flatNth (fun n => f (n + 1)) fuel (off (n + 1) - (f 0).length + j) = _ at this
      rw [← this]
      congr 1
      omega

/-- The state of the pages corresponds to the tape: `k` pages are complete. -/
structure PagesInv (pages : Nat → Page) (k : Nat) (doc : Nat → PageFill) (t : Tape) : Prop where
  base : ∀ n, (doc n).base = pages (k + n)
  lo : offset pages k ≤ t.head
  hi : t.head < offset pages (k + 1)
  done : (doc 0).done = slice t.cells (offset pages k) (t.head - offset pages k)
  todo : (doc 0).todo = slice t.cells t.head (offset pages (k + 1) - t.head)
  rest : ∀ n, doc (n + 1) = PageFill.new (pages (k + n + 1))
  new : ∀ n, t.page pages (k + n + 1) = (pages (k + n + 1)).columns.map ColumnFill.new

variable {pages : Nat → Page} (hpages : ∀ n, (pages n).columns ≠ [])
include hpages

theorem offset_lt (n : Nat) : offset pages n < offset pages (n + 1) := by
  rw [offset]; have := List.length_pos_iff.2 (hpages n); omega

theorem PagesInv.view {k : Nat} {doc : Nat → PageFill} {t : Tape} (h : PagesInv pages k doc t) : columnsLeft doc = t.view := by
  funext i
  rw [columnsLeft, Tape.view, flatNth_spec t.cells (i + 1) i (fun n => (doc n).todo)
    (fun n => match n with | 0 => t.head | n + 1 => offset pages (k + n + 1))
    (fun n => match n with | 0 => offset pages (k + 1) - t.head | n + 1 => (pages (k + n + 1)).columns.length)]
  · rfl
  · intro n
    cases n with
    | zero => exact h.todo
    | succ n =>
      simp only
      rw [h.rest]
      exact (h.new n).symm
  · intro n
    cases n with
    | zero => simp only; have := h.hi; rw [Nat.add_zero]; omega
    | succ n => rfl
  · intro n
    cases n with
    | zero => simp only; have := h.hi; omega
    | succ n => exact List.length_pos_iff.2 (hpages _)
  · omega

/-- Writing cells from the current one on. -/
def Tape.write (t : Tape) (filled : List ColumnFill) : Nat → ColumnFill :=
  fun i => if t.head ≤ i then (filled[i - t.head]?).getD (t.cells i) else t.cells i

omit hpages in
theorem Tape.fill_ne (t : Tape) {filled : List ColumnFill} (h : filled ≠ []) : t.fill filled = ⟨t.write filled, t.head + filled.length - 1⟩ := by
  rw [Tape.fill, if_neg h]; rfl

omit hpages in
theorem Tape.write_before (t : Tape) (filled : List ColumnFill) {i : Nat} (h : i < t.head) : t.write filled i = t.cells i := by
  rw [Tape.write, if_neg (by omega)]

omit hpages in
theorem Tape.write_after (t : Tape) (filled : List ColumnFill) {i : Nat} (h : t.head + filled.length ≤ i) : t.write filled i = t.cells i := by
  rw [Tape.write, if_pos (by omega), List.getElem?_eq_none (by omega)]; rfl

omit hpages in
theorem Tape.write_slice (t : Tape) (filled : List ColumnFill) : slice (t.write filled) t.head filled.length = filled := by
  apply List.ext_getElem?
  intro i
  rw [slice_getElem?]
  split
  · rename_i h
    rw [Tape.write, if_pos (by omega), Nat.add_sub_cancel_left, List.getElem?_eq_getElem h]
    rfl
  · rename_i h
    rw [List.getElem?_eq_none (by omega)]

omit hpages in
theorem Tape.write_split (t : Tape) (filled : List ColumnFill) (m : Nat) (hm : m ≤ filled.length) :
    (⟨t.write (filled.take m), t.head + m⟩ : Tape).write (filled.drop m) = t.write filled := by
  funext i
  simp only [Tape.write, List.getElem?_drop, List.getElem?_take]
  by_cases h1 : t.head + m ≤ i
  · have h2 : t.head ≤ i := by omega
    have h3 : ¬ i - t.head < m := by omega
    have : m + (i - (t.head + m)) = i - t.head := by omega
    simp only [h1, h2, h3, if_true, if_false, this, Option.getD_none]
  · by_cases h2 : t.head ≤ i
    · have h3 : i - t.head < m := by omega
      simp only [h1, h2, h3, if_true, if_false]
    · simp only [h1, h2, if_false]

/-- The completed pages of `fillLoop`, and the pages after them. -/
theorem fillLoop_spec : ∀ (fuel k : Nat) (doc : Nat → PageFill) (t : Tape) (filled : List ColumnFill), PagesInv pages k doc t →
    filled ≠ [] → filled.length ≤ fuel → ∃ init last rest, fillLoop fuel filled doc = (init ++ [last], rest) ∧
      init.map (·.base) = (List.range init.length).map (fun j => pages (k + j)) ∧
      (∀ j p, init[j]? = some p → p.done = (t.fill filled).page pages (k + j)) ∧
      ∃ q, last.reopen = some q ∧ PagesInv pages (k + init.length) (consStream q rest) (t.fill filled) := by
  intro fuel
  induction fuel with
  | zero => intro k doc t filled h hne hf; exact absurd (List.length_eq_zero_iff.1 (by omega)) hne
  | succ fuel ih =>
    intro k doc t filled h hne hf
    have hlen : (doc 0).todo.length = offset pages (k + 1) - t.head := by rw [h.todo, slice_length]
    have hpos : 0 < filled.length := List.length_pos_iff.2 hne
    have hlo := h.lo
    have hhi := h.hi
    rw [fillLoop]
    simp only
    by_cases hle : filled.length ≤ (doc 0).todo.length
    · rw [List.drop_eq_nil_of_le hle, List.take_of_length_le hle]
      refine ⟨[], _, _, rfl, rfl, by simp, ⟨(doc 0).base, filled.getLast hne :: (doc 0).todo.drop filled.length,
        (doc 0).done ++ filled.dropLast⟩, ?_, ?_⟩
      · simp only [PageFill.reopen, List.getLast?_append, List.getLast?_eq_some_getLast hne, Option.some_or]
        rw [List.dropLast_append_of_ne_nil hne]
      · rw [t.fill_ne hne]
        have hw := t.write_slice filled
        have hlast : filled.getLast hne = t.write filled (t.head + filled.length - 1) := by
          have : filled[filled.length - 1]? = (slice (t.write filled) t.head filled.length)[filled.length - 1]? := by rw [hw]
          rw [slice_getElem?, if_pos (by omega), ← List.getLast?_eq_getElem?, List.getLast?_eq_some_getLast hne, Option.some.injEq] at this
          rw [this]; congr 1; omega
        have hdrop : filled.dropLast = slice (t.write filled) t.head (filled.length - 1) := by
          conv_lhs => rw [← hw]
          rw [List.dropLast_eq_take, slice_length]
          apply List.ext_getElem?
          intro i
          rw [List.getElem?_take, slice_getElem?, slice_getElem?]
          by_cases hi : i < filled.length - 1
          · rw [if_pos hi, if_pos hi, if_pos (by omega)]
          · rw [if_neg hi, if_neg hi]
        refine ⟨?_, ?_, ?_, ?_, ?_, ?_, ?_⟩
        · intro n; cases n with
          | zero => exact h.base 0
          | succ n => exact h.base (n + 1)
        · simp only [List.length_nil, Nat.add_zero]; omega
        · simp only [List.length_nil, Nat.add_zero]; omega
        · simp only [consStream, List.length_nil, Nat.add_zero]
          rw [h.done, hdrop]
          have e1 : slice t.cells (offset pages k) (t.head - offset pages k) = slice (t.write filled) (offset pages k) (t.head - offset pages k) :=
            slice_congr fun i _ _ => (t.write_before filled (by omega)).symm
          have e2 : t.head = offset pages k + (t.head - offset pages k) := by omega
          rw [e1]
          conv_lhs => arg 2; rw [e2]
          rw [← e2]
          have := slice_append (t.write filled) (offset pages k) (t.head - offset pages k) (filled.length - 1)
          rw [← e2] at this
          rw [this]
          congr 1
          omega
        · simp only [consStream, List.length_nil, Nat.add_zero]
          rw [h.todo, slice_drop, hlast]
          have e1 : slice t.cells (t.head + filled.length) (offset pages (k + 1) - t.head - filled.length)
              = slice (t.write filled) (t.head + filled.length) (offset pages (k + 1) - t.head - filled.length) :=
            slice_congr fun i hi _ => (t.write_after filled hi).symm
          rw [e1]
          have := slice_append (t.write filled) (t.head + filled.length - 1) 1 (offset pages (k + 1) - t.head - filled.length)
          have e2 : t.head + filled.length - 1 + 1 = t.head + filled.length := by omega
          rw [slice_one, e2] at this
          rw [List.singleton_append] at this
          rw [this]
          congr 1
          omega
        · intro n
          simp only [List.length_nil, Nat.add_zero]
          exact h.rest n
        · intro n
          simp only [List.length_nil, Nat.add_zero]
          rw [← h.new n]
          have hmono : offset pages (k + 1) ≤ offset pages (k + n + 1) := by
            induction n with
            | zero => rfl
            | succ n ihn => exact ihn.trans (by have := offset_lt hpages (k + n + 1); rw [show k + (n + 1) + 1 = k + n + 1 + 1 by omega]; omega)
          exact slice_congr fun i hi _ => t.write_after filled (by omega)
    · have hlt : (doc 0).todo.length < filled.length := by omega
      set m := (doc 0).todo.length with hm
      obtain ⟨x, xs, hx⟩ : ∃ x xs, filled.drop m = x :: xs := by
        cases hd : filled.drop m with
        | nil => rw [List.drop_eq_nil_iff] at hd; omega
        | cons x xs => exact ⟨x, xs, rfl⟩
      have hmono : ∀ n, offset pages (k + 1) ≤ offset pages (k + n + 1) := by
        intro n
        induction n with
        | zero => rfl
        | succ n ihn => exact ihn.trans (by have := offset_lt hpages (k + n + 1); rw [show k + (n + 1) + 1 = k + n + 1 + 1 by omega]; omega)
      have hhead : t.head + m = offset pages (k + 1) := by omega
      have htake : (filled.take m).length = m := by rw [List.length_take]; omega
      have hinv : PagesInv pages (k + 1) (fun n => doc (n + 1)) ⟨t.write (filled.take m), t.head + m⟩ := by
        refine ⟨?_, ?_, ?_, ?_, ?_, ?_, ?_⟩
        · intro n; have := h.base (n + 1); rw [this]; congr 1; omega
        · simp only; omega
        · simp only; rw [hhead]; exact offset_lt hpages _
        · simp only; rw [h.rest 0, hhead, Nat.sub_self]; rfl
        · simp only
          rw [h.rest 0, hhead]
          have e : offset pages (k + 1 + 1) - offset pages (k + 1) = (pages (k + 1)).columns.length := by rw [offset]; omega
          rw [e]
          have := h.new 0
          rw [Nat.add_zero] at this
          rw [Nat.add_zero, PageFill.new]
          simp only
          rw [← this]
          exact slice_congr fun i hi _ => (t.write_after _ (by rw [htake]; omega)).symm
        · intro n; rw [h.rest (n + 1)]; congr 2; omega
        · intro n
          rw [show k + 1 + n + 1 = k + (n + 1) + 1 by omega, ← h.new (n + 1)]
          have := hmono (n + 1)
          exact slice_congr fun i hi _ => t.write_after _ (by rw [htake]; omega)
      obtain ⟨init, last, rest, e1, e2, e3, q, e4, e5⟩ := ih (k + 1) _ _ (filled.drop m) hinv (by rw [hx]; simp) (by
        rw [List.length_drop]; omega)
      have hfill : (⟨t.write (filled.take m), t.head + m⟩ : Tape).fill (filled.drop m) = t.fill filled := by
        rw [Tape.fill_ne _ (by rw [hx]; simp), Tape.fill_ne _ hne, t.write_split filled m (by omega)]
        congr 1
        simp only [List.length_drop]
        omega
      rw [hfill] at e3 e5
      refine ⟨⟨(doc 0).base, (doc 0).todo.drop (filled.take m).length, (doc 0).done ++ filled.take m⟩ :: init, last, rest, ?_, ?_, ?_, q, e4, ?_⟩
      · rw [hx] at e1 ⊢
        simp only [e1]
        rfl
      · rw [List.map_cons, e2, List.length_cons, List.range_succ_eq_map, List.map_cons, List.map_map, h.base 0]
        congr 1
        apply List.map_congr_left
        intro j _
        simp only [Function.comp]
        congr 1; omega
      · intro j p hp
        cases j with
        | zero =>
          simp only [List.getElem?_cons_zero, Option.some.injEq] at hp
          rw [← hp, Nat.add_zero, t.fill_ne hne, Tape.page]
          simp only
          rw [h.done]
          have e1 : slice t.cells (offset pages k) (t.head - offset pages k) = slice (t.write filled) (offset pages k) (t.head - offset pages k) :=
            slice_congr fun i _ _ => (t.write_before filled (by omega)).symm
          have e2 : filled.take m = slice (t.write filled) t.head m := by
            have hw := t.write_slice filled
            conv_lhs => rw [← hw]
            apply List.ext_getElem?
            intro i
            rw [List.getElem?_take, slice_getElem?, slice_getElem?]
            split <;> first | rfl | rw [if_pos (by omega)]
          have e3 := slice_append (t.write filled) (offset pages k) (t.head - offset pages k) m
          have e4 : offset pages k + (t.head - offset pages k) = t.head := by omega
          rw [e4] at e3
          rw [e1, e2, e3]
          congr 1
          rw [offset] at hhead
          omega
        | succ j =>
          rw [List.getElem?_cons_succ] at hp
          rw [e3 j p hp]
          congr 1; omega
      · rw [List.length_cons, show k + (init.length + 1) = k + 1 + init.length by omega]
        exact e5

/-- `fillInto` writes on the tape. -/
theorem fillInto_spec {k : Nat} {doc : Nat → PageFill} {t : Tape} (h : PagesInv pages k doc t) (filled : List ColumnFill) :
    ∃ doc' completed, fillInto filled doc = some (doc', completed) ∧
      completed.map (·.base) = (List.range completed.length).map (fun j => pages (k + j)) ∧
      (∀ j p, completed[j]? = some p → p.done = (t.fill filled).page pages (k + j)) ∧
      PagesInv pages (k + completed.length) doc' (t.fill filled) := by
  by_cases hne : filled = []
  · subst hne
    exact ⟨doc, [], by simp [fillInto], rfl, by simp, by simpa [Tape.fill] using h⟩
  · obtain ⟨init, last, rest, e1, e2, e3, q, e4, e5⟩ := fillLoop_spec hpages filled.length k doc t filled h hne le_rfl
    refine ⟨consStream q rest, init, ?_, e2, e3, e5⟩
    rw [fillInto, if_neg hne, e1]
    simp [e4]

end Pdfje
