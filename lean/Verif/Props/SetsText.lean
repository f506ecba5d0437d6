import Verif.Props.Sets
import Verif.Props.Standard
/-
C73 for documents made from a string, with the standard fonts.
-/

namespace Pdfje

/-- A page of crampedItem without the rule (and with one that takes no height) meets the hypotheses of C73. -/
example : (DocItem.auto ⟨[.paragraph crampedParagraph, .rule ⟨⟨0, 0, 0⟩, ⟨0, 0, 0, 0⟩⟩, .paragraph crampedParagraph], fun _ => crampedPage⟩).Sets False faceStyle ['b'] 500 := by
  obtain ⟨width, height, h1, h2, h3, h4⟩ := crampedItem_sets
  refine ⟨width, height, h1, h2, h3, ?_⟩
  intro b hb
  simp only [List.mem_cons, List.not_mem_nil, or_false] at hb
  have hp := h4 (.paragraph crampedParagraph) (by simp)
  rcases hb with rfl | rfl | rfl
  · exact hp
  · exact ⟨.inl (by norm_num), by simp [Block.strings]⟩
  · exact hp

/-! ### The metrics of the standard fonts -/

theorem tables_most : ∀ t ∈ standardTables, (t.2.1 ≤ 1015 ∧ ∀ e ∈ t.1, e.2 ≤ 1015) ∧ ∀ row ∈ t.2.2, ∀ e ∈ row.2, ((t.1.lookup e.1).getD t.2.1 : Int) + e.2 ≤ 1015 := by decide +kernel

theorem usesTable_proper {m : Metrics} (h : UsesTable m) : m.Proper 1015 := by
  have hpos := usesTable_advance h
  obtain ⟨t, ht, hm⟩ := h
  obtain ⟨⟨h1, h2⟩, h3⟩ := tables_most t ht
  have le : ∀ c, (dictGet t.1 t.2.1 c : ℚ) ≤ 1015 := by
    intro c
    rw [dictGet_eq]
    cases hl : t.1.lookup c.toNat with
    | none => exact_mod_cast h1
    | some v => exact_mod_cast h2 _ (mem_of_lookupEq hl)
  refine ⟨(hpos ' ' ' ').1, fun c => ⟨(hpos c c).1.le, by rw [(hm c c).1]; exact le c⟩, fun a c => ⟨(hpos a c).2.2, ?_⟩⟩
  rw [(hm c a).1, (hm a c).2]
  rcases kernGet_cases t.2.2 a c with h | ⟨row, hr, e, he, e1, e2, h⟩
  · rw [h, Int.cast_zero, add_zero]; exact le c
  · rw [h, dictGet_eq, ← e2]
    exact_mod_cast h3 row hr e he

theorem constant_proper {x : ℚ} (h0 : 0 < x) (h1 : x ≤ 1015) : (⟨fun _ => x, fun _ => 0⟩ : Metrics).Proper 1015 :=
  ⟨h0, fun _ => ⟨h0.le, h1⟩, fun _ _ => by simp [h0.le, h1]⟩

/-- The standard fonts have usual metrics, and no character is wider than 1015 thousandths of the size. -/
theorem standard_proper (g : BuiltinFont) : (standardMetrics g).Proper 1015 := by
  unfold standardMetrics
  have key : ∀ f ∈ [helvetica, timesRoman], ∀ b i, (standardMetrics (f.font b i)).Proper 1015 := fun f hf b i => usesTable_proper (textFonts_tables f hf b i)
  split_ifs
  · exact key helvetica (by simp) false false
  · exact key helvetica (by simp) false true
  · exact key helvetica (by simp) true false
  · exact key helvetica (by simp) true true
  · exact key timesRoman (by simp) false false
  · exact key timesRoman (by simp) true false
  · exact key timesRoman (by simp) false true
  · exact key timesRoman (by simp) true true
  · exact constant_proper (by norm_num) (by norm_num)
  · exact constant_proper (by norm_num) (by norm_num)

/-! ### Documents made from a string -/

theorem plain_strings (s : List Char) : itemsStrings [Style.empty] [.str s] = [(s, [Style.empty])] := by
  simp only [itemsStrings, Item.strings, List.append_nil]

theorem joinLines_blank {α} : ∀ {a : List (List α)} {l : List α}, l ∈ joinLines a [[]] → l ∈ a ∨ l = []
  | [], l, h => .inr (by simpa [joinLines] using h)
  | [x], l, h => .inl (by simpa [joinLines] using h)
  | x :: y :: a, l, h => by
    rw [joinLines_cons _ _ _ (by simp)] at h
    rcases List.mem_cons.1 h with rfl | h
    · exact .inl (by simp)
    · rcases joinLines_blank h with h | h
      · exact .inl (List.mem_cons_of_mem _ h)
      · exact .inr h

/-- The lines of the content of a string are lines of the string, or empty. -/
theorem plain_lines (base : StyleFull) (s : List Char) (r : Res) : ∀ l ∈ contentLines (contentStrings base Style.empty [.str s] r), l.map (·.1) ∈ textLines s ∨ l = [] := by
  intro l hl
  simp only [contentStrings, plain_strings, List.map_cons, List.map_nil, contentLines, List.cons_ne_nil, if_false, stringsLines] at hl
  rcases joinLines_blank hl with h | h
  · obtain ⟨x, hx, rfl⟩ := List.mem_map.1 h
    left
    rw [List.map_map]
    simpa [Function.comp_def] using hx
  · exact .inr h

/-- C73 for a document made from a string (`Document("...")`, with the default style): it is written, if no word of a line of it is longer than 36 characters
(spaces included). -/
theorem C73_text (compress : Bytes → Bytes) (w : World) (hb : w.builtin = standardMetrics) (hf : ∀ path, (w.files path).metrics.Proper 1015) (hw : ∀ r, (w.env r).Ok)
    (text : List Char) (hne : text ≠ []) (hal : text.dedup.length < 65534) (hwords : ∀ l ∈ textLines text, ShortWords 36 l) (id : Bytes) :
    ∃ chunks, docWrite compress w.files (DocItem.render w .default) id (DocContent.text text).items' = (chunks, true) := by
  refine C73_written_partial compress w hw 1015 ⟨fun g => by rw [hb]; exact standard_proper g, hf⟩ .default (by show _ ∈ _; decide +kernel) text.dedup hal _ (by simp [DocContent.items']) ?_ ?_ id
  · intro it hit
    simp only [DocContent.items', List.mem_singleton] at hit
    subst hit
    refine ⟨?_, by simp [Page.default, Page.Known]⟩
    intro b hb
    simp only [List.mem_singleton] at hb
    subst hb
    exact ⟨by simp [Paragraph.plain, Item.Known.str], by simp [Paragraph.plain, Style.Known, Style.empty]⟩
  · intro it hit
    simp only [DocContent.items', List.mem_singleton] at hit
    subst hit
    right
    refine ⟨451, 698, by norm_num, by norm_num, fun n => ⟨by simp [Page.default], ?_, by simp [Page.default]⟩, ?_⟩
    · intro c hc
      simp only [Page.default, List.mem_singleton] at hc
      subst hc
      norm_num
    · intro b hb
      simp only [List.mem_singleton] at hb
      subst hb
      have hmem : ∀ e ∈ itemsStrings [Style.empty] [.str text], e = (text, [Style.empty]) := by
        intro e he
        rwa [plain_strings, List.mem_singleton] at he
      refine ⟨⟨?_, ?_, ?_⟩, ?_⟩
      · show (0 : ℚ) < 12 ∧ (0 : ℚ) < 5 / 4 ∧ (12 : ℚ) * (5 / 4) ≤ 698
        norm_num
      · intro e he
        rw [hmem e he]
        show (0 : ℚ) < 12 ∧ (0 : ℚ) < 5 / 4 ∧ (12 : ℚ) * (5 / 4) ≤ 698
        norm_num
      · intro o ho
        simp only [Paragraph.plain, Option.some.injEq] at ho
        subst ho
        refine ⟨by norm_num, ?_⟩
        rw [if_neg (by simp [Paragraph.plain])]
        refine ⟨36, 12, le_refl (12 : ℚ), ?_, ?_, ?_⟩
        · intro e he
          rw [hmem e he]
          exact le_refl (12 : ℚ)
        · show ((36 : ℕ) + 1) * ((1015 : ℚ) / 1000 * 12) + max 0 0 ≤ 451
          norm_num
        · intro r l hl
          rcases plain_lines _ _ _ l hl with h | rfl
          · exact hwords _ h
          · intro a word b e _
            have := congrArg List.length e
            simp at this
            omega
      · intro x hx
        simp only [Block.ofText, Block.strings, Paragraph.plain, plain_strings, List.map_cons, List.map_nil, List.mem_singleton] at hx
        subst hx
        exact ⟨hne, fun c hc => List.mem_dedup.2 hc⟩

theorem Metrics.Proper.mono {m : Metrics} {M N : ℚ} (h : m.Proper M) (hn : M ≤ N) : m.Proper N :=
  ⟨h.space, fun c => ⟨(h.char c).1, (h.char c).2.trans hn⟩, fun a c => ⟨(h.pair a c).1, (h.pair a c).2.trans hn⟩⟩

theorem shortWords_length {n : Nat} {s : List Char} (h : s.length ≤ n) : ShortWords n s := by
  intro a word b e _
  subst e
  simp at h
  omega

/-- A text of two lines. -/
example (id : Bytes) : ∃ chunks, docWrite (fun b => b) standardWorld.files (DocItem.render standardWorld .default) id
    (DocContent.text ['t', 'w', 'o', ' ', 'w', 'o', 'r', 'd', 's', '\n', 'l', 'i', 'n', 'e']).items' = (chunks, true) := by
  refine C73_text _ standardWorld rfl (fun p => (demoWorld_proper.2 p).mono (by norm_num)) (fun _ => ⟨demoEnv_ok.cuts, demoEnv_ok.never⟩) _ (by simp) (by decide +kernel) ?_ id
  have : ∀ l ∈ textLines ['t', 'w', 'o', ' ', 'w', 'o', 'r', 'd', 's', '\n', 'l', 'i', 'n', 'e'], l.length ≤ 36 := by
    simp [textLines]
  exact fun l hl => shortWords_length (this l hl)

/-- The bound on words is about words: a line of 72 characters in two words. -/
example : ShortWords 36 (List.replicate 35 'a' ++ [' '] ++ List.replicate 36 'b') := by
  intro a word b e h1
  by_contra hlen
  have hl := congrArg List.length e
  simp only [List.length_append, List.length_replicate, List.length_singleton] at hl
  have ha : a.length ≤ 35 := by omega
  have hw : 36 < a.length + word.length := by omega
  -- the space is in the word, and something follows it
  have hat : ∀ i, i < word.length → word[i]? = (List.replicate 35 'a' ++ [' '] ++ List.replicate 36 'b')[a.length + i]? := by
    intro i hi
    rw [e, List.append_assoc, List.getElem?_append_right (by omega), List.getElem?_append_left (by omega)]
    congr 1
    omega
  have hsp : word[35 - a.length]? = some ' ' := by
    rw [hat _ (by omega), show a.length + (35 - a.length) = 35 by omega]
    decide +kernel
  have hnx : word[36 - a.length]? = some 'b' := by
    rw [hat _ (by omega), show a.length + (36 - a.length) = 36 by omega]
    decide +kernel
  obtain ⟨h35, e35⟩ := List.getElem?_eq_some_iff.1 hsp
  obtain ⟨h36, e36⟩ := List.getElem?_eq_some_iff.1 hnx
  have hsplit : word = word.take (35 - a.length) ++ ' ' :: 'b' :: word.drop (37 - a.length) := by
    conv_lhs => rw [← List.take_append_drop (35 - a.length) word]
    rw [List.drop_eq_getElem_cons h35, e35]
    have h36' : 35 - a.length + 1 < word.length := by omega
    rw [List.drop_eq_getElem_cons h36']
    have e1 : word[35 - a.length + 1] = 'b' := by
      rw [← e36]; congr 1; omega
    have e2 : 35 - a.length + 1 + 1 = 37 - a.length := by omega
    rw [e1, e2]
  have := h1 _ _ _ _ hsplit (.inl rfl)
  simp at this

end Pdfje
