import Verif.Proofs.Newlines
import Verif.Proofs.DocRead
import Verif.Props.Append
import Verif.Props.SetsText
/-
C96: newlines in the text of a paragraph, and paragraphs one after the other.
-/

namespace Pdfje
open PdfSpec

theorem PagesRun.SameOk.trans {a b c : PagesRun} (h : a.SameOk b) (h' : b.SameOk c) : a.SameOk c := by
  rintro (e | e)
  · have h1 := h (.inl e)
    rw [h1]
    exact h' (.inl (h1 ▸ e))
  · have h1 := h' (.inr e)
    rw [← h1]
    exact h (.inr (h1 ▸ e))

theorem autoLoop_lines (w : World) {s : StyleFull} (hs : s.Known) {p : Paragraph} (hp : p.style.Known) {pages : Nat → Page} (hpages : ∀ n, (pages n).columns ≠ []) (bs2 : List Block)
    {k : Nat} {doc : Nat → PageFill} {tp : Tape} {r : Res} (hr : r.WF) (hinv : PagesInv pages k doc tp) (ho : ∀ n, (doc n).Ok r) :
    ∀ (ls : List (List Char)) (bs1 : List Block), ls ≠ [] → (∀ l ∈ ls, IsLine l) → (∀ x ∈ bs1, x.Known) →
      (autoLoop w s (bs1 ++ .paragraph (p.ofText (withNewlines ls)) :: bs2) doc r).SameOk (autoLoop w s (bs1 ++ ls.map (fun l => .paragraph (p.ofText l)) ++ bs2) doc r)
  | [], _, h, _, _ => absurd rfl h
  | [l], bs1, _, _, _ => by intro _; simp [withNewlines]
  | l :: l' :: ls, bs1, _, hl, hk => by
    have h1 := autoLoop_newline w hs hp (nextNewline_join (withNewlines (l' :: ls)) (hl l (by simp))) (nextNewline_line (hl l (by simp)).1) hpages bs2 bs1 k doc tp r hr hinv ho hk
    have h2 := autoLoop_lines w hs hp hpages bs2 hr hinv ho (l' :: ls) (bs1 ++ [.paragraph (p.ofText l)]) (by simp) (fun x hx => hl x (by simp at hx ⊢; tauto)) (by
      intro x hx
      rcases List.mem_append.1 hx with hx | hx
      · exact hk x hx
      · rw [List.mem_singleton] at hx; subst hx
        exact ⟨by simp [Paragraph.ofText, Item.Known.str], hp⟩)
    rw [List.append_assoc, List.singleton_append] at h2
    rw [show withNewlines (l :: l' :: ls) = l ++ '\n' :: withNewlines (l' :: ls) from rfl]
    refine h1.trans ?_
    simpa using h2

/-- Documents that differ in one item. -/
theorem docRun_sameOk (w : World) {s : StyleFull} (hs : s.Known) {x y : DocItem} (h : ∀ (n : Nat) (r : Res), r.WF → (x.run w s n r).SameOk (y.run w s n r)) (after : List DocItem) :
    ∀ (before : List DocItem) (done : Nat) (r : Res), r.WF → (∀ it ∈ before, it.Known) →
      (docRun w s (before ++ x :: after) done r).SameOk (docRun w s (before ++ y :: after) done r)
  | [], done, r, hr, _ => by
    simp only [List.nil_append, docRun]
    have hxy := h (done + 1) r hr
    intro he
    have : x.run w s (done + 1) r = y.run w s (done + 1) r := by
      apply hxy
      rcases he with he | he
      · left
        unfold PagesRun.andThen at he
        cases hx : (x.run w s (done + 1) r).err with
        | none => rfl
        | some e => simp [hx] at he
      · right
        unfold PagesRun.andThen at he
        cases hx : (y.run w s (done + 1) r).err with
        | none => rfl
        | some e => simp [hx] at he
    rw [this]
  | it :: before, done, r, hr, hk => by
    simp only [List.cons_append, docRun]
    refine .andThen fun _ => ?_
    have := DocItem.reach w s hs it (hk it (by simp)) (done + 1) r
    exact docRun_sameOk w hs h after before _ _ (this.wf hr).2 fun z hz => hk z (by simp [hz])

/-- A document is written completely only if no error is raised. -/
theorem err_of_written {compress : Bytes → Bytes} {w : World} {s : StyleFull} {items : List DocItem} {id : Bytes} {chunks : List Bytes}
    (h : docWrite compress w.files (DocItem.render w s) id items = (chunks, true)) : (docRun w s items 0 Res.empty).err = none := by
  have ho : (docObjects compress w.files (DocItem.render w s) items).2 = true := by
    unfold docWrite at h
    split at h
    · simp at h
    · rename_i e; rw [e]
  unfold docObjects at ho
  rw [docPages_docRun] at ho
  simp only at ho
  cases he : (docRun w s items 0 Res.empty).err with
  | none => rfl
  | some e => cases e <;> simp [he] at ho

theorem docWrite_congr {compress : Bytes → Bytes} {w : World} {s : StyleFull} {a b : List DocItem} (h : docRun w s a 0 Res.empty = docRun w s b 0 Res.empty) (id : Bytes) :
    docWrite compress w.files (DocItem.render w s) id a = docWrite compress w.files (DocItem.render w s) id b := by
  have : docObjects compress w.files (DocItem.render w s) a = docObjects compress w.files (DocItem.render w s) b := by
    unfold docObjects
    rw [docPages_docRun, docPages_docRun, h]
  unfold docWrite
  rw [this]

/-- C96. In a document, a paragraph of a text with newlines is the same as a paragraph for each line, with the same settings: if one of the documents is written, the other is, and the files are
the same, byte by byte. -/
theorem C96_newlines (compress : Bytes → Bytes) (w : World) (s : StyleFull) (hs : s.Known) (before after : List DocItem) (hbefore : ∀ it ∈ before, it.Known) (blocks more : List Block)
    (hblocks : ∀ b ∈ blocks, b.Known) (template : Nat → Page) (ht : ∀ n, (template n).Known) (hc : ∀ n, (template n).columns ≠ []) (p : Paragraph) (hp : p.style.Known)
    (ls : List (List Char)) (hne : ls ≠ []) (hl : ∀ l ∈ ls, IsLine l) (id : Bytes)
    (h : (docWrite compress w.files (DocItem.render w s) id (before ++ .auto ⟨blocks ++ .paragraph (p.ofText (withNewlines ls)) :: more, template⟩ :: after)).2 = true ∨
      (docWrite compress w.files (DocItem.render w s) id (before ++ .auto ⟨blocks ++ ls.map (fun l => .paragraph (p.ofText l)) ++ more, template⟩ :: after)).2 = true) :
    docWrite compress w.files (DocItem.render w s) id (before ++ .auto ⟨blocks ++ .paragraph (p.ofText (withNewlines ls)) :: more, template⟩ :: after) =
      docWrite compress w.files (DocItem.render w s) id (before ++ .auto ⟨blocks ++ ls.map (fun l => .paragraph (p.ofText l)) ++ more, template⟩ :: after) := by
  refine docWrite_congr (docRun_sameOk w hs (fun n r hr => ?_) after before 0 Res.empty Res.wf_empty hbefore ?_) id
  · have hpages : ∀ m, ((fun m => template (n + m)) m).columns ≠ [] := fun m => hc _
    obtain ⟨t0, ht0⟩ := exists_newTape hpages
    exact autoLoop_lines w hs hp hpages more hr (PagesInv.ofNew hpages t0 ht0) (fun m => pageNew_ok (ht _) r) ls blocks hne hl hblocks
  · rcases h with h | h
    · exact .inl (err_of_written (Prod.ext rfl h))
    · exact .inr (err_of_written (Prod.ext rfl h))

/-- C96 for strings: `Document("\n".join(lines))` is `Document([AutoPage(lines)])`. -/
theorem C96_text (compress : Bytes → Bytes) (w : World) (ls : List (List Char)) (hne : ls ≠ []) (hl : ∀ l ∈ ls, IsLine l) (id : Bytes)
    (h : (docWrite compress w.files (DocItem.render w .default) id (DocContent.text (withNewlines ls)).items').2 = true ∨
      (docWrite compress w.files (DocItem.render w .default) id [.auto ⟨ls.map Block.ofText, fun _ => .default⟩]).2 = true) :
    docWrite compress w.files (DocItem.render w .default) id (DocContent.text (withNewlines ls)).items' =
      docWrite compress w.files (DocItem.render w .default) id [.auto ⟨ls.map Block.ofText, fun _ => .default⟩] := by
  have := C96_newlines compress w .default (by show _ ∈ _; decide +kernel) [] [] (by simp) [] [] (by simp) (fun _ => .default) (by simp [Page.default, Page.Known]) (by simp [Page.default])
    (.plain []) (by simp [Paragraph.plain, Style.Known, Style.empty]) ls hne hl id
  rw [List.nil_append, List.nil_append, List.nil_append, List.append_nil, List.nil_append] at this
  exact this h

/-- A text of two lines, which is written. -/
example (id : Bytes) : (docWrite (fun b => b) standardWorld.files (DocItem.render standardWorld .default) id
      (DocContent.text ['t', 'w', 'o', ' ', 'w', 'o', 'r', 'd', 's', '\n', 'l', 'i', 'n', 'e']).items').2 = true ∧
    docWrite (fun b => b) standardWorld.files (DocItem.render standardWorld .default) id (DocContent.text ['t', 'w', 'o', ' ', 'w', 'o', 'r', 'd', 's', '\n', 'l', 'i', 'n', 'e']).items' =
      docWrite (fun b => b) standardWorld.files (DocItem.render standardWorld .default) id
        [.auto ⟨[.ofText ['t', 'w', 'o', ' ', 'w', 'o', 'r', 'd', 's'], .ofText ['l', 'i', 'n', 'e']], fun _ => .default⟩] := by
  obtain ⟨chunks, h⟩ := C73_text (fun b => b) standardWorld rfl (fun p => (demoWorld_proper.2 p).mono (by norm_num)) (fun _ => ⟨demoEnv_ok.cuts, demoEnv_ok.never⟩)
    ['t', 'w', 'o', ' ', 'w', 'o', 'r', 'd', 's', '\n', 'l', 'i', 'n', 'e'] (by simp) (by decide +kernel) (by
      have : ∀ l ∈ textLines ['t', 'w', 'o', ' ', 'w', 'o', 'r', 'd', 's', '\n', 'l', 'i', 'n', 'e'], l.length ≤ 36 := by simp [textLines]
      exact fun l hl => shortWords_length (this l hl)) id
  refine ⟨by rw [h], ?_⟩
  exact C96_text (fun b => b) standardWorld [['t', 'w', 'o', ' ', 'w', 'o', 'r', 'd', 's'], ['l', 'i', 'n', 'e']] (by simp) (by
    intro l hl
    simp only [List.mem_cons, List.not_mem_nil, or_false] at hl
    rcases hl with rfl | rfl <;> exact ⟨by decide, by decide⟩) id (.inl (by exact congrArg Prod.snd h))

end Pdfje
