import Verif.Props.Flow
/-
C84: adding to the end of a document does not change the pages before.
-/

namespace Pdfje
open PdfSpec

/-! ### The chunks of the pages -/

theorem pageObjects_append (ps qs : List RenderedPage) : ∀ i, pageObjects (ps ++ qs) i = pageObjects ps i ++ pageObjects qs (i + 2 * ps.length) := by
  induction ps with
  | nil => intro i; simp [pageObjects]
  | cons p ps ih =>
    intro i
    rw [List.cons_append, pageObjects, pageObjects, ih, List.append_assoc, List.length_cons]
    congr 3
    omega

theorem pageObjects_len (ps : List RenderedPage) : ∀ i, (pageObjects ps i).length = 2 * ps.length := by
  induction ps with
  | nil => intro i; rfl
  | cons p ps ih =>
    intro i
    rw [pageObjects, List.length_append, ih, List.length_cons, RenderedPage.toAtoms]
    simp only [List.length_cons, List.length_nil]
    omega

section
variable {compress : Bytes → Bytes} {files : Path → FontFile}

/-- Whatever happens later, the objects of the pages that were made are written first. -/
theorem docWrite_starts {I : Type} (render : I → Nat → Res → Run) (id : Bytes) (items : List I) :
    ∃ rest, (docWrite compress files render id items).1 =
      header :: (pageObjects (docPages render items 0 Res.empty).pages 4).map (writeObj compress) ++ rest := by
  have hobj : ∃ rest, (docObjects compress files render items).1 = pageObjects (docPages render items 0 Res.empty).pages 4 ++ rest := by
    unfold docObjects
    simp only
    cases (docPages render items 0 Res.empty).err with
    | some e =>
      cases e with
      | inLayout => exact ⟨[], by simp⟩
      | inStream p => exact ⟨_, rfl⟩
    | none =>
      simp only
      split
      · exact ⟨[], by simp⟩
      · generalize ((docPages render items 0 Res.empty).res.toObjects compress files _) = x
        obtain ⟨fonts, ok⟩ := x
        simp only
        split
        · exact ⟨_, List.append_assoc _ _ _⟩
        · exact ⟨_, rfl⟩
  obtain ⟨rest, hr⟩ := hobj
  unfold docWrite
  cases hd : docObjects compress files render items with
  | mk objs ok =>
    rw [hd] at hr
    simp only at hr
    subst hr
    cases ok with
    | false => exact ⟨rest.map (writeObj compress), by simp⟩
    | true =>
      simp only
      cases hw : write compress id (pageObjects (docPages render items 0 Res.empty).pages 4 ++ rest) with
      | none => exact ⟨rest.map (writeObj compress), by simp⟩
      | some chunks =>
        simp only
        unfold write at hw
        simp only at hw
        split at hw
        · cases hw
          exact ⟨_, by rw [List.map_append, List.cons_append, List.append_assoc]; rfl⟩
        · cases hw

/-- Documents that start with the same pages start with the same bytes. -/
theorem docWrite_same {I J : Type} (render : I → Nat → Res → Run) (render' : J → Nat → Res → Run) (id id' : Bytes) (items : List I) (items' : List J)
    (P Q Q' : List RenderedPage) (h : (docPages render items 0 Res.empty).pages = P ++ Q) (h' : (docPages render' items' 0 Res.empty).pages = P ++ Q') :
    1 + 2 * P.length ≤ (docWrite compress files render id items).1.length ∧
    1 + 2 * P.length ≤ (docWrite compress files render' id' items').1.length ∧
    (docWrite compress files render' id' items').1.take (1 + 2 * P.length) = (docWrite compress files render id items).1.take (1 + 2 * P.length) := by
  have key : ∀ (x : List Bytes) Q rest, x = header :: (pageObjects (P ++ Q) 4).map (writeObj compress) ++ rest → 1 + 2 * P.length ≤ x.length ∧
      x.take (1 + 2 * P.length) = header :: (pageObjects P 4).map (writeObj compress) := by
    intro x Q rest hx
    have hlen : (header :: (pageObjects P 4).map (writeObj compress)).length = 1 + 2 * P.length := by
      rw [List.length_cons, List.length_map, pageObjects_len]; omega
    rw [pageObjects_append, List.map_append, ← List.cons_append, List.append_assoc] at hx
    subst hx
    rw [List.length_append, hlen]
    refine ⟨by omega, ?_⟩
    rw [← hlen, List.take_left']
    rfl
  obtain ⟨rest, hr⟩ := docWrite_starts (compress := compress) (files := files) render id items
  obtain ⟨rest', hr'⟩ := docWrite_starts (compress := compress) (files := files) render' id' items'
  rw [h] at hr
  rw [h'] at hr'
  obtain ⟨a1, a2⟩ := key _ _ _ hr
  obtain ⟨b1, b2⟩ := key _ _ _ hr'
  exact ⟨a1, b1, by rw [b2, a2]⟩

theorem docWrite_noError {w : World} {s : StyleFull} {id : Bytes} {items : List DocItem}
    (h : (docWrite compress w.files (DocItem.render w s) id items).2 = true) : (docRun w s items 0 Res.empty).err = none := by
  have hd := docPages_docRun w s items 0 Res.empty
  cases he : (docRun w s items 0 Res.empty).err with
  | none => rfl
  | some e =>
    rw [he] at hd
    unfold docWrite docObjects at h
    rw [hd] at h
    cases e <;> simp at h

/-! ### Runs of items and blocks -/

/-- The items after those that were rendered without an error. -/
theorem docRun_more (w : World) (s : StyleFull) : ∀ (pre post : List DocItem) (done : Nat) (r : Res), (docRun w s pre done r).err = none →
    docRun w s (pre ++ post) done r = (docRun w s pre done r).andThen fun r' => docRun w s post (done + (docRun w s pre done r).pages.length) r'
  | [], post, done, r, _ => by simp [docRun, PagesRun.andThen]
  | it :: pre, post, done, r, h => by
    rw [docRun] at h
    rw [List.cons_append, docRun, docRun]
    obtain ⟨h1, h2, h3⟩ := PagesRun.andThen_none h
    have hm := docRun_more w s pre post _ _ h2
    have e : ∀ f, (it.run w s (done + 1) r).andThen f = ⟨(it.run w s (done + 1) r).pages ++ (f (it.run w s (done + 1) r).res).pages,
        (f (it.run w s (done + 1) r).res).res, (f (it.run w s (done + 1) r).res).err⟩ := by
      intro f; rw [PagesRun.andThen, h1]
    rw [e, e]
    simp only [hm]
    rw [PagesRun.andThen, PagesRun.andThen, h2]
    simp only [List.append_assoc, List.length_append, Nat.add_assoc]

/-- The blocks after those that were laid out without an error: `P` pages are complete by then. -/
theorem autoLoop_more {pages : Nat → Page} (hpages : ∀ n, (pages n).columns ≠ []) (w : World) (s : StyleFull) (bs : List Block) :
    ∀ (k : Nat) (doc : Nat → PageFill) (t : Tape) (r : Res), PagesInv pages k doc t → (autoLoop w s bs doc r).err = none →
    ∃ (P : List Written) (r' : Res) (doc' : Nat → PageFill) (t' : Tape), PagesInv pages (k + P.length) doc' t' ∧ Fills w s bs t t' ∧
      ∀ more, autoLoop w s (bs ++ more) doc r = ⟨P ++ (autoLoop w s more doc' r').pages, (autoLoop w s more doc' r').res, (autoLoop w s more doc' r').err⟩ := by
  induction bs with
  | nil => intro k doc t r h herr; exact ⟨[], r, doc, t, by simpa using h, .nil t, fun more => by simp⟩
  | cons b bs ih =>
    intro k doc t r h herr
    rw [autoLoop] at herr
    rw [h.view hpages] at herr
    cases hb : b.intoColumns w r s t.view with
    | mk o r1 =>
      rw [hb] at herr
      cases o with
      | none => cases herr
      | some filled =>
        simp only at herr
        obtain ⟨doc', completed, e1, e2, e3, e4⟩ := fillInto_spec hpages h filled
        rw [e1] at herr
        simp only at herr
        obtain ⟨h1, h2, -⟩ := PagesRun.andThen_none herr
        have hp := writePages_pages w s _ r1 h1
        have hlen : (writePages w s (completed.map fun p => ⟨p.base, p.done⟩) r1).pages.length = completed.length := by
          rw [← List.length_map (f := (·.page)), hp, List.length_map]
        obtain ⟨P, r', doc'', t', f1, f2, f3⟩ := ih (k + completed.length) doc' (t.fill filled) _ e4 h2
        refine ⟨(writePages w s (completed.map fun p => ⟨p.base, p.done⟩) r1).pages ++ P, r', doc'', t', ?_, .cons b bs t r r1 filled t' hb f2, fun more => ?_⟩
        · rw [List.length_append, hlen, ← Nat.add_assoc]; exact f1
        · rw [List.cons_append, autoLoop, h.view hpages, hb]
          simp only [e1]
          rw [PagesRun.andThen, h1, f3 more]
          simp

/-! ### What is in the columns stays -/

/-- All columns after the current one are empty. -/
def Tape.Clear (t : Tape) : Prop := ∀ i, t.head < i → (t.cells i).blocks = []

theorem Tape.IsNew.clear {pages : Nat → Page} (hpages : ∀ n, (pages n).columns ≠ []) {t : Tape} (h : t.IsNew pages) : t.Clear := by
  intro i _
  have hex : ∃ n, offset pages n ≤ i ∧ i < offset pages (n + 1) := by
    have hge : ∀ n, n ≤ offset pages n := by
      intro n
      induction n with
      | zero => exact Nat.zero_le _
      | succ n ih => have := offset_lt hpages n; omega
    clear * - hge
    have : ∀ m, i < offset pages m → ∃ n, offset pages n ≤ i ∧ i < offset pages (n + 1) := by
      intro m
      induction m with
      | zero => intro h; simp [offset] at h
      | succ m ih =>
        intro h
        by_cases h' : i < offset pages m
        · exact ih h'
        · exact ⟨m, by omega, h⟩
    exact this (i + 1) (by have := hge (i + 1); omega)
  obtain ⟨n, h1, h2⟩ := hex
  have hc := h.cells n
  have : (t.page pages n)[i - offset pages n]? = some (t.cells i) := by
    rw [Tape.page, slice_getElem?, if_pos (by rw [offset] at h2; omega)]
    congr 2; omega
  rw [hc, List.getElem?_map] at this
  obtain ⟨c, -, hc⟩ := Option.map_eq_some_iff.1 this
  rw [← hc]; rfl

/-- A block on a tape: what is there stays, and the columns after the current one are empty. -/
theorem Tape.Clear.step {w : World} {s : StyleFull} {t : Tape} (ht : t.Clear) {b : Block} {r r' : Res} {filled : List ColumnFill}
    (hb : b.intoColumns w r s t.view = (some filled, r')) :
    (t.fill filled).Clear ∧ ∀ i, (t.cells i).blocks <+: ((t.fill filled).cells i).blocks := by
  by_cases hne : filled = []
  · subst hne
    simp only [Tape.fill, if_true]
    exact ⟨ht, fun i => List.prefix_rfl⟩
  have hpos := List.length_pos_iff.2 hne
  rw [t.fill_ne hne]
  constructor
  · intro i hi
    simp only at hi ⊢
    rw [t.write_after filled (by omega)]
    exact ht i (by omega)
  · intro i
    simp only
    by_cases hi : i < t.head
    · rw [t.write_before filled hi]
    rw [Tape.write, if_pos (by omega)]
    cases hf : filled[i - t.head]? with
    | none => exact List.prefix_rfl
    | some c =>
      rw [Option.getD_some]
      have hv : t.view (i - t.head) = t.cells i := by rw [Tape.view]; congr 1; omega
      cases b with
      | paragraph p =>
        obtain ⟨-, added, ha⟩ := paragraph_adds p w r s t.view filled r' hb _ c hf
        rw [← hv, ha]
        exact List.prefix_append _ _
      | rule x =>
        simp only [Block.intoColumns, Prod.mk.injEq, Option.some.injEq] at hb
        by_cases h0 : i = t.head
        · subst h0
          rw [Nat.sub_self] at hf hv
          obtain ⟨rfl, -⟩ := hb
          unfold Rule.intoColumns at hf
          simp only at hf
          split at hf
          · simp only [List.getElem?_cons_zero, Option.some.injEq] at hf
            rw [← hf, hv]
          · simp only [List.getElem?_cons_zero, Option.some.injEq] at hf
            rw [← hf, ← hv]
            exact List.prefix_append _ _
        · rw [ht i (by omega)]
          exact List.nil_prefix

theorem Fills.keeps {w : World} {s : StyleFull} {bs : List Block} {t t' : Tape} (h : Fills w s bs t t') (ht : t.Clear) :
    t'.Clear ∧ ∀ i, (t.cells i).blocks <+: (t'.cells i).blocks := by
  induction h with
  | nil t => exact ⟨ht, fun i => List.prefix_rfl⟩
  | cons b bs t r r' filled t' hb hrest ih =>
    obtain ⟨h1, h2⟩ := ht.step hb
    obtain ⟨h3, h4⟩ := ih h1
    exact ⟨h3, fun i => (h2 i).trans (h4 i)⟩

/-! ### C84 -/

/-- C84 for items: if a document is written and then items are added after its items, then the header and the objects of all its pages
are written exactly as before, whatever is added, and whether or not the longer document can be written. -/
theorem C84_items (w : World) (s : StyleFull) (items more : List DocItem) (id id' : Bytes)
    (h : (docWrite compress w.files (DocItem.render w s) id items).2 = true) :
    ∃ after, docWritten w s (items ++ more) = docWritten w s items ++ after ∧
    1 + 2 * (docWritten w s items).length ≤ (docWrite compress w.files (DocItem.render w s) id items).1.length ∧
    1 + 2 * (docWritten w s items).length ≤ (docWrite compress w.files (DocItem.render w s) id' (items ++ more)).1.length ∧
    (docWrite compress w.files (DocItem.render w s) id' (items ++ more)).1.take (1 + 2 * (docWritten w s items).length) =
      (docWrite compress w.files (DocItem.render w s) id items).1.take (1 + 2 * (docWritten w s items).length) := by
  have he := docWrite_noError h
  have hm := docRun_more w s items more 0 Res.empty he
  rw [PagesRun.andThen, he] at hm
  simp only at hm
  refine ⟨_, by rw [docWritten, hm, docWritten], ?_⟩
  have h1 := docPages_docRun w s items 0 Res.empty
  have h2 := docPages_docRun w s (items ++ more) 0 Res.empty
  have := docWrite_same (compress := compress) (files := w.files) (DocItem.render w s) (DocItem.render w s) id id' items (items ++ more)
    ((docWritten w s items).map Written.rendered) [] _ (by rw [h1, docWritten, List.append_nil]) (by rw [h2, hm, List.map_append, docWritten])
  rw [List.length_map] at this
  exact this

/-- C84 for the blocks of automatic pages: if a document that ends in automatic pages is written and then blocks are added to them (and items after
them), then all pages but the last are as before, and so are the header and the objects of these pages, byte for byte. This holds also if the longer document can not be written.
If its automatic pages are laid out, the page that was the last is of the same template and has the same columns with everything that was in them, in its place. -/
theorem C84_blocks (w : World) (s : StyleFull) (before after : List DocItem) (bs more : List Block) (template : Nat → Page)
    (hcols : ∀ n, (template n).columns ≠ []) (id id' : Bytes)
    (h : (docWrite compress w.files (DocItem.render w s) id (before ++ [.auto ⟨bs, template⟩])).2 = true) :
    ∃ (same : List Written) (last : Written) (rest : List Written),
      docWritten w s (before ++ [.auto ⟨bs, template⟩]) = same ++ [last] ∧
      docWritten w s (before ++ .auto ⟨bs ++ more, template⟩ :: after) = same ++ rest ∧
      1 + 2 * same.length ≤ (docWrite compress w.files (DocItem.render w s) id (before ++ [.auto ⟨bs, template⟩])).1.length ∧
      1 + 2 * same.length ≤ (docWrite compress w.files (DocItem.render w s) id' (before ++ .auto ⟨bs ++ more, template⟩ :: after)).1.length ∧
      (docWrite compress w.files (DocItem.render w s) id' (before ++ .auto ⟨bs ++ more, template⟩ :: after)).1.take (1 + 2 * same.length) =
        (docWrite compress w.files (DocItem.render w s) id (before ++ [.auto ⟨bs, template⟩])).1.take (1 + 2 * same.length) ∧
      ((docRun w s (before ++ .auto ⟨bs ++ more, template⟩ :: after) 0 Res.empty).err = none → ∃ last' rest', rest = last' :: rest' ∧
        last'.page.base = last.page.base ∧
        List.Forall₂ (fun c c' : ColumnFill => c.blocks <+: c'.blocks) last.page.cols last'.page.cols) := by
  have he := docWrite_noError h
  obtain ⟨g1, g2, g3⟩ := docRun_append w s before [.auto ⟨bs, template⟩] 0 Res.empty he
  set k := (docRun w s before 0 Res.empty).pages.length with hk
  set r := (docRun w s before 0 Res.empty).res with hr
  have hone : ∀ a : AutoPage, docRun w s [.auto a] (0 + k) r = a.render w s (0 + k + 1) r := by
    intro a
    rw [docRun]
    simp only [docRun, DocItem.run]
    cases hx : (a.render w s (0 + k + 1) r) with
    | mk p r1 e => cases e <;> simp [PagesRun.andThen]
  rw [hone] at g2 g3
  let pages : Nat → Page := fun n => template (0 + k + 1 + n)
  have hp : ∀ n, (pages n).columns ≠ [] := fun n => hcols _
  obtain ⟨t0, ht0⟩ := exists_newTape hp
  obtain ⟨P, r', doc', t', f1, f2, f3⟩ := autoLoop_more hp w s bs 0 (fun n => PageFill.new (pages n)) t0 r (PagesInv.ofNew hp t0 ht0) g3
  have hsmall : (AutoPage.render ⟨bs, template⟩ w s (0 + k + 1) r) =
      ⟨P ++ (autoLoop w s [] doc' r').pages, (autoLoop w s [] doc' r').res, (autoLoop w s [] doc' r').err⟩ := by
    have := f3 []
    rw [List.append_nil] at this
    exact this
  rw [hsmall] at g2 g3
  simp only at g2 g3
  obtain ⟨t1, i1, Q, i2, -, -, i3⟩ := autoLoop_spec hp w s [] (0 + P.length) doc' t' r' f1 g3
  cases i1
  have hQ : Q = 0 := by
    have hp1 := writePages_pages w s _ r' (by rw [autoLoop] at g3; exact g3)
    have := congrArg List.length hp1
    rw [List.length_map] at this
    rw [autoLoop, this] at i2
    simp at i2
    omega
  subst hQ
  obtain ⟨last, hlast⟩ := List.length_eq_one_iff.1 i2
  have hlp := i3 0 last (by rw [hlast]; rfl)
  have hbig := docRun_more w s before (.auto ⟨bs ++ more, template⟩ :: after) 0 Res.empty g1
  rw [PagesRun.andThen, g1] at hbig
  simp only at hbig
  rw [← hk, ← hr] at hbig
  have hb2 : docRun w s (.auto ⟨bs ++ more, template⟩ :: after) (0 + k) r =
      (⟨P ++ (autoLoop w s more doc' r').pages, (autoLoop w s more doc' r').res, (autoLoop w s more doc' r').err⟩ : PagesRun).andThen
        (fun r1 => docRun w s after (0 + k + (P ++ (autoLoop w s more doc' r').pages).length) r1) := by
    rw [docRun]
    have : DocItem.run w s (.auto ⟨bs ++ more, template⟩) (0 + k + 1) r =
        ⟨P ++ (autoLoop w s more doc' r').pages, (autoLoop w s more doc' r').res, (autoLoop w s more doc' r').err⟩ := f3 more
    rw [this]
  obtain ⟨rest, hrest, hrest'⟩ : ∃ rest, (docRun w s (.auto ⟨bs ++ more, template⟩ :: after) (0 + k) r).pages = P ++ rest ∧
      ((docRun w s (.auto ⟨bs ++ more, template⟩ :: after) (0 + k) r).err = none →
        (autoLoop w s more doc' r').err = none ∧ ∃ l, rest = (autoLoop w s more doc' r').pages ++ l) := by
    rw [hb2, PagesRun.andThen]
    cases hee : (autoLoop w s more doc' r').err with
    | some e => exact ⟨_, rfl, fun hx => by cases hx⟩
    | none =>
      simp only [List.append_assoc]
      exact ⟨_, rfl, fun _ => ⟨trivial, _, rfl⟩⟩
  have hw1 : docWritten w s (before ++ [.auto ⟨bs, template⟩]) = ((docRun w s before 0 Res.empty).pages ++ P) ++ [last] := by
    rw [docWritten, g2, hlast, List.append_assoc]
  have hw2 : docWritten w s (before ++ .auto ⟨bs ++ more, template⟩ :: after) = ((docRun w s before 0 Res.empty).pages ++ P) ++ rest := by
    rw [docWritten, hbig, hrest, List.append_assoc]
  refine ⟨(docRun w s before 0 Res.empty).pages ++ P, last, rest, hw1, hw2, ?_⟩
  have h1 := docPages_docRun w s (before ++ [.auto ⟨bs, template⟩]) 0 Res.empty
  have h2 := docPages_docRun w s (before ++ .auto ⟨bs ++ more, template⟩ :: after) 0 Res.empty
  have hsame := docWrite_same (compress := compress) (files := w.files) (DocItem.render w s) (DocItem.render w s) id id'
    (before ++ [.auto ⟨bs, template⟩]) (before ++ .auto ⟨bs ++ more, template⟩ :: after)
    (((docRun w s before 0 Res.empty).pages ++ P).map Written.rendered) _ _
    (by rw [h1]; simp only; rw [show (docRun w s (before ++ [.auto ⟨bs, template⟩]) 0 Res.empty).pages = _ from hw1, List.map_append])
    (by rw [h2]; simp only; rw [show (docRun w s (before ++ .auto ⟨bs ++ more, template⟩ :: after) 0 Res.empty).pages = _ from hw2, List.map_append])
  rw [List.length_map] at hsame
  refine ⟨hsame.1, hsame.2.1, hsame.2.2, fun hno => ?_⟩
  have hno' : (docRun w s (.auto ⟨bs ++ more, template⟩ :: after) (0 + k) r).err = none := by rw [hbig] at hno; exact hno
  obtain ⟨j1, l, rfl⟩ := hrest' hno'
  obtain ⟨t2, k1, Q2, k2, -, -, k3⟩ := autoLoop_spec hp w s more (0 + P.length) doc' t' r' f1 j1
  obtain ⟨last', rest', hl'⟩ : ∃ last' rest', (autoLoop w s more doc' r').pages = last' :: rest' := by
    cases hx : (autoLoop w s more doc' r').pages with
    | nil => rw [hx] at k2; simp at k2
    | cons a b => exact ⟨a, b, rfl⟩
  have hl2 := k3 0 last' (by rw [hl']; rfl)
  refine ⟨last', rest' ++ l, by rw [hl']; rfl, by rw [hl2, hlp], ?_⟩
  rw [hl2, hlp]
  have hkeep := (k1.keeps (f2.keeps (ht0.clear hp)).1).2
  simp only [Tape.page]
  exact List.forall₂_iff_get.2 ⟨by simp only [slice_length], fun i h1 h2 => by simpa [slice] using hkeep _⟩

end

/-- The document of two pages of Props/Flow meets the hypotheses: if any blocks are added to it, its first page and the objects of that page stay as they are. -/
example (more : List Block) (after : List DocItem) : ∃ (id : Bytes) (same : List Written) (last : Written) (rest : List Written), same.length = 1 ∧
    docWritten demoWorld faceStyle [.auto flowPages] = same ++ [last] ∧
    docWritten demoWorld faceStyle (.auto ⟨flowPages.content ++ more, flowPages.template⟩ :: after) = same ++ rest ∧
    ∀ id', (docWrite _root_.id demoWorld.files (DocItem.render demoWorld faceStyle) id' (.auto ⟨flowPages.content ++ more, flowPages.template⟩ :: after)).1.take 3 =
        (docWrite _root_.id demoWorld.files (DocItem.render demoWorld faceStyle) id [.auto flowPages]).1.take 3 := by
  obtain ⟨id, chunks, h, -⟩ := flow_written.done
  have hlen : (docWritten demoWorld faceStyle [.auto flowPages]).length = 2 := by rw [docWritten, flow_run]; decide +kernel
  have hh := fun id' => C84_blocks (compress := _root_.id) demoWorld faceStyle [] after flowPages.content more flowPages.template (by simp [flowPages]) id id' (congrArg Prod.snd h)
  obtain ⟨same, last, rest, h1, h2, -⟩ := hh id
  have hs : same.length = 1 := by
    have := congrArg List.length h1
    have e : docWritten demoWorld faceStyle ([] ++ [.auto ⟨flowPages.content, flowPages.template⟩]) = docWritten demoWorld faceStyle [.auto flowPages] := rfl
    rw [e, hlen, List.length_append] at this
    simp at this; omega
  refine ⟨id, same, last, rest, hs, h1, h2, fun id' => ?_⟩
  obtain ⟨same', last', rest', i1, -, -, -, i2, -⟩ := hh id'
  have hs' : same'.length = 1 := by
    have := congrArg List.length i1
    have e : docWritten demoWorld faceStyle ([] ++ [.auto ⟨flowPages.content, flowPages.template⟩]) = docWritten demoWorld faceStyle [.auto flowPages] := rfl
    rw [e, hlen, List.length_append] at this
    simp at this; omega
  rw [hs'] at i2
  exact i2

end Pdfje
