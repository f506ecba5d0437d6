import Verif.Proofs.Document
import Verif.Proofs.Crash
import Verif.Props.Atoms
/-
Properties of whole documents: C02, C03, C05, C11, C12, C51.
-/

namespace Pdfje
open PdfSpec

section
variable (compress : Bytes → Bytes) (files : Path → FontFile)

/-! ### C02 -/

theorem kindOk_fontKey (n : Nat) (a : Atom) (h1 : HasType b!"Font" a)
    (h2 : a.get b!"Subtype" = some (.name b!"Type0")) : KindOk (b!"F" ++ decNat n) a := by
  have hne : ∀ (x : UInt8) (k : Bytes), isDigit x = false → b!"F" ++ decNat n ≠ 0x46 :: x :: k := by
    intro x k hx he
    simp only [List.cons_append, List.nil_append, List.cons.injEq, true_and] at he
    have := decNat_all n x (by rw [he]; simp)
    rw [hx] at this
    cases this
  have hne2 : ∀ (x : UInt8) (k : Bytes), x ≠ 0x46 → b!"F" ++ decNat n ≠ x :: k := by
    intro x k hx he
    simp only [List.cons_append, List.nil_append, List.cons.injEq] at he
    exact hx he.1.symm
  unfold KindOk
  rw [if_neg, if_neg, if_neg, if_neg, if_neg, if_neg, if_neg, if_neg]
  · exact ⟨h1, h2⟩
  · exact hne2 _ _ (by decide)
  · exact hne _ _ (by decide)
  · exact hne2 _ _ (by decide)
  · exact hne2 _ _ (by decide)
  · exact hne _ _ (by decide)
  · rintro (h | h | h)
    · exact hne2 _ _ (by decide) h
    · exact hne2 _ _ (by decide) h
    · exact hne2 _ _ (by decide) h
  · exact hne2 _ _ (by decide)
  · rintro (h | h)
    · exact hne2 _ _ (by decide) h
    · exact hne2 _ _ (by decide) h

theorem itemRefs_refs (key : Bytes) (l : List Nat) : itemRefs key (l.map Atom.ref) = l.map fun n => (key, n) := by
  induction l with
  | nil => rfl
  | cons a l ih => simp [itemRefs, Atom.keyRefs, ih]

theorem entryRefs_builtins (l : List ((Bytes × Bool × Bool) × BuiltinFont)) (es : List (Bytes × Atom)) :
    entryRefs (l.map (fun e => (e.2.fid, e.2.toResource)) ++ es) = entryRefs es := by
  induction l with
  | nil => rfl
  | cons a l ih =>
    rw [List.map_cons, List.cons_append, entryRefs, ih]
    simp [entryRefs, Atom.keyRefs, BuiltinFont.toResource]

theorem mem_entryRefs_subsets (ss : List Subset) : ∀ i (x : Bytes × Nat), x ∈ entryRefs (subsetEntries ss i) →
    ∃ (n : Nat) (s : Subset), ss[n]? = some s ∧ x = (s.id, i + 7 * n) := by
  induction ss with
  | nil => intro i x h; simp [subsetEntries, entryRefs] at h
  | cons s ss ih =>
    intro i x h
    simp only [subsetEntries, entryRefs, Atom.keyRefs, List.cons_append, List.nil_append, List.mem_cons] at h
    rcases h with rfl | h
    · exact ⟨0, s, rfl, by simp⟩
    · obtain ⟨n, t, h1, rfl⟩ := ih _ _ h
      refine ⟨n + 1, t, h1, ?_⟩
      simp only [objsPerFont, Prod.mk.injEq, true_and]
      omega

theorem encodeWidths_keyRefs (key : Bytes) (ws : List ℚ) : (encodeWidths ws).keyRefs key = [] := by
  have : ∀ l : List ℚ, itemRefs key (l.map fun w => Atom.int (truncQ w)) = [] := by
    intro l
    induction l with
    | nil => rfl
    | cons a l ih => simp [itemRefs, Atom.keyRefs, ih]
  simp [encodeWidths, Atom.keyRefs, itemRefs, this]

/-- C02. In a document written successfully the object numbers are exactly 1..N, each once, and every reference in any
object (and the reference to the catalog in the trailer, object 1) names an object of the file of the kind that
the key it stands under asks for. -/
theorem C02_references {I : Type} (render : I → Nat → Res → Run) (hr : RenderOk render) (items : List I)
    (objs : List Obj) (h : docObjects compress files render items = (objs, true)) :
    (objs.map (·.1)).Nodup ∧ (∀ n, n ∈ objs.map (·.1) ↔ 1 ≤ n ∧ n ≤ objs.length) ∧
    (∃ a, objAt objs 1 = some a ∧ HasType b!"Catalog" a) ∧
    ∀ o ∈ objs, ∀ x ∈ o.2.keyRefs b!"", ∃ a, objAt objs x.2 = some a ∧ KindOk x.1 a := by
  have hids := docObjects_ids compress files render items objs h
  have hnd : (objs.map (·.1)).Nodup := by rw [hids]; exact writeOrder_nodup _
  obtain ⟨-, hn, hok, hobjs⟩ := docObjects_done compress files render items objs h
  have hwf := docPages_wf render hr items
  generalize docPages render items 0 Res.empty = run at *
  have hlen : objs.length = 2 * run.pages.length + 7 * run.res.subsets.length + 3 := by
    rw [← List.length_map (f := (·.1)), hids]; simp [writeOrder]
  have hcat : (1, catalogObj.2) ∈ objs := by rw [hobjs]; simp [headers, catalogObj]
  have htree : (2, Atom.dict [(b!"Type", .name b!"Pages"), (b!"Kids", .array ((pageIds run.pages.length 4).map .ref)),
     (b!"Count", .int run.pages.length)]) ∈ objs := by rw [hobjs]; simp [headers]
  have hres : (3, run.res.toAtoms (4 + 2 * run.pages.length)) ∈ objs := by rw [hobjs]; simp [headers]
  have hpage : ∀ (k : Nat) p, run.pages[k]? = some p → (4 + 2 * k, p.dict (4 + 2 * k)) ∈ objs ∧
      (4 + 2 * k + 1, Atom.stream p.stream []) ∈ objs := by
    intro k p hk
    rw [hobjs]
    constructor
    · exact List.mem_append_left _ (List.mem_append_left _ ((mem_pageObjects _ _ _).mpr ⟨k, p, hk, Or.inl rfl⟩))
    · exact List.mem_append_left _ (List.mem_append_left _ ((mem_pageObjects _ _ _).mpr ⟨k, p, hk, Or.inr rfl⟩))
  have hfont : ∀ (n : Nat) (s : Subset), (run.res.subsets.map (·.2))[n]? = some s → ∃ os,
      s.toObjects compress (files s.path) (4 + 2 * run.pages.length + 7 * n) = some os ∧ ∀ o ∈ os, o ∈ objs := by
    intro n s hs
    obtain ⟨os, h1, h2⟩ := subsetObjects_get compress files _ _ n s hok hs
    refine ⟨os, ?_, fun o ho => ?_⟩
    · rw [← h1]; congr 1; simp only [objsPerFont]; omega
    · rw [hobjs]
      exact List.mem_append_left _ (List.mem_append_right _ (h2 o ho))
  have look : ∀ i a, (i, a) ∈ objs → objAt objs i = some a := objAt_of_mem objs hnd
  refine ⟨hnd, fun n => ?_, ⟨_, look 1 _ hcat, rfl⟩, ?_⟩
  · rw [hids, hlen]
    unfold writeOrder
    simp only [List.mem_append, List.mem_range'_1, List.mem_cons, List.not_mem_nil, or_false]
    omega
  intro o ho x hx
  rw [hobjs] at ho
  simp only [List.mem_append] at ho
  rcases ho with (ho | ho) | ho
  · obtain ⟨k, p, hk, rfl | rfl⟩ := (mem_pageObjects _ _ _).mp ho
    · simp only [RenderedPage.dict, Atom.keyRefs, entryRefs, itemRefs, List.append_nil, List.nil_append,
        List.cons_append, List.mem_cons, List.not_mem_nil, or_false] at hx
      rcases hx with rfl | rfl | rfl
      · exact ⟨_, look _ _ htree, by simp [KindOk, HasType, Atom.get]⟩
      · exact ⟨_, look _ _ (hpage k p hk).2, by simp [KindOk, Atom.content]⟩
      · exact ⟨_, look _ _ hres, by simp [KindOk, Res.toAtoms, Atom.get]⟩
    · simp [Atom.keyRefs, entryRefs] at hx
  · obtain ⟨n, s, os, hs, hos, ho⟩ := mem_subsetObjects compress files _ _ _ ho
    obtain ⟨os', hos', hmem⟩ := hfont n s hs
    rw [hos] at hos'
    cases hos'
    generalize 4 + 2 * run.pages.length + 7 * n = i at *
    simp only [Subset.toObjects] at hos
    split at hos
    swap
    · cases hos
    simp only [Option.some.injEq] at hos
    subst hos
    simp only [List.mem_cons, List.not_mem_nil, or_false, forall_eq_or_imp, forall_eq] at hmem ho
    obtain ⟨m0, m1, m2, m3, m4, m5, m6⟩ := hmem
    rcases ho with rfl | rfl | rfl | rfl | rfl | rfl | rfl
    · simp only [Atom.keyRefs, entryRefs, itemRefs, List.append_nil, List.nil_append, List.cons_append, List.mem_cons,
        List.not_mem_nil, or_false] at hx
      rcases hx with rfl | rfl
      · exact ⟨_, look _ _ m1, by simp [KindOk, HasType, Atom.get]⟩
      · exact ⟨_, look _ _ m2, by simp [KindOk, Atom.content]⟩
    · simp only [Atom.keyRefs, entryRefs, encodeWidths_keyRefs, List.append_nil, List.nil_append, List.cons_append,
        List.mem_cons, List.not_mem_nil, or_false] at hx
      rcases hx with rfl | rfl | rfl
      · exact ⟨_, look _ _ m3, by simp [KindOk, cidsysInfo, Atom.get]⟩
      · exact ⟨_, look _ _ m4, by simp [KindOk, HasType, Atom.get]⟩
      · exact ⟨_, look _ _ m5, by simp [KindOk, Atom.content]⟩
    · simp [Atom.keyRefs, entryRefs] at hx
    · simp [cidsysInfo, Atom.keyRefs, entryRefs] at hx
    · simp only [Atom.keyRefs, entryRefs, itemRefs, List.append_nil, List.nil_append, List.cons_append, List.mem_cons,
        List.not_mem_nil, or_false] at hx
      subst hx
      exact ⟨_, look _ _ m6, by simp [KindOk, Atom.content, Atom.get]⟩
    · simp [Atom.keyRefs, entryRefs] at hx
    · simp [Atom.keyRefs, entryRefs] at hx
  · simp only [headers, List.mem_cons, List.not_mem_nil, or_false] at ho
    rcases ho with rfl | rfl | rfl
    · simp only [catalogObj, Atom.keyRefs, entryRefs, List.append_nil, List.nil_append, List.mem_cons,
        List.not_mem_nil, or_false] at hx
      subst hx
      exact ⟨_, look _ _ htree, by simp [KindOk, HasType, Atom.get]⟩
    · simp only [Atom.keyRefs, entryRefs, itemRefs_refs, List.append_nil, List.nil_append, List.mem_map] at hx
      obtain ⟨m, hm, rfl⟩ := hx
      rw [pageIds_range, List.mem_map] at hm
      obtain ⟨k, hk, rfl⟩ := hm
      rw [List.mem_range] at hk
      refine ⟨_, look _ _ (hpage k run.pages[k] (List.getElem?_eq_getElem hk)).1, ?_⟩
      simp [KindOk, HasType, RenderedPage.dict, Atom.get]
    · simp only [Res.toAtoms, Res.fontEntries, Atom.keyRefs, entryRefs, entryRefs_builtins, List.append_nil] at hx
      obtain ⟨n, s, hs, rfl⟩ := mem_entryRefs_subsets _ _ _ hx
      obtain ⟨os, hos, hmem⟩ := hfont n s hs
      simp only [Subset.toObjects] at hos
      split at hos
      swap
      · cases hos
      simp only [Option.some.injEq] at hos
      subst hos
      rw [List.getElem?_map, Option.map_eq_some_iff] at hs
      obtain ⟨e, he, rfl⟩ := hs
      refine ⟨_, look _ _ (hmem _ List.mem_cons_self), ?_⟩
      simp only
      rw [(hwf.sub n e he).1]
      exact kindOk_fontKey n _ rfl rfl

/-! ### C03 -/

/-- The pages an item list renders, in order, as one plain definition: item by item. -/
def renderedPages {I : Type} (render : I → Nat → Res → Run) (items : List I) : List RenderedPage :=
  (docPages render items 0 Res.empty).pages

/-- C03. The page tree of a written document lists one page object per rendered page, in order; `/Count` is their number;
and the k-th page object has the k-th page's size and rotation, and refers to a stream with its content. -/
theorem C03_page_tree {I : Type} (render : I → Nat → Res → Run) (items : List I)
    (objs : List Obj) (h : docObjects compress files render items = (objs, true)) :
    ∃ root tree kids, objAt objs 1 = some root ∧ follow objs b!"Pages" root = some tree ∧
      tree.get b!"Kids" = some (.array kids) ∧
      tree.get b!"Count" = some (.int (renderedPages render items).length) ∧
      kids.length = (renderedPages render items).length ∧
      ∀ (k : Nat) p, (renderedPages render items)[k]? = some p →
        ∃ kid page content, kids[k]? = some kid ∧ deref objs kid = some page ∧
          page.get b!"Type" = some (.name b!"Page") ∧
          page.get b!"MediaBox" = some (.array [.real 0, .real 0, .real p.size.1, .real p.size.2]) ∧
          page.get b!"Rotate" = some (.int p.rotate) ∧
          follow objs b!"Contents" page = some content ∧ content.content = some p.stream := by
  have hids := docObjects_ids compress files render items objs h
  have hnd : (objs.map (·.1)).Nodup := by rw [hids]; exact writeOrder_nodup _
  obtain ⟨-, hn, hok, hobjs⟩ := docObjects_done compress files render items objs h
  unfold renderedPages
  generalize docPages render items 0 Res.empty = run at *
  have look : ∀ i a, (i, a) ∈ objs → objAt objs i = some a := objAt_of_mem objs hnd
  have hcat : (1, catalogObj.2) ∈ objs := by rw [hobjs]; simp [headers, catalogObj]
  have htree : (2, Atom.dict [(b!"Type", .name b!"Pages"), (b!"Kids", .array ((pageIds run.pages.length 4).map .ref)),
     (b!"Count", .int run.pages.length)]) ∈ objs := by rw [hobjs]; simp [headers]
  have hpage : ∀ (k : Nat) p, run.pages[k]? = some p → (4 + 2 * k, p.dict (4 + 2 * k)) ∈ objs ∧
      (4 + 2 * k + 1, Atom.stream p.stream []) ∈ objs := by
    intro k p hk
    rw [hobjs]
    constructor
    · exact List.mem_append_left _ (List.mem_append_left _ ((mem_pageObjects _ _ _).mpr ⟨k, p, hk, Or.inl rfl⟩))
    · exact List.mem_append_left _ (List.mem_append_left _ ((mem_pageObjects _ _ _).mpr ⟨k, p, hk, Or.inr rfl⟩))
  refine ⟨catalogObj.2, Atom.dict [(b!"Type", .name b!"Pages"),
     (b!"Kids", .array ((pageIds run.pages.length 4).map .ref)), (b!"Count", .int run.pages.length)],
    (pageIds run.pages.length 4).map .ref, look _ _ hcat, ?_, ?_, ?_, ?_, ?_⟩
  · exact look _ _ htree
  · simp [Atom.get]
  · simp [Atom.get]
  · simp [pageIds_range]
  · intro k p hk
    have hlt := (List.getElem?_eq_some_iff.mp hk).1
    refine ⟨.ref (4 + 2 * k), p.dict (4 + 2 * k), .stream p.stream [], ?_, look _ _ (hpage k p hk).1, ?_, ?_, ?_,
      look _ _ (hpage k p hk).2, rfl⟩
    · rw [pageIds_range, List.getElem?_map, List.getElem?_map, List.getElem?_range hlt]; rfl
    · simp [RenderedPage.dict, Atom.get]
    · simp [RenderedPage.dict, Atom.get]
    · simp [RenderedPage.dict, Atom.get]

/-! ### C05 -/

/-- C05. If the items render no page at all, writing fails, and what was yielded before is the file header only. -/
theorem C05_no_pages {I : Type} (render : I → Nat → Res → Run) (id : Bytes) (items : List I)
    (hnone : renderedPages render items = []) (hlay : ∀ p, (docPages render items 0 Res.empty).err ≠ some (.inStream p)) :
    docWrite compress files render id items = ([header], false) := by
  unfold renderedPages at hnone
  have : docObjects compress files render items = ([], false) := by
    simp only [docObjects, hnone, List.length_nil, pageObjects]
    split
    · rfl
    · rename_i p he; exact absurd he (hlay p)
    · simp
  unfold docWrite
  rw [this]
  rfl

/-- C05, never a complete file: whenever no page was rendered completely, the write does not finish. -/
theorem C05_never_complete {I : Type} (render : I → Nat → Res → Run) (id : Bytes) (items : List I)
    (hnone : renderedPages render items = []) : (docWrite compress files render id items).2 = false := by
  unfold docWrite
  cases hd : docObjects compress files render items with
  | mk objs ok =>
    cases ok with
    | false => rfl
    | true =>
      obtain ⟨-, hn, -⟩ := docObjects_done compress files render items objs hd
      unfold renderedPages at hnone
      rw [hnone] at hn
      simp at hn

/-! ### C11, C12 for documents -/

/-- A document write finishes exactly when all its objects were produced. -/
theorem docWrite_done {I : Type} (render : I → Nat → Res → Run) (id : Bytes) (items : List I) (objs : List Obj)
    (h : docObjects compress files render items = (objs, true)) :
    ∃ chunks, write compress id objs = some chunks ∧ docWrite compress files render id items = (chunks, true) := by
  have hids := docObjects_ids compress files render items objs h
  obtain ⟨offs, -, hfile, -⟩ := writeBytes_fileOf compress id objs _ hids
  unfold writeBytes at hfile
  cases hw : write compress id objs with
  | none => rw [hw] at hfile; simp at hfile
  | some chunks =>
    refine ⟨chunks, rfl, ?_⟩
    unfold docWrite
    rw [h]
    simp only [hw]

/-- C11 for documents: whatever happens — an error while laying out or rendering, or the target failing after any number
`j` of chunks — a path or the receiver of the iterator holds a prefix of what a complete run yields, a file object
holds what it had before followed by the same bytes; and that prefix ends with the end-of-file marker line only
if the document was written completely. -/
theorem C11_document {I : Type} (render : I → Nat → Res → Run) (id : Bytes) (items : List I) (j : Nat) (before : Bytes) :
    let all := docWrite compress files render id items
    let got := docWriteTo compress files render id items .iterator j
    (∃ t, all.1.flatten = got ++ t) ∧
    docWriteTo compress files render id items (.path before) j = got ∧
    docWriteTo compress files render id items (.file before) j = before ++ got ∧
    ((∃ t, got = t ++ b!"%%EOF\n") → all.2 = true ∧ all.1.length ≤ j) := by
  refine ⟨⟨((docWrite compress files render id items).1.drop j).flatten, ?_⟩, rfl, rfl, ?_⟩
  · simp only [docWriteTo]
    rw [← List.flatten_append, List.take_append_drop]
  · rintro ⟨t, ht⟩
    simp only [docWriteTo] at ht
    cases hd : docObjects compress files render items with
    | mk objs ok =>
      cases ok with
      | true =>
        obtain ⟨chunks, hw, hdw⟩ := docWrite_done compress files render id items objs hd
        rw [hdw] at ht ⊢
        exact ⟨rfl, ((C11_interrupted compress id objs chunks hw j).2.mp ⟨t, ht⟩)⟩
      | false =>
        exfalso
        have hdw : docWrite compress files render id items = (header :: objs.map (writeObj compress), false) := by
          unfold docWrite; rw [hd]
        rw [hdw] at ht
        have hno : ∀ c ∈ (header :: objs.map (writeObj compress)).take j, NoF c := by
          intro c hc
          have := List.mem_of_mem_take hc
          simp only [List.mem_cons, List.mem_map] at this
          rcases this with rfl | ⟨o, -, rfl⟩
          · exact noF_header
          · exact noF_obj compress o
        have := noF_flatten _ hno
        exact this.2 (t ++ b!"%%EO") (by rw [ht]; simp)

/-- C12 for documents: two writes of the same document with different random ids give files that differ only inside the
two hexadecimal strings of `/ID`, and the same length if the ids have the same length. -/
theorem C12_document {I : Type} (render : I → Nat → Res → Run) (items : List I) (id : Bytes)
    (hdone : (docWrite compress files render id items).2 = true) :
    ∃ A C, (docWrite compress files render id items).1.flatten =
        A ++ b!"/ID [<" ++ hexlify id ++ b!"> <" ++ hexlify id ++ b!"> ]\n>>\nstartxref\n" ++ C ∧
      ∀ id' : Bytes, (docWrite compress files render id' items).2 = true ∧
        (docWrite compress files render id' items).1.flatten =
          A ++ b!"/ID [<" ++ hexlify id' ++ b!"> <" ++ hexlify id' ++ b!"> ]\n>>\nstartxref\n" ++ C ∧
        (id'.length = id.length → (docWrite compress files render id' items).1.flatten.length =
          (docWrite compress files render id items).1.flatten.length) := by
  cases hd : docObjects compress files render items with
  | mk objs ok =>
    cases ok with
    | false => simp [docWrite, hd] at hdone
    | true =>
      obtain ⟨chunks, hw, hdw⟩ := docWrite_done compress files render id items objs hd
      have hb : writeBytes compress id objs = some chunks.flatten := by simp [writeBytes, hw]
      obtain ⟨A, C, hA, hC⟩ := C12_only_id compress objs id _ hb
      refine ⟨A, C, by rw [hdw]; exact hA, fun id' => ?_⟩
      obtain ⟨chunks', hw', hdw'⟩ := docWrite_done compress files render id' items objs hd
      obtain ⟨file', hf', he', hl'⟩ := hC id'
      simp only [writeBytes, hw', Option.map_some, Option.some.injEq] at hf'
      subst hf'
      rw [hdw', hdw]
      exact ⟨rfl, he', hl'⟩

/-! ### C51 -/

/-- C51. An item is rendered with the number of the page that its first page becomes: if no error occurs before, the item is
called with one more than the number of pages of the items before it, and its pages are placed right there. -/
theorem C51_page_numbers {I : Type} (render : I → Nat → Res → Run) (before : List I) (it : I) (after : List I)
    (hno : (docPages render (before ++ it :: after) 0 Res.empty).err = none) :
    ∃ r, (render it ((renderedPages render before).length + 1) r).err = none ∧
      ∀ (k : Nat) p, (render it ((renderedPages render before).length + 1) r).pages[k]? = some p →
        (renderedPages render (before ++ it :: after))[(renderedPages render before).length + k]? = some p := by
  unfold renderedPages
  have key : ∀ (l : List I) (n : Nat) (r : Res), (docPages render (l ++ it :: after) n r).err = none →
      ∃ r', (render it (n + (docPages render l n r).pages.length + 1) r').err = none ∧
        (docPages render (l ++ it :: after) n r).pages = (docPages render l n r).pages ++
          ((render it (n + (docPages render l n r).pages.length + 1) r').pages ++
            (docPages render after (n + (docPages render l n r).pages.length +
              (render it (n + (docPages render l n r).pages.length + 1) r').pages.length)
              (render it (n + (docPages render l n r).pages.length + 1) r').res).pages) := by
    intro l
    induction l with
    | nil =>
      intro n r h
      simp only [List.nil_append, docPages] at h ⊢
      refine ⟨r, ?_⟩
      split at h
      · cases h
      · rename_i he
        simp only [List.length_nil, Nat.add_zero, he, true_and, List.nil_append]
    | cons a l ih =>
      intro n r h
      simp only [List.cons_append, docPages] at h ⊢
      split at h
      · cases h
      · rename_i he
        simp only [he]
        obtain ⟨r', h1, h2⟩ := ih _ _ h
        refine ⟨r', ?_⟩
        have e : n + (render a (n + 1) r).pages.length +
            (docPages render l (n + (render a (n + 1) r).pages.length) (render a (n + 1) r).res).pages.length =
          n + ((render a (n + 1) r).pages ++
            (docPages render l (n + (render a (n + 1) r).pages.length) (render a (n + 1) r).res).pages).length := by
          simp [Nat.add_assoc]
        rw [e] at h1 h2
        refine ⟨h1, ?_⟩
        rw [h2, List.append_assoc]
  obtain ⟨r', h1, h2⟩ := key before 0 Res.empty hno
  rw [Nat.zero_add] at h1 h2
  refine ⟨r', h1, fun k p hk => ?_⟩
  rw [h2, List.getElem?_append_right (by omega), Nat.add_sub_cancel_left, List.getElem?_append_left]
  · exact hk
  · exact (List.getElem?_eq_some_iff.mp hk).1

end
end Pdfje
