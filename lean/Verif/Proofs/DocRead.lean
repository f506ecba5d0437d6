import Verif.Spec.Extract
import Verif.Spec.Glyphs
import Verif.Proofs.ReadPages
/-
A written document as a reader of its bytes sees it: pages, their content and their fonts.
-/

namespace Pdfje
open PdfSpec

/-! ### Pages with their operators -/

/-- document.py:137-141, the pages of all items in order (`docPages`), with the operators of which their content is made. -/
def docRun (w : World) (s : StyleFull) : List DocItem → Nat → Res → PagesRun
  | [], _, r => ⟨[], r, none⟩
  | it :: its, done, r =>
    let a := it.run w s (done + 1) r
    a.andThen fun r1 => docRun w s its (done + a.pages.length) r1

theorem docPages_docRun (w : World) (s : StyleFull) : ∀ (items : List DocItem) (done : Nat) (r : Res),
    docPages (DocItem.render w s) items done r =
      ⟨(docRun w s items done r).pages.map Written.rendered, (docRun w s items done r).res, (docRun w s items done r).err⟩
  | [], _, _ => rfl
  | it :: its, done, r => by
    rw [docPages, docRun, PagesRun.andThen]
    simp only [DocItem.render]
    cases (it.run w s (done + 1) r).err with
    | some e => rfl
    | none => simp only [docPages_docRun w s its, List.length_map, List.map_append]

theorem docRun_reach (w : World) (s : StyleFull) (hs : s.Known) : ∀ (items : List DocItem), (∀ it ∈ items, it.Known) → ∀ (done : Nat) (r : Res),
    r.Reach (docRun w s items done r).res
  | [], _, _, r => Res.Reach.refl r
  | it :: its, hk, done, r => by
    have h1 : r.Reach (it.run w s (done + 1) r).res := DocItem.reach w s hs it (hk it (by simp)) (done + 1) r
    rw [docRun, PagesRun.andThen]
    cases (it.run w s (done + 1) r).err with
    | some e => exact h1
    | none => exact h1.trans (docRun_reach w s hs its (fun x hx => hk x (by simp [hx])) _ _)

theorem docRun_ok {w : World} {s : StyleFull} (hs : s.Known) {R : Res} : ∀ {items : List DocItem}, (∀ it ∈ items, it.Known) → ∀ {done : Nat} {r : Res}, r.WF →
    (docRun w s items done r).res.Le R → ∀ x ∈ (docRun w s items done r).pages, OpsOk R x.ops x.bytes
  | [], _, _, _, _, _ => by simp [docRun]
  | it :: its, hk, done, r, hr, hle => by
    have h1 : r.Reach (it.run w s (done + 1) r).res := DocItem.reach w s hs it (hk it (by simp)) (done + 1) r
    have hk' : ∀ x ∈ its, x.Known := fun x hx => hk x (by simp [hx])
    rw [docRun, PagesRun.andThen] at hle ⊢
    cases he : (it.run w s (done + 1) r).err with
    | some e =>
      simp only [he] at hle ⊢
      exact DocItem.run_ok hs (hk it (by simp)) hr hle
    | none =>
      simp only [he] at hle ⊢
      have w1 := (h1.wf hr).2
      have h2 := docRun_reach w s hs its hk' (done + (it.run w s (done + 1) r).pages.length) (it.run w s (done + 1) r).res
      intro x hx
      rcases List.mem_append.mp hx with hx | hx
      · exact DocItem.run_ok hs (hk it (by simp)) hr ((h2.wf w1).1.trans hle) x hx
      · exact docRun_ok hs hk' w1 hle x hx

/-! ### Objects of a written file -/

variable {compress : Bytes → Bytes} {decompress : Bytes → Option Bytes} {files : Path → FontFile}

/-- What a reader finds in a file made of these objects. -/
structure FileHolds (decompress : Bytes → Option Bytes) (file : Bytes) (objs : List Obj) : Prop where
  objects : ∀ o ∈ objs, ∃ p, lookup file o.1 = some p ∧ ObjDenotes decompress o.2 p
  root : ∃ d, trailer file = some d ∧ d.get b!"Root" = some (.ref 1 0)

theorem FileHolds.direct {file : Bytes} {objs : List Obj} (h : FileHolds decompress file objs) {n : Nat} {es : List (Bytes × Atom)} (ho : (n, Atom.dict es) ∈ objs) :
    ∃ p, lookup file n = some (.direct p) ∧ (Atom.dict es).Denotes p := by
  obtain ⟨p, h1, h2⟩ := h.objects _ ho
  cases h2 with
  | direct h2 => exact ⟨_, h1, h2⟩

theorem FileHolds.stream {file : Bytes} {objs : List Obj} (h : FileHolds decompress file objs) {n : Nat} {b : Bytes} {es : List (Bytes × Atom)}
    (ho : (n, Atom.stream b es) ∈ objs) (g : Nat) : streamData decompress file (.ref n g) = some b := by
  obtain ⟨p, h1, h2⟩ := h.objects _ ho
  cases h2 with
  | direct h2 => cases h2
  | stream h2 h3 => simp only at h1; simp only [streamData, h1, h3]

theorem find_direct {file key : Bytes} {p q : PObj} (h1 : p.get key = some q) (h2 : ∀ n g, q ≠ .ref n g) : p.find file key = some q := by
  simp only [PObj.find, h1, Option.bind_some]
  cases q <;> simp_all [resolve]

theorem find_ref {file key : Bytes} {p q : PObj} {n g : Nat} (h1 : p.get key = some (.ref n g)) (h2 : lookup file n = some (.direct q)) : p.find file key = some q := by
  simp only [PObj.find, h1, Option.bind_some, resolve, h2]

theorem name_denotes {v : Bytes} (hv : decodeName v = some v) {p : PObj} (h : (Atom.name v).Denotes p) : p = .name v := by
  cases h with
  | name h => rw [hv] at h; cases h; rfl

/-- The objects of a document that is written. -/
structure DocObjs (compress : Bytes → Bytes) (files : Path → FontFile) (pages : List RenderedPage) (R : Res) (objs : List Obj) : Prop where
  wf : R.WF
  ok : (R.toObjects compress files (4 + 2 * pages.length)).2 = true
  eq : objs = pageObjects pages 4 ++ (R.toObjects compress files (4 + 2 * pages.length)).1 ++ headers pages.length (R.toAtoms (4 + 2 * pages.length))

/-- A document that is written, and its file. -/
theorem docWrite_holds (hz : ∀ x, decompress (compress x) = some x) {I : Type} (render : I → Nat → Res → Run) (hr : RenderOk render) (id : Bytes) (items : List I)
    (hf : FontsOk files) (hsize : ∀ p ∈ renderedPages render items, GoodReal p.size.1 ∧ GoodReal p.size.2)
    (chunks : List Bytes) (hw : docWrite compress files render id items = (chunks, true)) (hsmall : chunks.flatten.length < 10 ^ 10) :
    ∃ objs, DocObjs compress files (docPages render items 0 Res.empty).pages (docPages render items 0 Res.empty).res objs ∧
      FileHolds decompress chunks.flatten objs := by
  cases hd : docObjects compress files render items with
  | mk objs ok =>
  cases ok with
  | false => simp [docWrite, hd] at hw
  | true =>
  obtain ⟨chunks', hw', hdw⟩ := docWrite_done compress files render id items objs hd
  rw [hw] at hdw
  simp only [Prod.mk.injEq, and_true] at hdw
  subst hdw
  have hids := docObjects_ids compress files render items objs hd
  have hb : writeBytes compress id objs = some chunks.flatten := by simp [writeBytes, hw']
  have hokobj := docObjects_ok compress files render hr items objs hd hf hsize
  obtain ⟨file, hfile, hlook⟩ := C08_file compress decompress hz id objs _ hids hokobj
  rw [hb] at hfile
  cases hfile
  obtain ⟨file, hfile, hx⟩ := C01_xref compress id objs _ hids
  rw [hb] at hfile
  cases hfile
  obtain ⟨-, -, -, ⟨d, hd1, hd2⟩, -⟩ := hx hsmall
  obtain ⟨-, hn, hok, hobjs⟩ := docObjects_done compress files render items objs hd
  exact ⟨objs, ⟨docPages_wf render hr items, hok, hobjs⟩, hlook hsmall, d, hd1, hd2⟩

/-- The page object of a page. -/
structure PageHolds (decompress : Bytes → Option Bytes) (file : Bytes) (R : Res) (first : Nat) (p : RenderedPage) (page : PObj) : Prop where
  content : pageContent decompress file page = some p.stream
  resources : ∃ fonts, (page.find file b!"Resources").bind (PObj.find file b!"Font") = some fonts ∧ (Atom.dict (R.fontEntries first)).Denotes fonts

theorem DocObjs.page {pages : List RenderedPage} {R : Res} {objs : List Obj} (h : DocObjs compress files pages R objs) {file : Bytes} (hf : FileHolds decompress file objs)
    {k : Nat} {p : RenderedPage} (hk : pages[k]? = some p) :
    ∃ page, pageObject file k = some page ∧ PageHolds decompress file R (4 + 2 * pages.length) p page := by
  obtain ⟨d, hd1, hd2⟩ := hf.root
  have hcat : (1, Atom.dict [(b!"Type", .name b!"Catalog"), (b!"Pages", .ref 2)]) ∈ objs := by rw [h.eq]; simp [headers, catalogObj]
  have htree : (2, Atom.dict [(b!"Type", .name b!"Pages"), (b!"Kids", .array ((pageIds pages.length 4).map .ref)),
     (b!"Count", .int pages.length)]) ∈ objs := by rw [h.eq]; simp [headers]
  have hres : (3, Atom.dict [(b!"Font", .dict (R.fontEntries (4 + 2 * pages.length)))]) ∈ objs := by rw [h.eq]; simp [headers, Res.toAtoms]
  obtain ⟨root, hl1, ho1⟩ := hf.direct hcat
  obtain ⟨tree, hl2, ho2⟩ := hf.direct htree
  obtain ⟨res, hl3, ho3⟩ := hf.direct hres
  have hplain2 : ∀ e ∈ ([(b!"Type", .name b!"Pages"), (b!"Kids", .array ((pageIds pages.length 4).map .ref)),
     (b!"Count", .int pages.length)] : List (Bytes × Atom)), decodeName e.1 = some e.1 := by
    intro e he
    simp only [List.mem_cons, List.not_mem_nil, or_false] at he
    rcases he with rfl | rfl | rfl
    · exact (by decide +kernel : decodeName b!"Type" = some b!"Type")
    · exact (by decide +kernel : decodeName b!"Kids" = some b!"Kids")
    · exact (by decide +kernel : decodeName b!"Count" = some b!"Count")
  have hplain3 : ∀ e ∈ ([(b!"Font", .dict (R.fontEntries (4 + 2 * pages.length)))] : List (Bytes × Atom)), decodeName e.1 = some e.1 := by
    intro e he
    simp only [List.mem_cons, List.not_mem_nil, or_false] at he
    subst he
    exact (by decide +kernel : decodeName b!"Font" = some b!"Font")
  obtain ⟨q1, e1, d1⟩ := dict_get _ _ ho1 (by decide +kernel) b!"Pages" (.ref 2) (by simp [Atom.get])
  obtain ⟨q2, e2, d2⟩ := dict_get _ _ ho2 hplain2 b!"Kids" (.array ((pageIds pages.length 4).map .ref)) (by simp [Atom.get])
  obtain ⟨fonts, e3, d3⟩ := dict_get _ _ ho3 hplain3 b!"Font" (.dict (R.fontEntries (4 + 2 * pages.length))) (by simp [Atom.get])
  rw [ref_denotes _ _ d1] at e1
  cases d2 with
  | array d2 =>
  rename_i kids
  have hlt := (List.getElem?_eq_some_iff.mp hk).1
  have hm1 : (4 + 2 * k, p.dict (4 + 2 * k)) ∈ objs := by
    rw [h.eq]
    exact List.mem_append_left _ (List.mem_append_left _ ((mem_pageObjects _ _ _).mpr ⟨k, p, hk, Or.inl rfl⟩))
  have hm2 : (4 + 2 * k + 1, Atom.stream p.stream []) ∈ objs := by
    rw [h.eq]
    exact List.mem_append_left _ (List.mem_append_left _ ((mem_pageObjects _ _ _).mpr ⟨k, p, hk, Or.inr rfl⟩))
  obtain ⟨page, hl4, ho4⟩ := hf.direct hm1
  obtain ⟨kid, hkid, hkd⟩ := (itemsDenote_get _ _ d2).2 k (.ref (4 + 2 * k)) (by
    rw [pageIds_range, List.getElem?_map, List.getElem?_map, List.getElem?_range hlt]; rfl)
  rw [ref_denotes _ _ hkd] at hkid
  have hplain : ∀ e ∈ ([(b!"Type", .name b!"Page"), (b!"Parent", .ref 2),
      (b!"MediaBox", .array [.real 0, .real 0, .real p.size.1, .real p.size.2]),
      (b!"Contents", .ref (4 + 2 * k + 1)), (b!"Resources", .ref 3), (b!"Rotate", .int p.rotate)] :
      List (Bytes × Atom)), decodeName e.1 = some e.1 := by
    intro e he
    simp only [List.mem_cons, List.not_mem_nil, or_false] at he
    rcases he with rfl | rfl | rfl | rfl | rfl | rfl
    · exact (by decide +kernel : decodeName b!"Type" = some b!"Type")
    · exact (by decide +kernel : decodeName b!"Parent" = some b!"Parent")
    · exact (by decide +kernel : decodeName b!"MediaBox" = some b!"MediaBox")
    · exact (by decide +kernel : decodeName b!"Contents" = some b!"Contents")
    · exact (by decide +kernel : decodeName b!"Resources" = some b!"Resources")
    · exact (by decide +kernel : decodeName b!"Rotate" = some b!"Rotate")
  obtain ⟨r1, f1, g1⟩ := dict_get _ _ ho4 hplain b!"Contents" (.ref (4 + 2 * k + 1)) (by simp [Atom.get])
  obtain ⟨r2, f2, g2⟩ := dict_get _ _ ho4 hplain b!"Resources" (.ref 3) (by simp [Atom.get])
  rw [ref_denotes _ _ g1] at f1
  rw [ref_denotes _ _ g2] at f2
  refine ⟨page, ?_, ?_, fonts, ?_, d3⟩
  · simp only [pageObject, hd1, Option.bind_some, find_ref hd2 hl1, find_ref e1 hl2, find_direct e2 (by simp), PObj.nth, hkid, resolve, hl4]
  · simp only [pageContent, f1, Option.bind_some, hf.stream hm2]
  · rw [find_ref f2 hl3, Option.bind_some]
    refine find_direct e3 ?_
    cases d3
    simp

theorem fontEntries_plain {R : Res} (hr : R.WF) (first : Nat) : ∀ e ∈ R.fontEntries first, decodeName e.1 = some e.1 := by
  intro e he
  unfold Res.fontEntries at he
  rcases List.mem_append.mp he with he | he
  · obtain ⟨x, hx, rfl⟩ := List.mem_map.mp he
    obtain ⟨n, hn, -, hd⟩ := Res.Knows.name hr (f := .builtin x.2) ⟨x, hx, rfl⟩
    cases hn
    exact hd
  · have key : ∀ (l : List Subset) (i : Nat), e ∈ subsetEntries l i → ∃ s ∈ l, e.1 = s.id := by
      intro l
      induction l with
      | nil => intro i h; simp [subsetEntries] at h
      | cons a l ih =>
        intro i h
        simp only [subsetEntries, List.mem_cons] at h
        rcases h with rfl | h
        · exact ⟨a, by simp, rfl⟩
        · obtain ⟨s, h1, h2⟩ := ih _ h
          exact ⟨s, by simp [h1], h2⟩
    obtain ⟨s, hs, h2⟩ := key _ _ he
    obtain ⟨y, hy, rfl⟩ := List.mem_map.mp hs
    obtain ⟨n, hn⟩ := List.mem_iff_getElem?.mp hy
    obtain ⟨m, hm, -, hd⟩ := Res.Knows.name hr (f := .subset n) (List.getElem?_eq_some_iff.mp hn).1
    simp only [Res.fontId, hn, Option.map_some, Option.some.injEq] at hm
    rw [h2, hm]
    exact hd

/-! ### Fonts -/

/-- What a reader finds of a font. -/
structure FontHolds (decompress : Bytes → Option Bytes) (files : Path → FontFile) (file : Bytes) (R : Res) (f : FontRef) (font : PObj) : Prop where
  type : font.get b!"Type" = some (.name b!"Font")
  standard : ∀ g, f = .builtin g → font.get b!"BaseFont" = some (.name g.name)
  program : ∀ i e, f = .subset i → R.subsets[i]? = some e → fontProgram decompress file font = some ((files (e.1.1.font e.1.2.1 e.1.2.2)).saved e.2.cids)
  text : ∀ s b, Encodes R f s b → fontText decompress file font b = some (s.map (readAs f))
  widths : ∀ i e, f = .subset i → R.subsets[i]? = some e → ∀ s b, Encodes R f s b →
    fontWidths file font b = some (s.map fun c => ((truncQ ((files (e.1.1.font e.1.2.1 e.1.2.2)).charwidth c) : ℤ) : ℚ))
  glyphs : ∀ i e, f = .subset i → R.subsets[i]? = some e → (∀ c, (files (e.1.1.font e.1.2.1 e.1.2.2)).glyphId e.2.cids c < 0x10000) → ∀ s b, Encodes R f s b →
    fontGlyphs decompress file font b = some (s.map ((files (e.1.1.font e.1.2.1 e.1.2.2)).glyphId e.2.cids))

theorem mapM_of_map {α β γ : Type} {f : α → Option β} {g : γ → β} : ∀ {l : List α} {m : List γ}, l.map f = m.map (fun c => some (g c)) → l.mapM f = some (m.map g)
  | [], [], _ => rfl
  | [], _ :: _, h => by simp at h
  | _ :: _, [], h => by simp at h
  | a :: l, c :: m, h => by
    simp only [List.map_cons, List.cons.injEq] at h
    simp [List.mapM_cons, h.1, mapM_of_map h.2]

theorem builtin_plainNames : ∀ f ∈ builtinTypefaces, ∀ b i, decodeName (f.font b i).name = some (f.font b i).name := by decide +kernel

theorem builtin_holds {file : Bytes} {R : Res} {g : BuiltinFont} (hname : decodeName g.name = some g.name) {font : PObj} (h : g.toResource.Denotes font) :
    FontHolds decompress files file R (.builtin g) font := by
  have hp : ∀ e ∈ ([(b!"Type", .name b!"Font"), (b!"Subtype", .name b!"Type1"), (b!"BaseFont", .name g.name),
      (b!"Encoding", .name b!"WinAnsiEncoding")] : List (Bytes × Atom)), decodeName e.1 = some e.1 := by
    intro e he
    simp only [List.mem_cons, List.not_mem_nil, or_false] at he
    rcases he with rfl | rfl | rfl | rfl
    · exact (by decide +kernel : decodeName b!"Type" = some b!"Type")
    · exact (by decide +kernel : decodeName b!"Subtype" = some b!"Subtype")
    · exact (by decide +kernel : decodeName b!"BaseFont" = some b!"BaseFont")
    · exact (by decide +kernel : decodeName b!"Encoding" = some b!"Encoding")
  obtain ⟨q1, e1, d1⟩ := dict_get _ _ h hp b!"Type" (.name b!"Font") (by simp [Atom.get])
  obtain ⟨q2, e2, d2⟩ := dict_get _ _ h hp b!"Subtype" (.name b!"Type1") (by simp [Atom.get])
  obtain ⟨q3, e3, d3⟩ := dict_get _ _ h hp b!"BaseFont" (.name g.name) (by simp [Atom.get])
  obtain ⟨q4, e4, d4⟩ := dict_get _ _ h hp b!"Encoding" (.name b!"WinAnsiEncoding") (by simp [Atom.get])
  rw [name_denotes (by decide +kernel) d1] at e1
  rw [name_denotes (by decide +kernel) d2] at e2
  rw [name_denotes hname d3] at e3
  rw [name_denotes (by decide +kernel) d4] at e4
  refine ⟨e1, ?_, ?_, ?_, ?_, ?_⟩
  · intro g' hg; cases hg; exact e3
  · intro i e hg; cases hg
  · intro s b hb
    simp only [fontText, e2, e4, and_self, if_true]
    exact mapM_of_map (f := winAnsi) hb
  · intro i e hg; cases hg
  · intro i e hg; cases hg

theorem mapM_char {cmap : Bytes} {f : Nat → Option Char} (hu : ∀ k c, f k = some c → toUnicode cmap k = some [c.toNat]) : ∀ {codes : List Nat} {s : List Char},
    codes.map f = s.map some → (codes.mapM (toUnicode cmap)).map List.flatten = some (s.map Char.toNat)
  | [], [], _ => rfl
  | [], _ :: _, h => by simp at h
  | _ :: _, [], h => by simp at h
  | a :: l, c :: m, h => by
    simp only [List.map_cons, List.cons.injEq] at h
    have := mapM_char hu h.2
    rw [List.mapM_cons, hu _ _ h.1]
    cases hm : l.mapM (toUnicode cmap) with
    | none => rw [hm] at this; simp at this
    | some x =>
      rw [hm] at this
      simp only [Option.map_some, Option.some.injEq] at this
      simp [this]

theorem mapM_code {α : Type} {f : Nat → Option Char} {g : Nat → Option α} {h : Char → α} (hu : ∀ k c, f k = some c → g k = some (h c)) : ∀ {codes : List Nat} {s : List Char},
    codes.map f = s.map some → codes.mapM g = some (s.map h)
  | [], [], _ => rfl
  | [], _ :: _, h => by simp at h
  | _ :: _, [], h => by simp at h
  | a :: l, c :: m, e => by
    simp only [List.map_cons, List.cons.injEq] at e
    rw [List.mapM_cons, hu _ _ e.1, mapM_code hu e.2]
    rfl

theorem subset_holds {objs : List Obj} {file : Bytes} (hf : FileHolds decompress file objs) {R : Res} (hr : R.WF) {i : Nat} {e : (TrueType × Bool × Bool) × Subset}
    (he : R.subsets[i]? = some e) {n : Nat} {os : List Obj} (ho : e.2.toObjects compress (files e.2.path) n = some os) (hsub : ∀ o ∈ os, o ∈ objs) :
    ∃ font, lookup file n = some (.direct font) ∧ FontHolds decompress files file R (.subset i) font := by
  simp only [Subset.toObjects] at ho
  split at ho
  swap
  · cases ho
  rename_i hlen
  simp only [Option.some.injEq] at ho
  subst ho
  obtain ⟨font, hl, hd⟩ := hf.direct (hsub _ (.head _))
  obtain ⟨child, hl1, hd1⟩ := hf.direct (hsub _ (.tail _ (.head _)))
  have hcmap := hf.stream (hsub _ (.tail _ (.tail _ (.head _)))) 0
  obtain ⟨desc, hl4, hd4⟩ := hf.direct (hsub _ (.tail _ (.tail _ (.tail _ (.tail _ (.head _))))))
  have hprog := hf.stream (hsub _ (.tail _ (.tail _ (.tail _ (.tail _ (.tail _ (.tail _ (.head _)))))))) 0
  have p1 : ∀ e' ∈ ([(b!"Type", .name b!"Font"), (b!"Subtype", .name b!"Type0"), (b!"BaseFont", .name (taggedName (files e.2.path))),
      (b!"Encoding", .name b!"Identity-H"), (b!"DescendantFonts", .array [.ref (n + 1)]), (b!"ToUnicode", .ref (n + 2))] : List (Bytes × Atom)),
      decodeName e'.1 = some e'.1 := by
    intro e' he'
    simp only [List.mem_cons, List.not_mem_nil, or_false] at he'
    rcases he' with rfl | rfl | rfl | rfl | rfl | rfl
    · exact (by decide +kernel : decodeName b!"Type" = some b!"Type")
    · exact (by decide +kernel : decodeName b!"Subtype" = some b!"Subtype")
    · exact (by decide +kernel : decodeName b!"BaseFont" = some b!"BaseFont")
    · exact (by decide +kernel : decodeName b!"Encoding" = some b!"Encoding")
    · exact (by decide +kernel : decodeName b!"DescendantFonts" = some b!"DescendantFonts")
    · exact (by decide +kernel : decodeName b!"ToUnicode" = some b!"ToUnicode")
  have keys : ∀ k ∈ [b!"Type", b!"Subtype", b!"BaseFont", b!"CIDSystemInfo", b!"FontDescriptor", b!"DW", b!"W", b!"CIDToGIDMap", b!"FontName", b!"Flags",
      b!"FontBBox", b!"ItalicAngle", b!"Ascent", b!"Descent", b!"CapHeight", b!"StemV", b!"FontFile2"], decodeName k = some k := by decide +kernel
  obtain ⟨q1, e1, d1⟩ := dict_get _ _ hd p1 b!"Type" (.name b!"Font") (by simp [Atom.get])
  obtain ⟨q2, e2, d2⟩ := dict_get _ _ hd p1 b!"Subtype" (.name b!"Type0") (by simp [Atom.get])
  obtain ⟨q3, e3, d3⟩ := dict_get _ _ hd p1 b!"Encoding" (.name b!"Identity-H") (by simp [Atom.get])
  obtain ⟨q4, e4, d4⟩ := dict_get _ _ hd p1 b!"DescendantFonts" (.array [.ref (n + 1)]) (by simp [Atom.get])
  obtain ⟨q5, e5, d5⟩ := dict_get _ _ hd p1 b!"ToUnicode" (.ref (n + 2)) (by simp [Atom.get])
  obtain ⟨q6, e6, d6⟩ := dict_get _ _ hd1 (by
    intro e' he'
    simp only [List.mem_cons, List.not_mem_nil, or_false] at he'
    rcases he' with rfl | rfl | rfl | rfl | rfl | rfl | rfl | rfl <;> exact keys _ (by simp)) b!"FontDescriptor" (.ref (n + 4)) (by simp [Atom.get])
  have p6 : ∀ e' ∈ ([(b!"Type", .name b!"Font"), (b!"Subtype", .name b!"CIDFontType2"), (b!"BaseFont", .name (taggedName (files e.2.path))),
      (b!"CIDSystemInfo", .ref (n + 3)), (b!"FontDescriptor", .ref (n + 4)), (b!"DW", .real ((files e.2.path).notdefWidth e.2.cids)),
      (b!"W", encodeWidths (e.2.cids.map (files e.2.path).charwidth)), (b!"CIDToGIDMap", .ref (n + 5))] : List (Bytes × Atom)),
      decodeName e'.1 = some e'.1 := by
    intro e' he'
    simp only [List.mem_cons, List.not_mem_nil, or_false] at he'
    rcases he' with rfl | rfl | rfl | rfl | rfl | rfl | rfl | rfl <;> exact keys _ (by simp)
  obtain ⟨q8, e8, d8⟩ := dict_get _ _ hd1 p6 b!"W" (encodeWidths (e.2.cids.map (files e.2.path).charwidth)) (by simp [Atom.get])
  obtain ⟨q9, e9, d9⟩ := dict_get _ _ hd1 p6 b!"CIDToGIDMap" (.ref (n + 5)) (by simp [Atom.get])
  obtain ⟨q7, e7, d7⟩ := dict_get _ _ hd4 (by
    intro e' he'
    simp only [List.mem_cons, List.not_mem_nil, or_false] at he'
    rcases he' with rfl | rfl | rfl | rfl | rfl | rfl | rfl | rfl | rfl | rfl <;> exact keys _ (by simp)) b!"FontFile2" (.ref (n + 6)) (by simp [Atom.get])
  rw [name_denotes (by decide +kernel) d1] at e1
  rw [name_denotes (by decide +kernel) d2] at e2
  rw [name_denotes (by decide +kernel) d3] at e3
  rw [ref_denotes _ _ d5] at e5
  rw [ref_denotes _ _ d6] at e6
  rw [ref_denotes _ _ d7] at e7
  rw [ref_denotes _ _ d9] at e9
  have hgids := hf.stream (hsub _ (.tail _ (.tail _ (.tail _ (.tail _ (.tail _ (.head _))))))) 0
  cases d4 with
  | array d4 =>
  cases d4 with
  | cons d4 d4' =>
  cases d4'
  cases d4
  have hdesc : descendant file font = some child := by
    simp only [descendant, find_direct e4 (by simp), Option.bind_some, PObj.nth, List.getElem?_cons_zero, resolve, hl1]
  refine ⟨font, hl, e1, by simp, ?_, ?_, ?_, ?_⟩
  · intro j e' hj he'
    cases hj
    rw [he] at he'
    cases he'
    rw [← (hr.sub i e he).2.1]
    simp only [fontProgram, find_direct e4 (by simp), Option.bind_some, PObj.nth, List.getElem?_cons_zero, resolve, hl1, find_ref e6 hl4, e7, hprog]
  · intro s b hb
    obtain ⟨codes, hc1, hc2⟩ := hb
    have hu : ∀ k c, R.charOf i k = some c → toUnicode (unicodeMap compress e.2.cids) k = some [c.toNat] := by
      intro k c hk
      simp only [Res.charOf, he, Option.bind_some] at hk
      exact toUnicode_unicodeMap compress e.2.cids (by omega) k c hk
    simp only [fontText, e2, e3, e5, Option.bind_some, hcmap, extract, hc1]
    rw [if_neg (by decide +kernel), if_pos (by simp)]
    exact mapM_char hu hc2
  · intro j e' hj he' s b hb
    cases hj
    rw [he] at he'
    cases he'
    obtain ⟨codes, hc1, hc2⟩ := hb
    rw [← (hr.sub i e he).2.1]
    simp only [fontWidths, hc1, hdesc, e8, Option.bind_some]
    refine mapM_code (f := R.charOf i) (fun k c hk => ?_) hc2
    simp only [Res.charOf, he, Option.bind_some] at hk
    exact cidWidth_encodeWidths _ _ d8 k _ (by rw [List.getElem?_map, hk]; rfl)
  · intro j e' hj he' hg s b hb
    cases hj
    rw [he] at he'
    cases he'
    obtain ⟨codes, hc1, hc2⟩ := hb
    rw [← (hr.sub i e he).2.1] at hg ⊢
    simp only [fontGlyphs, hc1, hdesc, e9, Option.bind_some, hgids]
    refine mapM_code (f := R.charOf i) (fun k c hk => ?_) hc2
    simp only [Res.charOf, he, Option.bind_some] at hk
    exact cidGidMap_get _ _ _ _ hk (hg _)

theorem DocObjs.font {pages : List RenderedPage} {R : Res} {objs : List Obj} (h : DocObjs compress files pages R objs) {file : Bytes} (hf : FileHolds decompress file objs)
    {p : RenderedPage} {page : PObj} (hp : PageHolds decompress file R (4 + 2 * pages.length) p page) {f : FontRef} (hk : R.Knows f) :
    ∃ name font, R.fontId f = some name ∧ pageFont file page name = some font ∧ FontHolds decompress files file R f font := by
  obtain ⟨fonts, h1, h2⟩ := hp.resources
  cases f with
  | builtin g =>
    obtain ⟨e, he, rfl⟩ := hk
    have h3 := fontEntries_builtin h.wf (4 + 2 * pages.length) he
    obtain ⟨q, h4, h5⟩ := dict_get _ _ h2 (fontEntries_plain h.wf _) e.2.fid e.2.toResource (by simp [Atom.get, h3])
    refine ⟨_, q, rfl, ?_, ?_⟩
    · rw [pageFont, h1, Option.bind_some]
      refine find_direct h4 ?_
      cases h5
      simp
    · obtain ⟨t, ht, -, hf⟩ := h.wf.built e he
      refine builtin_holds ?_ h5
      rw [hf]
      exact builtin_plainNames t ht _ _
  | subset i =>
    obtain ⟨e, he⟩ : ∃ e, R.subsets[i]? = some e := ⟨_, List.getElem?_eq_getElem hk⟩
    have h3 := fontEntries_subset h.wf (4 + 2 * pages.length) he
    obtain ⟨q, h4, h5⟩ := dict_get _ _ h2 (fontEntries_plain h.wf _) e.2.id (.ref (4 + 2 * pages.length + i * objsPerFont)) (by simp [Atom.get, h3])
    rw [ref_denotes _ _ h5] at h4
    obtain ⟨os, ho, hsub⟩ := subsetObjects_get compress files (R.subsets.map (·.2)) (4 + 2 * pages.length) i e.2 h.ok (by simp [he])
    obtain ⟨font, hl, hh⟩ := subset_holds hf h.wf he ho fun o hm => by
      rw [h.eq]
      exact List.mem_append_left _ (List.mem_append_right _ (hsub o hm))
    exact ⟨e.2.id, font, by simp [Res.fontId, he], by rw [pageFont, h1, Option.bind_some, find_ref h4 hl], hh⟩

theorem DocObjs.small {pages : List RenderedPage} {R : Res} {objs : List Obj} (h : DocObjs compress files pages R objs) : R.Small := by
  intro i e he
  obtain ⟨os, ho, -⟩ := subsetObjects_get compress files (R.subsets.map (·.2)) (4 + 2 * pages.length) i e.2 h.ok (by simp [he])
  simp only [Subset.toObjects] at ho
  split at ho
  · omega
  · cases ho

/-! ### Text -/

variable {W : FontRef → Char → ℚ}

/-- The font in use, as the reader sees it. -/
def CurFont (decompress : Bytes → Option Bytes) (files : Path → FontFile) (file : Bytes) (R : Res) (v : Viewer) (cur : Option PObj) : Prop :=
  ∀ f z, v.font = some (f, z) → ∃ font, cur = some font ∧ FontHolds decompress files file R f font

theorem showText_glyphs (f : FontRef) : ∀ (s : List Char) (v : Viewer), ((Viewer.showText W f s v).1.map fun g => (g.enc, g.char)) = s.map (fun c => (f, c)) ∧
    (∀ g ∈ (Viewer.showText W f s v).1, g.font = v.font) ∧ (Viewer.showText W f s v).2.font = v.font
  | [], v => by simp [Viewer.showText]
  | c :: s, v => by
    obtain ⟨h1, h2, h3⟩ := showText_glyphs f s { v with x := v.x + v.dist (v.charWidth W c) }
    rw [Viewer.showText]
    refine ⟨by simp [h1, Viewer.glyph], ?_, h3⟩
    intro g hg
    rcases List.mem_cons.mp hg with rfl | hg
    · rfl
    · exact h2 g hg

theorem show_font : ∀ (is : List ShowItem) (v : Viewer), (Viewer.show W is v).2.font = v.font
  | [], v => rfl
  | .adj a :: is, v => by rw [Viewer.show]; exact show_font is _
  | .txt f s :: is, v => by rw [Viewer.show]; exact (show_font is _).trans (showText_glyphs f s v).2.2

/-- The characters that glyphs are read as. -/
def glyphsRead (gs : List Glyph) : List Nat := gs.map fun g => readAs g.enc g.char

theorem glyphsRead_show (f : FontRef) (s : List Char) (v : Viewer) : glyphsRead (Viewer.showText W f s v).1 = s.map (readAs f) := by
  have h := congrArg (List.map fun x : FontRef × Char => readAs x.1 x.2) (showText_glyphs (W := W) f s v).1
  simpa [glyphsRead, List.map_map, Function.comp_def] using h

theorem encodes_nil {R : Res} {f : FontRef} {b : Bytes} (h : Encodes R f [] b) : b = [] := by
  cases f with
  | builtin g => simpa [Encodes] using h
  | subset i =>
    obtain ⟨codes, h1, h2⟩ := h
    have : codes = [] := by simpa using h2
    subst this
    match b, h1 with
    | [], _ => rfl
    | [_], h1 => simp [units16] at h1
    | _ :: _ :: s, h1 =>
      simp only [units16, Option.map_eq_some_iff] at h1
      obtain ⟨_, _, h⟩ := h1
      cases h

theorem encodes_ne {R : Res} {f : FontRef} {s : List Char} {b : Bytes} (h : Encodes R f s b) (hs : s ≠ []) : b ≠ [] := by
  rintro rfl
  cases f with
  | builtin g => simp [Encodes] at h; exact hs h
  | subset i =>
    obtain ⟨codes, h1, h2⟩ := h
    simp only [units16, Option.some.injEq] at h1
    subst h1
    simp at h2
    exact hs h2

theorem elems_text {file : Bytes} {R : Res} {cur : Option PObj} : ∀ {is : List ShowItem} {es : List Elem}, List.Forall₂ (ItemStands R) is es → ∀ {v : Viewer},
    CurFont decompress files file R v cur → (∀ g ∈ (Viewer.show W is v).1, g.InFont) →
    elemsText (fun s => cur.bind fun f => fontText decompress file f s) es = some (glyphsRead (Viewer.show W is v).1)
  | [], _, .nil, v, _, _ => rfl
  | _ :: _, _, .cons (.adj _) hr, v, hc, hg => by
    rw [elemsText, Viewer.show]
    exact elems_text hr hc hg
  | _ :: is, _, .cons (.txt (f := f) (s := s) (b := b) hb) hr, v, hc, hg => by
    rw [Viewer.show] at hg ⊢
    obtain ⟨h1, h2, h3⟩ := showText_glyphs (W := W) f s v
    have ih := elems_text (cur := cur) hr (v := (Viewer.showText W f s v).2) (by rw [CurFont, h3]; exact hc) fun g hm => hg g (List.mem_append_right _ hm)
    by_cases hs : s = []
    · subst hs
      cases encodes_nil hb
      rw [elemsText]
      exact ih
    · have hne := encodes_ne hb hs
      obtain ⟨c, s', rfl⟩ := List.exists_cons_of_ne_nil hs
      obtain ⟨x, b', rfl⟩ := List.exists_cons_of_ne_nil hne
      have hf : (v.font.map (·.1)) = some f := hg (v.glyph f c) (by rw [Viewer.showText]; simp)
      obtain ⟨⟨f', z⟩, hv, rfl⟩ := Option.map_eq_some_iff.mp hf
      obtain ⟨font, rfl, hh⟩ := hc _ _ hv
      rw [elemsText]
      · simp only [Option.bind_some] at ih ⊢
        rw [hh.text _ _ hb, Option.bind_some, ih]
        simp only [glyphsRead, List.map_append, Option.map_some, Option.some.injEq, List.append_cancel_right_eq]
        exact (glyphsRead_show f' (c :: s') v).symm
      · simp

theorem text_text {file : Bytes} {R : Res} {fonts : Bytes → Option PObj} (hfonts : ∀ f, R.Knows f → ∀ n, R.fontId f = some n →
      ∃ font, fonts n = some font ∧ FontHolds decompress files file R f font) {rest : List COp} :
    ∀ {ops : List TextOp} {cs : List COp}, List.Forall₂ (TextStands R) ops cs → (∀ op ∈ ops, op.Fonts R.Knows) → ∀ {v : Viewer} {cur : Option PObj},
    CurFont decompress files file R v cur → (∀ g ∈ (Viewer.run W ops v).1, g.InFont) →
    ∃ cur', CurFont decompress files file R (Viewer.run W ops v).2 cur' ∧
      opsText fonts (fontText decompress file) (cs ++ rest) cur = (opsText fonts (fontText decompress file) rest cur').map (glyphsRead (Viewer.run W ops v).1 ++ ·)
  | [], _, .nil, _, v, cur, hc, _ => ⟨cur, hc, by simp [glyphsRead, Viewer.run]⟩
  | op :: ops, c :: cs, .cons h hr, hk, v, cur, hc, hg => by
    rw [Viewer.run] at hg
    have ih := fun cur => text_text hfonts (rest := rest) hr (fun x hx => hk x (by simp [hx])) (v := (v.step W op).2) (cur := cur)
    have hg' : ∀ g ∈ (Viewer.run W ops (v.step W op).2).1, g.InFont := fun g hm => hg g (List.mem_append_right _ hm)
    rw [Viewer.run, List.cons_append]
    cases h with
    | tf hn _ =>
      rename_i f z _ n _
      obtain ⟨font, h1, h2⟩ := hfonts f (hk (.tf f z) (by simp)) n hn
      obtain ⟨cur', h3, h4⟩ := ih (some font) (by intro f' z' hv; cases hv; exact ⟨font, rfl, h2⟩) hg'
      exact ⟨cur', h3, by simp only [opsText, h1, h4]; rfl⟩
    | tj hi =>
      have hs := elems_text (cur := cur) hi hc fun g hm => hg g (List.mem_append_left _ hm)
      obtain ⟨cur', h3, h4⟩ := ih cur (by
        intro f z hv
        rw [show (v.step W (.tj _)).2.font = v.font from show_font _ v] at hv
        exact hc f z hv) hg'
      refine ⟨cur', h3, ?_⟩
      rw [opsText, hs, Option.bind_some, h4, Option.map_map]
      congr 1
      funext a
      simp [glyphsRead, Viewer.step]
    | rg => obtain ⟨cur', h3, h4⟩ := ih cur hc hg'; exact ⟨cur', h3, by rw [opsText, h4]; rfl; all_goals simp⟩
    | td => obtain ⟨cur', h3, h4⟩ := ih cur hc hg'; exact ⟨cur', h3, by rw [opsText, h4]; rfl; all_goals simp⟩
    | tdl => obtain ⟨cur', h3, h4⟩ := ih cur hc hg'; exact ⟨cur', h3, by rw [opsText, h4]; rfl; all_goals simp⟩
    | tl => obtain ⟨cur', h3, h4⟩ := ih cur hc hg'; exact ⟨cur', h3, by rw [opsText, h4]; rfl; all_goals simp⟩
    | tstar => obtain ⟨cur', h3, h4⟩ := ih cur hc hg'; exact ⟨cur', h3, by rw [opsText, h4]; rfl; all_goals simp⟩

theorem page_text {file : Bytes} {R : Res} {fonts : Bytes → Option PObj} (hfonts : ∀ f, R.Knows f → ∀ n, R.fontId f = some n →
      ∃ font, fonts n = some font ∧ FontHolds decompress files file R f font) :
    ∀ {ops : List PageOp} {css : List (List COp)}, List.Forall₂ (PageStands R) ops css → (∀ op ∈ ops, op.Fonts R.Knows) → ∀ {v : Viewer} {cur : Option PObj},
    CurFont decompress files file R v cur → (∀ g ∈ (Viewer.page W ops v).1, g.InFont) →
      opsText fonts (fontText decompress file) css.flatten cur = some (glyphsRead (Viewer.page W ops v).1)
  | [], _, .nil, _, v, cur, hc, _ => rfl
  | op :: ops, cs :: css, .cons h hr, hk, v, cur, hc, hg => by
    have ih := fun v cur => page_text hfonts hr (fun x hx => hk x (by simp [hx])) (v := v) (cur := cur)
    rw [List.flatten_cons]
    cases h with
    | text h =>
      rw [Viewer.page] at hg ⊢
      obtain ⟨cur', h1, h2⟩ := text_text hfonts (rest := .endText :: css.flatten) h (hk (.text _) (by simp)) (v := v.beginText) hc fun g hm => hg g (List.mem_append_left _ hm)
      simp only [List.cons_append, List.append_assoc, List.nil_append]
      rw [opsText, h2, opsText, ih _ _ h1 fun g hm => hg g (List.mem_append_right _ hm)]
      · simp [glyphsRead]
      all_goals simp
    | fillColor =>
      rw [Viewer.page] at hg ⊢
      rw [List.singleton_append, opsText]
      · exact ih _ _ hc hg
      all_goals simp
    | paint p =>
      rw [Viewer.page] at hg ⊢
      · rw [List.singleton_append]
        cases p <;> simp only [Paint.cop] <;> rw [opsText] <;> first | exact ih _ _ hc hg | simp
      all_goals simp
    | _ =>
      rw [Viewer.page] at hg ⊢
      · rw [List.singleton_append, opsText]
        · exact ih _ _ hc hg
        all_goals simp
      all_goals simp

end Pdfje
