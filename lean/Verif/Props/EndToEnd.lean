import Verif.Props.Document
/-
The page tree as read back from the bytes of a written document: C01, C02, C03, C04 and C08 put together.
-/

namespace Pdfje
open PdfSpec

/-- A dictionary of the model read back: a key gives what the entry under it stands for. -/
theorem entriesDenote_get (es : List (Bytes × Atom)) : ∀ (ps : List (Bytes × PObj)), EntriesDenote es ps →
    (∀ e ∈ es, decodeName e.1 = some e.1) → ∀ (key : Bytes) (v : Atom),
    (es.find? fun e => e.1 == key).map (·.2) = some v →
    ∃ p, (ps.find? fun e => e.1 == key).map (·.2) = some p ∧ v.Denotes p := by
  induction es with
  | nil => intro ps _ _ key v h; simp at h
  | cons e es ih =>
    intro ps hd hp key v h
    cases hd with
    | cons hk ha hrest =>
      rename_i k d a p ps
      have hkd := hp (k, a) (by simp)
      simp only at hkd
      rw [hkd] at hk
      cases hk
      by_cases he : k = key
      · subst he
        simp only [List.find?_cons_of_pos, beq_self_eq_true, Option.map_some, Option.some.injEq] at h
        subst h
        exact ⟨p, by simp, ha⟩
      · rw [List.find?_cons_of_neg (by simpa using he)] at h
        obtain ⟨q, h1, h2⟩ := ih ps hrest (fun e h => hp e (by simp [h])) key v h
        exact ⟨q, by rw [List.find?_cons_of_neg (by simpa using he)]; exact h1, h2⟩

theorem dict_get (es : List (Bytes × Atom)) (p : PObj) (h : (Atom.dict es).Denotes p)
    (hp : ∀ e ∈ es, decodeName e.1 = some e.1) (key : Bytes) (v : Atom) (hv : (Atom.dict es).get key = some v) :
    ∃ q, p.get key = some q ∧ v.Denotes q := by
  cases h with
  | dict h => exact entriesDenote_get es _ h hp key v hv

theorem ref_denotes (n : Nat) (p : PObj) (h : (Atom.ref n).Denotes p) : p = .ref n 0 := by cases h; rfl
theorem int_denotes (z : Int) (p : PObj) (h : (Atom.int z).Denotes p) : p = .num z := by
  cases h; rfl

theorem itemsDenote_get (as : List Atom) : ∀ ps, ItemsDenote as ps → as.length = ps.length ∧
    ∀ (k : Nat) (a : Atom), as[k]? = some a → ∃ p, ps[k]? = some p ∧ a.Denotes p := by
  induction as with
  | nil => intro ps h; cases h; simp
  | cons a as ih =>
    intro ps h
    cases h with
    | cons ha hr =>
      obtain ⟨h1, h2⟩ := ih _ hr
      refine ⟨by simp [h1], fun k b hb => ?_⟩
      cases k with
      | zero => simp only [List.getElem?_cons_zero, Option.some.injEq] at hb; subst hb; exact ⟨_, rfl, ha⟩
      | succ k => exact h2 k b (by simpa using hb)

theorem goodName_tagged (f : FontFile) (h : ∀ c ∈ f.fullName, isDelim c = false) : GoodName (taggedName f) := by
  unfold taggedName
  constructor
  · intro c hc
    rcases List.mem_append.mp hc with hc | hc
    · exact (by decide +kernel : ∀ c ∈ b!"APDFJE+", isRegular c = true) c hc
    · simp only [sanitizeName, List.mem_flatMap] at hc
      obtain ⟨a, ha, hc⟩ := hc
      exact List.all_eq_true.1 (sanitizeNameChar_regular a (h a ha)) c hc
  · refine ⟨b!"APDFJE+" ++ f.fullName.filter keptByte, ?_⟩
    have hd := decodeName_sanitize f.fullName
    generalize sanitizeName f.fullName = s at *
    simp [decodeName, hd]

/-- Fonts whose data can be written: the font's name has no PDF delimiters and the default width is printable. -/
def FontsOk (files : Path → FontFile) : Prop :=
  ∀ p, (∀ c ∈ (files p).fullName, isDelim c = false) ∧ ∀ cs, GoodReal ((files p).notdefWidth cs)

theorem itemsOk_ints (ws : List ℚ) : itemsOk (ws.map fun w => Atom.int (truncQ w)) := by
  induction ws with
  | nil => trivial
  | cons a l ih => exact ⟨trivial, ih⟩

theorem itemsOk_refs (l : List Nat) : itemsOk (l.map Atom.ref) := by
  induction l with
  | nil => trivial
  | cons a l ih => exact ⟨trivial, ih⟩

theorem goodName_fontKey (n : Nat) : GoodName (b!"F" ++ decNat n) := by
  have hall : ∀ c ∈ decNat n, isRegular c = true ∧ c ≠ 0x23 := by
    intro c hc
    have := decNat_all n c hc
    clear hc
    revert this
    revert c
    apply forall_byte
    decide +kernel
  have hdec : ∀ s : Bytes, (∀ c ∈ s, isRegular c = true ∧ c ≠ 0x23) → decodeName s = some s := by
    intro s
    induction s with
    | nil => intro _; rfl
    | cons c s ih =>
      intro h
      have := ih fun c hc => h c (by simp [hc])
      have hc := (h c (by simp)).2
      unfold decodeName
      split
      · rename_i heq; cases heq
      · rename_i heq; cases heq; exact absurd rfl hc
      · rename_i heq
        cases heq
        rw [this, if_neg hc]
        rfl
  constructor
  · intro c hc
    rcases List.mem_append.mp hc with hc | hc
    · exact (by decide +kernel : ∀ c ∈ b!"F", isRegular c = true) c hc
    · exact (hall c hc).1
  · refine ⟨b!"F" ++ decNat n, hdec _ ?_⟩
    intro c hc
    rcases List.mem_append.mp hc with hc | hc
    · exact (by decide +kernel : ∀ c ∈ b!"F", isRegular c = true ∧ c ≠ 0x23) c hc
    · exact hall c hc

section
variable (compress : Bytes → Bytes) (decompress : Bytes → Option Bytes) (files : Path → FontFile)

theorem builtin_goodNames : ∀ f ∈ builtinTypefaces, ∀ b i,
    ((f.font b i).fid.all isRegular && (decodeName (f.font b i).fid).isSome) = true ∧
    ((f.font b i).name.all isRegular && (decodeName (f.font b i).name).isSome) = true := by decide +kernel

theorem fontEntries_ok (r : Res) (hr : r.WF) (first : Nat) : entriesOk (r.fontEntries first) := by
  unfold Res.fontEntries
  have h1 : ∀ l : List ((Bytes × Bool × Bool) × BuiltinFont), (∀ e ∈ l, e ∈ r.builtins) →
      entriesOk (l.map fun e => (e.2.fid, e.2.toResource)) := by
    intro l
    induction l with
    | nil => intro _; trivial
    | cons a l ih =>
      intro hl
      obtain ⟨f, hf, -, ef⟩ := hr.built a (hl a (by simp))
      have hg := builtin_goodNames f hf a.1.2.1 a.1.2.2
      rw [← ef] at hg
      exact ⟨goodName_of _ hg.1, ⟨goodName_of _ (by decide +kernel), goodName_of _ (by decide +kernel),
        goodName_of _ (by decide +kernel), goodName_of _ (by decide +kernel),
        goodName_of _ (by decide +kernel), goodName_of _ hg.2, goodName_of _ (by decide +kernel),
        goodName_of _ (by decide +kernel), trivial⟩, ih fun e he => hl e (by simp [he])⟩
  have h2 : ∀ (l : List Subset) (i : Nat), (∀ s ∈ l, GoodName s.id) → entriesOk (subsetEntries l i) := by
    intro l
    induction l with
    | nil => intro _ _; trivial
    | cons a l ih => intro i h; exact ⟨h a (by simp), trivial, ih _ fun s hs => h s (by simp [hs])⟩
  refine (entriesOk_append _ _).mpr ⟨h1 _ fun _ h => h, h2 _ _ fun s hs => ?_⟩
  obtain ⟨e, he, rfl⟩ := List.mem_map.mp hs
  obtain ⟨n, hn⟩ := List.mem_iff_getElem?.mp he
  rw [(hr.sub n e hn).1]
  exact goodName_fontKey n

/-- Every object of a document can be written and read back. -/
theorem docObjects_ok {I : Type} (render : I → Nat → Res → Run) (hr : RenderOk render) (items : List I)
    (objs : List Obj) (h : docObjects compress files render items = (objs, true)) (hf : FontsOk files)
    (hsize : ∀ p ∈ renderedPages render items, GoodReal p.size.1 ∧ GoodReal p.size.2) :
    ∀ o ∈ objs, ObjOk o.2 := by
  obtain ⟨-, hn, hok, hobjs⟩ := docObjects_done compress files render items objs h
  have hwf := docPages_wf render hr items
  unfold renderedPages at hsize
  generalize docPages render items 0 Res.empty = run at *
  have g : ∀ v, (v.all isRegular && (decodeName v).isSome) = true → GoodName v := goodName_of
  intro o ho
  rw [hobjs] at ho
  simp only [List.mem_append] at ho
  rcases ho with (ho | ho) | ho
  · obtain ⟨k, p, hk, rfl | rfl⟩ := (mem_pageObjects _ _ _).mp ho
    · have hs := hsize p (List.mem_of_getElem? hk)
      exact ⟨g _ (by decide +kernel), g _ (by decide +kernel), g _ (by decide +kernel), trivial,
        g _ (by decide +kernel), ⟨Or.inl rfl, Or.inl rfl, hs.1, hs.2, trivial⟩, g _ (by decide +kernel), trivial,
        g _ (by decide +kernel), trivial, g _ (by decide +kernel), trivial, trivial⟩
    · exact ⟨trivial, by simp⟩
  · obtain ⟨n, s, os, hs, hos, ho⟩ := mem_subsetObjects compress files _ _ _ ho
    simp only [Subset.toObjects] at hos
    split at hos
    swap
    · cases hos
    simp only [Option.some.injEq] at hos
    subst hos
    have ht := goodName_tagged (files s.path) (hf s.path).1
    simp only [List.mem_cons, List.not_mem_nil, or_false] at ho
    rcases ho with rfl | rfl | rfl | rfl | rfl | rfl | rfl
    · exact ⟨g _ (by decide +kernel), g _ (by decide +kernel), g _ (by decide +kernel), g _ (by decide +kernel),
        g _ (by decide +kernel), ht, g _ (by decide +kernel), g _ (by decide +kernel), g _ (by decide +kernel),
        ⟨trivial, trivial⟩, g _ (by decide +kernel), trivial, trivial⟩
    · exact ⟨g _ (by decide +kernel), g _ (by decide +kernel), g _ (by decide +kernel), g _ (by decide +kernel),
        g _ (by decide +kernel), ht, g _ (by decide +kernel), trivial, g _ (by decide +kernel), trivial,
        g _ (by decide +kernel), (hf s.path).2 _, g _ (by decide +kernel), ⟨trivial, itemsOk_ints _, trivial⟩,
        g _ (by decide +kernel), trivial, trivial⟩
    · exact ⟨trivial, by simp⟩
    · exact ⟨g _ (by decide +kernel), trivial, g _ (by decide +kernel), trivial, g _ (by decide +kernel), trivial, trivial⟩
    · exact ⟨g _ (by decide +kernel), g _ (by decide +kernel), g _ (by decide +kernel), ht,
        g _ (by decide +kernel), trivial, g _ (by decide +kernel), ⟨trivial, trivial, trivial, trivial, trivial⟩,
        g _ (by decide +kernel), trivial, g _ (by decide +kernel), trivial, g _ (by decide +kernel), trivial,
        g _ (by decide +kernel), trivial, g _ (by decide +kernel), trivial, g _ (by decide +kernel), trivial, trivial⟩
    · exact ⟨trivial, by simp⟩
    · exact ⟨⟨g _ (by decide +kernel), trivial, trivial⟩, by
        intro e he
        rw [List.mem_singleton] at he
        subst he
        exact (by decide +kernel : decodeName b!"Length1" ≠ some b!"Length")⟩
  · simp only [headers, List.mem_cons, List.not_mem_nil, or_false] at ho
    rcases ho with rfl | rfl | rfl
    · exact ⟨g _ (by decide +kernel), g _ (by decide +kernel), g _ (by decide +kernel), trivial, trivial⟩
    · exact ⟨g _ (by decide +kernel), g _ (by decide +kernel), g _ (by decide +kernel), itemsOk_refs _,
        g _ (by decide +kernel), trivial, trivial⟩
    · exact ⟨g _ (by decide +kernel), fontEntries_ok _ hwf _, trivial⟩

/-- C03 end to end. Take any document that is written successfully to fewer than 10^10 bytes, with printable page sizes and
fonts whose names have no delimiters. A reader that only looks at the bytes (trailer, cross-reference table, objects)
finds: the trailer's /Root, its page tree with /Count the number of rendered pages, and for the k-th kid a page whose
media box is (up to 5 parts per million) the k-th page's size, with its rotation and, after decompression, its content. -/
theorem C03_file (hz : ∀ x, decompress (compress x) = some x)
    {I : Type} (render : I → Nat → Res → Run) (hr : RenderOk render) (id : Bytes) (items : List I)
    (hf : FontsOk files) (hsize : ∀ p ∈ renderedPages render items, GoodReal p.size.1 ∧ GoodReal p.size.2)
    (chunks : List Bytes) (hw : docWrite compress files render id items = (chunks, true))
    (hsmall : chunks.flatten.length < 10 ^ 10) :
    ∃ d root tree kids, trailer chunks.flatten = some d ∧ d.get b!"Root" = some (.ref 1 0) ∧
      lookup chunks.flatten 1 = some (.direct root) ∧ root.get b!"Pages" = some (.ref 2 0) ∧
      lookup chunks.flatten 2 = some (.direct tree) ∧
      tree.get b!"Count" = some (.num (renderedPages render items).length) ∧
      tree.get b!"Kids" = some (.arr kids) ∧ kids.length = (renderedPages render items).length ∧
      ∀ (k : Nat) p, (renderedPages render items)[k]? = some p →
        ∃ n page c sd raw w h, kids[k]? = some (.ref n 0) ∧ lookup chunks.flatten n = some (.direct page) ∧
          page.get b!"Rotate" = some (.num p.rotate) ∧
          page.get b!"MediaBox" = some (.arr [.num 0, .num 0, .num w, .num h]) ∧
          |w - p.size.1| ≤ |p.size.1| * (5 / 1000000) ∧ |h - p.size.2| ≤ |p.size.2| * (5 / 1000000) ∧
          page.get b!"Contents" = some (.ref c 0) ∧ lookup chunks.flatten c = some (.stream sd raw) ∧
          decompress raw = some p.stream := by
  cases hd : docObjects compress files render items with
  | mk objs ok =>
  cases ok with
  | false => simp [docWrite, hd] at hw
  | true =>
  obtain ⟨chunks', hw', hdw⟩ := docWrite_done compress files render id items objs hd
  rw [hw] at hdw
  simp only [Prod.mk.injEq, and_true] at hdw
  subst hdw
  have hids := docObjects_ids compress files render items objs hd
  have hb : writeBytes compress id objs = some chunks.flatten := by simp [writeBytes, hw']
  have hokobj := docObjects_ok compress files render hr items objs hd hf hsize
  obtain ⟨file, hfile, hlook⟩ := C08_file compress decompress hz id objs _ hids hokobj
  rw [hb] at hfile
  cases hfile
  obtain ⟨file, hfile, hx⟩ := C01_xref compress id objs _ hids
  rw [hb] at hfile
  cases hfile
  have hlook := hlook hsmall
  obtain ⟨-, -, -, ⟨d, hd1, hd2⟩, -⟩ := hx hsmall
  obtain ⟨-, hn, hok, hobjs⟩ := docObjects_done compress files render items objs hd
  unfold renderedPages
  generalize docPages render items 0 Res.empty = run at *
  have hcat : (1, catalogObj.2) ∈ objs := by rw [hobjs]; simp [headers, catalogObj]
  have htree : (2, Atom.dict [(b!"Type", .name b!"Pages"), (b!"Kids", .array ((pageIds run.pages.length 4).map .ref)),
     (b!"Count", .int run.pages.length)]) ∈ objs := by rw [hobjs]; simp [headers]
  obtain ⟨p1, hl1, ho1⟩ := hlook _ hcat
  obtain ⟨p2, hl2, ho2⟩ := hlook _ htree
  cases ho1 with
  | direct ho1 =>
  cases ho2 with
  | direct ho2 =>
  rename_i root tree
  have hplain2 : ∀ e ∈ ([(b!"Type", .name b!"Pages"), (b!"Kids", .array ((pageIds run.pages.length 4).map .ref)),
     (b!"Count", .int run.pages.length)] : List (Bytes × Atom)), decodeName e.1 = some e.1 := by
    intro e he
    simp only [List.mem_cons, List.not_mem_nil, or_false] at he
    rcases he with rfl | rfl | rfl
    · exact (by decide +kernel : decodeName b!"Type" = some b!"Type")
    · exact (by decide +kernel : decodeName b!"Kids" = some b!"Kids")
    · exact (by decide +kernel : decodeName b!"Count" = some b!"Count")
  obtain ⟨q1, e1, d1⟩ := dict_get _ _ ho1 (by decide +kernel) b!"Pages" (.ref 2) (by simp [Atom.get])
  obtain ⟨q2, e2, d2⟩ := dict_get _ _ ho2 hplain2 b!"Kids"
    (.array ((pageIds run.pages.length 4).map .ref)) (by simp [Atom.get])
  obtain ⟨q3, e3, d3⟩ := dict_get _ _ ho2 hplain2 b!"Count" (.int run.pages.length) (by simp [Atom.get])
  rw [ref_denotes _ _ d1] at e1
  rw [int_denotes _ _ d3] at e3
  cases d2 with
  | array d2 =>
  rename_i kids
  obtain ⟨hlen, hkids⟩ := itemsDenote_get _ _ d2
  refine ⟨d, root, tree, kids, hd1, hd2, hl1, e1, hl2, by rw [e3]; norm_cast, e2, ?_, ?_⟩
  · rw [← hlen]; simp [pageIds_range]
  · intro k p hk
    have hlt := (List.getElem?_eq_some_iff.mp hk).1
    have hm1 : (4 + 2 * k, p.dict (4 + 2 * k)) ∈ objs := by
      rw [hobjs]
      exact List.mem_append_left _ (List.mem_append_left _ ((mem_pageObjects _ _ _).mpr ⟨k, p, hk, Or.inl rfl⟩))
    have hm2 : (4 + 2 * k + 1, Atom.stream p.stream []) ∈ objs := by
      rw [hobjs]
      exact List.mem_append_left _ (List.mem_append_left _ ((mem_pageObjects _ _ _).mpr ⟨k, p, hk, Or.inr rfl⟩))
    obtain ⟨p3, hl3, ho3⟩ := hlook _ hm1
    obtain ⟨p4, hl4, ho4⟩ := hlook _ hm2
    cases ho3 with
    | direct ho3 =>
    cases ho4 with
    | direct ho4 => cases ho4
    | stream ha hraw =>
    rename_i page _ raw
    obtain ⟨kid, hkid, hkd⟩ := hkids k (.ref (4 + 2 * k)) (by
      rw [pageIds_range, List.getElem?_map, List.getElem?_map, List.getElem?_range hlt]; rfl)
    rw [ref_denotes _ _ hkd] at hkid
    have hplain : ∀ e ∈ ([(b!"Type", .name b!"Page"), (b!"Parent", .ref 2),
        (b!"MediaBox", .array [.real 0, .real 0, .real p.size.1, .real p.size.2]),
        (b!"Contents", .ref (4 + 2 * k + 1)), (b!"Resources", .ref 3), (b!"Rotate", .int p.rotate)] :
        List (Bytes × Atom)), decodeName e.1 = some e.1 := by
      intro e he
      simp only [List.mem_cons, List.not_mem_nil, or_false] at he
      rcases he with rfl | rfl | rfl | rfl | rfl | rfl
      · exact (by decide +kernel : decodeName b!"Type" = some b!"Type")
      · exact (by decide +kernel : decodeName b!"Parent" = some b!"Parent")
      · exact (by decide +kernel : decodeName b!"MediaBox" = some b!"MediaBox")
      · exact (by decide +kernel : decodeName b!"Contents" = some b!"Contents")
      · exact (by decide +kernel : decodeName b!"Resources" = some b!"Resources")
      · exact (by decide +kernel : decodeName b!"Rotate" = some b!"Rotate")
    obtain ⟨r1, f1, g1⟩ := dict_get _ _ ho3 hplain b!"Rotate" (.int p.rotate) (by simp [Atom.get])
    obtain ⟨r2, f2, g2⟩ := dict_get _ _ ho3 hplain b!"MediaBox"
      (.array [.real 0, .real 0, .real p.size.1, .real p.size.2]) (by simp [Atom.get])
    obtain ⟨r3, f3, g3⟩ := dict_get _ _ ho3 hplain b!"Contents" (.ref (4 + 2 * k + 1)) (by simp [Atom.get])
    rw [int_denotes _ _ g1] at f1
    rw [ref_denotes _ _ g3] at f3
    cases g2 with
    | array g2 =>
    cases g2 with
    | cons b1 g2 =>
    cases g2 with
    | cons b2 g2 =>
    cases g2 with
    | cons b3 g2 =>
    cases g2 with
    | cons b4 g2 =>
    cases g2
    cases b1 with
    | real b1 =>
    cases b2 with
    | real b2 =>
    cases b3 with
    | real b3 =>
    cases b4 with
    | real b4 =>
    simp only [abs_zero, zero_mul, sub_zero, abs_nonpos_iff] at b1 b2
    subst b1
    subst b2
    exact ⟨_, page, _, _, _, _, _, hkid, hl3, f1, f2, b3, b4, f3, hl4, hraw⟩

end

/-! ### Non-vacuity: a concrete document -/

/-- Items for the example: an item with `n` pages, the first of which requests a builtin and an embedded font. -/
def sampleRender (n : Nat) (pnum : Nat) (r : Res) : Run :=
  let r1 := (r.font (.builtin helvetica) false false).2
  let r2 := (r1.font (.trueType ⟨"a.ttf".toList, "b.ttf".toList, "c.ttf".toList, "d.ttf".toList⟩) false false).2
  ⟨(List.range n).map fun k => ⟨0, (595, 842), decNat (pnum + k)⟩, r2, none⟩

theorem sampleRender_ok : RenderOk sampleRender := by
  intro n p r
  refine ⟨[.font (.builtin helvetica) false false,
    .font (.trueType ⟨"a.ttf".toList, "b.ttf".toList, "c.ttf".toList, "d.ttf".toList⟩) false false], _, ?_, rfl⟩
  intro op hop
  simp only [List.mem_cons, List.not_mem_nil, or_false] at hop
  rcases hop with rfl | rfl <;> simp [ResOp.Ok, builtinTypefaces]

/-- A plain font file. -/
def plainFont : FontFile :=
  { fullName := b!"Plain Font", charwidth := fun _ => 500, kerning := none, notdefWidth := fun _ => 500,
    glyphId := fun _ c => c.toNat % 0x10000, flags := fun _ => 4, bbox := fun _ => (0, -200, 1000, 800),
    italicAngle := fun _ => 0, ascent := fun _ => 800, descent := fun _ => -200, capHeight := fun _ => 700,
    stemV := fun _ => 80, saved := fun _ => b!"glyphs" }

/-- The document of items [2, 0, 1] meets the hypotheses of C02, C03, C03_file, C12 and C51: it is written completely, has
three pages with contents "1", "2", "3" and 2·3 + 7 + 3 objects. -/
example : RenderOk sampleRender ∧ FontsOk (fun _ => plainFont) ∧
    (∀ p ∈ renderedPages sampleRender [2, 0, 1], GoodReal p.size.1 ∧ GoodReal p.size.2) ∧
    (docWrite id (fun _ => plainFont) sampleRender b!"0123456789abcdef" [2, 0, 1]).2 = true ∧
    (renderedPages sampleRender [2, 0, 1]).map (·.stream) = [b!"1", b!"2", b!"3"] ∧
    (docObjects id (fun _ => plainFont) sampleRender [2, 0, 1]).1.length = 16 := by
  refine ⟨sampleRender_ok, fun p => ⟨(by decide +kernel : ∀ c ∈ plainFont.fullName, isDelim c = false), fun cs => ?_⟩, ?_, by decide +kernel, by decide +kernel,
    by decide +kernel⟩
  · exact Or.inr (by norm_num [plainFont, abs])
  · intro p hp
    have : p.size = (595, 842) := by
      simp only [renderedPages, docPages, sampleRender, List.mem_append, List.mem_map] at hp
      rcases hp with ⟨k, -, rfl⟩ | ⟨k, -, rfl⟩ | ⟨k, -, rfl⟩ | h
      · rfl
      · rfl
      · rfl
      · cases h
    rw [this]
    exact ⟨Or.inr (by norm_num [abs]), Or.inr (by norm_num [abs])⟩

/-- A document without items: C05 applies. -/
example : renderedPages sampleRender [] = [] ∧ renderedPages sampleRender [0, 0] = [] := by decide +kernel

end Pdfje
