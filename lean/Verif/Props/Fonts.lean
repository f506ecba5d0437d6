import Verif.Proofs.Registry
import Verif.Spec.Lookup
/-
Properties of fonts: C13 (builtin encoding), C14-C16 (embedded fonts), C17, C18 (registry), C19 (kerning).
-/

namespace Pdfje
open PdfSpec

/-! ### C13 -/

open Classical in
/-- C13. Every string is encoded to one byte per character; read as WinAnsi, each byte gives the character if
WinAnsi has it, and a question mark otherwise. -/
theorem C13_builtin_encode (s : List Char) :
    (cp1252 s).length = s.length ∧
    (cp1252 s).map winAnsi = s.map fun c => some (if ∃ b, winAnsi b = some c.toNat then c.toNat else 0x3F) := by
  refine ⟨by simp [cp1252], ?_⟩
  unfold cp1252
  rw [List.map_map]
  apply List.map_congr_left
  intro c _
  simp only [Function.comp]
  split
  · rename_i h
    obtain ⟨b, hb⟩ := h
    rw [winAnsi_cp1252 c b hb, hb]
  · rename_i h
    rw [cp1252_unknown c (fun b hb => h ⟨b, hb⟩)]
    decide

example : cp1252 ['é', '€', 'Ω', 'a'] = [0xE9, 0x80, 0x3F, 0x61] := by decide +kernel

/-! ### C14 -/

/-- The characters a history encodes with subset `i`, in order. -/
def used (i : Nat) (ops : List ResOp) (outs : List ResOut) : List Char := ((encodings i ops outs).map (·.1)).flatten

/-- The number of different characters before the first `c` in a text. -/
def firstUse (text : List Char) (c : Char) : Nat := (text.takeWhile (· != c)).toFinset.card

theorem run_codes (ops : List ResOp) (hok : ∀ op ∈ ops, op.Ok) (outs : List ResOut) (r : Res)
    (h : Res.empty.run ops = some (outs, r)) (i : Nat) :
    (r.cidsOf i).Nodup ∧ (∀ x, x ∈ r.cidsOf i ↔ x ∈ used i ops outs) ∧
    (∀ (k : Nat) c, (r.cidsOf i)[k]? = some c → k = firstUse (used i ops outs) c) ∧
    ∀ e ∈ encodings i ops outs, ∃ codes : List Nat, e.2 = codes.flatMap utf16Cid ∧
      codes.map (fun k => (r.cidsOf i)[k]?) = e.1.map some := by
  have hrun := Res.run_encodings ops i Res.empty outs r h
  have h0 : Res.empty.cidsOf i = [] := rfl
  rw [h0] at hrun
  obtain ⟨a1, -, a3, a4⟩ := encodeHistory_spec ((encodings i ops outs).map (·.1)) [] List.nodup_nil
  have a5 := encodeHistory_firstUse ((encodings i ops outs).map (·.1)) [] List.nodup_nil
  rw [hrun] at a1 a3 a4 a5
  refine ⟨a1, fun x => ?_, fun k c hk => ?_, fun e he => ?_⟩
  · have := a3 x
    simpa [used] using this
  · have := a5 k c hk
    simpa [used, firstUse] using this
  · obtain ⟨j, hj⟩ := List.mem_iff_getElem?.mp he
    rw [List.forall₂_iff_get] at a4
    obtain ⟨hl, hget⟩ := a4
    obtain ⟨hlt, rfl⟩ := List.getElem?_eq_some_iff.mp hj
    have := hget j (by simpa using hlt) (by simpa using hlt)
    simpa using this

/-- C14. Whatever fonts are requested and strings encoded in whatever order, if fewer than 65535 different
characters are encoded with an embedded font then there is one code per character such that every string was
encoded as the two-byte codes of its characters; different characters have different codes; and the code of a
character is the number of different characters used before it. -/
theorem C14_embedded_codes (ops : List ResOp) (hok : ∀ op ∈ ops, op.Ok) (outs : List ResOut) (r : Res)
    (h : Res.empty.run ops = some (outs, r)) (i : Nat) (hlt : (used i ops outs).toFinset.card < 65535) :
    ∃ code : Char → Nat,
      (∀ e ∈ encodings i ops outs, e.2.length = 2 * e.1.length ∧ units16 e.2 = some (e.1.map code)) ∧
      (∀ a ∈ used i ops outs, ∀ b ∈ used i ops outs, code a = code b → a = b) ∧
      (∀ a ∈ used i ops outs, code a = firstUse (used i ops outs) a) := by
  obtain ⟨hn, hmem, hfirst, henc⟩ := run_codes ops hok outs r h i
  have hcard : (r.cidsOf i).length < 65535 := by
    rw [← List.toFinset_card_of_nodup hn]
    have : (r.cidsOf i).toFinset = (used i ops outs).toFinset := by
      ext x; simp [hmem]
    rw [this]; exact hlt
  have hcode : ∀ (k : Nat) c, (r.cidsOf i)[k]? = some c → k < 0x10000 := by
    intro k c hk
    have := (List.getElem?_eq_some_iff.mp hk).1
    omega
  refine ⟨firstUse (used i ops outs), fun e he => ?_, ?_, fun _ _ => rfl⟩
  · obtain ⟨codes, hb, hc⟩ := henc e he
    have hlen : codes.length = e.1.length := by simpa using congrArg List.length hc
    have hget : ∀ (j : Nat) (k : Nat), codes[j]? = some k → ∃ c, e.1[j]? = some c ∧ (r.cidsOf i)[k]? = some c := by
      intro j k hj
      have := congrArg (fun l => l[j]?) hc
      simp only [List.getElem?_map, hj, Option.map_some] at this
      cases hej : e.1[j]? with
      | none => rw [hej] at this; simp at this
      | some c => rw [hej] at this; exact ⟨c, rfl, by simpa using this⟩
    have hu : units16 e.2 = some codes := by
      rw [hb]
      refine units16_flatMap codes fun k hk => ?_
      obtain ⟨j, hj⟩ := List.mem_iff_getElem?.mp hk
      obtain ⟨c, -, h2⟩ := hget j k hj
      exact hcode k c h2
    constructor
    · rw [hb, ← hlen]
      have : ∀ l : List Nat, (∀ k ∈ l, k < 0x10000) → (l.flatMap utf16Cid).length = 2 * l.length := by
        intro l
        induction l with
        | nil => intro _; rfl
        | cons a l ih =>
          intro hl
          rw [List.flatMap_cons, List.length_append, ih (fun k hk => hl k (by simp [hk])),
            utf16Cid_be16 a (hl a (by simp))]
          simp [be16]; omega
      refine this codes fun k hk => ?_
      obtain ⟨j, hj⟩ := List.mem_iff_getElem?.mp hk
      obtain ⟨c, -, h2⟩ := hget j k hj
      exact hcode k c h2
    · rw [hu]
      congr 1
      apply List.ext_getElem?
      intro j
      rw [List.getElem?_map]
      cases hj : codes[j]? with
      | none =>
        rw [List.getElem?_eq_none (l := e.1) (by rw [← hlen]; exact List.getElem?_eq_none_iff.mp hj)]; rfl
      | some k =>
        obtain ⟨c, h1, h2⟩ := hget j k hj
        rw [h1, Option.map_some, hfirst k c h2]
  · intro a ha b hb hab
    obtain ⟨ka, hka⟩ := List.mem_iff_getElem?.mp ((hmem a).mpr ha)
    obtain ⟨kb, hkb⟩ := List.mem_iff_getElem?.mp ((hmem b).mpr hb)
    have e1 := hfirst ka a hka
    have e2 := hfirst kb b hkb
    rw [← e1, ← e2] at hab
    rw [hab, hkb] at hka
    exact (Option.some.inj hka).symm

/-- A history with two embedded fonts, a builtin font and interleaved encodings. -/
def sampleTtf : TrueType := ⟨"r.ttf".toList, "b.ttf".toList, "i.ttf".toList, "bi.ttf".toList⟩
@[inherit_doc sampleTtf] def sampleOps : List ResOp :=
  [.font (.trueType sampleTtf) false false, .font (.builtin helvetica) true false, .encode (.subset 0) "abca".toList,
   .font (.trueType sampleTtf) true false, .encode (.subset 1) "ba".toList, .encode (.subset 0) "dab😀".toList,
   .encode (.builtin helvetica.bold) "é".toList, .font (.trueType sampleTtf) false false]

theorem sampleOps_ok : (∀ op ∈ sampleOps, op.Ok) ∧ (Res.empty.run sampleOps).isSome := by
  constructor
  · intro op hop
    simp only [sampleOps, List.mem_cons, List.not_mem_nil, or_false] at hop
    rcases hop with rfl | rfl | rfl | rfl | rfl | rfl | rfl | rfl <;> simp [ResOp.Ok, builtinTypefaces]
  · decide +kernel

example : (Res.empty.run sampleOps).map (fun x => (encodings 0 sampleOps x.1).map (·.2)) =
    some [[0, 0, 0, 1, 0, 2, 0, 0], [0, 3, 0, 0, 0, 1, 0, 4]] := by decide +kernel

/-! ### C15, C16 -/

/-- C16. The hexadecimal text written for a character in the ToUnicode map is the UTF-16BE encoding of that
character: reading it as a hexadecimal string and decoding gives the character back. -/
theorem C16_utf16 (c : Char) (rest : Bytes) :
    ∃ bytes, readHex none (utf16beHex c.toNat ++ b!">" ++ rest) = some (bytes, rest) ∧
      utf16be bytes = some [c.toNat] := readHex_utf16 c rest

example : utf16beHex '😀'.toNat = b!"D83DDE00" ∧ utf16beHex 'é'.toNat = b!"00E9" := by decide +kernel

theorem mapM_toUnicode (cmap : Bytes) (code : Char → Nat) (s : List Char)
    (h : ∀ c ∈ s, toUnicode cmap (code c) = some [c.toNat]) :
    ((s.map code).mapM (toUnicode cmap)).map List.flatten = some (s.map Char.toNat) := by
  induction s with
  | nil => rfl
  | cons c s ih =>
    have := ih fun d hd => h d (by simp [hd])
    rw [List.map_cons, List.mapM_cons, h c (by simp)]
    cases hm : (s.map code).mapM (toUnicode cmap) with
    | none => rw [hm] at this; simp at this
    | some l =>
      rw [hm] at this
      simp only [Option.map_some, Option.some.injEq] at this
      simp [this]

/-- C15. After any history of uses of the fonts of a document, follow the objects written for the n-th embedded
font: its ToUnicode map turns every string as encoded back into the string that was passed in; and for every
character that was encoded, its code has the (truncated) width of that character in the /W array, and the glyph
of that character in the CIDToGIDMap stream. -/
theorem C15_embedded_tables (compress : Bytes → Bytes) (files : Path → FontFile)
    (hgid : ∀ p cs c, (files p).glyphId cs c < 0x10000)
    (ops : List ResOp) (hok : ∀ op ∈ ops, op.Ok) (outs : List ResOut) (r : Res)
    (h : Res.empty.run ops = some (outs, r)) (first : Nat) (hobj : (r.toObjects compress files first).2 = true)
    (n : Nat) (e : (TrueType × Bool × Bool) × Subset) (he : r.subsets[n]? = some e) :
    ∃ objs, (∀ o ∈ objs, o ∈ (r.toObjects compress files first).1) ∧
      ∃ font cmapObj cmap child desc wArr gidObj gids,
        objAt objs (first + 7 * n) = some font ∧
        follow objs b!"ToUnicode" font = some cmapObj ∧ cmapObj.content = some cmap ∧
        (font.get b!"DescendantFonts").bind Atom.first = some child ∧ deref objs child = some desc ∧
        desc.get b!"W" = some wArr ∧
        follow objs b!"CIDToGIDMap" desc = some gidObj ∧ gidObj.content = some gids ∧
        (∀ x ∈ encodings n ops outs, extract cmap x.2 = some (x.1.map Char.toNat)) ∧
        ∃ code : Char → Nat,
          (∀ x ∈ encodings n ops outs, units16 x.2 = some (x.1.map code)) ∧
          ∀ c ∈ used n ops outs,
            toUnicode cmap (code c) = some [c.toNat] ∧
            (∀ w, wArr.Denotes w → cidWidth w (code c) = some ((truncQ ((files e.2.path).charwidth c) : ℤ) : ℚ)) ∧
            cidToGid gids (code c) = some ((files e.2.path).glyphId e.2.cids c) := by
  have hs : (r.subsets.map (·.2))[n]? = some e.2 := by simp [he]
  obtain ⟨objs, ho, hsub⟩ := subsetObjects_get compress files _ first n e.2 hobj hs
  have hmul : first + n * objsPerFont = first + 7 * n := by unfold objsPerFont; omega
  rw [hmul] at ho
  obtain ⟨hn, hmem, hfirst, henc⟩ := run_codes ops hok outs r h n
  have hcids : r.cidsOf n = e.2.cids := by simp [Res.cidsOf, he]
  have hlen : e.2.cids.length < 0xFFFF := by
    by_contra hge
    simp only [Subset.toObjects, if_neg hge] at ho
    cases ho
  have hcard : (used n ops outs).toFinset.card < 65535 := by
    have : (r.cidsOf n).toFinset = (used n ops outs).toFinset := by
      ext x; simp [hmem]
    rw [← this, List.toFinset_card_of_nodup hn, hcids]; exact hlen
  obtain ⟨code, hc1, hc2, hc3⟩ := C14_embedded_codes ops hok outs r h n hcard
  have hcode : ∀ c ∈ used n ops outs, e.2.cids[code c]? = some c := by
    intro c hc
    obtain ⟨k, hk⟩ := List.mem_iff_getElem?.mp ((hmem c).mpr hc)
    rw [hc3 c hc, ← hfirst k c hk, ← hcids, hk]
  have huni : ∀ c ∈ used n ops outs, toUnicode (unicodeMap compress e.2.cids) (code c) = some [c.toNat] :=
    fun c hc => toUnicode_unicodeMap compress e.2.cids (by omega) (code c) c (hcode c hc)
  simp only [Subset.toObjects, if_pos hlen, Option.some.injEq] at ho
  refine ⟨objs, hsub, ?_⟩
  subst ho
  generalize first + 7 * n = i
  refine ⟨.dict [(b!"Type", .name b!"Font"), (b!"Subtype", .name b!"Type0"),
      (b!"BaseFont", .name (taggedName (files e.2.path))), (b!"Encoding", .name b!"Identity-H"),
      (b!"DescendantFonts", .array [.ref (i + 1)]), (b!"ToUnicode", .ref (i + 2))],
    .stream (unicodeMap compress e.2.cids) [], unicodeMap compress e.2.cids, .ref (i + 1),
    .dict [(b!"Type", .name b!"Font"), (b!"Subtype", .name b!"CIDFontType2"),
      (b!"BaseFont", .name (taggedName (files e.2.path))), (b!"CIDSystemInfo", .ref (i + 3)),
      (b!"FontDescriptor", .ref (i + 4)), (b!"DW", .real ((files e.2.path).notdefWidth e.2.cids)),
      (b!"W", encodeWidths (e.2.cids.map (files e.2.path).charwidth)), (b!"CIDToGIDMap", .ref (i + 5))],
    encodeWidths (e.2.cids.map (files e.2.path).charwidth),
    .stream (cidGidMap ((files e.2.path).glyphId e.2.cids) e.2.cids) [],
    cidGidMap ((files e.2.path).glyphId e.2.cids) e.2.cids, ?h1, ?h2, rfl, ?h4, ?h5, ?h6, ?h7, rfl, ?_, code,
    fun x hx => (hc1 x hx).2, fun c hc => ⟨huni c hc, fun w hw => ?_, ?_⟩⟩
  case h1 => simp [objAt]
  case h2 => simp [follow, Atom.get, deref, objAt]
  case h4 => simp [Atom.get, Atom.first]
  case h5 => simp [deref, objAt]
  case h6 => simp [Atom.get]
  case h7 => simp [follow, Atom.get, deref, objAt]
  · intro x hx
    unfold extract
    rw [(hc1 x hx).2]
    exact mapM_toUnicode _ code x.1 fun c hc => huni c (by
      unfold used
      exact List.mem_flatten.mpr ⟨x.1, List.mem_map.mpr ⟨x, hx, rfl⟩, hc⟩)
  · exact cidWidth_encodeWidths _ w hw (code c) _ (by rw [List.getElem?_map, hcode c hc]; rfl)
  · exact cidGidMap_get _ _ _ _ (hcode c hc) (hgid _ _ _)

/-- A font file for the example: every character as wide as its code point, glyph = code point modulo 65536. -/
def sampleFont : FontFile :=
  { fullName := b!"Sample", charwidth := fun c => (c.toNat : ℚ) / 2, kerning := none, notdefWidth := fun _ => 500,
    glyphId := fun _ c => c.toNat % 0x10000, flags := fun _ => 4, bbox := fun _ => (0, -200, 1000, 800),
    italicAngle := fun _ => 0, ascent := fun _ => 800, descent := fun _ => -200, capHeight := fun _ => 700,
    stemV := fun _ => 80, saved := fun cs => cs.map fun c => UInt8.ofNat c.toNat }

/-- The hypotheses of `C15_embedded_tables` are met by `sampleOps` and both of its embedded fonts. -/
example : ∃ outs r, Res.empty.run sampleOps = some (outs, r) ∧ (r.toObjects id (fun _ => sampleFont) 6).2 = true ∧
    r.subsets.length = 2 ∧ used 0 sampleOps outs = "abcadab😀".toList := by
  refine ⟨((Res.empty.run sampleOps).get (by decide +kernel)).1, ((Res.empty.run sampleOps).get (by decide +kernel)).2,
    by simp, by decide +kernel, by decide +kernel, by decide +kernel⟩

/-! ### C17, C18 -/

/-- C17. In any history of uses of the registry: requesting the same variant again gives the same font; and in
the font dictionary written at the end every font that was requested has an entry under its name, which is the
builtin font's own description, or a reference to the objects of an embedded font made from the file of exactly
the requested variant. -/
theorem C17_registry (compress : Bytes → Bytes) (files : Path → FontFile)
    (ops : List ResOp) (hok : ∀ op ∈ ops, op.Ok) (outs : List ResOut) (r : Res)
    (h : Res.empty.run ops = some (outs, r)) (first : Nat) (hobj : (r.toObjects compress files first).2 = true) :
    (∀ (j k : Nat) f bold italic, ops[j]? = some (.font f bold italic) → ops[k]? = some (.font f bold italic) →
      outs[j]? = outs[k]?) ∧
    (∀ (j : Nat) b bold italic, ops[j]? = some (.font (.builtin b) bold italic) →
      outs[j]? = some (.font (.builtin (b.font bold italic))) ∧
      (((r.toAtoms first).get b!"Font").bind fun d => d.get (b.font bold italic).fid)
        = some (b.font bold italic).toResource) ∧
    (∀ (j : Nat) t bold italic, ops[j]? = some (.font (.trueType t) bold italic) →
      ∃ n name i font, outs[j]? = some (.font (.subset n)) ∧ r.fontId (.subset n) = some name ∧
        (((r.toAtoms first).get b!"Font").bind fun d => d.get name) = some (.ref i) ∧
        (i, font) ∈ (r.toObjects compress files first).1 ∧
        font.get b!"Type" = some (.name b!"Font") ∧ font.get b!"Subtype" = some (.name b!"Type0") ∧
        font.get b!"BaseFont" = some (.name (taggedName (files (t.font bold italic))))) := by
  obtain ⟨-, hwf, hhas, hlen⟩ := Res.run_spec ops Res.empty Res.wf_empty hok outs r h
  refine ⟨fun j k f bold italic hj hk => ?_, fun j b bold italic hj => ?_, fun j t bold italic hj => ?_⟩
  · obtain ⟨x, hx, h1⟩ := hhas j f bold italic hj
    obtain ⟨y, hy, h2⟩ := hhas k f bold italic hk
    rw [hx, hy, Res.has_functional h1 h2]
  · obtain ⟨x, hx, e, he, rfl⟩ := hhas j _ bold italic hj
    have hmem := List.mem_of_find?_eq_some he
    have hkey : e.1 = (b.regular.name, bold, italic) := by simpa using List.find?_some he
    obtain ⟨g, hg, hname, hf⟩ := hwf.built e hmem
    have hb : b ∈ builtinTypefaces := hok _ (List.mem_of_getElem? hj)
    rw [hkey] at hname hf
    have := builtin_name_inj b hb g hg hname
    subst this
    have hff : e.2 = b.font bold italic := hf
    refine ⟨by rw [hx, hff], ?_⟩
    have := fontEntries_builtin hwf first hmem
    rw [hff] at this
    simp [Res.toAtoms, Atom.get, this]
  · obtain ⟨x, hx, n, hn, rfl⟩ := hhas j _ bold italic hj
    rw [List.findIdx?_eq_some_iff_getElem] at hn
    obtain ⟨hlt, hkey, -⟩ := hn
    have hkey : r.subsets[n].1 = (t, bold, italic) := by simpa using hkey
    have he : r.subsets[n]? = some r.subsets[n] := List.getElem?_eq_getElem hlt
    generalize r.subsets[n] = e at *
    have hpath : e.2.path = t.font bold italic := by rw [(hwf.sub n e he).2.1, hkey]
    have hs : (r.subsets.map (·.2))[n]? = some e.2 := by simp [he]
    obtain ⟨objs, ho, hsub⟩ := subsetObjects_get compress files _ first n e.2 hobj hs
    simp only [Subset.toObjects] at ho
    split at ho
    swap
    · cases ho
    simp only [Option.some.injEq] at ho
    refine ⟨n, e.2.id, first + n * objsPerFont, _, hx, by simp [Res.fontId, he], ?_, hsub _ (by rw [← ho]; exact List.mem_cons_self), ?_, ?_, ?_⟩
    · have := fontEntries_subset hwf first he
      simp [Res.toAtoms, Atom.get, this]
    · simp [Atom.get]
    · simp [Atom.get]
    · simp [Atom.get, hpath]

/-- C17, names: two requests for different embedded variants get different resource names. -/
theorem C17_names_differ (ops : List ResOp) (hok : ∀ op ∈ ops, op.Ok) (outs : List ResOut) (r : Res)
    (h : Res.empty.run ops = some (outs, r)) (j k : Nat) (t t' : TrueType) (b i b' i' : Bool)
    (hj : ops[j]? = some (.font (.trueType t) b i)) (hk : ops[k]? = some (.font (.trueType t') b' i'))
    (hne : (t, b, i) ≠ (t', b', i')) :
    ∃ x y, outs[j]? = some (.font x) ∧ outs[k]? = some (.font y) ∧
      ∃ nx ny, r.fontId x = some nx ∧ r.fontId y = some ny ∧ nx ≠ ny := by
  obtain ⟨-, hwf, hhas, hlen⟩ := Res.run_spec ops Res.empty Res.wf_empty hok outs r h
  obtain ⟨x, hx, n, hn, rfl⟩ := hhas j _ b i hj
  obtain ⟨y, hy, m, hm, rfl⟩ := hhas k _ b' i' hk
  rw [List.findIdx?_eq_some_iff_getElem] at hn hm
  obtain ⟨hnl, hnk, -⟩ := hn
  obtain ⟨hml, hmk, -⟩ := hm
  have hnk : r.subsets[n].1 = (t, b, i) := by simpa using hnk
  have hmk : r.subsets[m].1 = (t', b', i') := by simpa using hmk
  have he1 : r.subsets[n]? = some r.subsets[n] := List.getElem?_eq_getElem hnl
  have he2 : r.subsets[m]? = some r.subsets[m] := List.getElem?_eq_getElem hml
  refine ⟨_, _, hx, hy, r.subsets[n].2.id, r.subsets[m].2.id, by simp [Res.fontId, hnl], by simp [Res.fontId, hml], ?_⟩
  rw [(hwf.sub n _ he1).1, (hwf.sub m _ he2).1]
  intro hc
  have := decNat_inj (List.append_cancel_left hc)
  subst this
  exact hne (hnk.symm.trans hmk)

/-- C17, the variants: after any history, what is given for a request is the regular, bold, italic or bold italic
variant of the typeface, as asked. -/
theorem C17_variant (compress : Bytes → Bytes) (files : Path → FontFile)
    (ops : List ResOp) (hok : ∀ op ∈ ops, op.Ok) (outs : List ResOut) (r : Res)
    (h : Res.empty.run ops = some (outs, r)) (first : Nat) (hobj : (r.toObjects compress files first).2 = true) (j : Nat) (bold italic : Bool) :
    (∀ b, ops[j]? = some (.font (.builtin b) bold italic) → ∃ g, outs[j]? = some (.font (.builtin g)) ∧
      (bold = false → italic = false → g = b.regular) ∧ (bold = true → italic = false → g = b.bold) ∧
      (bold = false → italic = true → g = b.italic) ∧ (bold = true → italic = true → g = b.boldItalic)) ∧
    (∀ t, ops[j]? = some (.font (.trueType t) bold italic) →
      ∃ n name i font path, outs[j]? = some (.font (.subset n)) ∧ r.fontId (.subset n) = some name ∧
        (((r.toAtoms first).get b!"Font").bind fun d => d.get name) = some (.ref i) ∧
        (i, font) ∈ (r.toObjects compress files first).1 ∧ font.get b!"BaseFont" = some (.name (taggedName (files path))) ∧
        (bold = false → italic = false → path = t.regular) ∧ (bold = true → italic = false → path = t.bold) ∧
        (bold = false → italic = true → path = t.italic) ∧ (bold = true → italic = true → path = t.boldItalic)) := by
  obtain ⟨-, h2, h3⟩ := C17_registry compress files ops hok outs r h first hobj
  constructor
  · intro b hb
    refine ⟨_, (h2 j b bold italic hb).1, ?_⟩
    cases bold <;> cases italic <;> simp [BuiltinTypeface.font]
  · intro t ht
    obtain ⟨n, name, i, font, g1, g2, g3, g4, -, -, g5⟩ := h3 j t bold italic ht
    refine ⟨n, name, i, font, _, g1, g2, g3, g4, g5, ?_⟩
    cases bold <;> cases italic <;> simp [TrueType.font]

example : ∃ outs r, Res.empty.run sampleOps = some (outs, r) ∧
    (r.fontEntries 6).map (·.1) = [b!"f1", b!"F0", b!"F1"] := by
  refine ⟨((Res.empty.run sampleOps).get (by decide +kernel)).1, ((Res.empty.run sampleOps).get (by decide +kernel)).2,
    by simp, by decide +kernel⟩

/-- C18, full statement: the font dictionary written after any history has pairwise different keys. -/
def C18_Statement : Prop :=
  ∀ (ops : List ResOp), (∀ op ∈ ops, op.Ok) → ∀ outs r, Res.empty.run ops = some (outs, r) → ∀ first,
    ((r.fontEntries first).map (·.1)).Nodup

/-- C18 is false: Symbol in regular and in bold are two registry entries with the same key `f12`. -/
theorem C18_counterexample : ¬ C18_Statement := by
  intro h
  have := h [.font (.builtin symbol) false false, .font (.builtin symbol) true false]
    (by intro op hop
        simp only [List.mem_cons, List.not_mem_nil, or_false] at hop
        rcases hop with rfl | rfl <;> simp [ResOp.Ok, builtinTypefaces])
    ((Res.empty.run [.font (.builtin symbol) false false, .font (.builtin symbol) true false]).get (by decide +kernel)).1
    ((Res.empty.run [.font (.builtin symbol) false false, .font (.builtin symbol) true false]).get (by decide +kernel)).2
    (by simp) 6
  revert this
  decide +kernel

/-- C18, the part that holds: keys are pairwise different if Symbol and ZapfDingbats are each requested in at most one
variant. (In the remaining case the duplicates have equal values.) -/
theorem C18_no_duplicates_partial (ops : List ResOp) (hok : ∀ op ∈ ops, op.Ok) (outs : List ResOut) (r : Res)
    (h : Res.empty.run ops = some (outs, r)) (first : Nat)
    (hsym : ∀ f, f = symbol ∨ f = zapfDingbats → ∀ b i b' i', ResOp.font (.builtin f) b i ∈ ops →
      ResOp.font (.builtin f) b' i' ∈ ops → b = b' ∧ i = i') :
    ((r.fontEntries first).map (·.1)).Nodup := by
  obtain ⟨-, hwf, -, -⟩ := Res.run_spec ops Res.empty Res.wf_empty hok outs r h
  have hreq : ∀ e ∈ r.builtins, ∃ f ∈ builtinTypefaces, e.1.1 = f.regular.name ∧ e.2 = f.font e.1.2.1 e.1.2.2 ∧
      ResOp.font (.builtin f) e.1.2.1 e.1.2.2 ∈ ops := by
    intro e he
    rcases Res.run_builtins ops Res.empty outs r h e he with h0 | ⟨f, hf, h1, h2⟩
    · simp [Res.empty] at h0
    · exact ⟨f, hok _ hf, h1, h2, hf⟩
  unfold Res.fontEntries
  rw [List.map_append, List.nodup_append]
  refine ⟨?_, ?_, ?_⟩
  · rw [List.map_map]
    have hk := hwf.keys
    rw [List.Nodup, List.pairwise_map] at hk ⊢
    refine hk.imp_of_mem ?_
    intro a b ha hb hne heq
    obtain ⟨f, hf, hf1, hf2, hf3⟩ := hreq a ha
    obtain ⟨g, hg, hg1, hg2, hg3⟩ := hreq b hb
    simp only [Function.comp] at heq
    rw [hf2, hg2] at heq
    obtain ⟨rfl, hv⟩ := builtin_fid_variant f hf g hg _ _ _ _ heq
    apply hne
    have hbi : a.1.2.1 = b.1.2.1 ∧ a.1.2.2 = b.1.2.2 := by
      rcases hv with hv | hv | hv
      · exact hsym f (Or.inl hv) _ _ _ _ hf3 hg3
      · exact hsym f (Or.inr hv) _ _ _ _ hf3 hg3
      · exact hv
    exact Prod.ext (hf1.trans hg1.symm) (Prod.ext hbi.1 hbi.2)
  · rw [subsetEntries_keys]; exact subset_ids_nodup hwf
  · rw [subsetEntries_keys]
    intro a ha b hb hab
    subst hab
    simp only [List.map_map, List.mem_map, Function.comp] at ha hb
    obtain ⟨x, hx, rfl⟩ := ha
    obtain ⟨y, hy, hid⟩ := hb
    obtain ⟨f, hf, -, ef, -⟩ := hreq x hx
    have hh := builtin_fid_head f hf x.1.2.1 x.1.2.2
    obtain ⟨n, hn⟩ := List.mem_iff_getElem?.mp hy
    rw [← ef, ← hid, (hwf.sub n y hn).1] at hh
    simp at hh

/-- The hypothesis of the partial theorem is met by a history that does use Symbol. -/
example : ∀ f, f = symbol ∨ f = zapfDingbats → ∀ b i b' i',
    ResOp.font (.builtin f) b i ∈ ResOp.font (.builtin symbol) true false :: sampleOps →
      ResOp.font (.builtin f) b' i' ∈ ResOp.font (.builtin symbol) true false :: sampleOps → b = b' ∧ i = i' := by
  rintro f (rfl | rfl) <;> decide +kernel

/-! ### C19 -/

/-- C19. There is an adjustment at position `i` exactly when the pair that ends at character `i` (with the
character before it, or the given preceding character when `i = 0`) has a non-zero table value, which is the
adjustment; positions are strictly ascending, so there is only one per position. -/
theorem C19_kern (table : Char × Char → ℚ) (s : List Char) (prev : Option Char) :
    (∀ i k, (i, k) ∈ kern table s prev ↔ ∃ a b, s[i]? = some b ∧
      ((i = 0 ∧ prev = some a) ∨ ∃ j, i = j + 1 ∧ s[j]? = some a) ∧ table (a, b) = k ∧ k ≠ 0) ∧
    (kern table s prev).Pairwise (fun a b => a.1 < b.1) :=
  ⟨fun i k => mem_kern table s prev i k, kern_sorted table s prev⟩

example : kern (fun p => if p.1 = 'A' ∧ p.2 = 'V' then -70 else 0) "AVAV".toList (some 'A') = [(1, -70), (3, -70)] := by
  decide +kernel

end Pdfje
