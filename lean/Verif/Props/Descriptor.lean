import Verif.Spec.Descriptor
import Verif.Props.Widths
/-
C89: font descriptors say what the font files say. C90: stem widths.
-/

namespace Pdfje
open PdfSpec

theorem pyRound_nearest (q : ℚ) : Nearest (pyRound q) q := by
  unfold Nearest pyRound
  split
  · rename_i h
    exact_mod_cast roundHalfEven_err q h
  · rename_i h
    have := roundHalfEven_err (-q) (by linarith)
    rw [show (((-(roundHalfEven (-q) : ℤ)) : ℤ) : ℚ) - q = -((roundHalfEven (-q) : ℚ) - (-q)) by push_cast; ring, abs_neg]
    exact this

theorem flags_bits (t : FontTables) (bit : Nat) (h : 1 ≤ bit) : flagOf (t.flags : ℤ) bit = true ↔
    bit = 3 ∨ (bit = 1 ∧ t.isFixedPitch ≠ 0) ∨ (bit = 7 ∧ t.italicAngle ≠ 0) ∨ (bit = 19 ∧ 600 ≤ t.weightClass) := by
  obtain ⟨k, rfl⟩ : ∃ k, bit = k + 1 := ⟨bit - 1, by omega⟩
  have key : ∀ (P : Prop) [Decidable P] (j : Nat), (if P then 1 <<< j else 0 : Nat).testBit k = true ↔ P ∧ k = j := by
    intro P _ j
    split <;> simp_all [Nat.one_shiftLeft, Nat.testBit_two_pow, eq_comm]
  have k0 : (1 <<< 2 : Nat).testBit k = true ↔ k = 2 := by
    have := key True 2
    simpa using this
  simp only [flagOf, Int.toNat_natCast, Nat.add_sub_cancel, FontTables.flags, Nat.testBit_or, Bool.or_eq_true, key, k0]
  have a1 : k + 1 = 3 ↔ k = 2 := by omega
  have a2 : k + 1 = 1 ↔ k = 0 := by omega
  have a3 : k + 1 = 7 ↔ k = 6 := by omega
  have a4 : k + 1 = 19 ↔ k = 18 := by omega
  rw [a1, a2, a3, a4]
  tauto

theorem decodeName_prefix : ∀ (p s u : Bytes), (∀ c ∈ p, c ≠ 0x23) → decodeName (p ++ s) = some u → ∃ r, u = p ++ r ∧ decodeName s = some r
  | [], s, u, _, h => ⟨u, rfl, h⟩
  | c :: p, s, u, hp, h => by
    have hc : c ≠ 0x23 := hp c (by simp)
    have : decodeName (c :: (p ++ s)) = (decodeName (p ++ s)).map (c :: ·) := by
      rw [decodeName]
      · simp [hc]
      · intro a b rest h1
        exact absurd h1 hc
    rw [List.cons_append, this] at h
    obtain ⟨r, h1, rfl⟩ := Option.map_eq_some_iff.1 h
    obtain ⟨r', rfl, h2⟩ := decodeName_prefix p s r (fun c hc => hp c (by simp [hc])) h1
    exact ⟨r', rfl, h2⟩

theorem tagged_name {f : FontFile} {u : Bytes} (h : decodeName (taggedName f) = some u) : SubsetName u := by
  obtain ⟨r, rfl, -⟩ := decodeName_prefix b!"APDFJE+" _ u (by decide +kernel) h
  exact ⟨b!"APDFJE", r, rfl, by decide +kernel, by decide +kernel⟩

section
variable {compress : Bytes → Bytes} {decompress : Bytes → Option Bytes}

theorem int_get {d : PObj} {key : Bytes} {z : ℤ} (h : d.get key = some (.num (z : ℚ))) : d.int key = some z := by
  simp [PObj.int, h]

/-- The objects of an embedded font, as a reader finds them: the font, its descendant, its descriptor and its program. -/
theorem subset_descriptor {files : Path → FontFile} {objs : List Obj} {file : Bytes} (hf : FileHolds decompress file objs) {s : Subset}
    {n : Nat} {os : List Obj} (ho : s.toObjects compress (files s.path) n = some os) (hsub : ∀ o ∈ os, o ∈ objs) :
    ∃ font child d u, lookup file n = some (.direct font) ∧ descendant file font = some child ∧ fontDescriptor file font = some d ∧
      decodeName (taggedName (files s.path)) = some u ∧
      font.get b!"BaseFont" = some (.name u) ∧ child.get b!"BaseFont" = some (.name u) ∧ d.get b!"FontName" = some (.name u) ∧
      d.get b!"Type" = some (.name b!"FontDescriptor") ∧
      d.get b!"Flags" = some (.num ((files s.path).flags s.cids)) ∧
      d.get b!"FontBBox" = some (.arr [.num ((files s.path).bbox s.cids).1, .num ((files s.path).bbox s.cids).2.1, .num ((files s.path).bbox s.cids).2.2.1, .num ((files s.path).bbox s.cids).2.2.2]) ∧
      d.get b!"ItalicAngle" = some (.num ((files s.path).italicAngle s.cids)) ∧
      d.get b!"Ascent" = some (.num ((files s.path).ascent s.cids)) ∧
      d.get b!"Descent" = some (.num ((files s.path).descent s.cids)) ∧
      d.get b!"CapHeight" = some (.num ((files s.path).capHeight s.cids)) ∧
      d.get b!"StemV" = some (.num ((files s.path).stemV s.cids)) ∧
      ∃ m dict raw, d.get b!"FontFile2" = some (.ref m 0) ∧ lookup file m = some (.stream dict raw) ∧
        decompress raw = some ((files s.path).saved s.cids) ∧ dict.int b!"Length1" = some ((files s.path).saved s.cids).length := by
  simp only [Subset.toObjects] at ho
  split at ho
  swap
  · cases ho
  simp only [Option.some.injEq] at ho
  subst ho
  obtain ⟨font, hl, hd⟩ := hf.direct (hsub _ (.head _))
  obtain ⟨child, hl1, hd1⟩ := hf.direct (hsub _ (.tail _ (.head _)))
  obtain ⟨desc, hl4, hd4⟩ := hf.direct (hsub _ (.tail _ (.tail _ (.tail _ (.tail _ (.head _))))))
  obtain ⟨prog, hl6, hd6⟩ := hf.objects _ (hsub _ (.tail _ (.tail _ (.tail _ (.tail _ (.tail _ (.tail _ (.head _))))))))
  have keys : ∀ k ∈ [b!"Type", b!"Subtype", b!"BaseFont", b!"Encoding", b!"DescendantFonts", b!"ToUnicode", b!"CIDSystemInfo", b!"FontDescriptor", b!"DW", b!"W", b!"CIDToGIDMap", b!"FontName", b!"Flags",
      b!"FontBBox", b!"ItalicAngle", b!"Ascent", b!"Descent", b!"CapHeight", b!"StemV", b!"FontFile2"], decodeName k = some k := by decide +kernel
  have get1 := dict_get _ _ hd (by
    intro e' he'
    simp only [List.mem_cons, List.not_mem_nil, or_false] at he'
    rcases he' with rfl | rfl | rfl | rfl | rfl | rfl <;> exact keys _ (by simp))
  have get2 := dict_get _ _ hd1 (by
    intro e' he'
    simp only [List.mem_cons, List.not_mem_nil, or_false] at he'
    rcases he' with rfl | rfl | rfl | rfl | rfl | rfl | rfl | rfl <;> exact keys _ (by simp))
  have get3 := dict_get _ _ hd4 (by
    intro e' he'
    simp only [List.mem_cons, List.not_mem_nil, or_false] at he'
    rcases he' with rfl | rfl | rfl | rfl | rfl | rfl | rfl | rfl | rfl | rfl <;> exact keys _ (by simp))
  obtain ⟨q1, e1, d1⟩ := get1 b!"BaseFont" (.name (taggedName (files s.path))) (by simp [Atom.get])
  obtain ⟨q2, e2, d2⟩ := get1 b!"DescendantFonts" (.array [.ref (n + 1)]) (by simp [Atom.get])
  obtain ⟨q3, e3, d3⟩ := get2 b!"BaseFont" (.name (taggedName (files s.path))) (by simp [Atom.get])
  obtain ⟨q4, e4, d4⟩ := get2 b!"FontDescriptor" (.ref (n + 4)) (by simp [Atom.get])
  obtain ⟨r1, f1, g1⟩ := get3 b!"Type" (.name b!"FontDescriptor") (by simp [Atom.get])
  obtain ⟨r2, f2, g2⟩ := get3 b!"FontName" (.name (taggedName (files s.path))) (by simp [Atom.get])
  obtain ⟨r3, f3, g3⟩ := get3 b!"Flags" (.int ((files s.path).flags s.cids)) (by simp [Atom.get])
  obtain ⟨r4, f4, g4⟩ := get3 b!"FontBBox" (.array [.int ((files s.path).bbox s.cids).1, .int ((files s.path).bbox s.cids).2.1, .int ((files s.path).bbox s.cids).2.2.1, .int ((files s.path).bbox s.cids).2.2.2]) (by simp [Atom.get])
  obtain ⟨r5, f5, g5⟩ := get3 b!"ItalicAngle" (.int ((files s.path).italicAngle s.cids)) (by simp [Atom.get])
  obtain ⟨r6, f6, g6⟩ := get3 b!"Ascent" (.int ((files s.path).ascent s.cids)) (by simp [Atom.get])
  obtain ⟨r7, f7, g7⟩ := get3 b!"Descent" (.int ((files s.path).descent s.cids)) (by simp [Atom.get])
  obtain ⟨r8, f8, g8⟩ := get3 b!"CapHeight" (.int ((files s.path).capHeight s.cids)) (by simp [Atom.get])
  obtain ⟨r9, f9, g9⟩ := get3 b!"StemV" (.int ((files s.path).stemV s.cids)) (by simp [Atom.get])
  obtain ⟨r10, f10, g10⟩ := get3 b!"FontFile2" (.ref (n + 6)) (by simp [Atom.get])
  cases d1 with
  | @name _ u hu =>
  cases d3 with
  | @name _ u3 hu3 =>
  rw [hu] at hu3
  cases hu3
  cases g2 with
  | @name _ u2 hu2 =>
  rw [hu] at hu2
  cases hu2
  rw [ref_denotes _ _ d4] at e4
  rw [name_denotes (by decide +kernel) g1] at f1
  rw [int_denotes _ _ g3] at f3
  rw [int_denotes _ _ g5] at f5
  rw [int_denotes _ _ g6] at f6
  rw [int_denotes _ _ g7] at f7
  rw [int_denotes _ _ g8] at f8
  rw [int_denotes _ _ g9] at f9
  rw [ref_denotes _ _ g10] at f10
  cases d2 with
  | array d2 =>
  cases d2 with
  | cons d2 d2' =>
  cases d2'
  cases d2
  cases g4 with
  | array g4 =>
  cases g4 with
  | cons b1 g4 =>
  cases g4 with
  | cons b2 g4 =>
  cases g4 with
  | cons b3 g4 =>
  cases g4 with
  | cons b4 g4 =>
  cases g4
  rw [int_denotes _ _ b1, int_denotes _ _ b2, int_denotes _ _ b3, int_denotes _ _ b4] at f4
  have hdesc : descendant file font = some child := by
    simp only [descendant, find_direct e2 (by simp), Option.bind_some, PObj.nth, List.getElem?_cons_zero, resolve, hl1]
  refine ⟨font, child, desc, u, hl, hdesc, ?_, hu, e1, e3, f2, f1, f3, f4, f5, f6, f7, f8, f9, ?_⟩
  · rw [fontDescriptor, hdesc, Option.bind_some, find_ref e4 hl4]
  · cases hd6 with
    | direct h => cases h
    | @stream _ _ ps raw h1 h2 =>
      cases h1 with
      | @cons _ d' _ _ p' _ k1 k2 k3 =>
      cases k3
      rw [show decodeName b!"Length1" = some b!"Length1" by decide +kernel] at k1
      cases k1
      rw [int_denotes _ _ k2] at hl6
      exact ⟨_, _, _, f10, hl6, h2, by simp [PObj.int, PObj.get]⟩

theorem DocObjs.descriptor {files : Path → FontFile} {pages : List RenderedPage} {R : Res} {objs : List Obj} (h : DocObjs compress files pages R objs) {file : Bytes}
    (hf : FileHolds decompress file objs) {p : RenderedPage} {page : PObj} (hp : PageHolds decompress file R (4 + 2 * pages.length) p page) {i : Nat}
    {e : (TrueType × Bool × Bool) × Subset} (he : R.subsets[i]? = some e) :
    ∃ font n os, R.fontId (.subset i) = some e.2.id ∧ pageFont file page e.2.id = some font ∧ lookup file n = some (.direct font) ∧
      e.2.toObjects compress (files e.2.path) n = some os ∧ (∀ o ∈ os, o ∈ objs) ∧ e.2.path = e.1.1.font e.1.2.1 e.1.2.2 := by
  obtain ⟨fonts, h1, h2⟩ := hp.resources
  have h3 := fontEntries_subset h.wf (4 + 2 * pages.length) he
  obtain ⟨q, h4, h5⟩ := dict_get _ _ h2 (fontEntries_plain h.wf _) e.2.id (.ref (4 + 2 * pages.length + i * objsPerFont)) (by simp [Atom.get, h3])
  rw [ref_denotes _ _ h5] at h4
  obtain ⟨os, ho, hsub⟩ := subsetObjects_get compress files (R.subsets.map (·.2)) (4 + 2 * pages.length) i e.2 h.ok (by simp [he])
  have hs : ∀ o ∈ os, o ∈ objs := fun o hm => by
    rw [h.eq]
    exact List.mem_append_left _ (List.mem_append_right _ (hsub o hm))
  obtain ⟨font, _, _, _, hl, -⟩ := subset_descriptor hf ho hs
  exact ⟨font, _, os, by simp [Res.fontId, he], by rw [pageFont, h1, Option.bind_some, find_ref h4 hl], hl, ho, hs, (h.wf.sub i e he).2.1⟩

/-- C89, from the bytes of the file: for every embedded font that a page refers to, the reader finds a descriptor that has the numbers of the font file (rounded to the nearest thousandth of the
font size), and its flags; the font, its descendant and its descriptor have the same name, which is that of a subset; and the font program has the length that is stated. -/
theorem C89_descriptor (hz : ∀ x, decompress (compress x) = some x) (w : World) (s : StyleFull) (items : List DocItem) (file : Bytes)
    (h : WrittenDoc compress w s items file) (k : Nat) (x : Written) (hk : (docWritten w s items)[k]? = some x) :
    ∃ page, pageObject file k = some page ∧ ∀ op ∈ x.ops, op.Fonts fun f => ∀ i e, f = .subset i → (docFonts w s items).subsets[i]? = some e →
      ∀ (ttf : Ttf) (full : Bytes) (sub : List Char → FontTables) (saved : List Char → Bytes),
        ttf.embedded full sub saved = some (w.files (e.1.1.font e.1.2.1 e.1.2.2)) →
      ∃ name font child d u, (docFonts w s items).fontId f = some name ∧ pageFont file page name = some font ∧ descendant file font = some child ∧
        fontDescriptor file font = some d ∧ Describes d ttf.unitsPerEm (sub e.2.cids) ∧
        SubsetName u ∧ font.get b!"BaseFont" = some (.name u) ∧ child.get b!"BaseFont" = some (.name u) ∧ d.get b!"FontName" = some (.name u) ∧
        ∃ m dict raw, d.get b!"FontFile2" = some (.ref m 0) ∧ lookup file m = some (.stream dict raw) ∧
          decompress raw = some (saved e.2.cids) ∧ dict.int b!"Length1" = some (saved e.2.cids).length := by
  obtain ⟨objs, h1, h2⟩ := h.read hz
  obtain ⟨page, h3, h4⟩ := h1.page h2 (k := k) (p := x.rendered) (by simp [hk])
  refine ⟨page, h3, fun op hop => ((h.ops hz x (List.mem_of_getElem? hk)).1 op hop).mono fun f _ i e hi he ttf full sub saved hfile => ?_⟩
  subst hi
  obtain ⟨font, n, os, j1, j2, j3, j4, j5, j6⟩ := h1.descriptor h2 h4 he
  obtain ⟨font', child, d, u, l1, l2, l3, l4, l5, l6, l7, l8, l9, l10, l11, l12, l13, l14, -, l16⟩ := subset_descriptor h2 j4 j5
  rw [j3] at l1
  cases l1
  have hne : ttf.unitsPerEm ≠ 0 := by
    intro h0
    simp [Ttf.embedded, h0] at hfile
  simp only [Ttf.embedded, if_neg hne] at hfile
  obtain ⟨kn, -, hfile⟩ := Option.map_eq_some_iff.1 hfile
  rw [j6, ← hfile] at l9 l10 l11 l12 l13 l14 l16
  simp only at l9 l10 l11 l12 l13 l14 l16
  have hsc : ∀ z : ℤ, Nearest (pyRound (z * ttf.scale)) (z * 1000 / ttf.unitsPerEm) := by
    intro z
    have := pyRound_nearest (z * ttf.scale)
    rwa [show (z : ℚ) * ttf.scale = z * 1000 / ttf.unitsPerEm by unfold Ttf.scale; ring] at this ⊢
  refine ⟨_, font, child, d, u, j1, j2, l2, l3, ⟨l8, ⟨_, _, _, _, l10, hsc _, hsc _, hsc _, hsc _⟩, ⟨_, int_get l12, hsc _⟩, ⟨_, int_get l13, hsc _⟩, ⟨_, int_get l14, ?_, ?_⟩,
    ⟨_, int_get l11, pyRound_nearest _⟩, ⟨_, int_get l9, by simp, fun bit hb => flags_bits _ bit hb⟩⟩, tagged_name l4, l5, l6, l7, l16⟩
  · intro h' hh
    simp only [FontTables.capHeightInt, hh]
    exact hsc _
  · intro hh
    simp only [FontTables.capHeightInt, hh]
    exact hsc _

/-- C15, for the font itself: the glyph that the reader finds for a character of an encoded string, in the font program embedded with it, is the one that the character map of that program gives
for this character, or `.notdef` if it has none. -/
theorem C15_glyphs (hz : ∀ x, decompress (compress x) = some x) (w : World) (s : StyleFull) (items : List DocItem) (file : Bytes)
    (h : WrittenDoc compress w s items file) (k : Nat) (x : Written) (hk : (docWritten w s items)[k]? = some x) :
    ∃ page, pageObject file k = some page ∧ ∀ op ∈ x.ops, op.Fonts fun f => ∀ i e, f = .subset i → (docFonts w s items).subsets[i]? = some e →
      ∀ (ttf : Ttf) (full : Bytes) (sub : List Char → FontTables) (saved : List Char → Bytes),
        ttf.embedded full sub saved = some (w.files (e.1.1.font e.1.2.1 e.1.2.2)) →
        (sub e.2.cids).glyphOrder.length ≤ 0x10000 → ".notdef".toList ∈ (sub e.2.cids).glyphOrder → (∀ g ∈ (sub e.2.cids).cmap, g.2 ∈ (sub e.2.cids).glyphOrder) →
      ∃ name font, (docFonts w s items).fontId f = some name ∧ pageFont file page name = some font ∧
        fontProgram decompress file font = some (saved e.2.cids) ∧
        ∀ t b, Encodes (docFonts w s items) f t b → ∃ gs, fontGlyphs decompress file font b = some gs ∧
          List.Forall₂ (fun c g => (∀ n, (sub e.2.cids).cmap.lookup c = some n → (sub e.2.cids).glyphOrder[g]? = some n) ∧
            ((sub e.2.cids).cmap.lookup c = none → (sub e.2.cids).glyphOrder[g]? = some ".notdef".toList)) t gs := by
  obtain ⟨objs, h1, h2⟩ := h.read hz
  obtain ⟨page, h3, h4⟩ := h1.page h2 (k := k) (p := x.rendered) (by simp [hk])
  refine ⟨page, h3, fun op hop => ((h.ops hz x (List.mem_of_getElem? hk)).1 op hop).mono fun f hf i e hi he ttf full sub saved hfile hlen hnd hcm => ?_⟩
  obtain ⟨name, font, j1, j2, j3⟩ := h1.font h2 h4 hf
  have hne : ttf.unitsPerEm ≠ 0 := by
    intro h0
    simp [Ttf.embedded, h0] at hfile
  simp only [Ttf.embedded, if_neg hne] at hfile
  obtain ⟨kn, -, hfile⟩ := Option.map_eq_some_iff.1 hfile
  have hget : ∀ c, ∃ g, (sub e.2.cids).glyphOrder.findIdx? (· == ((sub e.2.cids).cmap.lookup c).getD notdef) = some g ∧ g < (sub e.2.cids).glyphOrder.length ∧
      (sub e.2.cids).glyphOrder[g]? = some (((sub e.2.cids).cmap.lookup c).getD notdef) := by
    intro c
    have hm : ((sub e.2.cids).cmap.lookup c).getD notdef ∈ (sub e.2.cids).glyphOrder := by
      cases hl : (sub e.2.cids).cmap.lookup c with
      | none => exact hnd
      | some g =>
        obtain ⟨l1, l2, heq, -⟩ := List.lookup_eq_some_iff.1 hl
        exact hcm (c, g) (by rw [heq]; simp)
    cases hi : (sub e.2.cids).glyphOrder.findIdx? (· == ((sub e.2.cids).cmap.lookup c).getD notdef) with
    | none =>
      rw [List.findIdx?_eq_none_iff] at hi
      have := hi _ hm
      simp at this
    | some g =>
      rw [List.findIdx?_eq_some_iff_getElem] at hi
      obtain ⟨hg, hv, -⟩ := hi
      refine ⟨g, rfl, hg, ?_⟩
      rw [List.getElem?_eq_getElem hg]
      simpa using hv
  have hid : ∀ c, (w.files (e.1.1.font e.1.2.1 e.1.2.2)).glyphId e.2.cids c = (sub e.2.cids).glyphId c := fun c => by rw [← hfile]
  refine ⟨name, font, j1, j2, ?_, fun t b hb => ⟨_, j3.glyphs i e hi he (fun c => ?_) t b hb, ?_⟩⟩
  · rw [j3.program i e hi he, ← hfile]
  · obtain ⟨g, hg1, hg2, -⟩ := hget c
    rw [hid, FontTables.glyphId, hg1, Option.getD_some]
    omega
  · rw [List.forall₂_map_right_iff]
    refine List.forall₂_same.2 fun c _ => ?_
    obtain ⟨g, hg1, -, hg3⟩ := hget c
    rw [hid, FontTables.glyphId, hg1, Option.getD_some]
    constructor
    · intro n hn
      rw [hg3, hn]; rfl
    · intro hn
      rw [hg3, hn]; rfl

/-! ### C90 -/

/-- C90 as the code says it should be: font weights from 100 to 900 are mapped to stem widths from 50 to 241, in proportion, rounded to the nearest integer. -/
def C90_Statement : Prop := ∀ (compress : Bytes → Bytes) (decompress : Bytes → Option Bytes), (∀ x, decompress (compress x) = some x) →
  ∀ (w : World) (s : StyleFull) (items : List DocItem) (file : Bytes), WrittenDoc compress w s items file →
    ∀ (k : Nat) (x : Written), (docWritten w s items)[k]? = some x →
      ∃ page, pageObject file k = some page ∧ ∀ op ∈ x.ops, op.Fonts fun f => ∀ i e, f = .subset i → (docFonts w s items).subsets[i]? = some e →
        ∀ (ttf : Ttf) (full : Bytes) (sub : List Char → FontTables) (saved : List Char → Bytes),
          ttf.embedded full sub saved = some (w.files (e.1.1.font e.1.2.1 e.1.2.2)) → 100 ≤ (sub e.2.cids).weightClass → (sub e.2.cids).weightClass ≤ 900 →
        ∃ name font d z, (docFonts w s items).fontId f = some name ∧ pageFont file page name = some font ∧ fontDescriptor file font = some d ∧
          d.int b!"StemV" = some z ∧ Nearest z (50 + (241 - 50) * (((sub e.2.cids).weightClass : ℚ) - 100) / (900 - 100))

/-- C90, what is true: stem widths are larger than that by 23.875, rounded to the nearest integer: so they grow with the weight, as they should, from 74 to 265. Missing: weights are not counted from 100 on. -/
theorem C90_stem_partial (hz : ∀ x, decompress (compress x) = some x) (w : World) (s : StyleFull) (items : List DocItem) (file : Bytes)
    (h : WrittenDoc compress w s items file) (k : Nat) (x : Written) (hk : (docWritten w s items)[k]? = some x) :
    ∃ page, pageObject file k = some page ∧ ∀ op ∈ x.ops, op.Fonts fun f => ∀ i e, f = .subset i → (docFonts w s items).subsets[i]? = some e →
      ∀ (ttf : Ttf) (full : Bytes) (sub : List Char → FontTables) (saved : List Char → Bytes),
        ttf.embedded full sub saved = some (w.files (e.1.1.font e.1.2.1 e.1.2.2)) →
      ∃ name font d z, (docFonts w s items).fontId f = some name ∧ pageFont file page name = some font ∧ fontDescriptor file font = some d ∧
        d.int b!"StemV" = some z ∧ Nearest z (50 + (241 - 50) * (((sub e.2.cids).weightClass : ℚ) - 100) / (900 - 100) + 23875 / 1000) := by
  obtain ⟨objs, h1, h2⟩ := h.read hz
  obtain ⟨page, h3, h4⟩ := h1.page h2 (k := k) (p := x.rendered) (by simp [hk])
  refine ⟨page, h3, fun op hop => ((h.ops hz x (List.mem_of_getElem? hk)).1 op hop).mono fun f _ i e hi he ttf full sub saved hfile => ?_⟩
  subst hi
  obtain ⟨font, n, os, j1, j2, j3, j4, j5, j6⟩ := h1.descriptor h2 h4 he
  obtain ⟨font', child, d, u, l1, -, l3, -, -, -, -, -, -, -, -, -, -, -, l15, -⟩ := subset_descriptor h2 j4 j5
  rw [j3] at l1
  cases l1
  have hne : ttf.unitsPerEm ≠ 0 := by
    intro h0
    simp [Ttf.embedded, h0] at hfile
  simp only [Ttf.embedded, if_neg hne] at hfile
  obtain ⟨kn, -, hfile⟩ := Option.map_eq_some_iff.1 hfile
  rw [j6, ← hfile] at l15
  simp only at l15
  refine ⟨_, font, d, _, j1, j2, l3, int_get l15, ?_⟩
  have := pyRound_nearest (50 + (241 - 50) / (900 - 100) * ((sub e.2.cids).weightClass : ℚ))
  rw [show (50 + (241 - 50) * (((sub e.2.cids).weightClass : ℚ) - 100) / (900 - 100) + 23875 / 1000) = 50 + (241 - 50) / (900 - 100) * ((sub e.2.cids).weightClass : ℚ) by ring]
  exact this
end

/-- A font with a regular weight, that is read as the font of `demoWorld`. -/
def plainTtf : Ttf := ⟨1000, [('-', ['-'])], fun g => if g = ['-'] then 300 else 500, none⟩
@[inherit_doc plainTtf] def plainTables : FontTables := ⟨0, 0, 400, none, 1, 0, 0, 0, 1, 1, 0, [], [['x'], notdef]⟩

theorem demo_embedded (p : Path) : plainTtf.embedded b!"Demo" (fun _ => plainTables) (fun _ => []) = some (demoWorld.files p) := by
  have h : kernPairs plainTtf = some [] := by decide +kernel
  have hw : plainTtf.charwidth = (demoEnv.metrics (.subset 0)).charwidth := by
    funext c
    simp only [Ttf.charwidth, Ttf.scale, plainTtf, demoEnv]
    by_cases hc : c = '-'
    · subst hc
      norm_num [List.lookup]
    · have : (c == '-') = false := by simp [hc]
      simp only [List.lookup, this, Option.getD_none, if_neg hc]
      rw [if_neg (by decide +kernel)]
      norm_num
  have hg : plainTables.glyphId = fun _ => 1 := by
    funext c
    simp only [FontTables.glyphId, plainTables, List.lookup]
    decide +kernel
  simp only [Ttf.embedded, Ttf.kerning, h, hw, hg]
  rw [if_neg (by decide)]
  simp only [Option.map_some, demoWorld]
  rw [show (plainTables.notdefAdvance : ℚ) * plainTtf.scale = 0 by decide +kernel, show plainTables.flags = 4 by decide +kernel, show plainTables.bbox plainTtf.scale = (0, 0, 1, 1) by decide +kernel,
    show pyRound plainTables.italicAngle = 0 by decide +kernel, show pyRound (plainTables.ascent * plainTtf.scale) = 1 by decide +kernel,
    show pyRound (plainTables.descent * plainTtf.scale) = 0 by decide +kernel, show plainTables.capHeightInt plainTtf.scale = 1 by decide +kernel, show plainTables.stemV = 146 by decide +kernel]
  rfl

theorem C90_counterexample : ¬ C90_Statement := by
  intro h
  obtain ⟨page, h1, h2⟩ := h id some (fun _ => rfl) demoWorld faceStyle _ demoFile demo_written 0 _ (by rw [docWritten, demo_run]; rfl)
  obtain ⟨page', h1', h2'⟩ := C90_stem_partial (decompress := some) (fun _ => rfl) demoWorld faceStyle _ demoFile demo_written 0 _ (by rw [docWritten, demo_run]; rfl)
  rw [h1] at h1'
  cases h1'
  have hop : demoOps.head (by decide) ∈ demoOps ++ rectOps := by simp [demoOps]
  have he : ∃ e, (docFonts demoWorld faceStyle [.page demoPage]).subsets[0]? = some e := by
    rw [docFonts, demo_run]; exact Option.isSome_iff_exists.1 (by decide +kernel)
  obtain ⟨e, he⟩ := he
  have hf : ∀ P : FontRef → Prop, (demoOps.head (by decide)).Fonts P → P (.subset 0) := by
    intro P hP
    simp only [demoOps, List.head_cons, renderText, PageOp.Fonts] at hP
    exact hP (.tf (.subset 0) 12) (by simp [faceState, State.ops])
  obtain ⟨name, font, d, z, h3, h4, h5, h6, h7⟩ := hf _ (h2 _ hop) 0 e rfl he plainTtf _ _ _ (demo_embedded _) (by decide) (by decide)
  obtain ⟨name', font', d', z', h3', h4', h5', h6', h7'⟩ := hf _ (h2' _ hop) 0 e rfl he plainTtf _ _ _ (demo_embedded _)
  rw [h3] at h3'; cases h3'
  rw [h4] at h4'; cases h4'
  rw [h5] at h5'; cases h5'
  rw [h6] at h6'; cases h6'
  unfold Nearest at h7 h7'
  rw [abs_le] at h7 h7'
  simp only [plainTables] at h7 h7'
  norm_num at h7 h7'
  linarith [h7.2, h7'.1]

/-- The document is one for which the hypotheses of `C89_descriptor`, `C15_glyphs` and `C90_stem_partial` hold. -/
example : ∃ x, (docWritten demoWorld faceStyle [.page demoPage])[0]? = some x ∧ WrittenDoc id demoWorld faceStyle [.page demoPage] demoFile ∧
    (∀ p, plainTtf.embedded b!"Demo" (fun _ => plainTables) (fun _ => []) = some (demoWorld.files p)) ∧
    plainTables.glyphOrder.length ≤ 0x10000 ∧ ".notdef".toList ∈ plainTables.glyphOrder ∧ (∀ g ∈ plainTables.cmap, g.2 ∈ plainTables.glyphOrder) :=
  ⟨_, by rw [docWritten, demo_run]; rfl, demo_written, demo_embedded, by decide, by decide +kernel, by decide⟩

end Pdfje
