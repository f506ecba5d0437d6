import Verif.Props.Fonts
import Verif.Proofs.Document
/-
C72: the limit on the length of sections of ToUnicode maps.
-/

namespace Pdfje
open PdfSpec

/-- C72, as stated: Adobe technical notes 5014 and 5411 (by way of PDF 32000-1, 9.7.5 and 9.10.3) allow at most 100 entries in a `bfchar` section. After any history of uses of the fonts of
a document, in the objects written for the fonts, the section of every ToUnicode map keeps to that. -/
def C72_Statement : Prop :=
  ∀ (compress : Bytes → Bytes) (files : Path → FontFile) (ops : List ResOp), (∀ op ∈ ops, op.Ok) → ∀ (outs : List ResOut) (r : Res),
    Res.empty.run ops = some (outs, r) → ∀ first, (r.toObjects compress files first).2 = true →
    ∀ i font j cmapObj, (i, font) ∈ (r.toObjects compress files first).1 → font.get b!"ToUnicode" = some (.ref j) → (j, cmapObj) ∈ (r.toObjects compress files first).1 →
    ∃ cmap es, cmapObj.content = some cmap ∧ bfchars cmap = some es ∧ es.length ≤ 100

/-- The font objects: which have a ToUnicode map, and what it is. -/
theorem unicode_objects {compress : Bytes → Bytes} {files : Path → FontFile} {r : Res} {first : Nat}
    {i j : Nat} {font cmapObj : Atom} (hi : (i, font) ∈ (r.toObjects compress files first).1) (hf : font.get b!"ToUnicode" = some (.ref j))
    (hj : (j, cmapObj) ∈ (r.toObjects compress files first).1) :
    ∃ (n : Nat) (e : (TrueType × Bool × Bool) × Subset), r.subsets[n]? = some e ∧ e.2.cids.length < 0xFFFF ∧ cmapObj = .stream (unicodeMap compress e.2.cids) [] := by
  obtain ⟨n, s, os, h1, h2, h3⟩ := mem_subsetObjects compress files _ _ _ hi
  obtain ⟨m, s', os', k1, k2, k3⟩ := mem_subsetObjects compress files _ _ _ hj
  have hl : s.cids.length < 0xFFFF := by
    by_contra hge
    simp only [Subset.toObjects, if_neg hge] at h2
    cases h2
  have hl' : s'.cids.length < 0xFFFF := by
    by_contra hge
    simp only [Subset.toObjects, if_neg hge] at k2
    cases k2
  simp only [Subset.toObjects, if_pos hl, Option.some.injEq] at h2
  simp only [Subset.toObjects, if_pos hl', Option.some.injEq] at k2
  subst h2 k2
  have hij : i = first + 7 * n ∧ j = i + 2 := by
    simp only [List.mem_cons, Prod.mk.injEq, List.not_mem_nil, or_false] at h3
    rcases h3 with ⟨rfl, rfl⟩ | ⟨rfl, rfl⟩ | ⟨rfl, rfl⟩ | ⟨rfl, rfl⟩ | ⟨rfl, rfl⟩ | ⟨rfl, rfl⟩ | ⟨rfl, rfl⟩ <;>
      simp [Atom.get, cidsysInfo] at hf
    exact ⟨rfl, hf.symm⟩
  obtain ⟨rfl, rfl⟩ := hij
  simp only [List.mem_cons, Prod.mk.injEq, List.not_mem_nil, or_false] at k3
  have hmn : m = n ∧ cmapObj = .stream (unicodeMap compress s'.cids) [] := by
    rcases k3 with ⟨h, rfl⟩ | ⟨h, rfl⟩ | ⟨h, rfl⟩ | ⟨h, rfl⟩ | ⟨h, rfl⟩ | ⟨h, rfl⟩ | ⟨h, rfl⟩ <;> first
      | exact ⟨by omega, rfl⟩
      | (exfalso; omega)
  obtain ⟨rfl, rfl⟩ := hmn
  rw [h1] at k1
  cases k1
  rw [List.getElem?_map, Option.map_eq_some_iff] at h1
  obtain ⟨e, he, rfl⟩ := h1
  exact ⟨m, e, he, hl, rfl⟩

/-- C72, proved part: this holds if no embedded font is used for more than 100 different characters; and the section has exactly as many entries as there are different characters. -/
theorem C72_section_partial (compress : Bytes → Bytes) (files : Path → FontFile) (ops : List ResOp) (hok : ∀ op ∈ ops, op.Ok) (outs : List ResOut) (r : Res)
    (h : Res.empty.run ops = some (outs, r)) (first : Nat)
    (hmax : ∀ n, (used n ops outs).toFinset.card ≤ 100)
    (i : Nat) (font : Atom) (j : Nat) (cmapObj : Atom) (hi : (i, font) ∈ (r.toObjects compress files first).1) (hf : font.get b!"ToUnicode" = some (.ref j))
    (hj : (j, cmapObj) ∈ (r.toObjects compress files first).1) :
    ∃ cmap es, cmapObj.content = some cmap ∧ bfchars cmap = some es ∧ es.length ≤ 100 ∧ ∃ n, es.length = (used n ops outs).toFinset.card := by
  obtain ⟨n, e, he, hl, rfl⟩ := unicode_objects hi hf hj
  obtain ⟨es, h1, h2, -⟩ := bfchars_unicodeMap compress e.2.cids (by omega)
  obtain ⟨hn, hmem, -, -⟩ := run_codes ops hok outs r h n
  have hcids : r.cidsOf n = e.2.cids := by simp [Res.cidsOf, he]
  have hcard : es.length = (used n ops outs).toFinset.card := by
    have : (r.cidsOf n).toFinset = (used n ops outs).toFinset := by
      ext x; simp [hmem]
    rw [← this, List.toFinset_card_of_nodup hn, hcids, h2]
  exact ⟨_, es, rfl, h1, hcard ▸ hmax n, n, hcard⟩

/-- A use of an embedded font for 101 different characters. -/
def manyOps : List ResOp := [.font (.trueType sampleTtf) false false, .encode (.subset 0) ((List.range 101).map fun i => Char.ofNat (0x100 + i))]

theorem manyOps_run : ∃ outs r e, Res.empty.run manyOps = some (outs, r) ∧ r.subsets = [e] ∧ e.2.cids.length = 101 := by
  refine ⟨((Res.empty.run manyOps).get (by decide +kernel)).1, ((Res.empty.run manyOps).get (by decide +kernel)).2,
    (((Res.empty.run manyOps).get (by decide +kernel)).2.subsets)[0]'(by decide +kernel), by simp, by decide +kernel, by decide +kernel⟩

/-- C72 is false as stated: with 101 different characters the section has 101 entries. -/
theorem C72_counterexample : ¬ C72_Statement := by
  intro hall
  obtain ⟨outs, r, e, h, hr, he⟩ := manyOps_run
  have hok : ∀ op ∈ manyOps, op.Ok := by
    intro op hop
    simp only [manyOps, List.mem_cons, List.not_mem_nil, or_false] at hop
    rcases hop with rfl | rfl <;> trivial
  have hobj : (r.toObjects id (fun _ => sampleFont) 6).2 = true := by
    simp only [Res.toObjects, hr, List.map_cons, List.map_nil, subsetObjects, Subset.toObjects, he]
    rfl
  have hmem : ∃ font cmapObj, ((6, font) : Obj) ∈ (r.toObjects id (fun _ => sampleFont) 6).1 ∧ font.get b!"ToUnicode" = some (.ref 8) ∧ ((8, cmapObj) : Obj) ∈ (r.toObjects id (fun _ => sampleFont) 6).1 := by
    simp only [Res.toObjects, hr, List.map_cons, List.map_nil, subsetObjects, Subset.toObjects, he, if_pos (show 101 < 0xFFFF by norm_num), List.append_nil]
    exact ⟨_, _, .head _, rfl, .tail _ (.tail _ (.head _))⟩
  obtain ⟨font, cmapObj, hi, hf, hj⟩ := hmem
  obtain ⟨cmap, es, h1, h2, h3⟩ := hall id (fun _ => sampleFont) manyOps hok outs r h 6 hobj 6 font 8 cmapObj hi hf hj
  obtain ⟨n, e', he', hl, rfl⟩ := unicode_objects hi hf hj
  have : e' = e := by
    rw [hr] at he'
    cases n with
    | zero => simpa using he'.symm
    | succ n => simp at he'
  subst this
  obtain ⟨es', k1, k2, -⟩ := bfchars_unicodeMap id e'.2.cids (by omega)
  simp only [Atom.content, Option.some.injEq] at h1
  subst h1
  rw [h2] at k1
  cases k1
  omega

/-- The hypotheses of `C72_section_partial` are met: the first embedded font of `sampleOps` is used for five characters. -/
example : ∃ outs r, Res.empty.run sampleOps = some (outs, r) ∧ (used 0 sampleOps outs).toFinset.card = 5 ∧ (used 1 sampleOps outs).toFinset.card = 2 ∧
    ∃ font cmapObj, ((6, font) : Obj) ∈ (r.toObjects id (fun _ => sampleFont) 6).1 ∧ font.get b!"ToUnicode" = some (.ref 8) ∧
      ((8, cmapObj) : Obj) ∈ (r.toObjects id (fun _ => sampleFont) 6).1 := by
  have e : Res.empty.run sampleOps = some ((Res.empty.run sampleOps).get (by decide +kernel)) := by simp
  refine ⟨((Res.empty.run sampleOps).get (by decide +kernel)).1, ((Res.empty.run sampleOps).get (by decide +kernel)).2, e, by decide +kernel, by decide +kernel, ?_⟩
  have hr : ∃ a b, ((Res.empty.run sampleOps).get (by decide +kernel)).2.subsets = [a, b] ∧ a.2.cids.length = 5 :=
    ⟨(((Res.empty.run sampleOps).get (by decide +kernel)).2.subsets)[0]'(by decide +kernel),
      (((Res.empty.run sampleOps).get (by decide +kernel)).2.subsets)[1]'(by decide +kernel), by decide +kernel, by decide +kernel⟩
  obtain ⟨a, b, hr, ha⟩ := hr
  simp only [Res.toObjects, hr, List.map_cons, List.map_nil, subsetObjects, Subset.toObjects, ha, if_pos (show 5 < 0xFFFF by norm_num)]
  exact ⟨_, _, .head _, rfl, .tail _ (.tail _ (.head _))⟩

end Pdfje
