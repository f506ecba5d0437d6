import Verif.Proofs.IsolatedPages
import Verif.Props.Rescaled
import Verif.Props.Written
/-
C91: pages are isolated: what comes before in a document does not change what pages show.
-/

namespace Pdfje

theorem good_same {ν : Renaming} {r r' : Res} (h : r.Pair r') (hν : ν.Good r r') : SameFonts ν.font r r' := by
  refine ⟨ν.inj, hν.standard, fun i e he => ?_⟩
  obtain ⟨j, hj, hk⟩ := hν.embedded i e.1 (by rw [Res.subKeys, List.getElem?_map, he]; rfl)
  rw [Res.subKeys, List.getElem?_map, Option.map_eq_some_iff] at hk
  obtain ⟨e', he', hk⟩ := hk
  refine ⟨j, e', hj, he', hk, ?_⟩
  rw [(h.left.sub i e he).2.1, (h.right.sub j e' he').2.1, hk]

/-- C91, registries: items of a document (pages, and content that is broken into pages) are written with the fonts of a document that has none yet, and with those of a document that has used
others before. There are as many pages, and each shows the same, but for the numbers of fonts: glyphs at the same places, of the same sizes and colours, in the same fonts, and the same shapes. If
there is an error, there is one in both cases, after as many pages. -/
theorem C91_isolated (w : World) (s : StyleFull) (hs : s.Known) (items : List DocItem) (hk : ∀ it ∈ items, it.Known) (hc : ∀ it ∈ items, it.HasColumns) (done : Nat) (r : Res)
    (hr : Res.empty.Reach r) :
    ∃ N, SameFonts N (docRun w s items done Res.empty).res (docRun w s items done r).res ∧
      (docRun w s items done r).err.isSome = (docRun w s items done Res.empty).err.isSome ∧
      List.Forall₂ (Written.SameView N (w.env (docRun w s items done Res.empty).res).widths (w.env (docRun w s items done r).res).widths)
        (docRun w s items done Res.empty).pages (docRun w s items done r).pages := by
  have hp : Res.empty.Pair r := ⟨Res.wf_empty, (hr.wf Res.wf_empty).2, by simp [Res.subKeys, Res.empty]⟩
  have h := docRun_iso w hs (done := done) hp hk hc
  obtain ⟨ν, hν, henv⟩ := exists_good w h.pair
  refine ⟨ν.font, good_same h.pair hν, h.err, (h.pages ν hν).imp fun p q hpq => ?_⟩
  have hv := view_iso ν hpq (w.env (docRun w s items done r).res).widths
  have hW : (fun f => (w.env (docRun w s items done r).res).widths (ν.font f)) = (w.env (docRun w s items done Res.empty).res).widths := by
    funext f c
    rw [← henv]
    exact congrArg (fun m : Metrics => m.charwidth c) (metrics_via ν.change _ f)
  rwa [hW] at hv

theorem docRun_split (w : World) (s : StyleFull) : ∀ (pre post : List DocItem) (done : Nat) (r : Res), (docRun w s pre done r).err = none →
    docRun w s (pre ++ post) done r = ⟨(docRun w s pre done r).pages ++ (docRun w s post (done + (docRun w s pre done r).pages.length) (docRun w s pre done r).res).pages,
      (docRun w s post (done + (docRun w s pre done r).pages.length) (docRun w s pre done r).res).res, (docRun w s post (done + (docRun w s pre done r).pages.length) (docRun w s pre done r).res).err⟩
  | [], post, done, r => by simp [docRun]
  | it :: pre, post, done, r => by
    rw [List.cons_append, docRun, docRun, PagesRun.andThen, PagesRun.andThen]
    cases he : (it.run w s (done + 1) r).err with
    | some e => simp
    | none =>
      simp only
      intro h
      rw [docRun_split w s pre post _ _ h]
      simp only [List.length_append, Nat.add_assoc, List.append_assoc]

/-- C91, documents: in a document of some items after others, the pages of the last items show the same as in a document of their own (with the same page numbers, since templates may depend
on these). What comes before has no influence but on the numbers of fonts. -/
theorem C91_after (w : World) (s : StyleFull) (hs : s.Known) (before items : List DocItem) (hk : ∀ it ∈ before ++ items, it.Known) (hc : ∀ it ∈ items, it.HasColumns)
    (h : (docRun w s before 0 Res.empty).err = none) :
    ∃ N rest, (docRun w s (before ++ items) 0 Res.empty).pages = (docRun w s before 0 Res.empty).pages ++ rest ∧
      SameFonts N (docRun w s items (docRun w s before 0 Res.empty).pages.length Res.empty).res (docRun w s (before ++ items) 0 Res.empty).res ∧
      (docRun w s (before ++ items) 0 Res.empty).err.isSome = (docRun w s items (docRun w s before 0 Res.empty).pages.length Res.empty).err.isSome ∧
      List.Forall₂ (Written.SameView N (w.env (docRun w s items (docRun w s before 0 Res.empty).pages.length Res.empty).res).widths (w.env (docRun w s (before ++ items) 0 Res.empty).res).widths)
        (docRun w s items (docRun w s before 0 Res.empty).pages.length Res.empty).pages rest := by
  rw [docRun_split w s before items 0 Res.empty h, Nat.zero_add]
  obtain ⟨N, h1, h2, h3⟩ := C91_isolated w s hs items (fun it hit => hk it (by simp [hit])) hc (docRun w s before 0 Res.empty).pages.length (docRun w s before 0 Res.empty).res
    (docRun_reach w s hs before (fun it hit => hk it (by simp [hit])) 0 Res.empty)
  exact ⟨N, _, rfl, h1, h2, h3⟩

/-! ### Examples: the document of two pages of Props/Flow -/

theorem flow_known : ∀ it ∈ [DocItem.auto flowPages], it.Known := by
  intro it hit
  rw [List.mem_singleton] at hit
  subst hit
  refine ⟨?_, fun n => by simp [flowPages, Page.Known]⟩
  intro b hb
  simp only [flowPages, List.mem_singleton] at hb
  subst hb
  exact ⟨by simp [shortLeft, Item.Known.str], by simp [shortLeft, Style.Known, Style.empty]⟩

/-- A registry that has another font, by the number that is the first one. -/
def boldRes : Res := (Res.font Res.empty (.trueType demoFace) true false).2

/-- The font of the text has another number; the glyph on the second page is the same. -/
example : ∃ q1 q2 f, (docRun demoWorld faceStyle [.auto flowPages] 0 boldRes).pages = [q1, q2] ∧
    (pageGlyphs (demoWorld.env (docRun demoWorld faceStyle [.auto flowPages] 0 boldRes).res).widths q2.ops).map (fun g => (g.char, g.enc, g.x)) = [('b', f, 0)] ∧ f ≠ .subset 0 := by
  have hreach : Res.empty.Reach boldRes := Res.reach_font Res.empty (.trueType demoFace) trivial true false
  obtain ⟨N, hN, -, h⟩ := C91_isolated demoWorld faceStyle trivial [.auto flowPages] flow_known flow_hasColumns 0 boldRes hreach
  have hle := ((docRun_reach demoWorld faceStyle trivial [.auto flowPages] flow_known 0 boldRes).wf (hreach.wf Res.wf_empty).2).1
  have hlen : flowRun.pages.length = 2 := by decide +kernel
  have hops : (flowRun.pages.map fun p => (pageGlyphs (demoWorld.env flowRun.res).widths p.ops).map fun g => (g.char, g.enc, g.x))[1]? = some [('b', .subset 0, 0)] := by decide +kernel
  have hkey : (flowRun.res.subsets[0]?).map (·.1) = some (demoFace, false, false) := by decide +kernel
  rw [flow_run] at h hN
  obtain ⟨p1, p2, hp⟩ := List.length_eq_two.1 hlen
  rw [hp] at h hops
  obtain ⟨q1, l1, h1, hl1, e1⟩ := List.forall₂_cons_left_iff.1 h
  obtain ⟨q2, l2, h2, hl2, e2⟩ := List.forall₂_cons_left_iff.1 hl1
  rw [List.forall₂_nil_left_iff] at hl2
  subst hl2 e2
  refine ⟨q1, q2, N (.subset 0), e1, ?_, ?_⟩
  · rw [h2.glyphs]
    simp only [List.map_cons, List.map_nil, List.getElem?_cons_succ, List.getElem?_cons_zero, Option.some.injEq] at hops
    have := congrArg (List.map fun e : Char × FontRef × ℚ => (e.1, N e.2.1, e.2.2)) hops
    simpa [Glyph.renamed] using this
  · obtain ⟨e, he, hk⟩ := Option.map_eq_some_iff.1 hkey
    obtain ⟨j, e', hj, he', hk', -⟩ := hN.embedded 0 e he
    intro h0
    rw [hj] at h0
    cases h0
    obtain ⟨e'', he'', hk'', -⟩ := hle.subsets 0 _ (show boldRes.subsets[0]? = some boldRes.subsets[0] from rfl)
    rw [he'] at he''
    cases he''
    rw [hk', hk] at hk''
    exact absurd hk'' (by decide)

/-- After another page. -/
example : ∃ q1 q2 q3, (docRun demoWorld faceStyle ([.page demoPage] ++ [.auto flowPages]) 0 Res.empty).pages = [q1, q2, q3] ∧
    (pageGlyphs (demoWorld.env (docRun demoWorld faceStyle ([.page demoPage] ++ [.auto flowPages]) 0 Res.empty).res).widths q3.ops).map (fun g => (g.char, g.x)) = [('b', 0)] := by
  have hk : ∀ it ∈ [DocItem.page demoPage] ++ [.auto flowPages], it.Known := by
    intro it hit
    rcases List.mem_append.1 hit with hit | hit
    · rw [List.mem_singleton] at hit
      subst hit
      exact demoDocument_known _ (by simp [demoDocument])
    · exact flow_known it hit
  obtain ⟨N, rest, h0, -, -, h⟩ := C91_after demoWorld faceStyle trivial [.page demoPage] [.auto flowPages] hk flow_hasColumns (by rw [demo_run])
  rw [demo_run] at h0
  have h1 : docRun demoWorld faceStyle [.auto flowPages] (docRun demoWorld faceStyle [.page demoPage] 0 Res.empty).pages.length Res.empty = flowRun := flow_run ▸ rfl
  rw [h1] at h
  have hlen : flowRun.pages.length = 2 := by decide +kernel
  have hops : (flowRun.pages.map fun p => (pageGlyphs (demoWorld.env flowRun.res).widths p.ops).map fun g => (g.char, g.x))[1]? = some [('b', 0)] := by decide +kernel
  obtain ⟨p1, p2, hp⟩ := List.length_eq_two.1 hlen
  rw [hp] at h hops
  obtain ⟨q1, l1, g1, hl1, e1⟩ := List.forall₂_cons_left_iff.1 h
  obtain ⟨q2, l2, g2, hl2, e2⟩ := List.forall₂_cons_left_iff.1 hl1
  rw [List.forall₂_nil_left_iff] at hl2
  subst hl2 e2 e1
  refine ⟨_, q1, q2, h0, ?_⟩
  rw [g2.glyphs, List.map_map]
  simpa [Function.comp_def, Glyph.renamed] using hops

end Pdfje
