import Verif.Proofs.RescaledPages
/-
C87: another unit of length gives the same document, enlarged. C88: other colours give the same document, in other colours.
-/

namespace Pdfje

/-! ### C87 -/

/-- C87, documents: if all lengths in a document (sizes of pages, columns, indentations and margins, sizes of text, sizes and places of drawings) are multiplied by the same positive number, the
document is the same but for this: there are as many pages, and each shows the same glyphs and shapes as before, with all coordinates and sizes multiplied by that number: so
lines, columns and pages are broken at the same places. The fonts are the same, and there is an error when there was one, after the same pages. -/
theorem C87_document (k : ℚ) (hk : 0 < k) (w : World) (s : StyleFull) (items : List DocItem) (done : Nat) (r : Res) (h : ∀ it ∈ items, it.HasColumns) :
    (docRun w (s.via (.unit k hk)) (items.map (DocItem.via (.unit k hk))) done r).res = (docRun w s items done r).res ∧
    (docRun w (s.via (.unit k hk)) (items.map (DocItem.via (.unit k hk))) done r).err.isSome = (docRun w s items done r).err.isSome ∧
    List.Forall₂ (Written.Rescaled (.unit k hk)) (docRun w s items done r).pages (docRun w (s.via (.unit k hk)) (items.map (DocItem.via (.unit k hk))) done r).pages :=
  ⟨(docRun_via (Rescale.unit k hk).change rfl w s items done r h).res, (docRun_via (Rescale.unit k hk).change rfl w s items done r h).err, (docRun_via (Rescale.unit k hk).change rfl w s items done r h).pages⟩

/-- C87, drawings: a drawing with all lengths multiplied by a positive number shows the same, enlarged. -/
theorem C87_drawing (k : ℚ) (hk : 0 < k) (w : World) (s : StyleFull) (r : Res) (x : Drawing) :
    ((x.via (.unit k hk)).render w (s.via (.unit k hk)) r).2 = (x.render w s r).2 ∧
    ((x.via (.unit k hk)).render w (s.via (.unit k hk)) r).1.isSome = (x.render w s r).1.isSome ∧
    ∀ ops ops', (x.render w s r).1 = some ops → ((x.via (.unit k hk)).render w (s.via (.unit k hk)) r).1 = some ops' →
      (∀ W, pageGlyphs W ops' = (pageGlyphs W ops).map (Glyph.via (.unit k hk))) ∧ pageShapes ops' = (pageShapes ops).map fun l => l.map (Shape.via (.unit k hk)) := by
  have h := render_via (Rescale.unit k hk).change rfl w s r x
  rw [show (Rescale.unit k hk).change.toRescale = Rescale.unit k hk from rfl] at h
  refine ⟨by rw [h], by rw [h]; simp, fun ops ops' ho ho' => ?_⟩
  have hs := render_self _ _ _ _ _ ho'
  rw [h, ho] at ho'
  simp only [Option.map_some, Option.some.injEq] at ho'
  subst ho'
  exact rescaled_ops (Rescale.unit k hk).change hs

/-- C87, margins: the column of a page, between its margins, is enlarged with the page and its margins; an error (no room left) is one in any unit. -/
theorem C87_margins (k : ℚ) (hk : 0 < k) (content : List Drawing) (size : ℚ × ℚ) (rotate : Int) (m : Sides) (columns : List Column) :
    Page.new (content.map (Drawing.via (.unit k hk))) ((Rescale.unit k hk).pt size) rotate (.sides (m.via (.unit k hk))) (columns.map (Column.via (.unit k hk))) =
      (Page.new content size rotate (.sides m) columns).map (Page.via (.unit k hk)) := by
  generalize Rescale.unit k hk = σ
  cases columns with
  | cons c cs => rfl
  | nil =>
    have h1 : σ.factor * size.1 - σ.factor * m.left - σ.factor * m.right = σ.factor * (size.1 - m.left - m.right) := by ring
    have h2 : σ.factor * size.2 - σ.factor * m.top - σ.factor * m.bottom = σ.factor * (size.2 - m.top - m.bottom) := by ring
    have h3 : ∀ x : ℚ, (0 < σ.factor * x) = (0 < x) := fun x => by have := lt_via σ.change 0 x; rwa [mul_zero] at this
    have h4 : ∀ x : ℚ, (0 ≤ σ.factor * x) = (0 ≤ x) := fun x => by have := le_via σ.change 0 x; rwa [mul_zero] at this
    simp only [List.map_nil, Page.new, defaultColumn, Sides.parse, Column.new, Sides.via, Rescale.pt, h1, h2, h3, h4]
    split <;> simp [Page.via, Column.via, Rescale.pt]

/-! ### C88 -/

/-- C88, documents: if each colour in a document is replaced by another (different ones by different ones), the document is the same but for its colours: there are as many pages, of the
same sizes, and each shows the same glyphs and shapes, at the same places, in the new colours. -/
theorem C88_document (f : RGB → RGB) (hf : Function.Injective f) (w : World) (s : StyleFull) (items : List DocItem) (done : Nat) (r : Res) (h : ∀ it ∈ items, it.HasColumns) :
    (docRun w (s.via (.recolor f hf)) (items.map (DocItem.via (.recolor f hf))) done r).res = (docRun w s items done r).res ∧
    (docRun w (s.via (.recolor f hf)) (items.map (DocItem.via (.recolor f hf))) done r).err.isSome = (docRun w s items done r).err.isSome ∧
    List.Forall₂ (Written.Rescaled (.recolor f hf)) (docRun w s items done r).pages (docRun w (s.via (.recolor f hf)) (items.map (DocItem.via (.recolor f hf))) done r).pages :=
  ⟨(docRun_via (Rescale.recolor f hf).change rfl w s items done r h).res, (docRun_via (Rescale.recolor f hf).change rfl w s items done r h).err, (docRun_via (Rescale.recolor f hf).change rfl w s items done r h).pages⟩

/-- C88: what the replacement of colours changes of a page: its colours only. -/
theorem C88_only (f : RGB → RGB) (hf : Function.Injective f) (p q : Written) (h : Written.Rescaled (.recolor f hf) p q) :
    q.page.base.size = p.page.base.size ∧
    (∀ W, pageGlyphs W q.ops = (pageGlyphs W p.ops).map fun g => { g with color := f g.color }) ∧
    pageShapes q.ops = (pageShapes p.ops).map fun l => l.map fun x => { x with fill := x.fill.map f, stroke := x.stroke.map f } := by
  have hpt : ∀ x : ℚ × ℚ, (Rescale.recolor f hf).pt x = x := fun x => by simp [Rescale.pt, Rescale.recolor]
  have hseg : ∀ x : Seg, x.via (.recolor f hf) = x := fun x => by cases x <;> simp [Seg.via, hpt]
  have hsub : ∀ x : Subpath, x.via (.recolor f hf) = x := fun x => by
    have : x.segs.map (Seg.via (.recolor f hf)) = x.segs := (List.map_congr_left fun a _ => hseg a).trans (List.map_id' _)
    simp [Subpath.via, hpt, this]
  refine ⟨by rw [h.size, hpt], fun W => ?_, ?_⟩
  · rw [h.glyphs]
    refine List.map_congr_left fun g _ => ?_
    have : (g.font.map fun e => (e.1, (Rescale.recolor f hf).factor * e.2)) = g.font := by cases g.font <;> simp [Rescale.recolor]
    simp [Glyph.via, this, Rescale.recolor]
  · rw [h.shapes]
    congr 1
    funext l
    refine List.map_congr_left fun x _ => ?_
    have : x.path.map (Subpath.via (.recolor f hf)) = x.path := (List.map_congr_left fun a _ => hsub a).trans (List.map_id' _)
    simp only [Shape.via, this]
    rfl

/-- C88, drawings. -/
theorem C88_drawing (f : RGB → RGB) (hf : Function.Injective f) (w : World) (s : StyleFull) (r : Res) (x : Drawing) :
    ((x.via (.recolor f hf)).render w (s.via (.recolor f hf)) r).2 = (x.render w s r).2 ∧
    ((x.via (.recolor f hf)).render w (s.via (.recolor f hf)) r).1.isSome = (x.render w s r).1.isSome ∧
    ∀ ops ops', (x.render w s r).1 = some ops → ((x.via (.recolor f hf)).render w (s.via (.recolor f hf)) r).1 = some ops' →
      (∀ W, pageGlyphs W ops' = (pageGlyphs W ops).map (Glyph.via (.recolor f hf))) ∧ pageShapes ops' = (pageShapes ops).map fun l => l.map (Shape.via (.recolor f hf)) := by
  have h := render_via (Rescale.recolor f hf).change rfl w s r x
  rw [show (Rescale.recolor f hf).change.toRescale = Rescale.recolor f hf from rfl] at h
  refine ⟨by rw [h], by rw [h]; simp, fun ops ops' ho ho' => ?_⟩
  have hs := render_self _ _ _ _ _ ho'
  rw [h, ho] at ho'
  simp only [Option.map_some, Option.some.injEq] at ho'
  subst ho'
  exact rescaled_ops (Rescale.recolor f hf).change hs

/-! ### Examples: the document of two pages of Props/Flow -/

theorem flow_hasColumns : ∀ it ∈ [DocItem.auto flowPages], it.HasColumns := by
  intro it hit
  rw [List.mem_singleton] at hit
  subst hit
  intro n
  simp [flowPages]

/-- Three times as large. -/
example : ∃ q1 q2, (docRun demoWorld (faceStyle.via (.unit 3 (by norm_num))) [(DocItem.auto flowPages).via (.unit 3 (by norm_num))] 0 Res.empty).pages = [q1, q2] ∧
    (pageGlyphs (demoWorld.env shortRes).widths q2.ops).map (fun g => (g.char, (g.font.map (·.2)).getD 0)) = [('b', 36)] := by
  obtain ⟨-, -, h⟩ := C87_document 3 (by norm_num) demoWorld faceStyle [.auto flowPages] 0 Res.empty flow_hasColumns
  rw [flow_run] at h
  have hlen : flowRun.pages.length = 2 := by decide +kernel
  obtain ⟨p1, p2, hp⟩ := List.length_eq_two.1 hlen
  rw [hp] at h
  obtain ⟨q1, l1, h1, hl1, e1⟩ := List.forall₂_cons_left_iff.1 h
  obtain ⟨q2, l2, h2, hl2, e2⟩ := List.forall₂_cons_left_iff.1 hl1
  rw [List.forall₂_nil_left_iff] at hl2
  subst hl2 e2
  refine ⟨q1, q2, e1, ?_⟩
  rw [h2.glyphs]
  have hops : (flowRun.pages.map fun p => (pageGlyphs (demoWorld.env shortRes).widths p.ops).map fun g => (g.char, (g.font.map (·.2)).getD 0))[1]? = some [('b', 12)] := by decide +kernel
  rw [hp] at hops
  simp only [List.map_cons, List.map_nil, List.getElem?_cons_succ, List.getElem?_cons_zero, Option.some.injEq] at hops
  have this := congrArg (List.map fun e : Char × ℚ => (e.1, 3 * e.2)) hops
  rw [show List.map (fun e : Char × ℚ => (e.1, 3 * e.2)) [('b', 12)] = [('b', 36)] by norm_num] at this
  rw [List.map_map] at this ⊢
  rw [← this]
  refine List.map_congr_left fun g _ => ?_
  simp only [Function.comp, Glyph.via, Option.map_map, Prod.mk.injEq, true_and]
  cases g.font with
  | none => simp
  | some e => rfl

/-- Black becomes another colour, which is not used otherwise. -/
example (f : RGB → RGB) (hf : Function.Injective f) : ∃ q1 q2, (docRun demoWorld (faceStyle.via (.recolor f hf)) [(DocItem.auto flowPages).via (.recolor f hf)] 0 Res.empty).pages = [q1, q2] ∧
    (pageGlyphs (demoWorld.env shortRes).widths q2.ops).map (fun g => (g.char, g.color)) = [('b', f ⟨0, 0, 0⟩)] := by
  obtain ⟨-, -, h⟩ := C88_document f hf demoWorld faceStyle [.auto flowPages] 0 Res.empty flow_hasColumns
  rw [flow_run] at h
  have hlen : flowRun.pages.length = 2 := by decide +kernel
  obtain ⟨p1, p2, hp⟩ := List.length_eq_two.1 hlen
  rw [hp] at h
  obtain ⟨q1, l1, h1, hl1, e1⟩ := List.forall₂_cons_left_iff.1 h
  obtain ⟨q2, l2, h2, hl2, e2⟩ := List.forall₂_cons_left_iff.1 hl1
  rw [List.forall₂_nil_left_iff] at hl2
  subst hl2 e2
  refine ⟨q1, q2, e1, ?_⟩
  rw [(C88_only f hf _ _ h2).2.1]
  have hops : (flowRun.pages.map fun p => (pageGlyphs (demoWorld.env shortRes).widths p.ops).map fun g => (g.char, g.color))[1]? = some [('b', ⟨0, 0, 0⟩)] := by decide +kernel
  rw [hp] at hops
  simp only [List.map_cons, List.map_nil, List.getElem?_cons_succ, List.getElem?_cons_zero, Option.some.injEq] at hops
  have := congrArg (List.map fun e : Char × RGB => (e.1, f e.2)) hops
  simpa using this

end Pdfje
