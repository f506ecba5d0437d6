import Verif.Model.Document
import Verif.Spec.Refs
import Verif.Proofs.Registry
import Verif.Proofs.File
/-
Structure of the object list of a document.
-/

namespace Pdfje
open PdfSpec

theorem pageObjects_ids (ps : List RenderedPage) : ∀ i,
    (pageObjects ps i).map (·.1) = List.range' i (2 * ps.length) := by
  induction ps with
  | nil => intro i; rfl
  | cons p ps ih =>
    intro i
    have : 2 * (p :: ps).length = 2 * ps.length + 1 + 1 := by simp; omega
    rw [this, List.range'_succ, List.range'_succ]
    simp only [pageObjects, RenderedPage.toAtoms, List.map_append, List.map_cons, List.map_nil, ih,
      List.cons_append, List.nil_append]

theorem mem_pageObjects (ps : List RenderedPage) : ∀ i (o : Obj), o ∈ pageObjects ps i ↔
    ∃ k p, ps[k]? = some p ∧ (o = (i + 2 * k, p.dict (i + 2 * k)) ∨ o = (i + 2 * k + 1, .stream p.stream [])) := by
  induction ps with
  | nil => intro i o; simp [pageObjects]
  | cons p ps ih =>
    intro i o
    simp only [pageObjects, RenderedPage.toAtoms, List.mem_append, List.mem_cons, List.not_mem_nil, or_false, ih]
    constructor
    · rintro (h | ⟨k, q, hk, h⟩)
      · exact ⟨0, p, rfl, h⟩
      · refine ⟨k + 1, q, hk, ?_⟩
        rwa [show i + 2 * (k + 1) = i + 2 + 2 * k by omega]
    · rintro ⟨k, q, hk, h⟩
      cases k with
      | zero =>
        simp only [List.getElem?_cons_zero, Option.some.injEq] at hk
        subst hk
        exact Or.inl h
      | succ k =>
        refine Or.inr ⟨k, q, hk, ?_⟩
        rwa [show i + 2 * (k + 1) = i + 2 + 2 * k by omega] at h

theorem pageIds_range (n : Nat) : ∀ i, pageIds n i = (List.range n).map (fun k => i + 2 * k) := by
  induction n with
  | zero => intro i; rfl
  | succ n ih =>
    intro i
    rw [pageIds, ih, List.range_succ_eq_map, List.map_cons, List.map_map]
    congr 1
    apply List.map_congr_left
    intro k _
    simp only [Function.comp]
    omega

theorem toObjects_ids (compress : Bytes → Bytes) (f : FontFile) (s : Subset) (i : Nat) (objs : List Obj)
    (h : s.toObjects compress f i = some objs) : objs.map (·.1) = List.range' i 7 := by
  simp only [Subset.toObjects] at h
  split at h
  swap
  · cases h
  simp only [Option.some.injEq] at h
  subst h
  simp [List.range'_succ]

theorem subsetObjects_ids (compress : Bytes → Bytes) (files : Path → FontFile) (ss : List Subset) : ∀ i,
    (subsetObjects compress files ss i).2 = true →
    (subsetObjects compress files ss i).1.map (·.1) = List.range' i (7 * ss.length) := by
  induction ss with
  | nil => intro i _; rfl
  | cons s ss ih =>
    intro i h
    simp only [subsetObjects] at h ⊢
    split at h
    · cases h
    · rename_i objs ho
      simp only [List.map_append, toObjects_ids compress _ s i objs ho]
      rw [ih _ h, show objsPerFont = 7 from rfl, show 7 * (s :: ss).length = 7 + 7 * ss.length by simp; omega]
      exact List.range'_append_1

theorem mem_subsetObjects (compress : Bytes → Bytes) (files : Path → FontFile) (ss : List Subset) : ∀ i (o : Obj),
    o ∈ (subsetObjects compress files ss i).1 → ∃ (n : Nat) (s : Subset) (objs : List Obj), ss[n]? = some s ∧
      s.toObjects compress (files s.path) (i + 7 * n) = some objs ∧ o ∈ objs := by
  induction ss with
  | nil => intro i o h; simp [subsetObjects] at h
  | cons s ss ih =>
    intro i o h
    simp only [subsetObjects] at h
    split at h
    · simp at h
    · rename_i objs ho
      simp only [List.mem_append] at h
      rcases h with h | h
      · exact ⟨0, s, objs, rfl, by simpa using ho, h⟩
      · obtain ⟨n, t, objs', h1, h2, h3⟩ := ih _ _ h
        refine ⟨n + 1, t, objs', h1, ?_, h3⟩
        rw [← h2]
        congr 1
        simp only [objsPerFont]
        omega

section
variable (compress : Bytes → Bytes) (files : Path → FontFile)

/-- The completed object list. -/
theorem docObjects_done {I : Type} (render : I → Nat → Res → Run) (items : List I) (objs : List Obj)
    (h : docObjects compress files render items = (objs, true)) :
    let run := docPages render items 0 Res.empty
    let n := run.pages.length
    run.err = none ∧ 0 < n ∧ (run.res.toObjects compress files (4 + 2 * n)).2 = true ∧
    objs = pageObjects run.pages 4 ++ (run.res.toObjects compress files (4 + 2 * n)).1 ++
      headers n (run.res.toAtoms (4 + 2 * n)) := by
  simp only [docObjects] at h
  split at h
  · simp at h
  · simp at h
  · rename_i he
    split at h
    · simp at h
    · rename_i hn
      have hn : 0 < (docPages render items 0 Res.empty).pages.length := Nat.pos_of_ne_zero hn
      have e1 : 4 + 2 * ((docPages render items 0 Res.empty).pages.length - 1) + 2 =
        4 + 2 * (docPages render items 0 Res.empty).pages.length := by omega
      have e2 : (4 + 2 * ((docPages render items 0 Res.empty).pages.length - 1) - 4) / 2 + 1 =
        (docPages render items 0 Res.empty).pages.length := by omega
      rw [e1, e2] at h
      split at h
      · rename_i hok
        simp only [Prod.mk.injEq, and_true] at h
        exact ⟨he, hn, hok, h.symm⟩
      · simp at h

/-- Membership by number, when numbers are not repeated. -/
theorem objAt_of_mem (objs : List Obj) (hn : (objs.map (·.1)).Nodup) (i : Nat) (a : Atom) (h : (i, a) ∈ objs) :
    objAt objs i = some a := by
  obtain ⟨k, hk⟩ := List.mem_iff_getElem?.mp h
  unfold objAt
  rw [find?_of_get_nodup objs hn k (i, a) hk]
  rfl

theorem writeOrder_nodup (k : Nat) : (writeOrder k).Nodup := by
  unfold writeOrder
  rw [List.nodup_append]
  refine ⟨List.nodup_range', by decide, ?_⟩
  intro a ha b hb
  rw [List.mem_range'_1] at ha
  simp at hb
  omega

theorem docObjects_ids {I : Type} (render : I → Nat → Res → Run) (items : List I) (objs : List Obj)
    (h : docObjects compress files render items = (objs, true)) :
    objs.map (·.1) = writeOrder (2 * (docPages render items 0 Res.empty).pages.length +
      7 * (docPages render items 0 Res.empty).res.subsets.length) := by
  obtain ⟨-, hn, hok, rfl⟩ := docObjects_done compress files render items objs h
  simp only [List.map_append, pageObjects_ids, Res.toObjects]
  rw [subsetObjects_ids compress files _ _ hok, List.range'_append_1, List.length_map]
  rfl

end

/-! ### Rendering keeps the registry well-formed -/

/-- Rendering uses the registry only through its operations. -/
def RenderOk {I : Type} (render : I → Nat → Res → Run) : Prop :=
  ∀ it n r, ∃ ops outs, (∀ op ∈ ops, ResOp.Ok op) ∧ r.run ops = some (outs, (render it n r).res)

theorem Res.run_append (ops1 : List ResOp) : ∀ (r r1 : Res) (ops2 outs1), r.run ops1 = some (outs1, r1) →
    r.run (ops1 ++ ops2) = (r1.run ops2).map fun x => (outs1 ++ x.1, x.2) := by
  induction ops1 with
  | nil =>
    intro r r1 ops2 outs1 h
    simp only [Res.run, Option.some.injEq, Prod.mk.injEq] at h
    obtain ⟨rfl, rfl⟩ := h
    cases h2 : r.run ops2 <;> simp [h2]
  | cons op ops ih =>
    intro r r1 ops2 outs1 h
    obtain ⟨o, r', os1, h1, h2, rfl⟩ := Res.run_cons h
    simp only [List.cons_append, Res.run, h1]
    rw [ih r' r1 ops2 os1 h2]
    cases h3 : r1.run ops2 <;> simp

theorem docPages_run {I : Type} (render : I → Nat → Res → Run) (hr : RenderOk render) (items : List I) : ∀ n r,
    ∃ ops outs, (∀ op ∈ ops, ResOp.Ok op) ∧ r.run ops = some (outs, (docPages render items n r).res) := by
  induction items with
  | nil => intro n r; exact ⟨[], [], by simp, rfl⟩
  | cons it its ih =>
    intro n r
    obtain ⟨ops1, outs1, hok1, hrun1⟩ := hr it (n + 1) r
    simp only [docPages]
    split
    · exact ⟨ops1, outs1, hok1, hrun1⟩
    · obtain ⟨ops2, outs2, hok2, hrun2⟩ := ih (n + (render it (n + 1) r).pages.length) (render it (n + 1) r).res
      refine ⟨ops1 ++ ops2, outs1 ++ outs2, ?_, ?_⟩
      · intro op hop
        rcases List.mem_append.mp hop with h | h
        · exact hok1 op h
        · exact hok2 op h
      · rw [Res.run_append ops1 r _ ops2 outs1 hrun1, hrun2]
        rfl

theorem docPages_wf {I : Type} (render : I → Nat → Res → Run) (hr : RenderOk render) (items : List I) :
    (docPages render items 0 Res.empty).res.WF := by
  obtain ⟨ops, outs, hok, hrun⟩ := docPages_run render hr items 0 Res.empty
  exact (Res.run_spec ops Res.empty Res.wf_empty hok _ _ hrun).2.1

end Pdfje
