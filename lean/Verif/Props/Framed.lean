import Verif.Spec.Framed
import Verif.Proofs.Alike
import Verif.Props.Isolated
/-
C97: the size of the paper and its rotation change nothing but these.
-/

namespace Pdfje
open PdfSpec

theorem content_inside (w : World) (s : StyleFull) : Content w s Page.SameInside := fun _ _ h => ⟨h.columns, fun r => by rw [h.content]⟩

theorem items_inside (w : World) (s : StyleFull) {items items' : List DocItem} (h : List.Forall₂ DocItem.SameInside items items') :
    List.Forall₂ (DocItem.Alike w s Page.SameInside) items items' := by
  refine h.imp fun a b h => ?_
  cases h with
  | page h => exact .page h
  | auto h => exact .auto (List.forall₂_same.2 fun b _ => .refl b) h

theorem dict_sameButFrame {p q : RenderedPage} (i : Nat) : SameButFrame (i, p.dict i) (i, q.dict i) := by
  refine ⟨rfl, .inr ⟨_, _, rfl, rfl, by simp, ?_⟩⟩
  refine .cons ⟨rfl, fun _ _ => rfl⟩ (.cons ⟨rfl, fun _ _ => rfl⟩ (.cons ⟨rfl, fun h _ => absurd rfl h⟩ (.cons ⟨rfl, fun _ _ => rfl⟩ (.cons ⟨rfl, fun _ _ => rfl⟩
    (.cons ⟨rfl, fun _ h => absurd rfl h⟩ .nil)))))

theorem pageObjects_inside {ps qs : List Written} (h : List.Forall₂ (Written.Alike Page.SameInside) ps qs) : ∀ i,
    List.Forall₂ SameButFrame (pageObjects (ps.map Written.rendered) i) (pageObjects (qs.map Written.rendered) i) := by
  induction h with
  | nil => exact fun _ => .nil
  | cons h _ ih =>
    intro i
    simp only [List.map_cons, pageObjects, RenderedPage.toAtoms, List.cons_append, List.nil_append]
    exact .cons (dict_sameButFrame i) (.cons ⟨rfl, .inl (by simp only [Written.rendered, h.bytes])⟩ (ih _))

theorem sameButFrame_refl (l : List Obj) : List.Forall₂ SameButFrame l l := by
  induction l with
  | nil => exact .nil
  | cons a l ih => exact .cons ⟨rfl, .inl rfl⟩ ih

/-- C97. If the pages of a document get paper of another size, or are turned, and their drawings and columns stay as they are, then nothing changes in the file but the entries that say so: it has the
same objects, except for the entries `MediaBox` and `Rotate` of the pages; and it is complete if it was. -/
theorem C97_frame (compress : Bytes → Bytes) (w : World) (s : StyleFull) {items items' : List DocItem} (h : List.Forall₂ DocItem.SameInside items items') :
    List.Forall₂ SameButFrame (docObjects compress w.files (DocItem.render w s) items).1 (docObjects compress w.files (DocItem.render w s) items').1 ∧
      (docObjects compress w.files (DocItem.render w s) items).2 = (docObjects compress w.files (DocItem.render w s) items').2 := by
  have hr := docRun_alike (content_inside w s) (items_inside w s h) 0 Res.empty
  unfold docObjects
  rw [docPages_docRun, docPages_docRun]
  generalize docRun w s items 0 Res.empty = a at hr ⊢
  generalize docRun w s items' 0 Res.empty = b at hr ⊢
  obtain ⟨ap, ar, ae⟩ := a
  obtain ⟨bp, br, be⟩ := b
  obtain ⟨h1, h2, h3⟩ := hr
  simp only at h1 h2 h3
  subst h2
  have hl : bp.length = ap.length := h1.length_eq.symm
  have ho := pageObjects_inside h1 4
  simp only [List.length_map, hl]
  cases h3 with
  | inLayout => exact ⟨ho, rfl⟩
  | inStream h => exact ⟨List.rel_append ho (.cons (dict_sameButFrame _) .nil), rfl⟩
  | none =>
    simp only
    split
    · exact ⟨ho, rfl⟩
    · rcases Res.toObjects compress w.files ar (4 + 2 * (ap.length - 1) + 2) with ⟨fonts, _ | _⟩
      · exact ⟨List.rel_append ho (sameButFrame_refl _), rfl⟩
      · simp only [if_true, List.append_assoc]
        exact ⟨List.rel_append ho (sameButFrame_refl _), trivial⟩

/-- C97, page by page: the pages that are written have the same content, byte by byte, and the paper of the pages they are made from. -/
theorem C97_pages (w : World) (s : StyleFull) {items items' : List DocItem} (h : List.Forall₂ DocItem.SameInside items items') (done : Nat) (r : Res) :
    List.Forall₂ (fun p q : Written => p.page.base.SameInside q.page.base ∧ p.ops = q.ops ∧ p.rendered.stream = q.rendered.stream)
      (docRun w s items done r).pages (docRun w s items' done r).pages :=
  (docRun_alike (content_inside w s) (items_inside w s h) done r).pages.imp fun _ _ h => ⟨h.page.base, h.ops, h.bytes⟩

/-! ### The paragraph "a b" on two pages (Props/Flow), on larger paper that is turned -/

/-- The pages of `flowPages`, on other paper. -/
def turnedPages : AutoPage := ⟨[.paragraph shortLeft], fun _ => ⟨[], (200, 300), 90, [tightColumn]⟩⟩

theorem turned_inside : List.Forall₂ DocItem.SameInside [.auto flowPages] [.auto turnedPages] := .cons (.auto fun _ => ⟨rfl, rfl⟩) .nil

/-- It has two pages with the content of those of `flowPages`, and is written completely. -/
example : (docRun demoWorld faceStyle [.auto turnedPages] 0 Res.empty).pages.length = 2 ∧
    (docRun demoWorld faceStyle [.auto turnedPages] 0 Res.empty).pages.map (·.rendered.stream) = flowRun.pages.map (·.rendered.stream) ∧
    List.Forall₂ SameButFrame (docObjects (fun b => b) demoWorld.files (DocItem.render demoWorld faceStyle) [.auto flowPages]).1
      (docObjects (fun b => b) demoWorld.files (DocItem.render demoWorld faceStyle) [.auto turnedPages]).1 := by
  have h := C97_pages demoWorld faceStyle turned_inside 0 Res.empty
  rw [flow_run] at h
  refine ⟨by rw [← h.length_eq]; decide +kernel, ?_, (C97_frame (fun b => b) demoWorld faceStyle turned_inside).1⟩
  rw [← List.forall₂_eq_eq_eq, List.forall₂_map_left_iff, List.forall₂_map_right_iff]
  exact h.flip.imp fun _ _ e => e.2.2.symm

end Pdfje
