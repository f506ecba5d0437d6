import Verif.Spec.Unwrapped
import Verif.Props.Wrapped
import Verif.Props.Joints
/-
C99: spans that set nothing change nothing.
-/

namespace Pdfje
open PdfSpec

/-- Pending work with the same effect. -/
def SameTodo (t t' : List Pending) : Prop := ∀ r, runTodo t r = runTodo t' r

theorem SameTodo.append {t t' : List Pending} (h : SameTodo t t') (x : List Pending) : SameTodo (t ++ x) (t' ++ x) := by
  intro r
  rw [runTodo_append, runTodo_append, h r]

/-- The same passages and registry, and pending work with the same effect. -/
def SameFlat (a b : List Passage × List Pending × Res) : Prop := a.1 = b.1 ∧ SameTodo a.2.1 b.2.1 ∧ a.2.2 = b.2.2

theorem SameFlat.trans {a b c : List Passage × List Pending × Res} (h : SameFlat a b) (h' : SameFlat b c) : SameFlat a c :=
  ⟨h.1.trans h'.1, fun r => (h.2.1 r).trans (h'.2.1 r), h.2.2.trans h'.2.2⟩

theorem flattenItems_todo (nb : StyleFull) {t t' : List Pending} (h : SameTodo t t') (content : List Item) (r : Res) :
    SameFlat (flattenItems nb t content r) (flattenItems nb t' content r) := by
  match content with
  | [] => rw [flattenItems, flattenItems]; exact ⟨rfl, h, rfl⟩
  | .str s :: rest =>
    rw [flattenItems, flattenItems]
    simp only [h r]
    exact ⟨rfl, fun _ => rfl, rfl⟩
  | .span c style :: rest =>
    rw [flattenItems, flattenItems, flattenSpan, flattenSpan]
    obtain ⟨h1, h2, h3⟩ := flattenItems_todo (nb.or style) (h.append [.style style nb]) c r
    simp only [h1, h3]
    obtain ⟨k1, k2, k3⟩ := flattenItems_todo nb (h2.append [.full nb (nb.or style)]) rest (flattenItems (nb.or style) (t' ++ [.style style nb]) c r).2.2
    exact ⟨by rw [k1], k2, k3⟩
termination_by sizeOf content

theorem flattenItems_append_todo (nb : StyleFull) (b : List Item) : ∀ (a : List Item) (t : List Pending) (r : Res),
    flattenItems nb t (a ++ b) r = ((flattenItems nb t a r).1 ++ (flattenItems nb (flattenItems nb t a r).2.1 b (flattenItems nb t a r).2.2).1,
      (flattenItems nb (flattenItems nb t a r).2.1 b (flattenItems nb t a r).2.2).2)
  | [], t, r => by rw [List.nil_append, flattenItems.eq_def nb t []]; rfl
  | .str s :: a, t, r => by
    rw [List.cons_append, flattenItems, flattenItems]
    simp only [flattenItems_append_todo nb b a]
    rfl
  | .span c style :: a, t, r => by
    rw [List.cons_append, flattenItems, flattenItems]
    simp only [flattenItems_append_todo nb b a, List.append_assoc]

theorem flattenItems_unwrapped {base : StyleFull} {a b : List Item} (h : Unwrapped base a b) : ∀ (t : List Pending) (r : Res),
    SameFlat (flattenItems base t a r) (flattenItems base t b r) := by
  induction h with
  | @here base style h content after =>
    intro t r
    have hid : ∀ r, runTodo [.style style base] r = ([], r) := by
      intro r
      simp only [runTodo, Pending.run]
      rw [diff_keeps (by rw [overlay_one, h])]
      rfl
    have hfull : ∀ r, runTodo [.full base base] r = ([], r) := by
      intro r
      simp [runTodo, Pending.run, StyleFull.diff]
    have idle : ∀ (t : List Pending) (x : Pending), (∀ r, runTodo [x] r = ([], r)) → SameTodo (t ++ [x]) t := by
      intro t x hx r
      rw [runTodo_append, hx]
      simp
    rw [flattenItems, flattenSpan, flattenItems_append_todo]
    simp only [h]
    obtain ⟨h1, h2, h3⟩ := flattenItems_todo base (idle t _ hid) content r
    have h2' : SameTodo ((flattenItems base (t ++ [.style style base]) content r).2.1 ++ [.full base base]) (flattenItems base t content r).2.1 :=
      fun r => ((idle _ _ hfull) r).trans (h2 r)
    rw [h1, h3]
    obtain ⟨k1, k2, k3⟩ := flattenItems_todo base h2' after (flattenItems base t content r).2.2
    exact ⟨by simp only [k1], k2, k3⟩
  | later i h ih =>
    intro t r
    cases i with
    | str x =>
      rw [flattenItems, flattenItems]
      obtain ⟨k1, k2, k3⟩ := ih [] (runTodo t r).2
      exact ⟨by simp only [k1], k2, k3⟩
    | span c style =>
      rw [flattenItems, flattenItems]
      obtain ⟨k1, k2, k3⟩ := ih (flattenSpan style _ t c r).2.1 (flattenSpan style _ t c r).2.2
      exact ⟨by simp only [k1], k2, k3⟩
  | @inSpan base style a b h after ih =>
    intro t r
    rw [flattenItems, flattenItems, flattenSpan, flattenSpan]
    obtain ⟨h1, h2, h3⟩ := ih (t ++ [.style style base]) r
    simp only [h1, h3]
    obtain ⟨k1, k2, k3⟩ := flattenItems_todo base (h2.append [.full base (base.or style)]) after (flattenItems (base.or style) (t ++ [.style style base]) b r).2.2
    exact ⟨by rw [k1], k2, k3⟩

theorem intoColumns_unwrapped (w : World) (p : Paragraph) (s : StyleFull) {a b : List Item} (h : Unwrapped (s.or p.style) a b) (r : Res) (cs : Nat → ColumnFill) :
    (Block.paragraph { p with content := a }).intoColumns w r s cs = (Block.paragraph { p with content := b }).intoColumns w r s cs := by
  simp only [Block.intoColumns, Paragraph.intoColumns, flattenSpan, or_idem]
  obtain ⟨h1, -, h3⟩ := flattenItems_unwrapped h ([] ++ [.style p.style (s.or p.style)]) ((s.or p.style).asState r).2
  rw [h1, h3]
  exact Prod.ext ((paragraphLoop_with p a p.style _ _ _ _ _).trans (paragraphLoop_with p b p.style _ _ _ _ _).symm) rfl

theorem text_unwrapped (w : World) (s : StyleFull) (r : Res) (loc : ℚ × ℚ) (style : Style) (align : Align) {a b : List Item} (h : Unwrapped (s.or style) a b) :
    Drawing.render w s r (.text loc a style align) = Drawing.render w s r (.text loc b style align) := by
  simp only [Drawing.render, textOps, flattenSpan]
  obtain ⟨h1, -, h3⟩ := flattenItems_unwrapped h ([] ++ [.style style s]) (s.asState r).2
  rw [h1, h3]

/-- C99. In a document, spans in paragraphs and texts that set nothing but what is set already may be replaced by what is in them: the file is the same, byte by byte, and so are errors. -/
theorem C99_spans (compress : Bytes → Bytes) (w : World) (s : StyleFull) (items items' : List DocItem)
    (h : List.Forall₂ (DocItem.With s fun base => Relation.ReflTransGen (Unwrapped base)) items items') (id : Bytes) :
    docWrite compress w.files (DocItem.render w s) id items = docWrite compress w.files (DocItem.render w s) id items' := by
  refine docWrite_with compress ?_ ?_ h id
  · intro p a b h r cs
    induction h with
    | refl => rfl
    | tail _ h ih => rw [ih]; exact intoColumns_unwrapped w p s h r cs
  · intro loc style align a b h r
    induction h with
    | refl => rfl
    | tail _ h ih => rw [ih]; exact text_unwrapped w s r loc style align h

/-! ### The paragraph "a b" on two pages (Props/Flow), and the same in spans -/

/-- A span without a style around it, and one with the font that is used anyway. The file is written. -/
example : WrittenDoc id demoWorld faceStyle ([] ++ .auto flowPages :: []) flowFile ∧ ∀ id,
    docWrite (fun b => b) demoWorld.files (DocItem.render demoWorld faceStyle) id
        [.auto ⟨[.paragraph { shortLeft with content := [.span [.span [.str ['a', ' ', 'b']] Style.empty] { Style.empty with font := some faceStyle.font }] }], flowPages.template⟩] =
      docWrite (fun b => b) demoWorld.files (DocItem.render demoWorld faceStyle) id [.auto flowPages] := by
  refine ⟨flow_written, fun id => C99_spans (fun b => b) demoWorld faceStyle _ _
    (.cons (.auto (.cons (.paragraph shortLeft ?_) .nil) fun n => ⟨.nil, rfl, rfl, rfl⟩) .nil) id⟩
  exact .head (.here rfl _ _) (.head (.here rfl _ _) .refl)

end Pdfje
