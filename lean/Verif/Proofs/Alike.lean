import Verif.Proofs.DocRead
import Verif.Spec.Joints
/-
Documents with pages that are alike, in some sense that does not change what is on them, and blocks that fill columns in the same way.
-/

namespace Pdfje

/-- Blocks that fill columns in the same way. -/
def Block.Same (w : World) (s : StyleFull) (b b' : Block) : Prop := ∀ r cs, b.intoColumns w r s cs = b'.intoColumns w r s cs

/-- Pages that are related have the same columns, and drawings that are written in the same way. -/
def Content (w : World) (s : StyleFull) (R : Page → Page → Prop) : Prop := ∀ p q, R p q → p.columns = q.columns ∧ ∀ r, drawingsRun w s p.content r = drawingsRun w s q.content r

/-- The items are alike. -/
inductive DocItem.Alike (w : World) (s : StyleFull) (R : Page → Page → Prop) : DocItem → DocItem → Prop
  | page {p q : Page} (h : R p q) : Alike w s R (.page p) (.page q)
  | auto {bs bs' : List Block} {f g : Nat → Page} (hb : List.Forall₂ (Block.Same w s) bs bs') (h : ∀ n, R (f n) (g n)) : Alike w s R (.auto ⟨bs, f⟩) (.auto ⟨bs', g⟩)

/-- The same page, but for what does not matter. -/
structure PageFill.Alike (R : Page → Page → Prop) (p q : PageFill) : Prop where
  base : R p.base q.base
  todo : p.todo = q.todo
  done : p.done = q.done

/-- The same page, but for what does not matter. -/
structure Filled.Alike (R : Page → Page → Prop) (p q : Filled) : Prop where
  base : R p.base q.base
  cols : p.cols = q.cols

/-- The same page was written, but for what does not matter. -/
structure Written.Alike (R : Page → Page → Prop) (p q : Written) : Prop where
  page : p.page.Alike R q.page
  ops : p.ops = q.ops
  bytes : p.bytes = q.bytes

/-- The same error. -/
inductive Failure.Alike (R : Page → Page → Prop) : Option Failure → Option Failure → Prop
  | none : Alike R .none .none
  | inLayout : Alike R (some .inLayout) (some .inLayout)
  | inStream {p q : Page} (h : R p q) : Alike R (some (.inStream ⟨p.rotate, p.size, []⟩)) (some (.inStream ⟨q.rotate, q.size, []⟩))

/-- The same happened. -/
structure PagesRun.Alike (R : Page → Page → Prop) (a b : PagesRun) : Prop where
  pages : List.Forall₂ (Written.Alike R) a.pages b.pages
  res : a.res = b.res
  err : Failure.Alike R a.err b.err

variable {w : World} {s : StyleFull} {R : Page → Page → Prop}

theorem filledRun_alike (hR : Content w s R) {p q : Filled} (h : p.Alike R q) (r : Res) : p.run w s r = q.run w s r := by
  unfold Filled.run
  rw [(hR _ _ h.base).2, h.cols]

theorem writePages_alike (hR : Content w s R) {ps qs : List Filled} (h : List.Forall₂ (Filled.Alike R) ps qs) : ∀ r, (writePages w s ps r).Alike R (writePages w s qs r) := by
  induction h with
  | nil => exact fun r => ⟨.nil, rfl, .none⟩
  | cons h _ ih =>
    intro r
    simp only [writePages, filledRun_alike hR h r]
    rcases Filled.run w s _ r with ⟨_ | ⟨ops, b⟩, r1⟩
    · exact ⟨.nil, rfl, .inStream h.base⟩
    · exact ⟨.cons ⟨h, rfl, rfl⟩ (ih r1).pages, (ih r1).res, (ih r1).err⟩

theorem PagesRun.Alike.andThen {a b : PagesRun} {f g : Res → PagesRun} (h : a.Alike R b) (hf : ∀ r, (f r).Alike R (g r)) : (a.andThen f).Alike R (b.andThen g) := by
  obtain ⟨ap, ar, ae⟩ := a
  obtain ⟨bp, br, be⟩ := b
  obtain ⟨h1, h2, h3⟩ := h
  simp only at h1 h2 h3
  subst h2
  cases h3 with
  | none => exact ⟨List.rel_append h1 (hf ar).pages, (hf ar).res, (hf ar).err⟩
  | inLayout => exact ⟨h1, rfl, .inLayout⟩
  | inStream h => exact ⟨h1, rfl, .inStream h⟩

theorem columnsLeft_alike {doc doc' : Nat → PageFill} (h : ∀ n, (doc n).Alike R (doc' n)) : columnsLeft doc = columnsLeft doc' := by
  have : (fun n => (doc n).todo) = fun n => (doc' n).todo := funext fun n => (h n).todo
  unfold columnsLeft
  rw [this]

theorem fillLoop_alike : ∀ (fuel : Nat) (filled : List ColumnFill) {doc doc' : Nat → PageFill}, (∀ n, (doc n).Alike R (doc' n)) →
    List.Forall₂ (PageFill.Alike R) (fillLoop fuel filled doc).1 (fillLoop fuel filled doc').1 ∧ ∀ n, ((fillLoop fuel filled doc).2 n).Alike R ((fillLoop fuel filled doc').2 n)
  | 0, _, _, _, h => ⟨.nil, h⟩
  | fuel + 1, filled, doc, doc', h => by
    have hd : ∀ n, (doc (n + 1)).Alike R (doc' (n + 1)) := fun n => h _
    simp only [fillLoop, (h 0).todo]
    have hp : (⟨(doc 0).base, (doc' 0).todo.drop (filled.take (doc' 0).todo.length).length, (doc 0).done ++ filled.take (doc' 0).todo.length⟩ : PageFill).Alike R
        ⟨(doc' 0).base, (doc' 0).todo.drop (filled.take (doc' 0).todo.length).length, (doc' 0).done ++ filled.take (doc' 0).todo.length⟩ := ⟨(h 0).base, rfl, by simp only [(h 0).done]⟩
    cases filled.drop (doc' 0).todo.length with
    | nil => exact ⟨.cons hp .nil, hd⟩
    | cons c cs => exact ⟨.cons hp (fillLoop_alike fuel (c :: cs) hd).1, (fillLoop_alike fuel (c :: cs) hd).2⟩

theorem reopen_alike {p q : PageFill} (h : p.Alike R q) : (p.reopen = none ∧ q.reopen = none) ∨ ∃ p' q', p.reopen = some p' ∧ q.reopen = some q' ∧ p'.Alike R q' := by
  unfold PageFill.reopen
  rw [h.done]
  cases q.done.getLast? with
  | none => exact .inl ⟨rfl, rfl⟩
  | some c => exact .inr ⟨_, _, rfl, rfl, h.base, by simp only [h.todo], rfl⟩

theorem forall₂_getLast? {α β : Type} {R : α → β → Prop} {a : List α} {b : List β} (h : List.Forall₂ R a b) :
    (a.getLast? = none ∧ b.getLast? = none) ∨ ∃ x y, a.getLast? = some x ∧ b.getLast? = some y ∧ R x y := by
  induction h with
  | nil => exact .inl ⟨rfl, rfl⟩
  | @cons x y xs ys hxy h ih =>
    right
    rcases ih with ⟨h1, h2⟩ | ⟨x', y', h1, h2, h3⟩
    · rw [List.getLast?_eq_none_iff] at h1 h2
      subst h1 h2
      exact ⟨x, y, rfl, rfl, hxy⟩
    · exact ⟨x', y', by rw [List.getLast?_cons, h1]; rfl, by rw [List.getLast?_cons, h2]; rfl, h3⟩

theorem forall₂_dropLast {α β : Type} {R : α → β → Prop} {a : List α} {b : List β} (h : List.Forall₂ R a b) : List.Forall₂ R a.dropLast b.dropLast := by
  induction h with
  | nil => exact .nil
  | @cons x y xs ys hxy h ih =>
    cases h with
    | nil => exact .nil
    | cons h1 h2 => exact .cons hxy ih

theorem fillInto_alike (filled : List ColumnFill) {doc doc' : Nat → PageFill} (h : ∀ n, (doc n).Alike R (doc' n)) :
    (fillInto filled doc = none ∧ fillInto filled doc' = none) ∨ ∃ d c d' c', fillInto filled doc = some (d, c) ∧ fillInto filled doc' = some (d', c') ∧
      (∀ n, (d n).Alike R (d' n)) ∧ List.Forall₂ (PageFill.Alike R) c c' := by
  unfold fillInto
  split
  · exact .inr ⟨_, _, _, _, rfl, rfl, h, .nil⟩
  · obtain ⟨h1, h2⟩ := fillLoop_alike filled.length filled h
    simp only
    rcases forall₂_getLast? h1 with ⟨e1, e2⟩ | ⟨p, q, e1, e2, hpq⟩
    · rw [e1, e2]; exact .inl ⟨rfl, rfl⟩
    · rw [e1, e2]
      simp only
      rcases reopen_alike hpq with ⟨e1, e2⟩ | ⟨p', q', e1, e2, hpq⟩
      · rw [e1, e2]; exact .inl ⟨rfl, rfl⟩
      · rw [e1, e2]
        refine .inr ⟨_, _, _, _, rfl, rfl, ?_, forall₂_dropLast h1⟩
        rintro (_ | n)
        · exact hpq
        · exact h2 n

theorem autoLoop_alike (hR : Content w s R) {bs bs' : List Block} (hb : List.Forall₂ (Block.Same w s) bs bs') : ∀ {doc doc' : Nat → PageFill}, (∀ n, (doc n).Alike R (doc' n)) → ∀ r,
    (autoLoop w s bs doc r).Alike R (autoLoop w s bs' doc' r) := by
  induction hb with
  | nil => exact fun h r => writePages_alike hR (.cons ⟨(h 0).base, by simp only [(h 0).done, (h 0).todo]⟩ .nil) r
  | @cons b b' bs bs' hb _ ih =>
    intro doc doc' h r
    simp only [autoLoop, columnsLeft_alike h, hb r]
    rcases b'.intoColumns w r s (columnsLeft doc') with ⟨_ | filled, r1⟩
    · exact ⟨.nil, rfl, .inLayout⟩
    · simp only
      rcases fillInto_alike filled h with ⟨e1, e2⟩ | ⟨d, c, d', c', e1, e2, h1, h2⟩
      · rw [e1, e2]; exact ⟨.nil, rfl, .inLayout⟩
      · rw [e1, e2]
        refine (writePages_alike hR ?_ r1).andThen (ih h1)
        rw [List.forall₂_map_left_iff, List.forall₂_map_right_iff]
        exact h2.imp fun p q hpq => ⟨hpq.base, hpq.done⟩

theorem itemRun_alike (hR : Content w s R) {a b : DocItem} (h : a.Alike w s R b) (n : Nat) (r : Res) : (a.run w s n r).Alike R (b.run w s n r) := by
  cases h with
  | @page p q h => exact writePages_alike hR (ps := [⟨p, []⟩]) (qs := [⟨q, []⟩]) (.cons ⟨h, rfl⟩ .nil) r
  | @auto bs bs' f g hb h =>
    exact autoLoop_alike hR hb (doc := fun m => .new (f (n + m))) (doc' := fun m => .new (g (n + m))) (fun m => ⟨h _, by simp only [PageFill.new, (hR _ _ (h _)).1], rfl⟩) r

theorem docRun_alike (hR : Content w s R) {items items' : List DocItem} (h : List.Forall₂ (DocItem.Alike w s R) items items') : ∀ done r,
    (docRun w s items done r).Alike R (docRun w s items' done r) := by
  induction h with
  | nil => exact fun done r => ⟨.nil, rfl, .none⟩
  | cons h _ ih =>
    intro done r
    have h1 := itemRun_alike hR h (done + 1) r
    simp only [docRun, h1.pages.length_eq]
    exact h1.andThen fun r => ih _ r

/-! ### Pages on the same paper -/

/-- Drawings that are written in the same way. -/
def Drawing.Same (w : World) (s : StyleFull) (d d' : Drawing) : Prop := ∀ r, d.render w s r = d'.render w s r

theorem drawingsRun_same {ds ds' : List Drawing} (h : List.Forall₂ (Drawing.Same w s) ds ds') : ∀ r, drawingsRun w s ds r = drawingsRun w s ds' r := by
  induction h with
  | nil => exact fun _ => rfl
  | cons h _ ih => intro r; simp only [drawingsRun, h r, ih]

/-- Pages that are written in the same way. -/
structure Page.Same (w : World) (s : StyleFull) (p q : Page) : Prop where
  content : List.Forall₂ (Drawing.Same w s) p.content q.content
  columns : p.columns = q.columns
  size : p.size = q.size
  rotate : p.rotate = q.rotate

theorem content_same : Content w s (Page.Same w s) := fun _ _ h => ⟨h.columns, drawingsRun_same h.content⟩

/-- Documents of which the drawings and blocks are written in the same way are written in the same way. -/
theorem docWrite_alike (compress : Bytes → Bytes) {items items' : List DocItem} (h : List.Forall₂ (DocItem.Alike w s (Page.Same w s)) items items') (id : Bytes) :
    docWrite compress w.files (DocItem.render w s) id items = docWrite compress w.files (DocItem.render w s) id items' := by
  have hr := docRun_alike content_same h 0 Res.empty
  have hd : docPages (DocItem.render w s) items 0 Res.empty = docPages (DocItem.render w s) items' 0 Res.empty := by
    rw [docPages_docRun, docPages_docRun]
    generalize docRun w s items 0 Res.empty = a at hr ⊢
    generalize docRun w s items' 0 Res.empty = b at hr ⊢
    obtain ⟨ap, ar, ae⟩ := a
    obtain ⟨bp, br, be⟩ := b
    obtain ⟨h1, h2, h3⟩ := hr
    simp only at h1 h2 h3 ⊢
    subst h2
    have e1 : ap.map Written.rendered = bp.map Written.rendered := by
      rw [← List.forall₂_eq_eq_eq, List.forall₂_map_left_iff, List.forall₂_map_right_iff]
      exact h1.imp fun p q hpq => by simp only [Written.rendered, hpq.page.base.rotate, hpq.page.base.size, hpq.bytes]
    have e2 : ae = be := by
      cases h3 with
      | none => rfl
      | inLayout => rfl
      | inStream h => rw [h.rotate, h.size]
    rw [e1, e2]
  have ho : docObjects compress w.files (DocItem.render w s) items = docObjects compress w.files (DocItem.render w s) items' := by
    unfold docObjects
    rw [hd]
  unfold docWrite
  rw [ho]

theorem Page.Same.refl (p : Page) : p.Same w s p := ⟨List.forall₂_same.2 fun _ _ _ => rfl, rfl, rfl, rfl⟩

theorem Block.Same.refl (b : Block) : b.Same w s b := fun _ _ => rfl

theorem DocItem.Alike.refl (it : DocItem) : it.Alike w s (Page.Same w s) it := by
  cases it with
  | page p => exact .page (.refl p)
  | auto a => exact .auto (List.forall₂_same.2 fun b _ => .refl b) fun n => .refl _

/-- Changes to the contents of paragraphs and texts that do not matter for each one of them do not matter. -/
theorem docWrite_with (compress : Bytes → Bytes) {R : StyleFull → List Item → List Item → Prop}
    (hpar : ∀ (p : Paragraph) (a b : List Item), R (s.or p.style) a b → (Block.paragraph { p with content := a }).Same w s (.paragraph { p with content := b }))
    (htext : ∀ (loc : ℚ × ℚ) (style : Style) (align : Align) (a b : List Item), R (s.or style) a b → (Drawing.text loc a style align).Same w s (.text loc b style align))
    {items items' : List DocItem} (h : List.Forall₂ (DocItem.With s R) items items') (id : Bytes) :
    docWrite compress w.files (DocItem.render w s) id items = docWrite compress w.files (DocItem.render w s) id items' := by
  have hpage : ∀ p q : Page, p.With s R q → p.Same w s q := by
    intro p q h
    refine ⟨h.content.imp fun d d' hd => ?_, h.columns, h.size, h.rotate⟩
    cases hd with
    | text loc style align h => exact htext loc style align _ _ h
    | same => exact fun _ => rfl
  refine docWrite_alike compress (h.imp fun a b h => ?_) id
  cases h with
  | page h => exact .page (hpage _ _ h)
  | auto hb h =>
    refine .auto (hb.imp fun b b' hb => ?_) fun n => hpage _ _ (h n)
    cases hb with
    | paragraph p h => exact hpar p _ _ h
    | same => exact .refl _

end Pdfje
