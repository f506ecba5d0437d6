import Verif.Spec.Sources
import Verif.Props.Content
/-
C93: documents can be written more than once.
-/

namespace Pdfje

theorem Source.read_now {α} (s : Source α) (left : Nat → List α) : (s.read left).1 = s.now left := by cases s <;> rfl

theorem Source.Repeatable.left {α} {s : Source α} (h : s.Repeatable) (left : Nat → List α) : (s.read left).2 = left := by
  obtain ⟨l, rfl⟩ := h; rfl

theorem Source.read_other {α} (s : Source α) (left : Nat → List α) {i : Nat} (h : s ≠ .iter i) : (s.read left).2 i = left i := by
  cases s with
  | seq l => rfl
  | iter j => exact Function.update_of_ne (fun e => h (by rw [e])) _ _

theorem readPages_repeatable {template : Nat → LazyPage} (h : ∀ n, (template n).content.Repeatable) (pnum : Nat) (left : Nat → List Drawing) :
    ∀ n, readPages template pnum n left = left
  | 0 => rfl
  | n + 1 => by
    rw [readPages, readPages_repeatable h pnum left n]
    exact (h _).left left

theorem LazyPage.read_now (p : LazyPage) (left : Iterators) : (p.read left.drawings).1 = p.now left := by
  rw [LazyPage.read, Source.read_now]; rfl

theorem LazyItem.run_now (w : World) (s : StyleFull) (it : LazyItem) (ht : ∀ a, it = .auto a → ∀ n, (a.template n).content.Repeatable) (pnum : Nat) (r : Res) (left : Iterators) :
    (it.run w s pnum r left).1 = (it.now left).run w s pnum r := by
  cases it with
  | page p => rw [LazyItem.run, LazyPage.read_now]; rfl
  | auto a =>
    have h := ht a rfl
    simp only [LazyItem.run, LazyItem.now, readPages_repeatable h, LazyPage.read_now, Source.read_now]

theorem LazyItem.run_left (w : World) (s : StyleFull) (it : LazyItem) (ht : ∀ a, it = .auto a → ∀ n, (a.template n).content.Repeatable) (pnum : Nat) (r : Res) (left : Iterators) :
    (∀ i, it.drawingsIter ≠ some i → (it.run w s pnum r left).2.drawings i = left.drawings i) ∧
    (∀ i, it.blocksIter ≠ some i → (it.run w s pnum r left).2.blocks i = left.blocks i) := by
  cases it with
  | page p =>
    refine ⟨fun i hi => ?_, fun i _ => rfl⟩
    refine Source.read_other _ _ fun e => hi ?_
    obtain ⟨c, x, y, z⟩ := p
    subst e
    rfl
  | auto a =>
    have h := ht a rfl
    refine ⟨fun i _ => ?_, fun i hi => ?_⟩
    · simp only [LazyItem.run, readPages_repeatable h]
    · refine Source.read_other _ _ fun e => hi ?_
      obtain ⟨c, x⟩ := a
      subst e
      rfl

theorem LazyItem.now_same {it : LazyItem} {left left' : Iterators} (ht : ∀ a, it = .auto a → ∀ n, (a.template n).content.Repeatable)
    (hd : ∀ i, it.drawingsIter = some i → left'.drawings i = left.drawings i) (hb : ∀ i, it.blocksIter = some i → left'.blocks i = left.blocks i) : it.now left' = it.now left := by
  cases it with
  | page p =>
    obtain ⟨c, x, y, z⟩ := p
    cases c with
    | seq l => rfl
    | iter i => simp only [LazyItem.now, LazyPage.now, Source.now, hd i rfl]
  | auto a =>
    have h := ht a rfl
    obtain ⟨c, t⟩ := a
    have e : (fun n => (t n).now left') = fun n => (t n).now left := by
      funext n
      obtain ⟨l, hl⟩ := h n
      simp only at hl
      simp only [LazyPage.now, hl, Source.now]
    cases c with
    | seq l => simp only [LazyItem.now, e, Source.now]
    | iter i => simp only [LazyItem.now, e, Source.now, hb i rfl]

theorem lazyRun_once (w : World) (s : StyleFull) : ∀ (its : List LazyItem), UsedOnce its → ∀ (done : Nat) (r : Res) (left : Iterators),
    (lazyRun w s its done r left).1 = docRun w s (its.map (·.now left)) done r
  | [], _, _, _, _ => rfl
  | it :: its, h, done, r, left => by
    have ht : ∀ a, it = .auto a → ∀ n, (a.template n).content.Repeatable := fun a e => h.templates a (by simp [e])
    have hu : UsedOnce its := by
      refine ⟨?_, ?_, fun a ha => h.templates a (List.mem_cons_of_mem _ ha)⟩
      · have := h.drawings
        rw [List.filterMap_cons] at this
        split at this
        · exact this
        · exact this.of_cons
      · have := h.blocks
        rw [List.filterMap_cons] at this
        split at this
        · exact this
        · exact this.of_cons
    have hrest : ∀ pnum, its.map (·.now (it.run w s pnum r left).2) = its.map (·.now left) := by
      intro pnum
      obtain ⟨g1, g2⟩ := it.run_left w s ht pnum r left
      refine List.map_congr_left fun it' hit' => LazyItem.now_same (fun a e => h.templates a (by rw [← e]; exact List.mem_cons_of_mem _ hit')) (fun i hi => g1 i fun e => ?_) fun i hi => g2 i fun e => ?_
      · have := h.drawings
        rw [List.filterMap_cons, e] at this
        exact (List.nodup_cons.1 this).1 (List.mem_filterMap.2 ⟨it', hit', hi⟩)
      · have := h.blocks
        rw [List.filterMap_cons, e] at this
        exact (List.nodup_cons.1 this).1 (List.mem_filterMap.2 ⟨it', hit', hi⟩)
    have hrun := it.run_now w s ht (done + 1) r left
    rw [lazyRun, List.map_cons, docRun, PagesRun.andThen]
    simp only [← hrun]
    cases e : (it.run w s (done + 1) r left).1.err with
    | some x => simp only; rw [← e]
    | none =>
      simp only
      rw [lazyRun_once w s its hu, hrest]

/-- C93. If a document is written again then the same pages are written. -/
def C93_Statement : Prop := ∀ (w : World) (doc : LazyDoc) (left : Iterators), (doc.write w (doc.write w left).2).1 = (doc.write w left).1

/-- C93 holds for documents without iterators: whatever has been written before, and whatever that has done to iterators, the same pages are written. They are those that the other claims
speak about. -/
theorem C93_again_partial (w : World) (doc : LazyDoc) (h : doc.Repeatable) (left later : Iterators) :
    (doc.write w later).1 = docRun w doc.style ((doc.content.now left.items).map (·.now left)) 0 Res.empty := by
  obtain ⟨its, e, hr⟩ := h
  have hi : ∀ it ∈ its, it.drawingsIter = none ∧ it.blocksIter = none := by
    intro it hit
    have := hr it hit
    cases it with
    | page p =>
      obtain ⟨c, x, y, z⟩ := p
      obtain ⟨l, rfl⟩ := this
      exact ⟨rfl, rfl⟩
    | auto a =>
      obtain ⟨c, t⟩ := a
      obtain ⟨⟨l, hl⟩, -⟩ := this
      simp only at hl
      subst hl
      exact ⟨rfl, rfl⟩
  have ho : UsedOnce its := by
    refine ⟨?_, ?_, fun a ha => (hr _ ha).2⟩
    · rw [List.filterMap_eq_nil_iff.2 fun it hit => (hi it hit).1]; exact .nil
    · rw [List.filterMap_eq_nil_iff.2 fun it hit => (hi it hit).2]; exact .nil
  rw [LazyDoc.write, e]
  simp only [Source.read, Source.now]
  rw [lazyRun_once w doc.style its ho]
  congr 1
  refine List.map_congr_left fun it hit => LazyItem.now_same (fun a ea => ho.templates a (ea ▸ hit)) (fun i hi' => ?_) fun i hi' => ?_
  · rw [(hi it hit).1] at hi'; cases hi'
  · rw [(hi it hit).2] at hi'; cases hi'

/-- What holds with iterators, if each is used in one place, and none in a template: the first time the document is written all is there. -/
theorem C93_once_partial (w : World) (doc : LazyDoc) (left : Iterators) (h : UsedOnce (doc.content.now left.items)) :
    (doc.write w left).1 = docRun w doc.style ((doc.content.now left.items).map (·.now left)) 0 Res.empty := by
  rw [LazyDoc.write, Source.read_now, lazyRun_once w doc.style _ h]
  rfl

/-- C93 for pages: adding to a page gives another page with all that is on it and the new drawing; the page itself stays as it is, if its content is no iterator. -/
theorem C93_add_partial (p : LazyPage) (d : Drawing) (left : Nat → List Drawing) (h : p.content.Repeatable) :
    ((p.add d left).1.read (p.add d left).2).1.content = (p.read left).1.content ++ [d] ∧ (p.read (p.add d left).2).1 = (p.read left).1 := by
  obtain ⟨c, x, y, z⟩ := p
  obtain ⟨l, rfl⟩ := h
  exact ⟨rfl, rfl⟩

/-- An iterator with a rectangle. -/
def rectLeft : Iterators := ⟨fun _ => [.rect (0, 0) 5 5 none (some ⟨1, 0, 0⟩)], fun _ => [], fun _ => []⟩

/-- A document with a page that gets its drawings from the iterator. -/
def iterDoc : LazyDoc := ⟨.seq [.page ⟨.iter 0, a4, 0, []⟩], faceStyle⟩

/-- C93 is false: a page whose drawings come from an iterator is empty if the document is written again. -/
theorem C93_counterexample : ¬ C93_Statement := by
  intro h
  have e := congrArg (fun x : PagesRun => x.pages.map (·.ops)) (h demoWorld iterDoc rectLeft)
  have h1 : ((iterDoc.write demoWorld rectLeft).1.pages.map (·.ops)) = [rectOps] := by decide +kernel
  have h2 : ((iterDoc.write demoWorld (iterDoc.write demoWorld rectLeft).2).1.pages.map (·.ops)) = [[]] := by decide +kernel
  simp only [h1, h2] at e
  revert e
  decide +kernel

/-- Also, a page with an iterator for its drawings is empty after a drawing was added "to a new page". -/
theorem C93_add_counterexample : ∃ (p : LazyPage) (d : Drawing) (left : Nat → List Drawing), (p.read left).1.content ≠ [] ∧ (p.read (p.add d left).2).1.content = [] :=
  ⟨⟨.iter 0, a4, 0, []⟩, .rect (0, 0) 5 5 none none, rectLeft.drawings, by simp [LazyPage.read, Source.read, rectLeft], by simp [LazyPage.read, LazyPage.add, Source.read]⟩

/-- And in a template, only the first page has the drawings: the second page reads what the first has left. -/
theorem C93_template_counterexample : ∃ (p : LazyPage) (left : Nat → List Drawing),
    (p.read (readPages (fun _ => p) 1 0 left)).1.content ≠ [] ∧ ∀ n, (p.read (readPages (fun _ => p) 1 (n + 1) left)).1.content = [] :=
  ⟨⟨.iter 0, a4, 0, []⟩, rectLeft.drawings, by simp [LazyPage.read, Source.read, rectLeft, readPages], fun n => by simp [LazyPage.read, Source.read, readPages]⟩

/-- What happens in a template with an iterator for the drawings: the first page has the drawings that the iterator gives, and no other page has any. -/
theorem C93_template_partial (w : World) (s : StyleFull) (p : LazyPage) (i : Nat) (hp : p.content = .iter i) (content : Source Block) (pnum : Nat) (r : Res) (left : Iterators) :
    ((LazyItem.auto ⟨content, fun _ => p⟩).run w s pnum r left).1 =
      (DocItem.auto ⟨content.now left.blocks, fun n => ⟨if n ≤ pnum then left.drawings i else [], p.size, p.rotate, p.columns⟩⟩).run w s pnum r := by
  obtain ⟨c, x, y, z⟩ := p
  simp only at hp
  subst hp
  have h : ∀ n, readPages (fun _ => ⟨.iter i, x, y, z⟩) pnum n left.drawings i = if n = 0 then left.drawings i else [] := by
    intro n
    cases n with
    | zero => rfl
    | succ n => simp [readPages, LazyPage.read, Source.read]
  have g : (fun n => (LazyPage.read ⟨.iter i, x, y, z⟩ (readPages (fun _ => ⟨.iter i, x, y, z⟩) pnum (n - pnum) left.drawings)).1) =
      fun n => (⟨if n ≤ pnum then left.drawings i else [], x, y, z⟩ : Page) := by
    funext n
    simp only [LazyPage.read, Source.read, h]
    by_cases e : n ≤ pnum
    · rw [if_pos e, if_pos (Nat.sub_eq_zero_of_le e)]
    · rw [if_neg e, if_neg (by omega)]
  simp only [LazyItem.run, Source.read_now]
  rw [g]

/-- A document without iterators, with text and a rectangle. -/
def listDoc : LazyDoc := ⟨.seq [.page ⟨.seq demoDrawings, a4, 0, []⟩], faceStyle⟩

/-- It meets the hypothesis of `C93_again_partial`, and always gives its page with both drawings. -/
example (later : Iterators) : listDoc.Repeatable ∧ (listDoc.write demoWorld later).1.pages.map (·.ops) = [demoOps ++ rectOps] := by
  have h : listDoc.Repeatable := ⟨_, rfl, fun it hit => by rw [List.mem_singleton] at hit; subst hit; exact ⟨_, rfl⟩⟩
  refine ⟨h, ?_⟩
  rw [C93_again_partial demoWorld listDoc h rectLeft later]
  exact (congrArg (fun x : PagesRun => x.pages.map (·.ops)) demo_run)

/-- The document with the iterator meets the hypothesis of `C93_once_partial`. -/
example : UsedOnce (iterDoc.content.now rectLeft.items) :=
  ⟨by decide, by decide, fun a ha => by simp [iterDoc, Source.now] at ha⟩

end Pdfje
