import Verif.Proofs.Layout
import Verif.Proofs.Document
/-
Rendering uses the font registry only through its operations, and only with the fonts that the user gave.
-/

namespace Pdfje

/-- A typeface that exists: a TrueType one or one of the standard typefaces of fonts/builtins.py. -/
def Typeface.Known : Typeface → Prop
  | .builtin b => b ∈ builtinTypefaces
  | .trueType _ => True

/-- Styles, texts, drawings, blocks, pages and documents that use such typefaces. -/
def Style.Known (s : Style) : Prop := ∀ f, s.font = some f → f.Known

@[inherit_doc Style.Known] def StyleFull.Known (s : StyleFull) : Prop := s.font.Known

@[inherit_doc Style.Known] inductive Item.Known : Item → Prop
  | str (s) : Item.Known (.str s)
  | span (content style) : (∀ i ∈ content, Item.Known i) → style.Known → Item.Known (.span content style)

@[inherit_doc Style.Known] def Drawing.Known : Drawing → Prop
  | .text _ content style _ => (∀ i ∈ content, i.Known) ∧ style.Known
  | _ => True

@[inherit_doc Style.Known] def Page.Known (p : Page) : Prop := ∀ d ∈ p.content, d.Known

@[inherit_doc Style.Known] def Block.Known : Block → Prop
  | .paragraph p => (∀ i ∈ p.content, i.Known) ∧ p.style.Known
  | .rule _ => True

@[inherit_doc Style.Known] def DocItem.Known : DocItem → Prop
  | .page p => p.Known
  | .auto a => (∀ b ∈ a.content, b.Known) ∧ ∀ n, (a.template n).Known

/-- A registry that comes from another one by uses of it. -/
def Res.Reach (r r' : Res) : Prop := ∃ ops outs, (∀ op ∈ ops, ResOp.Ok op) ∧ r.run ops = some (outs, r')

theorem Res.Reach.refl (r : Res) : r.Reach r := ⟨[], [], by simp, rfl⟩

theorem Res.Reach.trans {a b c : Res} (h : a.Reach b) (h' : b.Reach c) : a.Reach c := by
  obtain ⟨o1, x1, k1, h1⟩ := h
  obtain ⟨o2, x2, k2, h2⟩ := h'
  refine ⟨o1 ++ o2, x1 ++ x2, ?_, ?_⟩
  · intro op hop
    rcases List.mem_append.mp hop with h | h
    · exact k1 op h
    · exact k2 op h
  · rw [Res.run_append o1 a b o2 x1 h1, h2]; rfl

theorem Res.reach_font (r : Res) (f : Typeface) (hf : f.Known) (b i : Bool) : r.Reach (r.font f b i).2 :=
  ⟨[.font f b i], [.font (r.font f b i).1], by
    intro op hop
    simp only [List.mem_singleton] at hop
    subst hop
    cases f with
    | builtin x => exact hf
    | trueType x => trivial, by simp [Res.run, Res.step]⟩

theorem Res.reach_encode {r r' : Res} {f : FontRef} {s : List Char} {b : Bytes} (h : r.encode f s = some (b, r')) : r.Reach r' :=
  ⟨[.encode f s], [.bytes b], by simp [ResOp.Ok], by simp [Res.run, Res.step, h]⟩

theorem Res.Reach.wf {r r' : Res} (h : r.Reach r') (hr : r.WF) : r.Le r' ∧ r'.WF := by
  obtain ⟨ops, outs, hok, hrun⟩ := h
  obtain ⟨h1, h2, -⟩ := Res.run_spec ops r hr hok _ _ hrun
  exact ⟨h1, h2⟩

/-! ### Styles and texts -/

theorem StyleFull.known_or {s : StyleFull} {t : Style} (hs : s.Known) (ht : t.Known) : (s.or t).Known := by
  unfold StyleFull.Known StyleFull.or
  simp only
  cases h : t.font with
  | none => exact hs
  | some f => exact ht f h

theorem Pending.run_reach (p : Pending) (hp : match p with | .style s b => s.Known ∧ b.Known | .full s _ => s.Known) (r : Res) :
    r.Reach (p.run r).2 := by
  cases p with
  | style s b =>
    simp only [Pending.run, Style.diff]
    split
    · refine r.reach_font _ ?_ _ _
      cases h : s.font with
      | none => exact hp.2
      | some f => exact hp.1 f h
    · exact .refl r
  | full s b =>
    simp only [Pending.run, StyleFull.diff]
    split
    · exact r.reach_font _ hp _ _
    · exact .refl r

/-- Pending style changes with known typefaces. -/
def Pending.Known : Pending → Prop
  | .style s b => s.Known ∧ b.Known
  | .full s _ => s.Known

theorem runTodo_reach (todo : List Pending) : ∀ r : Res, (∀ p ∈ todo, p.Known) → r.Reach (runTodo todo r).2 := by
  induction todo with
  | nil => intro r _; exact .refl r
  | cons p todo ih =>
    intro r h
    rw [runTodo]
    refine (p.run_reach ?_ r).trans (ih _ fun q hq => h q (by simp [hq]))
    have := h p (by simp)
    cases p <;> exact this

mutual
theorem flattenSpan_reach (style : Style) (base : StyleFull) (todo : List Pending) (content : List Item) (r : Res)
    (hc : ∀ i ∈ content, i.Known) (hs : style.Known) (hb : base.Known) (ht : ∀ p ∈ todo, p.Known) :
    r.Reach (flattenSpan style base todo content r).2.2 ∧ ∀ p ∈ (flattenSpan style base todo content r).2.1, p.Known := by
  rw [flattenSpan]
  have h := flattenItems_reach (base.or style) (todo ++ [.style style base]) content r hc (StyleFull.known_or hb hs) (by
    intro p hp
    rcases List.mem_append.mp hp with hp | hp
    · exact ht p hp
    · simp only [List.mem_singleton] at hp; subst hp; exact ⟨hs, hb⟩)
  refine ⟨h.1, fun p hp => ?_⟩
  rcases List.mem_append.mp hp with hp | hp
  · exact h.2 p hp
  · simp only [List.mem_singleton] at hp; subst hp; exact hb
termination_by (sizeOf content, 1)
theorem flattenItems_reach (newbase : StyleFull) (todo : List Pending) (content : List Item) (r : Res)
    (hc : ∀ i ∈ content, i.Known) (hb : newbase.Known) (ht : ∀ p ∈ todo, p.Known) :
    r.Reach (flattenItems newbase todo content r).2.2 ∧ ∀ p ∈ (flattenItems newbase todo content r).2.1, p.Known := by
  match content with
  | [] => rw [flattenItems]; exact ⟨.refl r, ht⟩
  | .str s :: rest =>
    rw [flattenItems]
    have h := flattenItems_reach newbase [] rest (runTodo todo r).2 (fun i hi => hc i (by simp [hi])) hb (by simp)
    exact ⟨(runTodo_reach todo r ht).trans h.1, h.2⟩
  | .span c style :: rest =>
    rw [flattenItems]
    have hk := hc (.span c style) (by simp)
    cases hk with
    | span _ _ hk1 hk2 =>
      have h1 := flattenSpan_reach style newbase todo c r hk1 hk2 hb ht
      have h2 := flattenItems_reach newbase _ rest (flattenSpan style newbase todo c r).2.2 (fun i hi => hc i (by simp [hi])) hb h1.2
      exact ⟨h1.1.trans h2.1, h2.2⟩
termination_by (sizeOf content, 0)
end

theorem asState_reach (s : StyleFull) (hs : s.Known) (r : Res) : r.Reach (s.asState r).2 := r.reach_font _ hs _ _

/-! ### Drawings and blocks -/

theorem textOps_reach (w : World) (loc : ℚ × ℚ) (content : List Item) (style : Style) (align : Align) (s : StyleFull) (r : Res)
    (hc : ∀ i ∈ content, i.Known) (hst : style.Known) (hs : s.Known) : r.Reach (textOps w loc content style align s r).2 := by
  unfold textOps
  exact (asState_reach s hs r).trans (flattenSpan_reach style s [] content _ hc hst hs (by simp)).1

theorem Drawing.reach (w : World) (s : StyleFull) (d : Drawing) (r : Res) (hd : d.Known) (hs : s.Known) : r.Reach (d.render w s r).2 := by
  cases d <;> simp only [Drawing.render] <;> first | exact .refl r | exact textOps_reach w _ _ _ _ s r hd.1 hd.2 hs

theorem Block.reach (w : World) (s : StyleFull) (b : Block) (r : Res) (cs : Nat → ColumnFill) (hb : b.Known) (hs : s.Known) :
    r.Reach (b.intoColumns w r s cs).2 := by
  cases b with
  | rule x => exact .refl r
  | paragraph p =>
    simp only [Block.intoColumns, Paragraph.intoColumns]
    have h := StyleFull.known_or hs hb.2
    exact (asState_reach _ h r).trans (flattenSpan_reach p.style _ [] p.content _ hb.1 hb.2 h (by simp)).1

/-! ### Writing operators -/

theorem ShowItem.reach {i : ShowItem} {r r' : Res} {b : Bytes} (h : i.bytes r = some (b, r')) : r.Reach r' := by
  cases i with
  | adj x => simp only [ShowItem.bytes, Option.some.injEq, Prod.mk.injEq] at h; obtain ⟨-, rfl⟩ := h; exact .refl r
  | txt f s =>
    simp only [ShowItem.bytes] at h
    split at h
    · cases h
    · rename_i b1 r1 he
      simp only [Option.some.injEq, Prod.mk.injEq] at h
      obtain ⟨-, rfl⟩ := h
      exact Res.reach_encode he

theorem itemsBytes_reach (is : List ShowItem) : ∀ {r r' : Res} {b : Bytes}, itemsBytes is r = some (b, r') → r.Reach r' := by
  induction is with
  | nil => intro r r' b h; simp only [itemsBytes, Option.some.injEq, Prod.mk.injEq] at h; obtain ⟨-, rfl⟩ := h; exact .refl r
  | cons i is ih =>
    intro r r' b h
    rw [itemsBytes] at h
    split at h
    · cases h
    · rename_i b1 r1 h1
      split at h
      · cases h
      · rename_i b2 r2 h2
        simp only [Option.some.injEq, Prod.mk.injEq] at h
        obtain ⟨-, rfl⟩ := h
        exact (ShowItem.reach h1).trans (ih h2)

theorem TextOp.reach {op : TextOp} {r r' : Res} {b : Bytes} (h : op.bytes r = some (b, r')) : r.Reach r' := by
  cases op with
  | tj is =>
    simp only [TextOp.bytes] at h
    split at h
    · cases h
    · rename_i b1 r1 h1
      simp only [Option.some.injEq, Prod.mk.injEq] at h
      obtain ⟨-, rfl⟩ := h
      exact itemsBytes_reach is h1
  | tf f z =>
    simp only [TextOp.bytes] at h
    split at h
    · cases h
    · simp only [Option.some.injEq, Prod.mk.injEq] at h; obtain ⟨-, rfl⟩ := h; exact .refl r
  | _ => simp only [TextOp.bytes, Option.some.injEq, Prod.mk.injEq] at h; obtain ⟨-, rfl⟩ := h; exact .refl r

theorem textOpsBytes_reach (ops : List TextOp) : ∀ {r r' : Res} {b : Bytes}, textOpsBytes ops r = some (b, r') → r.Reach r' := by
  induction ops with
  | nil => intro r r' b h; simp only [textOpsBytes, Option.some.injEq, Prod.mk.injEq] at h; obtain ⟨-, rfl⟩ := h; exact .refl r
  | cons i is ih =>
    intro r r' b h
    rw [textOpsBytes] at h
    split at h
    · cases h
    · rename_i b1 r1 h1
      split at h
      · cases h
      · rename_i b2 r2 h2
        simp only [Option.some.injEq, Prod.mk.injEq] at h
        obtain ⟨-, rfl⟩ := h
        exact (TextOp.reach h1).trans (ih h2)

theorem PageOp.reach {op : PageOp} {r r' : Res} {b : Bytes} (h : op.bytes r = some (b, r')) : r.Reach r' := by
  cases op with
  | text ops =>
    simp only [PageOp.bytes] at h
    split at h
    · cases h
    · rename_i b1 r1 h1
      simp only [Option.some.injEq, Prod.mk.injEq] at h
      obtain ⟨-, rfl⟩ := h
      exact textOpsBytes_reach ops h1
  | _ => simp only [PageOp.bytes, Option.some.injEq, Prod.mk.injEq] at h; obtain ⟨-, rfl⟩ := h; exact .refl r

theorem opsBytes_reach (ops : List PageOp) : ∀ {r r' : Res} {b : Bytes}, opsBytes ops r = some (b, r') → r.Reach r' := by
  induction ops with
  | nil => intro r r' b h; simp only [opsBytes, Option.some.injEq, Prod.mk.injEq] at h; obtain ⟨-, rfl⟩ := h; exact .refl r
  | cons i is ih =>
    intro r r' b h
    rw [opsBytes] at h
    split at h
    · cases h
    · rename_i b1 r1 h1
      split at h
      · cases h
      · rename_i b2 r2 h2
        simp only [Option.some.injEq, Prod.mk.injEq] at h
        obtain ⟨-, rfl⟩ := h
        exact (PageOp.reach h1).trans (ih h2)

/-! ### Pages -/

theorem drawingsRun_reach (w : World) (s : StyleFull) (hs : s.Known) (ds : List Drawing) : ∀ r : Res, (∀ d ∈ ds, d.Known) →
    r.Reach (drawingsRun w s ds r).2 := by
  induction ds with
  | nil => intro r _; exact .refl r
  | cons d ds ih =>
    intro r h
    have h1 := d.reach w s r (h d (by simp)) hs
    rw [drawingsRun]
    cases hd : d.render w s r with
    | mk o r1 =>
      rw [hd] at h1
      cases o with
      | none => exact h1
      | some ops =>
        simp only
        cases ho : opsBytes ops r1 with
        | none => exact h1
        | some x =>
          obtain ⟨b, r2⟩ := x
          simp only
          have h2 := (opsBytes_reach ops ho)
          have h3 := ih r2 fun d hd => h d (by simp [hd])
          cases hr : drawingsRun w s ds r2 with
          | mk o' r3 =>
            rw [hr] at h3
            cases o' <;> exact (h1.trans h2).trans h3

theorem Filled.reach (w : World) (s : StyleFull) (hs : s.Known) (p : Filled) (r : Res) (hp : p.base.Known) : r.Reach (p.run w s r).2 := by
  have h1 := drawingsRun_reach w s hs p.base.content r hp
  unfold Filled.run
  cases hd : drawingsRun w s p.base.content r with
  | mk o r1 =>
    rw [hd] at h1
    cases o with
    | none => exact h1
    | some x =>
      simp only
      cases ho : opsBytes (p.cols.flatMap ColumnFill.ops) r1 with
      | none => exact h1
      | some y => exact h1.trans (opsBytes_reach _ ho)

theorem writePages_reach (w : World) (s : StyleFull) (hs : s.Known) (ps : List Filled) : ∀ r : Res, (∀ p ∈ ps, p.base.Known) →
    r.Reach (writePages w s ps r).res := by
  induction ps with
  | nil => intro r _; exact .refl r
  | cons p ps ih =>
    intro r h
    have h1 := p.reach w s hs r (h p (by simp))
    rw [writePages]
    cases hp : p.run w s r with
    | mk o r1 =>
      rw [hp] at h1
      cases o with
      | none => exact h1
      | some x => exact h1.trans (ih r1 fun q hq => h q (by simp [hq]))

theorem fillLoop_known : ∀ (fuel : Nat) (filled : List ColumnFill) (doc : Nat → PageFill), (∀ n, (doc n).base.Known) →
    (∀ p ∈ (fillLoop fuel filled doc).1, p.base.Known) ∧ ∀ n, ((fillLoop fuel filled doc).2 n).base.Known := by
  intro fuel
  induction fuel with
  | zero => intro filled doc h; exact ⟨by simp [fillLoop], h⟩
  | succ fuel ih =>
    intro filled doc h
    rw [fillLoop]
    simp only
    split
    · exact ⟨by simp [h 0], fun n => h _⟩
    · have := ih (filled.drop (doc 0).todo.length) (fun n => doc (n + 1)) fun n => h _
      refine ⟨?_, this.2⟩
      intro p hp
      simp only [List.mem_cons] at hp
      rcases hp with rfl | hp
      · exact h 0
      · exact this.1 p hp

theorem fillInto_known {filled : List ColumnFill} {doc doc' : Nat → PageFill} {completed : List PageFill}
    (h : fillInto filled doc = some (doc', completed)) (hd : ∀ n, (doc n).base.Known) :
    (∀ p ∈ completed, p.base.Known) ∧ ∀ n, (doc' n).base.Known := by
  unfold fillInto at h
  split at h
  · simp only [Option.some.injEq, Prod.mk.injEq] at h
    obtain ⟨rfl, rfl⟩ := h
    exact ⟨by simp, hd⟩
  · have hk := fillLoop_known filled.length filled doc hd
    simp only at h
    split at h
    · cases h
    · rename_i p hp
      simp only [Option.map_eq_some_iff, Prod.mk.injEq] at h
      obtain ⟨q, hq, rfl, rfl⟩ := h
      refine ⟨fun x hx => hk.1 x (List.mem_of_mem_dropLast hx), fun n => ?_⟩
      cases n with
      | zero =>
        have : q.base = p.base := by
          unfold PageFill.reopen at hq
          split at hq
          · cases hq
          · simp only [Option.some.injEq] at hq; subst hq; rfl
        simp only [consStream]
        rw [this]
        exact hk.1 p (List.mem_of_getLast? hp)
      | succ n => exact hk.2 n

theorem autoLoop_reach (w : World) (s : StyleFull) (hs : s.Known) (bs : List Block) : ∀ (doc : Nat → PageFill) (r : Res),
    (∀ b ∈ bs, b.Known) → (∀ n, (doc n).base.Known) → r.Reach (autoLoop w s bs doc r).res := by
  induction bs with
  | nil => intro doc r _ h; exact writePages_reach w s hs _ r (by simp [h 0])
  | cons b bs ih =>
    intro doc r hb hd
    have h1 := b.reach w s r (columnsLeft doc) (hb b (by simp)) hs
    rw [autoLoop]
    cases hx : b.intoColumns w r s (columnsLeft doc) with
    | mk o r1 =>
      rw [hx] at h1
      cases o with
      | none => exact h1
      | some filled =>
        simp only
        split
        · exact h1
        · rename_i doc' completed hf
          obtain ⟨k1, k2⟩ := fillInto_known hf hd
          have h2 := writePages_reach w s hs (completed.map fun p => ⟨p.base, p.done⟩) r1 (by
            intro p hp
            obtain ⟨q, hq, rfl⟩ := List.mem_map.1 hp
            exact k1 q hq)
          unfold PagesRun.andThen
          split
          · exact h1.trans h2
          · exact (h1.trans h2).trans (ih doc' _ (fun b hb' => hb b (by simp [hb'])) k2)

theorem DocItem.reach (w : World) (s : StyleFull) (hs : s.Known) (it : DocItem) (hk : it.Known) (n : Nat) (r : Res) :
    r.Reach (it.render w s n r).res := by
  cases it with
  | page p => exact writePages_reach w s hs _ r (by intro q hq; simp only [List.mem_singleton] at hq; subst hq; exact hk)
  | auto a => exact autoLoop_reach w s hs a.content _ r hk.1 fun n => hk.2 _

/-- Rendering is `RenderOk`. -/
theorem renderOk (w : World) (s : StyleFull) (hs : s.Known) : RenderOk fun it : {it : DocItem // it.Known} => it.1.render w s :=
  fun it n r => DocItem.reach w s hs it.1 it.2 n r

theorem docPages_map {I J : Type} (render : J → Nat → Res → Run) (f : I → J) (items : List I) : ∀ n r,
    docPages (fun i => render (f i)) items n r = docPages render (items.map f) n r := by
  induction items with
  | nil => intro n r; rfl
  | cons i items ih => intro n r; simp only [docPages, List.map_cons, ih]

theorem docObjects_map (compress : Bytes → Bytes) (files : Path → FontFile) {I J : Type} (render : J → Nat → Res → Run) (f : I → J) (items : List I) :
    docObjects compress files (fun i => render (f i)) items = docObjects compress files render (items.map f) := by
  unfold docObjects
  rw [docPages_map]

theorem docWrite_map (compress : Bytes → Bytes) (files : Path → FontFile) {I J : Type} (render : J → Nat → Res → Run) (f : I → J) (id : Bytes) (items : List I) :
    docWrite compress files (fun i => render (f i)) id items = docWrite compress files render id (items.map f) := by
  unfold docWrite
  rw [docObjects_map]

theorem attach_known (items : List DocItem) (h : ∀ it ∈ items, it.Known) :
    ∃ l : List {it : DocItem // it.Known}, l.map (·.1) = items :=
  ⟨items.attach.map fun x => ⟨x.1, h x.1 x.2⟩, by rw [List.map_map]; exact List.attach_map_subtype_val items⟩

end Pdfje
