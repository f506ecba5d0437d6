import Verif.Spec.Decorated
import Verif.Proofs.IsolatedPages
/-
Documents with and without the drawings on their pages.
-/

namespace Pdfje
open PdfSpec

/-! ### Text in columns is shown the same whatever was shown before -/

/-- The glyphs of the operator do not depend on what came before. -/
def PageOp.Sure (W : FontRef → Char → ℚ) (op : PageOp) : Prop := ∀ v v' : Viewer, (Viewer.page W [op] v).1 = (Viewer.page W [op] v').1

theorem page_sure (W : FontRef → Char → ℚ) : ∀ (ops : List PageOp), (∀ op ∈ ops, op.Sure W) → ∀ v v' : Viewer, (Viewer.page W ops v).1 = (Viewer.page W ops v').1
  | [], _, _, _ => rfl
  | op :: ops, h, v, v' => by
    have e : op :: ops = [op] ++ ops := rfl
    rw [e, viewPage_append, viewPage_append]
    simp only
    rw [h op (by simp) v v', page_sure W ops (fun x hx => h x (by simp [hx])) _ (Viewer.page W [op] v').2]

theorem run_append_view (W : FontRef → Char → ℚ) : ∀ (a b : List TextOp) (v : Viewer), (Viewer.run W (a ++ b) v).1 = (Viewer.run W a v).1 ++ (Viewer.run W b (Viewer.run W a v).2).1
  | [], _, _ => rfl
  | op :: a, b, v => by
    simp only [List.cons_append, Viewer.run, run_append_view W a b, List.append_assoc]

/-- Operators that show nothing. -/
def TextOp.Still : TextOp → Prop
  | .tj is => is = []
  | _ => True

theorem run_still (W : FontRef → Char → ℚ) : ∀ (ops : List TextOp), (∀ op ∈ ops, op.Still) → ∀ v, (Viewer.run W ops v).1 = []
  | [], _, _ => rfl
  | op :: ops, h, v => by
    have h0 : (v.step W op).1 = [] := by
      have := h op (by simp)
      cases op with
      | tj is => rw [show is = [] from this]; rfl
      | _ => rfl
    simp only [Viewer.run, h0, run_still W ops (fun x hx => h x (by simp [hx])), List.append_nil]

theorem still_lines (align : Align) (lead prev : ℚ) (lines : List RLine) (h : ∀ l ∈ lines, l.ops = [.tj []]) : ∀ op ∈ renderLines align lines lead prev, op.Still := by
  have hl : ∀ op ∈ renderLeft lines lead, op.Still := by
    intro op hop
    simp only [renderLeft, List.mem_cons, List.mem_flatMap] at hop
    rcases hop with rfl | ⟨l, hl, rfl | hop⟩
    · trivial
    · trivial
    · rw [h l hl, List.mem_singleton] at hop; subst hop; exact rfl
  have hc : ∀ (lines : List RLine) (prev : ℚ), (∀ l ∈ lines, l.ops = [.tj []]) → ∀ op ∈ renderCentered lead lines prev, op.Still := by
    intro lines
    induction lines with
    | nil => intro _ _ op hop; cases hop
    | cons l ls ih =>
      intro prev h op hop
      simp only [renderCentered, h l (by simp), List.cons_append, List.nil_append, List.mem_cons] at hop
      rcases hop with rfl | rfl | hop
      · trivial
      · exact rfl
      · exact ih _ (fun x hx => h x (by simp [hx])) op hop
  have hr : ∀ (lines : List RLine) (prev : ℚ), (∀ l ∈ lines, l.ops = [.tj []]) → ∀ op ∈ renderRight lead lines prev, op.Still := by
    intro lines
    induction lines with
    | nil => intro _ _ op hop; cases hop
    | cons l ls ih =>
      intro prev h op hop
      simp only [renderRight, h l (by simp), List.cons_append, List.nil_append, List.mem_cons] at hop
      rcases hop with rfl | rfl | hop
      · trivial
      · exact rfl
      · exact ih _ (fun x hx => h x (by simp [hx])) op hop
  cases align with
  | left => exact hl
  | center => exact hc lines prev h
  | right => exact hr lines prev h
  | justify => exact hl

theorem chunk_sure (W : FontRef → Char → ℚ) (t : ShapedText) (pos : ℚ × ℚ) (width : ℚ) : (t.render pos width).Sure W := by
  intro v v'
  have key : ∀ u u' : Viewer, u.lineX = u'.lineX → u.lineY = u'.lineY → 
      (Viewer.run W (.td pos.1 pos.2 :: (match t.preState with | some s => s.ops | none => []) ++ renderLines t.align (t.lines.map TLine.toR) t.lead width) u).1 =
      (Viewer.run W (.td pos.1 pos.2 :: (match t.preState with | some s => s.ops | none => []) ++ renderLines t.align (t.lines.map TLine.toR) t.lead width) u').1 := by
    intro u u' hx hy
    cases hp : t.preState with
    | none =>
      have hw : ∀ l ∈ t.lines, l.words = [] := by
        rw [ShapedText.preState, Option.map_eq_none_iff, List.head?_eq_none_iff, List.flatMap_eq_nil_iff] at hp
        exact hp
      have hst := still_lines t.align t.lead width (t.lines.map TLine.toR) (by
        intro l hl
        obtain ⟨x, hx, rfl⟩ := List.mem_map.1 hl
        simp only [RLine.ops, TLine.toR, hw x hx]
        rfl)
      rw [run_still, run_still]
      all_goals
        intro op hop
        simp only [List.cons_append, List.nil_append, List.mem_cons] at hop
        rcases hop with rfl | hop
        · trivial
        · exact hst op hop
    | some s =>
      have hleft : ∀ lines lead, (Viewer.run W (.td pos.1 pos.2 :: s.ops ++ renderLeft lines lead) u).1 = (Viewer.run W (.td pos.1 pos.2 :: s.ops ++ renderLeft lines lead) u').1 := by
        intro lines lead
        simp only [State.ops, renderLeft, List.cons_append, List.nil_append, Viewer.run, Viewer.step, Viewer.newLine, hx, hy]
      have hcen : ∀ lines prev, (Viewer.run W (.td pos.1 pos.2 :: s.ops ++ renderCentered t.lead lines prev) u).1 = (Viewer.run W (.td pos.1 pos.2 :: s.ops ++ renderCentered t.lead lines prev) u').1 := by
        intro lines prev
        cases lines <;> simp only [State.ops, renderCentered, List.cons_append, List.nil_append, Viewer.run, Viewer.step, Viewer.newLine, hx, hy]
      have hri : ∀ lines prev, (Viewer.run W (.td pos.1 pos.2 :: s.ops ++ renderRight t.lead lines prev) u).1 = (Viewer.run W (.td pos.1 pos.2 :: s.ops ++ renderRight t.lead lines prev) u').1 := by
        intro lines prev
        cases lines <;> simp only [State.ops, renderRight, List.cons_append, List.nil_append, Viewer.run, Viewer.step, Viewer.newLine, hx, hy]
      cases t.align with
      | left => exact hleft _ _
      | center => exact hcen _ _
      | right => exact hri _ _
      | justify => exact hleft _ _
  simp only [ShapedText.render, renderText, Viewer.page, List.append_nil]
  exact key v.beginText v'.beginText rfl rfl

theorem cols_sure (W : FontRef → Char → ℚ) (cols : List ColumnFill) : ∀ op ∈ cols.flatMap ColumnFill.ops, op.Sure W := by
  intro op hop
  obtain ⟨c, -, hop⟩ := List.mem_flatMap.1 hop
  obtain ⟨⟨pos, x⟩, -, hop⟩ := List.mem_flatMap.1 hop
  cases x with
  | text t =>
    simp only [Shaped.render, List.mem_singleton] at hop
    subst hop
    exact chunk_sure W t pos _
  | rule a b c h =>
    simp only [Shaped.render, List.mem_cons, List.not_mem_nil, or_false] at hop
    rcases hop with rfl | rfl | rfl | rfl <;> exact fun _ _ => rfl

/-- What the columns paint does not depend on the colours in use before. -/
theorem cols_paint (cols : List ColumnFill) : ∀ g g' : Gfx, g.path = [] → g'.path = [] →
    (Gfx.run (cols.flatMap ColumnFill.ops) g).map (·.1) = (Gfx.run (cols.flatMap ColumnFill.ops) g').map (·.1) := by
  have key : ∀ (xs : List ((ℚ × ℚ) × Shaped × ℚ)) (g g' : Gfx), g.path = [] → g'.path = [] →
      (Gfx.run (xs.flatMap fun e => e.2.1.render e.1 e.2.2) g).map (·.1) = (Gfx.run (xs.flatMap fun e => e.2.1.render e.1 e.2.2) g').map (·.1) := by
    intro xs
    induction xs with
    | nil => intro g g' _ _; rfl
    | cons e xs ih =>
      intro g g' h h'
      obtain ⟨pos, x, width⟩ := e
      rw [List.flatMap_cons, gfxRun_append, gfxRun_append]
      cases x with
      | text t =>
        simp only [Shaped.render, ShapedText.render, renderText, Gfx.run, Gfx.step, h, h']
        simp only [Option.bind_some, if_true, Option.map_map, List.append_nil, List.nil_append]
        exact ih _ _ rfl rfl
      | rule a b c ht =>
        obtain ⟨f1, s1, p1⟩ := g
        obtain ⟨f2, s2, p2⟩ := g'
        simp only at h h'
        subst h h'
        have := ih ⟨f1, c, []⟩ ⟨f2, c, []⟩ rfl rfl
        rw [show (Shaped.rule a b c ht).render pos width = [.moveTo a.1 a.2, .lineTo b.1 b.2, .strokeColor c, .paint .stroke] from rfl]
        simp only [Gfx.run, Gfx.step, Gfx.segment, List.nil_append, List.getLast?_singleton, List.dropLast_singleton, Option.map_some, reduceCtorEq, if_false, List.append_nil, Option.bind_some,
          Option.map_map, List.cons_ne_nil]
        have h2 := congrArg (Option.map fun y : List Shape => (⟨[⟨a, [.line b], false⟩], none, some c⟩ : Shape) :: y) this
        simpa [Option.map_map, Function.comp_def] using h2
  intro g g' h h'
  have e : cols.flatMap ColumnFill.ops = (cols.flatMap fun c => c.blocks.map fun e => (e.1, e.2, c.box.width)).flatMap fun e => e.2.1.render e.1 e.2.2 := by
    rw [List.flatMap_assoc]
    congr 1
    funext c
    simp [ColumnFill.ops, List.flatMap_map]
  rw [e]
  exact key _ g g' h h'

/-! ### Pages without drawings -/

/-- The page being filled, without its drawings. -/
def PageFill.bare (p : PageFill) : PageFill := { p with base := p.base.bare }

theorem columnsLeft_bare (doc : Nat → PageFill) : columnsLeft (fun n => (doc n).bare) = columnsLeft doc := rfl

theorem fillLoop_bare : ∀ (fuel : Nat) (filled : List ColumnFill) (doc : Nat → PageFill),
    fillLoop fuel filled (fun n => (doc n).bare) = ((fillLoop fuel filled doc).1.map PageFill.bare, fun n => ((fillLoop fuel filled doc).2 n).bare) := by
  intro fuel
  induction fuel with
  | zero => intro filled doc; rfl
  | succ fuel ih =>
    intro filled doc
    rw [fillLoop, fillLoop]
    have e : (doc 0).bare.todo = (doc 0).todo := rfl
    simp only [e]
    cases filled.drop (doc 0).todo.length with
    | nil => rfl
    | cons x xs =>
      simp only [ih (x :: xs) fun n => doc (n + 1)]
      rfl

theorem fillInto_bare (filled : List ColumnFill) (doc : Nat → PageFill) :
    fillInto filled (fun n => (doc n).bare) = (fillInto filled doc).map fun x => (fun n => (x.1 n).bare, x.2.map PageFill.bare) := by
  unfold fillInto
  simp only [fillLoop_bare, List.getLast?_map]
  split
  · rfl
  · cases (fillLoop filled.length filled doc).1.getLast? with
    | none => rfl
    | some p =>
      simp only [Option.map_some]
      have hr : p.bare.reopen = p.reopen.map PageFill.bare := by
        unfold PageFill.reopen
        have e : p.bare.done = p.done := rfl
        rw [e]
        cases p.done.getLast? <;> rfl
      rw [hr, Option.map_map, Option.map_map]
      congr 1
      funext q
      simp only [Function.comp_apply, List.map_dropLast, Prod.mk.injEq, and_true]
      funext n
      cases n <;> rfl

/-- Two pages, the first without drawings, with columns that differ by the numbers of fonts. -/
structure FilledDec (r r' : Res) (p q : Filled) : Prop where
  base : p.base = q.base.bare
  cols : ∀ ν : Renaming, ν.Good r r' → q.cols = colsRe ν p.cols

/-- The pages that are written. -/
structure WrittenDec (w : World) (s : StyleFull) (ν : Renaming) (p q : Written) : Prop where
  base : p.page.base = q.page.base.bare
  plain : p.ops = p.page.cols.flatMap ColumnFill.ops
  ops : ∃ own, (∃ r bytes r', drawingsRun w s q.page.base.content r = (some (own, bytes), r')) ∧ q.ops = own ++ q.page.cols.flatMap ColumnFill.ops
  same : q.page.cols.flatMap ColumnFill.ops = opsRe ν p.ops

/-- The runs, if the one with the drawings has no error. -/
structure RunDec (w : World) (s : StyleFull) (a b : PagesRun) : Prop where
  pair : a.res.Pair b.res
  err : a.err = none
  length : b.pages.length = a.pages.length
  pages : ∀ ν : Renaming, ν.Good a.res b.res → List.Forall₂ (WrittenDec w s ν) a.pages b.pages

theorem Res.Pair.later {r r' r2 : Res} (h : r.Pair r') (k : r'.Reach r2) : r.Pair r2 := by
  obtain ⟨k1, k2⟩ := k.wf h.right
  refine ⟨h.left, k2, fun x hx => ?_⟩
  obtain ⟨i, hi⟩ := List.mem_iff_getElem?.1 (h.sub x hx)
  exact List.mem_of_getElem? (subKeys_le k1 hi)

theorem writePages_dec (w : World) {s : StyleFull} (hs : s.Known) : ∀ {ps qs : List Filled} {r r' : Res}, r.Pair r' → List.Forall₂ (FilledDec r r') ps qs →
    (∀ p ∈ ps, p.Ok r) → (∀ q ∈ qs, q.Ok r') → (writePages w s qs r').err = none → RunDec w s (writePages w s ps r) (writePages w s qs r')
  | [], _, r, r', h, .nil, _, _, _ => ⟨h, rfl, rfl, fun _ _ => .nil⟩
  | p :: ps, q :: qs, r, r', h, .cons hpq hl, hp, hq, herr => by
    have k1 := p.reach w s hs r (hp p (by simp)).known
    have k1' := q.reach w s hs r' (hq q (by simp)).known
    rw [writePages] at herr
    rw [writePages, writePages]
    have hd := drawingsRun_reach w s hs q.base.content r' (hq q (by simp)).known
    have hpc : p.base.content = [] := by rw [hpq.base]; rfl
    obtain ⟨o', ho'⟩ : ∃ o, q.run w s r' = o := ⟨_, rfl⟩
    obtain ⟨o, ho⟩ : ∃ o, p.run w s r = o := ⟨_, rfl⟩
    rw [ho'] at herr k1'
    rw [ho] at k1
    rw [ho, ho']
    obtain ⟨a', r1'⟩ := o'
    cases a' with
    | none => simp at herr
    | some z' =>
      obtain ⟨ops', b'⟩ := z'
      simp only at herr k1'
      rw [Filled.run] at ho'
      rw [Filled.run, hpc] at ho
      simp only [drawingsRun] at ho
      split at ho'
      · simp at ho'
      · rename_i own bown rd hown
        rw [hown] at hd
        simp only at hd
        split at ho'
        · simp at ho'
        · rename_i bc rc hbc
          simp only [Prod.mk.injEq, Option.some.injEq] at ho'
          obtain ⟨⟨rfl, rfl⟩, rfl⟩ := ho'
          obtain ⟨b, r2, hb⟩ := opsBytes_some h.left (colsFonts (hp p (by simp)).fonts)
          rw [hb] at ho
          simp only at ho
          subst ho
          simp only [List.nil_append] at k1 ⊢
          have p1 : r2.Pair rc := bytes_pair (h.later hd) hb hbc
          have hl' : List.Forall₂ (FilledDec r2 rc) ps qs := hl.imp fun x y hxy => ⟨hxy.base, fun ν hν => hxy.cols ν (hν.before h k1 k1')⟩
          have i := writePages_dec w hs p1 hl' (fun x hx => (hp x (by simp [hx])).mono (k1.wf h.left).1) (fun x hx => (hq x (by simp [hx])).mono (k1'.wf h.right).1) herr
          have k2 := writePages_reach w s hs ps r2 fun x hx => (hp x (by simp [hx])).known
          have k2' := writePages_reach w s hs qs rc fun x hx => (hq x (by simp [hx])).known
          refine ⟨i.pair, i.err, by simp [i.length], fun ν hν => .cons ⟨hpq.base, rfl, ⟨own, ⟨_, _, _, hown⟩, rfl⟩, ?_⟩ (i.pages ν hν)⟩
          simp only
          rw [hpq.cols ν ((hν.before p1 k2 k2').before h k1 k1'), colsOps_re]

theorem RunDec.andThen {w : World} {s : StyleFull} {a b : PagesRun} {f g : Res → PagesRun} (h : b.err = none → RunDec w s a b)
    (hf : a.err = none → b.err = none → (g b.res).err = none → RunDec w s (f a.res) (g b.res))
    (ka : a.err = none → a.res.Reach (f a.res).res) (kb : b.err = none → b.res.Reach (g b.res).res) (herr : (b.andThen g).err = none) : RunDec w s (a.andThen f) (b.andThen g) := by
  unfold PagesRun.andThen at herr ⊢
  cases hb : b.err with
  | some e' => rw [hb] at herr; simp at herr
  | none =>
    rw [hb] at herr
    simp only at herr
    have h := h hb
    rw [h.err]
    have i := hf h.err hb herr
    exact ⟨i.pair, i.err, by simp [h.length, i.length], fun ν hν => List.rel_append (h.pages ν (hν.before h.pair (ka h.err) (kb hb))) (i.pages ν hν)⟩

theorem auto_dec (w : World) {s : StyleFull} (hs : s.Known) : ∀ {bs : List Block} {doc doc' : Nat → PageFill} {r r' : Res}, r.Pair r' → (∀ b ∈ bs, b.Known) →
    (∀ n, (doc n).todo ≠ []) → (∀ ν : Renaming, ν.Good r r' → ∀ n, (doc' n).bare = (doc n).via ν.change) → (∀ n, (doc n).Ok r) → (∀ n, (doc' n).Ok r') →
    (autoLoop w s bs doc' r').err = none → RunDec w s (autoLoop w s bs doc r) (autoLoop w s bs doc' r')
  | [], doc, doc', r, r', h, _, _, hd, ho, ho', herr => by
    rw [autoLoop] at herr
    rw [autoLoop, autoLoop]
    obtain ⟨μ, hμ, -⟩ := exists_good w h
    refine writePages_dec w hs h (.cons ⟨?_, fun ν hν => ?_⟩ .nil) ?_ ?_ herr
    · have := congrArg PageFill.base (hd μ hμ 0)
      rw [fillRenamed] at this
      exact this.symm
    · have h1 := congrArg PageFill.done (hd ν hν 0)
      have h2 := congrArg PageFill.todo (hd ν hν 0)
      simp only [PageFill.bare, PageFill.via] at h1 h2
      simp only [colsRe, List.map_append, h1, h2]
    · intro p hp
      simp only [List.mem_singleton] at hp
      subst hp
      refine ⟨(ho 0).known, fun c hc => ?_⟩
      rcases List.mem_append.mp hc with hc | hc
      · exact (ho 0).done c hc
      · exact (ho 0).todo c hc
    · intro p hp
      simp only [List.mem_singleton] at hp
      subst hp
      refine ⟨(ho' 0).known, fun c hc => ?_⟩
      rcases List.mem_append.mp hc with hc | hc
      · exact (ho' 0).done c hc
      · exact (ho' 0).todo c hc
  | b :: bs, doc, doc', r, r', h, hk, ht, hd, ho, ho', herr => by
    have hkb := hk b (by simp)
    have hkbs : ∀ b ∈ bs, b.Known := fun x hx => hk x (by simp [hx])
    have hcols : ∀ ν : Renaming, ν.Good r r' → ∀ i, columnsLeft doc' i = (columnsLeft doc i).via ν.change := by
      intro ν hν i
      rw [← columnsLeft_via ν.change doc ht i, ← columnsLeft_bare doc']
      congr 1
      funext n
      exact hd ν hν n
    obtain ⟨p1, e1⟩ := block_iso w hs h hkb hcols (columnsLeft_fonts ho)
    have k1 := b.reach w s r (columnsLeft doc) hkb hs
    have k1' := b.reach w s r' (columnsLeft doc') hkb hs
    rw [autoLoop] at herr
    rw [autoLoop, autoLoop]
    obtain ⟨o, hx⟩ : ∃ o, b.intoColumns w r s (columnsLeft doc) = o := ⟨_, rfl⟩
    obtain ⟨o', hx'⟩ : ∃ o, b.intoColumns w r' s (columnsLeft doc') = o := ⟨_, rfl⟩
    obtain ⟨a, r1⟩ := o
    obtain ⟨a', r1'⟩ := o'
    rw [hx, hx'] at p1 e1
    rw [hx] at k1
    rw [hx'] at k1' herr
    rw [hx, hx']
    simp only at p1 e1 k1 k1' herr
    obtain ⟨l1, w1⟩ := k1.wf h.left
    obtain ⟨l1', w1'⟩ := k1'.wf h.right
    obtain ⟨μ, hμ, -⟩ := exists_good w p1
    have hm := e1 μ hμ
    cases a' with
    | none => simp at herr
    | some filled' => cases a with
      | none => simp at hm
      | some filled =>
        simp only [Option.map_some, Option.some.injEq] at e1
        have hfill : ∀ ν : Renaming, ν.Good r1 r1' → (fillInto filled' doc').map (fun x => (fun n => (x.1 n).bare, x.2.map PageFill.bare)) =
            (fillInto filled doc).map fun x => (fun n => (x.1 n).via ν.change, x.2.map (PageFill.via ν.change)) := by
          intro ν hν
          rw [← fillInto_bare, ← fillInto_via, e1 ν hν, colsRe]
          congr 1
          funext n
          exact hd ν (hν.before h k1 k1') n
        have h2 := Block.intoColumns_fonts h.left hkb hs (columnsLeft_fonts ho) hx
        have h2' := Block.intoColumns_fonts h.right hkb hs (columnsLeft_fonts ho') hx'
        simp only at herr ⊢
        obtain ⟨y, hy⟩ : ∃ y, fillInto filled doc = y := ⟨_, rfl⟩
        obtain ⟨y', hy'⟩ : ∃ y, fillInto filled' doc' = y := ⟨_, rfl⟩
        rw [hy, hy'] at hfill
        rw [hy'] at herr
        rw [hy, hy']
        have hm2 := hfill μ hμ
        cases y' with
        | none => simp at herr
        | some y' =>
          cases y with
          | none => simp at hm2
          | some y =>
            obtain ⟨d1, completed⟩ := y
            obtain ⟨d1', completed'⟩ := y'
            simp only [Option.map_some, Option.some.injEq, Prod.mk.injEq] at hfill
            obtain ⟨c1, c2⟩ := fillInto_ok hy h2 fun n => (ho n).mono l1
            obtain ⟨c1', c2'⟩ := fillInto_ok hy' h2' fun n => (ho' n).mono l1'
            simp only at herr ⊢
            have q1 : ∀ p ∈ completed.map (fun p => (⟨p.base, p.done⟩ : Filled)), p.Ok r1 := by
              intro p hp
              obtain ⟨q, hq, rfl⟩ := List.mem_map.1 hp
              exact ⟨(c1 q hq).known, (c1 q hq).done⟩
            have q1' : ∀ p ∈ completed'.map (fun p => (⟨p.base, p.done⟩ : Filled)), p.Ok r1' := by
              intro p hp
              obtain ⟨q, hq, rfl⟩ := List.mem_map.1 hp
              exact ⟨(c1' q hq).known, (c1' q hq).done⟩
            have hl : List.Forall₂ (FilledDec r1 r1') (completed.map fun p => ⟨p.base, p.done⟩) (completed'.map fun p => ⟨p.base, p.done⟩) := by
              rw [List.forall₂_map_left_iff, List.forall₂_map_right_iff, List.forall₂_iff_get]
              have hlen := congrArg List.length (hfill μ hμ).2
              simp only [List.length_map] at hlen
              refine ⟨hlen.symm, fun i h1 h1' => ⟨?_, fun ν hν => ?_⟩⟩
              · have := congrArg (fun l : List PageFill => l[i]?) (hfill μ hμ).2
                simp only [List.getElem?_map, List.getElem?_eq_getElem h1, List.getElem?_eq_getElem h1', Option.map_some, Option.some.injEq] at this
                have := congrArg PageFill.base this
                rw [fillRenamed] at this
                exact this.symm
              · have := congrArg (fun l : List PageFill => l[i]?) (hfill ν hν).2
                simp only [List.getElem?_map, List.getElem?_eq_getElem h1, List.getElem?_eq_getElem h1', Option.map_some, Option.some.injEq] at this
                exact congrArg PageFill.done this
            have k2 := writePages_reach w s hs (completed.map fun p => ⟨p.base, p.done⟩) r1 fun p hp => (q1 p hp).known
            have k2' := writePages_reach w s hs (completed'.map fun p => ⟨p.base, p.done⟩) r1' fun p hp => (q1' p hp).known
            refine RunDec.andThen (fun hb => writePages_dec w hs p1 hl q1 q1' hb) (fun ha hb hg => ?_) (fun _ => ?_) (fun _ => ?_) herr
            · have i := writePages_dec w hs p1 hl q1 q1' hb
              refine auto_dec w hs i.pair hkbs (fillInto_todo ht hy) (fun ν hν n => ?_) (fun n => (c2 n).mono (k2.wf w1).1) (fun n => (c2' n).mono (k2'.wf w1').1) hg
              exact congrFun (hfill ν (hν.before p1 k2 k2')).1 n
            · exact autoLoop_reach w s hs bs d1 _ hkbs fun n => (c2 n).known
            · exact autoLoop_reach w s hs bs d1' _ hkbs fun n => (c2' n).known

theorem page_bare_known {p : Page} : p.bare.Known := by simp [Page.Known, Page.bare]

theorem item_dec (w : World) {s : StyleFull} (hs : s.Known) {it : DocItem} (hk : it.Known) (hc : it.HasColumns) (n : Nat) {r r' : Res} (h : r.Pair r')
    (herr : (it.run w s n r').err = none) : RunDec w s (it.bare.run w s n r) (it.run w s n r') := by
  cases it with
  | page p =>
    refine writePages_dec w hs h (.cons ⟨rfl, fun _ _ => rfl⟩ .nil) ?_ ?_ herr
    · intro q hq
      simp only [List.mem_singleton] at hq
      subst hq
      exact ⟨page_bare_known, by simp⟩
    · intro q hq
      simp only [List.mem_singleton] at hq
      subst hq
      exact ⟨hk, by simp⟩
  | auto a =>
    have hc' : ∀ n, (a.template n).columns ≠ [] := hc
    refine auto_dec w hs h hk.1 (fun m => by simpa [PageFill.new, Page.bare] using hc' _) (fun ν _ m => ?_) (fun m => pageNew_ok page_bare_known r) (fun m => pageNew_ok (hk.2 _) r') herr
    rw [← pageNew_via, pageRenamed]
    rfl

theorem bare_known {it : DocItem} (h : it.Known) : it.bare.Known := by
  cases it with
  | page p => exact page_bare_known
  | auto a => exact ⟨h.1, fun n => page_bare_known⟩

theorem docRun_dec (w : World) {s : StyleFull} (hs : s.Known) : ∀ {items : List DocItem} {done : Nat} {r r' : Res}, r.Pair r' → (∀ it ∈ items, it.Known) → (∀ it ∈ items, it.HasColumns) →
    (docRun w s items done r').err = none → RunDec w s (docRun w s (items.map DocItem.bare) done r) (docRun w s items done r')
  | [], _, r, r', h, _, _, _ => ⟨h, rfl, rfl, fun _ _ => .nil⟩
  | it :: items, done, r, r', h, hk, hc, herr => by
    have hk' : ∀ it ∈ items, it.Known := fun x hx => hk x (by simp [hx])
    have hkb : ∀ it ∈ items.map DocItem.bare, it.Known := by
      intro x hx
      obtain ⟨y, hy, rfl⟩ := List.mem_map.1 hx
      exact bare_known (hk' y hy)
    rw [docRun] at herr
    rw [List.map_cons, docRun, docRun]
    have i := fun e => item_dec w hs (hk it (by simp)) (hc it (by simp)) (done + 1) h e
    have he : (it.run w s (done + 1) r').err = none := by
      unfold PagesRun.andThen at herr
      split at herr
      · cases herr
      · assumption
    have hlen := (i he).length
    simp only [hlen] at herr ⊢
    exact RunDec.andThen i (fun _ hb hg => docRun_dec w hs (i hb).pair hk' (fun x hx => hc x (by simp [hx])) hg) (fun _ => docRun_reach w s hs _ hkb _ _)
      (fun _ => docRun_reach w s hs items hk' _ _) herr

end Pdfje
