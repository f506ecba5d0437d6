import Verif.Proofs.IsolatedStyle
import Verif.Proofs.DocRead
/-
Pages and documents, with fonts of other numbers.
-/

namespace Pdfje

/-- The same steps with two registries: the results differ by the numbers of fonts. -/
structure StepIso {α : Type} (via : Renaming → α → α) (a b : Option α × Res) : Prop where
  pair : a.2.Pair b.2
  same : ∀ ν : Renaming, ν.Good a.2 b.2 → b.1 = a.1.map (via ν)

/-- Operators with other numbers. -/
def opsRe (ν : Renaming) (ops : List PageOp) : List PageOp := ops.map (PageOp.via ν.change)

/-- Columns with other numbers. -/
def colsRe (ν : Renaming) (l : List ColumnFill) : List ColumnFill := l.map (ColumnFill.via ν.change)

/-! ### Drawings -/

theorem fontless_op (ν : Renaming) {op : PageOp} (h : op.Fonts fun _ => False) : op.via ν.change = op := by
  cases op with
  | text ops =>
    rw [PageOp.via]
    congr 1
    refine (List.map_congr_left fun t ht => ?_).trans (List.map_id' _)
    have := h t ht
    cases t with
    | tf f z => exact this.elim
    | tj is =>
      rw [TextOp.via]
      congr 1
      refine (List.map_congr_left fun i hi => ?_).trans (List.map_id' _)
      cases i with
      | adj x => rfl
      | txt f s => exact (this _ hi).elim
    | _ => simp [TextOp.via, Renaming.change]
  | _ => simp [PageOp.via, Renaming.change]

theorem textOps_iso (w : World) (loc : ℚ × ℚ) (content : List Item) (style : Style) (align : Align) {s : StyleFull} (hs : s.Known) {r r' : Res} (h : r.Pair r')
    (hc : ∀ i ∈ content, i.Known) (hst : style.Known) : StepIso opsRe (textOps w loc content style align s r) (textOps w loc content style align s r') := by
  obtain ⟨p1, e1⟩ := asState_good h hs
  obtain ⟨p2, -, e2⟩ := flattenSpan_good style s [] content _ _ p1 hc hst hs (by simp)
  have k := (flattenSpan_reach style s [] content (s.asState r).2 hc hst hs (by simp)).1
  have k' := (flattenSpan_reach style s [] content (s.asState r').2 hc hst hs (by simp)).1
  have hend : (textOps w loc content style align s r).2.Pair (textOps w loc content style align s r').2 := p2
  refine ⟨hend, fun ν hν => ?_⟩
  obtain ⟨μ, hμ, henv⟩ := exists_good w p2
  have a1 := e1 μ (hμ.before p1 k k')
  have a2 := e2 μ hμ
  have key : (textOps w loc content style align s r').1 = (textOps w loc content style align s r).1.map (opsRe μ) := by
    unfold textOps
    simp only [a1, a2, ← henv, splitlines_via, intoTextLines_via, Option.map_map]
    congr 1
    funext ls
    have := renderText_via μ.change loc (some (s.asState r).1) 0 ls (maxLead (flattenSpan style s [] content (s.asState r).2).1 (s.asState r).1) align
    simp only [Renaming.pt, Option.map_some, mul_zero, ← maxLead_via] at this
    simp only [Function.comp, this, opsRe, List.map_cons, List.map_nil]
  rw [key]
  obtain ⟨o, ho⟩ : ∃ o, textOps w loc content style align s r = o := ⟨_, rfl⟩
  obtain ⟨a, r2⟩ := o
  rw [ho] at hν ⊢
  cases a with
  | none => rfl
  | some ops =>
    have hf := textOps_fonts h.left hc hst hs ho
    have ha : ∀ f, r2.Knows f → μ.font f = ν.font f := by
      have hμ' : μ.Good (textOps w loc content style align s r).2 (textOps w loc content style align s r').2 := hμ
      rw [ho] at hμ'
      exact hμ'.agree hend.right hν
    simp only [Option.map_some, opsRe, opsAgree ha hf]

theorem render_iso (w : World) {s : StyleFull} (hs : s.Known) {r r' : Res} (h : r.Pair r') {d : Drawing} (hd : d.Known) : StepIso opsRe (d.render w s r) (d.render w s r') := by
  have hplain : (∀ r, d.render w s r = ((d.render w s .empty).1, r)) → StepIso opsRe (d.render w s r) (d.render w s r') := by
    intro hp
    obtain ⟨o, ho⟩ : ∃ o, (d.render w s .empty).1 = o := ⟨_, rfl⟩
    have h0 := hp .empty
    rw [ho] at h0
    rw [hp r, hp r', ho]
    refine ⟨h, fun ν _ => ?_⟩
    cases o with
    | none => rfl
    | some ops =>
      have hf := Drawing.render_fonts Res.wf_empty hd hs h0
      have hno : ∀ f, Res.empty.Knows f → False := by
        intro f hf
        cases f with
        | builtin b => obtain ⟨e, he, -⟩ := hf; simp [Res.empty] at he
        | subset i => exact Nat.not_lt_zero i hf
      have : opsRe ν ops = ops := (List.map_congr_left fun op hop => fontless_op ν ((hf op hop).mono hno)).trans (List.map_id' _)
      simp only [Option.map_some, this]
  cases d with
  | text loc content style align => exact textOps_iso w loc content style align hs h hd.1 hd.2
  | _ => exact hplain fun _ => rfl

theorem bytes_pair {r r' r2 r2' : Res} (h : r.Pair r') {ops ops' : List PageOp} {b b' : Bytes} (h1 : opsBytes ops r = some (b, r2)) (h2 : opsBytes ops' r' = some (b', r2')) : r2.Pair r2' :=
  ⟨((opsBytes_reach ops h1).wf h.left).2, ((opsBytes_reach ops' h2).wf h.right).2, by rw [opsBytes_keys h1, opsBytes_keys h2]; exact h.sub⟩

theorem drawings_iso (w : World) {s : StyleFull} (hs : s.Known) : ∀ {ds : List Drawing} {r r' : Res}, r.Pair r' → (∀ d ∈ ds, d.Known) →
    StepIso opsRe ((drawingsRun w s ds r).1.map (·.1), (drawingsRun w s ds r).2) ((drawingsRun w s ds r').1.map (·.1), (drawingsRun w s ds r').2)
  | [], r, r', h, _ => ⟨h, fun _ _ => rfl⟩
  | d :: ds, r, r', h, hk => by
    obtain ⟨p1, e1⟩ := render_iso w hs h (hk d (by simp))
    have hk' : ∀ d ∈ ds, d.Known := fun x hx => hk x (by simp [hx])
    rw [drawingsRun, drawingsRun]
    obtain ⟨o, ho⟩ : ∃ o, d.render w s r = o := ⟨_, rfl⟩
    obtain ⟨o', ho'⟩ : ∃ o, d.render w s r' = o := ⟨_, rfl⟩
    obtain ⟨a, r1⟩ := o
    obtain ⟨a', r1'⟩ := o'
    rw [ho, ho'] at p1 e1
    rw [ho, ho']
    simp only at p1 e1
    obtain ⟨μ, hμ, -⟩ := exists_good w p1
    cases a with
    | none =>
      have := e1 μ hμ
      simp only [Option.map_none] at this
      subst this
      exact ⟨p1, fun _ _ => rfl⟩
    | some ops =>
      have hm := e1 μ hμ
      simp only [Option.map_some] at hm
      obtain ⟨ops', rfl⟩ : ∃ x, a' = some x := ⟨_, hm⟩
      obtain ⟨b, r2, hb⟩ := opsBytes_some p1.left (Drawing.render_fonts h.left (hk d (by simp)) hs ho)
      obtain ⟨b', r2', hb'⟩ := opsBytes_some p1.right (Drawing.render_fonts h.right (hk d (by simp)) hs ho')
      have p2 := bytes_pair p1 hb hb'
      obtain ⟨p3, e3⟩ := drawings_iso w hs p2 hk'
      have k3 := drawingsRun_reach w s hs ds r2 hk'
      have k3' := drawingsRun_reach w s hs ds r2' hk'
      simp only [hb, hb']
      obtain ⟨q, hq⟩ : ∃ o, drawingsRun w s ds r2 = o := ⟨_, rfl⟩
      obtain ⟨q', hq'⟩ : ∃ o, drawingsRun w s ds r2' = o := ⟨_, rfl⟩
      obtain ⟨z, r3⟩ := q
      obtain ⟨z', r3'⟩ := q'
      rw [hq, hq'] at p3 e3
      rw [hq] at k3
      rw [hq'] at k3'
      rw [hq, hq']
      simp only at p3 e3 k3 k3'
      obtain ⟨κ, hκ, -⟩ := exists_good w p3
      have hz := e3 κ hκ
      cases z with
      | none => cases z' with
        | none => exact ⟨p3, fun _ _ => rfl⟩
        | some z' => simp at hz
      | some z => cases z' with
        | none => simp at hz
        | some z' =>
          refine ⟨p3, fun ν hν => ?_⟩
          have n1 := e1 ν ((hν.before p2 k3 k3').before p1 (opsBytes_reach ops hb) (opsBytes_reach ops' hb'))
          have n3 := e3 ν hν
          simp only [Option.map_some, Option.some.injEq] at n1 n3 ⊢
          rw [n1, n3]
          simp only [opsRe, List.map_append]

/-! ### Pages -/

theorem colsOps_re (ν : Renaming) (l : List ColumnFill) : (colsRe ν l).flatMap ColumnFill.ops = opsRe ν (l.flatMap ColumnFill.ops) := by
  unfold colsRe opsRe
  simp only [List.flatMap_map, List.map_flatMap, columnOps_via]

theorem colsFonts {l : List ColumnFill} {r : Res} (h : ∀ c ∈ l, c.Fonts r.Knows) : ∀ op ∈ l.flatMap ColumnFill.ops, op.Fonts r.Knows := by
  intro op hop
  obtain ⟨c, hc, hop⟩ := List.mem_flatMap.1 hop
  exact (h c hc).ops op hop

/-- Two pages with columns that differ by the numbers of fonts. -/
structure FilledIso (r r' : Res) (p q : Filled) : Prop where
  base : q.base = p.base
  cols : ∀ ν : Renaming, ν.Good r r' → q.cols = colsRe ν p.cols

theorem filled_iso (w : World) {s : StyleFull} (hs : s.Known) {r r' : Res} (h : r.Pair r') {p q : Filled} (hpq : FilledIso r r' p q) (hp : p.Ok r) (hq : q.Ok r') :
    StepIso opsRe ((p.run w s r).1.map (·.1), (p.run w s r).2) ((q.run w s r').1.map (·.1), (q.run w s r').2) := by
  obtain ⟨p1, e1⟩ := drawings_iso w hs (ds := p.base.content) h hp.known
  have k1 := drawingsRun_reach w s hs p.base.content r hp.known
  have k1' := drawingsRun_reach w s hs p.base.content r' hp.known
  rw [Filled.run, Filled.run, hpq.base]
  obtain ⟨o, ho⟩ : ∃ o, drawingsRun w s p.base.content r = o := ⟨_, rfl⟩
  obtain ⟨o', ho'⟩ : ∃ o, drawingsRun w s p.base.content r' = o := ⟨_, rfl⟩
  obtain ⟨a, r1⟩ := o
  obtain ⟨a', r1'⟩ := o'
  rw [ho, ho'] at p1 e1
  rw [ho] at k1
  rw [ho'] at k1'
  rw [ho, ho']
  simp only at p1 e1 k1 k1'
  obtain ⟨μ, hμ, -⟩ := exists_good w p1
  have hm := e1 μ hμ
  cases a with
  | none => cases a' with
    | none => exact ⟨p1, fun _ _ => rfl⟩
    | some z' => simp at hm
  | some z => cases a' with
    | none => simp at hm
    | some z' =>
      obtain ⟨b, r2, hb⟩ := opsBytes_some p1.left (colsFonts (hp.mono (k1.wf h.left).1).fonts)
      obtain ⟨b', r2', hb'⟩ := opsBytes_some p1.right (colsFonts (hq.mono (k1'.wf h.right).1).fonts)
      have p2 := bytes_pair p1 hb hb'
      simp only [hb, hb']
      refine ⟨p2, fun ν hν => ?_⟩
      have g1 := hν.before p1 (opsBytes_reach _ hb) (opsBytes_reach _ hb')
      have n1 := e1 ν g1
      simp only [Option.map_some, Option.some.injEq] at n1 ⊢
      rw [n1, hpq.cols ν (g1.before h k1 k1'), colsOps_re]
      simp only [opsRe, List.map_append]

/-- The pages differ by the numbers of fonts. -/
structure WrittenIso (ν : Renaming) (p q : Written) : Prop where
  base : q.page.base = p.page.base
  ops : q.ops = opsRe ν p.ops

/-- The runs differ by the numbers of fonts. -/
structure RunIso (a b : PagesRun) : Prop where
  pair : a.res.Pair b.res
  err : b.err.isSome = a.err.isSome
  length : b.pages.length = a.pages.length
  pages : ∀ ν : Renaming, ν.Good a.res b.res → List.Forall₂ (WrittenIso ν) a.pages b.pages

theorem writePages_iso (w : World) {s : StyleFull} (hs : s.Known) : ∀ {ps qs : List Filled} {r r' : Res}, r.Pair r' → List.Forall₂ (FilledIso r r') ps qs →
    (∀ p ∈ ps, p.Ok r) → (∀ q ∈ qs, q.Ok r') → RunIso (writePages w s ps r) (writePages w s qs r')
  | [], _, r, r', h, .nil, _, _ => ⟨h, rfl, rfl, fun _ _ => .nil⟩
  | p :: ps, q :: qs, r, r', h, .cons hpq hl, hp, hq => by
    obtain ⟨p1, e1⟩ := filled_iso w hs h hpq (hp p (by simp)) (hq q (by simp))
    have k1 := p.reach w s hs r (hp p (by simp)).known
    have k1' := q.reach w s hs r' (hq q (by simp)).known
    rw [writePages, writePages]
    obtain ⟨o, ho⟩ : ∃ o, p.run w s r = o := ⟨_, rfl⟩
    obtain ⟨o', ho'⟩ : ∃ o, q.run w s r' = o := ⟨_, rfl⟩
    obtain ⟨a, r1⟩ := o
    obtain ⟨a', r1'⟩ := o'
    rw [ho, ho'] at p1 e1
    rw [ho] at k1
    rw [ho'] at k1'
    rw [ho, ho']
    simp only at p1 e1 k1 k1'
    obtain ⟨μ, hμ, -⟩ := exists_good w p1
    have hm := e1 μ hμ
    cases a with
    | none => cases a' with
      | none => exact ⟨p1, rfl, rfl, fun _ _ => .nil⟩
      | some z' => simp at hm
    | some z => cases a' with
      | none => simp at hm
      | some z' =>
        have hl' : List.Forall₂ (FilledIso r1 r1') ps qs := hl.imp fun x y hxy => ⟨hxy.base, fun ν hν => hxy.cols ν (hν.before h k1 k1')⟩
        have i := writePages_iso w hs p1 hl' (fun x hx => (hp x (by simp [hx])).mono (k1.wf h.left).1) (fun x hx => (hq x (by simp [hx])).mono (k1'.wf h.right).1)
        have k2 := writePages_reach w s hs ps r1 fun x hx => (hp x (by simp [hx])).known
        have k2' := writePages_reach w s hs qs r1' fun x hx => (hq x (by simp [hx])).known
        refine ⟨i.pair, i.err, by simp [i.length], fun ν hν => .cons ⟨hpq.base, ?_⟩ (i.pages ν hν)⟩
        have n1 := e1 ν (hν.before p1 k2 k2')
        simpa using n1

theorem RunIso.andThen {a b : PagesRun} {f g : Res → PagesRun} (h : RunIso a b) (hf : a.err = none → b.err = none → RunIso (f a.res) (g b.res))
    (ka : a.err = none → a.res.Reach (f a.res).res) (kb : b.err = none → b.res.Reach (g b.res).res) : RunIso (a.andThen f) (b.andThen g) := by
  unfold PagesRun.andThen
  have he := h.err
  cases ha : a.err with
  | some e =>
    cases hb : b.err with
    | none => rw [ha, hb] at he; simp at he
    | some e' => exact ⟨h.pair, rfl, h.length, h.pages⟩
  | none =>
    cases hb : b.err with
    | some e' => rw [ha, hb] at he; simp at he
    | none =>
      have i := hf ha hb
      exact ⟨i.pair, i.err, by simp [h.length, i.length], fun ν hν => List.rel_append (h.pages ν (hν.before h.pair (ka ha) (kb hb))) (i.pages ν hν)⟩

/-! ### Columns -/

theorem columnRule (ν : Renaming) (x : Rule) (c : ColumnFill) : (c.via ν.change).add (x.shaped (c.via ν.change)) = (c.add (x.shaped c)).via ν.change := by
  rw [← columnAdd_via]
  congr 1
  simp [Rule.shaped, Shaped.via, ColumnFill.via, boxRenamed, Renaming.pt]
  simp [Renaming.change]

theorem block_iso (w : World) {s : StyleFull} (hs : s.Known) {r r' : Res} (h : r.Pair r') {b : Block} (hb : b.Known) {cs cs' : Nat → ColumnFill}
    (hc : ∀ ν : Renaming, ν.Good r r' → ∀ i, cs' i = (cs i).via ν.change) (hf : ∀ n, (cs n).Fonts r.Knows) :
    StepIso colsRe (b.intoColumns w r s cs) (b.intoColumns w r' s cs') := by
  cases b with
  | rule x =>
    refine ⟨h, fun ν hν => ?_⟩
    have hh : ∀ c : ColumnFill, (c.via ν.change).heightFree = c.heightFree := fun c => by simp [ColumnFill.via, Renaming.change]
    simp only [Block.intoColumns, Rule.intoColumns, hc ν hν 0, columnRule, hh, Option.map_some, colsRe]
    split <;> rfl
  | paragraph p =>
    have hs' : (s.or p.style).Known := StyleFull.known_or hs hb.2
    obtain ⟨p1, e1⟩ := asState_good h hs'
    obtain ⟨p2, -, e2⟩ := flattenSpan_good p.style (s.or p.style) [] p.content _ _ p1 hb.1 hb.2 hs' (by simp)
    have k := (flattenSpan_reach p.style (s.or p.style) [] p.content ((s.or p.style).asState r).2 hb.1 hb.2 hs' (by simp)).1
    have k' := (flattenSpan_reach p.style (s.or p.style) [] p.content ((s.or p.style).asState r').2 hb.1 hb.2 hs' (by simp)).1
    have hend : ((Block.paragraph p).intoColumns w r s cs).2.Pair ((Block.paragraph p).intoColumns w r' s cs').2 := p2
    refine ⟨hend, fun ν hν => ?_⟩
    obtain ⟨μ, hμ, henv⟩ := exists_good w p2
    have g1 := hμ.before p1 k k'
    have a1 := e1 μ g1
    have a2 := e2 μ hμ
    have a3 : cs' = fun i => (cs i).via μ.change := by
      funext i
      exact hc μ (g1.before h (asState_reach _ hs' r) (asState_reach _ hs' r')) i
    have key : ((Block.paragraph p).intoColumns w r' s cs').1 = ((Block.paragraph p).intoColumns w r s cs).1.map (colsRe μ) := by
      simp only [Block.intoColumns, Paragraph.intoColumns, a1, a2, a3, ← henv, splitlines_via, maxLead_via]
      have := paragraphLoop_via μ.change p (w.env (flattenSpan p.style (s.or p.style) [] p.content ((s.or p.style).asState r).2).2.2)
        (maxLead (flattenSpan p.style (s.or p.style) [] p.content ((s.or p.style).asState r).2).1 ((s.or p.style).asState r).1)
        (splitlines (flattenSpan p.style (s.or p.style) [] p.content ((s.or p.style).asState r).2).1) cs ((s.or p.style).asState r).1
      rw [paragraphRenamed] at this
      exact this
    rw [key]
    obtain ⟨o, ho⟩ : ∃ o, (Block.paragraph p).intoColumns w r s cs = o := ⟨_, rfl⟩
    obtain ⟨a, r2⟩ := o
    have hμ' : μ.Good ((Block.paragraph p).intoColumns w r s cs).2 ((Block.paragraph p).intoColumns w r' s cs').2 := hμ
    rw [ho] at hν hμ' ⊢
    cases a with
    | none => rfl
    | some out =>
      have hfo := Block.intoColumns_fonts h.left hb hs hf ho
      have : colsRe μ out = colsRe ν out := List.map_congr_left fun c hcm => columnAgree (hμ'.agree hend.right hν) (hfo c hcm)
      simp only [Option.map_some, this]

theorem fillRenamed (ν : Renaming) (p : PageFill) : (p.via ν.change).base = p.base := pageRenamed ν p.base

theorem auto_iso (w : World) {s : StyleFull} (hs : s.Known) : ∀ {bs : List Block} {doc doc' : Nat → PageFill} {r r' : Res}, r.Pair r' → (∀ b ∈ bs, b.Known) →
    (∀ n, (doc n).todo ≠ []) → (∀ ν : Renaming, ν.Good r r' → ∀ n, doc' n = (doc n).via ν.change) → (∀ n, (doc n).Ok r) → (∀ n, (doc' n).Ok r') →
    RunIso (autoLoop w s bs doc r) (autoLoop w s bs doc' r')
  | [], doc, doc', r, r', h, _, _, hd, ho, ho' => by
    rw [autoLoop, autoLoop]
    obtain ⟨μ, hμ, -⟩ := exists_good w h
    refine writePages_iso w hs h (.cons ⟨?_, fun ν hν => ?_⟩ .nil) ?_ ?_
    · simp only [hd μ hμ 0, fillRenamed]
    · simp only [hd ν hν 0, PageFill.via, colsRe, List.map_append]
    · intro p hp
      simp only [List.mem_singleton] at hp
      subst hp
      refine ⟨(ho 0).known, fun c hc => ?_⟩
      rcases List.mem_append.mp hc with hc | hc
      · exact (ho 0).done c hc
      · exact (ho 0).todo c hc
    · intro p hp
      simp only [List.mem_singleton] at hp
      subst hp
      refine ⟨(ho' 0).known, fun c hc => ?_⟩
      rcases List.mem_append.mp hc with hc | hc
      · exact (ho' 0).done c hc
      · exact (ho' 0).todo c hc
  | b :: bs, doc, doc', r, r', h, hk, ht, hd, ho, ho' => by
    have hkb := hk b (by simp)
    have hkbs : ∀ b ∈ bs, b.Known := fun x hx => hk x (by simp [hx])
    have hcols : ∀ ν : Renaming, ν.Good r r' → ∀ i, columnsLeft doc' i = (columnsLeft doc i).via ν.change := by
      intro ν hν i
      rw [← columnsLeft_via ν.change doc ht i]
      congr 1
      funext n
      exact hd ν hν n
    obtain ⟨p1, e1⟩ := block_iso w hs h hkb hcols (columnsLeft_fonts ho)
    have k1 := b.reach w s r (columnsLeft doc) hkb hs
    have k1' := b.reach w s r' (columnsLeft doc') hkb hs
    rw [autoLoop, autoLoop]
    obtain ⟨o, hx⟩ : ∃ o, b.intoColumns w r s (columnsLeft doc) = o := ⟨_, rfl⟩
    obtain ⟨o', hx'⟩ : ∃ o, b.intoColumns w r' s (columnsLeft doc') = o := ⟨_, rfl⟩
    obtain ⟨a, r1⟩ := o
    obtain ⟨a', r1'⟩ := o'
    rw [hx, hx'] at p1 e1
    rw [hx] at k1
    rw [hx'] at k1'
    rw [hx, hx']
    simp only at p1 e1 k1 k1'
    obtain ⟨l1, w1⟩ := k1.wf h.left
    obtain ⟨l1', w1'⟩ := k1'.wf h.right
    obtain ⟨μ, hμ, -⟩ := exists_good w p1
    have hm := e1 μ hμ
    cases a with
    | none => cases a' with
      | none => exact ⟨p1, rfl, rfl, fun _ _ => .nil⟩
      | some z' => simp at hm
    | some filled => cases a' with
      | none => simp at hm
      | some filled' =>
        simp only [Option.map_some, Option.some.injEq] at e1
        have hfill : ∀ ν : Renaming, ν.Good r1 r1' → fillInto filled' doc' = (fillInto filled doc).map fun x => (fun n => (x.1 n).via ν.change, x.2.map (PageFill.via ν.change)) := by
          intro ν hν
          rw [← fillInto_via, e1 ν hν, colsRe]
          congr 1
          funext n
          exact hd ν (hν.before h k1 k1') n
        have h2 := Block.intoColumns_fonts h.left hkb hs (columnsLeft_fonts ho) hx
        have h2' := Block.intoColumns_fonts h.right hkb hs (columnsLeft_fonts ho') hx'
        simp only
        obtain ⟨y, hy⟩ : ∃ y, fillInto filled doc = y := ⟨_, rfl⟩
        obtain ⟨y', hy'⟩ : ∃ y, fillInto filled' doc' = y := ⟨_, rfl⟩
        rw [hy, hy'] at hfill
        rw [hy, hy']
        have hm2 := hfill μ hμ
        cases y with
        | none =>
          simp only [Option.map_none] at hm2
          subst hm2
          exact ⟨p1, rfl, rfl, fun _ _ => .nil⟩
        | some y =>
          cases y' with
          | none => simp at hm2
          | some y' =>
            obtain ⟨d1, completed⟩ := y
            obtain ⟨d1', completed'⟩ := y'
            simp only [Option.map_some, Option.some.injEq, Prod.mk.injEq] at hfill
            obtain ⟨c1, c2⟩ := fillInto_ok hy h2 fun n => (ho n).mono l1
            obtain ⟨c1', c2'⟩ := fillInto_ok hy' h2' fun n => (ho' n).mono l1'
            simp only
            have q1 : ∀ p ∈ completed.map (fun p => (⟨p.base, p.done⟩ : Filled)), p.Ok r1 := by
              intro p hp
              obtain ⟨q, hq, rfl⟩ := List.mem_map.1 hp
              exact ⟨(c1 q hq).known, (c1 q hq).done⟩
            have q1' : ∀ p ∈ completed'.map (fun p => (⟨p.base, p.done⟩ : Filled)), p.Ok r1' := by
              intro p hp
              obtain ⟨q, hq, rfl⟩ := List.mem_map.1 hp
              exact ⟨(c1' q hq).known, (c1' q hq).done⟩
            have hl : List.Forall₂ (FilledIso r1 r1') (completed.map fun p => ⟨p.base, p.done⟩) (completed'.map fun p => ⟨p.base, p.done⟩) := by
              rw [List.forall₂_map_left_iff, List.forall₂_map_right_iff, List.forall₂_iff_get]
              refine ⟨by rw [(hfill μ hμ).2, List.length_map], fun i h1 h1' => ⟨?_, fun ν hν => ?_⟩⟩
              · have := congrArg (fun l : List PageFill => l[i]?) (hfill μ hμ).2
                simp only [List.getElem?_map, List.getElem?_eq_getElem h1, List.getElem?_eq_getElem h1', Option.map_some, Option.some.injEq] at this
                simp only [List.get_eq_getElem, this, fillRenamed]
              · have := congrArg (fun l : List PageFill => l[i]?) (hfill ν hν).2
                simp only [List.getElem?_map, List.getElem?_eq_getElem h1, List.getElem?_eq_getElem h1', Option.map_some, Option.some.injEq] at this
                simp only [List.get_eq_getElem, this]
                rfl
            have i := writePages_iso w hs p1 hl q1 q1'
            have k2 := writePages_reach w s hs (completed.map fun p => ⟨p.base, p.done⟩) r1 fun p hp => (q1 p hp).known
            have k2' := writePages_reach w s hs (completed'.map fun p => ⟨p.base, p.done⟩) r1' fun p hp => (q1' p hp).known
            refine i.andThen (fun _ _ => ?_) (fun _ => ?_) (fun _ => ?_)
            · refine auto_iso w hs i.pair hkbs (fillInto_todo ht hy) (fun ν hν n => ?_) (fun n => (c2 n).mono (k2.wf w1).1) (fun n => (c2' n).mono (k2'.wf w1').1)
              exact congrFun (hfill ν (hν.before p1 k2 k2')).1 n
            · exact autoLoop_reach w s hs bs d1 _ hkbs fun n => (c2 n).known
            · exact autoLoop_reach w s hs bs d1' _ hkbs fun n => (c2' n).known

theorem pageNew_ok {p : Page} (h : p.Known) (r : Res) : (PageFill.new p).Ok r := by
  refine ⟨h, ?_, by simp [PageFill.new]⟩
  intro c hc
  obtain ⟨x, -, rfl⟩ := List.mem_map.mp hc
  exact ColumnFill.fonts_new x

theorem item_iso (w : World) {s : StyleFull} (hs : s.Known) {it : DocItem} (hk : it.Known) (hc : it.HasColumns) (n : Nat) {r r' : Res} (h : r.Pair r') :
    RunIso (it.run w s n r) (it.run w s n r') := by
  cases it with
  | page p =>
    refine writePages_iso w hs h (.cons ⟨rfl, fun _ _ => rfl⟩ .nil) ?_ ?_ <;>
    · intro q hq
      simp only [List.mem_singleton] at hq
      subst hq
      exact ⟨hk, by simp⟩
  | auto a =>
    have hc' : ∀ n, (a.template n).columns ≠ [] := hc
    refine auto_iso w hs h hk.1 (fun m => by simpa [PageFill.new] using hc' _) (fun ν _ m => ?_) (fun m => pageNew_ok (hk.2 _) r) fun m => pageNew_ok (hk.2 _) r'
    rw [← pageNew_via, pageRenamed]

theorem docRun_iso (w : World) {s : StyleFull} (hs : s.Known) : ∀ {items : List DocItem} {done : Nat} {r r' : Res}, r.Pair r' → (∀ it ∈ items, it.Known) → (∀ it ∈ items, it.HasColumns) →
    RunIso (docRun w s items done r) (docRun w s items done r')
  | [], _, r, r', h, _, _ => ⟨h, rfl, rfl, fun _ _ => .nil⟩
  | it :: items, done, r, r', h, hk, hc => by
    have hk' : ∀ it ∈ items, it.Known := fun x hx => hk x (by simp [hx])
    have i := item_iso w hs (hk it (by simp)) (hc it (by simp)) (done + 1) h
    rw [docRun, docRun]
    simp only [i.length]
    exact i.andThen (fun _ _ => docRun_iso w hs i.pair hk' fun x hx => hc x (by simp [hx])) (fun _ => docRun_reach w s hs items hk' _ _) (fun _ => docRun_reach w s hs items hk' _ _)

/-! ### What is shown -/

theorem view_iso (ν : Renaming) {p q : Written} (h : WrittenIso ν p q) (W' : FontRef → Char → ℚ) : p.SameView ν.font (fun f => W' (ν.font f)) W' q := by
  refine ⟨by rw [h.base], by rw [h.base], ?_, ?_⟩
  · have h1 := viewPage_via ν.change W' p.ops .initial
    have hi : Viewer.via ν.change .initial = .initial := by simp [Viewer.via, Viewer.initial, Renaming.change]
    rw [hi] at h1
    rw [h.ops]
    unfold pageGlyphs opsRe
    rw [h1]
    exact List.map_congr_left fun g _ => glyphRenamed ν g
  · have h1 := gfxRun_via ν.change p.ops .initial
    have hi : Gfx.via ν.change .initial = .initial := rfl
    rw [hi] at h1
    rw [h.ops]
    unfold pageShapes opsRe
    rw [h1, Option.map_map]
    congr 1
    funext x
    exact (List.map_congr_left fun y _ => shapesRenamed ν y).trans (List.map_id' _)

end Pdfje
