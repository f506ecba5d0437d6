import Verif.Proofs.DocRead
import Verif.Proofs.Parse
import Verif.Spec.Written
/-
Documents are written: rendering raises no error, and the fonts hold only characters of the text.
-/

namespace Pdfje

/-! ### Operators with known fonts are written -/

theorem ShowItem.bytes_some {r : Res} {i : ShowItem} (h : i.Fonts r.Knows) : ∃ b r', i.bytes r = some (b, r') := by
  cases i with
  | adj x => exact ⟨_, _, rfl⟩
  | txt f s =>
    cases f with
    | builtin g => exact ⟨_, _, rfl⟩
    | subset k =>
      have hk : k < r.subsets.length := h
      simp only [ShowItem.bytes, Res.encode, List.getElem?_eq_getElem hk]
      exact ⟨_, _, rfl⟩

theorem ShowItem.bytes_reach' {r r' : Res} {i : ShowItem} {b : Bytes} (h : i.bytes r = some (b, r')) : r.Reach r' := by
  cases i with
  | adj x => simp only [ShowItem.bytes, Option.some.injEq, Prod.mk.injEq] at h; rw [← h.2]; exact .refl r
  | txt f s =>
    simp only [ShowItem.bytes] at h
    split at h
    · cases h
    · rename_i b' r1 he
      simp only [Option.some.injEq, Prod.mk.injEq] at h
      rw [← h.2]; exact Res.reach_encode he

theorem itemsBytes_some : ∀ {is : List ShowItem} {r : Res}, r.WF → (∀ i ∈ is, i.Fonts r.Knows) → ∃ b r', itemsBytes is r = some (b, r')
  | [], r, _, _ => ⟨_, _, rfl⟩
  | i :: is, r, hr, h => by
    obtain ⟨b, r1, h1⟩ := ShowItem.bytes_some (h i (by simp))
    have hreach := ShowItem.bytes_reach' h1
    obtain ⟨b2, r2, h2⟩ := itemsBytes_some (is := is) (hreach.wf hr).2 fun j hj => (h j (by simp [hj])).mono (hreach.knows hr)
    exact ⟨_, _, by simp only [itemsBytes, h1, h2]; rfl⟩

theorem TextOp.bytes_some {r : Res} (hr : r.WF) {op : TextOp} (h : op.Fonts r.Knows) : ∃ b r', op.bytes r = some (b, r') := by
  cases op with
  | tf f z =>
    cases f with
    | builtin g => exact ⟨_, _, rfl⟩
    | subset k =>
      have hk : k < r.subsets.length := h
      simp only [TextOp.bytes, Res.fontId, List.getElem?_eq_getElem hk, Option.map_some]
      exact ⟨_, _, rfl⟩
  | tj is =>
    obtain ⟨b, r', h1⟩ := itemsBytes_some (is := is) hr h
    exact ⟨_, _, by simp only [TextOp.bytes, h1]; rfl⟩
  | rg c => exact ⟨_, _, rfl⟩
  | td x y => exact ⟨_, _, rfl⟩
  | tdl x y => exact ⟨_, _, rfl⟩
  | tl l => exact ⟨_, _, rfl⟩
  | tstar => exact ⟨_, _, rfl⟩

theorem textOpsBytes_some : ∀ {ops : List TextOp} {r : Res}, r.WF → (∀ op ∈ ops, op.Fonts r.Knows) → ∃ b r', textOpsBytes ops r = some (b, r')
  | [], r, _, _ => ⟨_, _, rfl⟩
  | i :: is, r, hr, h => by
    obtain ⟨b, r1, h1⟩ := TextOp.bytes_some hr (h i (by simp))
    have hreach := TextOp.reach h1
    obtain ⟨b2, r2, h2⟩ := textOpsBytes_some (ops := is) (hreach.wf hr).2 fun j hj => (h j (by simp [hj])).mono (hreach.knows hr)
    exact ⟨_, _, by simp only [textOpsBytes, h1, h2]; rfl⟩

theorem PageOp.bytes_some {r : Res} (hr : r.WF) {op : PageOp} (h : op.Fonts r.Knows) : ∃ b r', op.bytes r = some (b, r') := by
  cases op with
  | text ops =>
    obtain ⟨b, r', h1⟩ := textOpsBytes_some (ops := ops) hr h
    exact ⟨_, _, by simp only [PageOp.bytes, h1]; rfl⟩
  | moveTo => exact ⟨_, _, rfl⟩
  | lineTo => exact ⟨_, _, rfl⟩
  | curveTo => exact ⟨_, _, rfl⟩
  | rect => exact ⟨_, _, rfl⟩
  | fillColor => exact ⟨_, _, rfl⟩
  | strokeColor => exact ⟨_, _, rfl⟩
  | paint => exact ⟨_, _, rfl⟩

theorem opsBytes_some : ∀ {ops : List PageOp} {r : Res}, r.WF → (∀ op ∈ ops, op.Fonts r.Knows) → ∃ b r', opsBytes ops r = some (b, r')
  | [], r, _, _ => ⟨_, _, rfl⟩
  | i :: is, r, hr, h => by
    obtain ⟨b, r1, h1⟩ := PageOp.bytes_some hr (h i (by simp))
    have hreach := PageOp.reach h1
    obtain ⟨b2, r2, h2⟩ := opsBytes_some (ops := is) (hreach.wf hr).2 fun j hj => (h j (by simp [hj])).mono (hreach.knows hr)
    exact ⟨_, _, by simp only [opsBytes, h1, h2]; rfl⟩

/-! ### Drawings and pages are written -/

theorem intoTextLines_some {env : Env} (henv : env.Ok) : ∀ (split : List (List Passage)) (st : State), ∃ ls, intoTextLines env split st = some ls
  | [], st => ⟨_, rfl⟩
  | g :: gs, st => by
    obtain ⟨cmd, ws, h1, -⟩ := intoWords_spec henv g st
    rw [intoTextLines]
    simp only [h1]
    simp only [Option.map_eq_some_iff]
    obtain ⟨ls, h2⟩ := intoTextLines_some henv gs _
    exact ⟨_, ls, h2, rfl⟩

theorem Drawing.render_some {w : World} (hw : ∀ r, (w.env r).Ok) (s : StyleFull) (r : Res) {d : Drawing} (hd : d.Drawable) :
    ∃ ops, (d.render w s r).1 = some ops := by
  cases d with
  | line => exact ⟨_, rfl⟩
  | rect => exact ⟨_, rfl⟩
  | ellipse => exact ⟨_, rfl⟩
  | circle => exact ⟨_, rfl⟩
  | polyline ps close fill stroke =>
    cases ps with
    | nil => exact ⟨_, rfl⟩
    | cons q qs =>
      cases q with
      | tuple q => exact ⟨_, rfl⟩
      | xy q => exact absurd rfl (hd (.xy q) qs rfl q)
  | text loc content style align =>
    simp only [Drawing.render, textOps]
    obtain ⟨ls, h⟩ := intoTextLines_some (hw (flattenSpan style s [] content (s.asState r).2).2.2) (splitlines (flattenSpan style s [] content (s.asState r).2).1)
      (s.asState r).1
    exact ⟨_, by rw [h]; rfl⟩

theorem drawingsRun_some {w : World} (hw : ∀ r, (w.env r).Ok) {s : StyleFull} (hs : s.Known) : ∀ {ds : List Drawing} {r : Res}, r.WF → (∀ d ∈ ds, d.Known) →
    (∀ d ∈ ds, d.Drawable) → ∃ x, (drawingsRun w s ds r).1 = some x
  | [], r, _, _, _ => ⟨_, rfl⟩
  | d :: ds, r, hr, hk, hd => by
    obtain ⟨ops, h1⟩ := Drawing.render_some hw s r (hd d (by simp))
    have hreach := d.reach w s r (hk d (by simp)) hs
    rw [drawingsRun]
    cases hx : d.render w s r with
    | mk o r1 =>
      rw [hx] at h1 hreach
      cases h1
      simp only
      have w1 := (hreach.wf hr).2
      obtain ⟨b, r2, h2⟩ := opsBytes_some w1 (Drawing.render_fonts hr (hk d (by simp)) hs hx)
      simp only [h2]
      obtain ⟨x, h3⟩ := drawingsRun_some hw hs (ds := ds) (r := r2) ((opsBytes_reach _ h2).wf w1).2 (fun e he => hk e (by simp [he])) (fun e he => hd e (by simp [he]))
      cases hy : drawingsRun w s ds r2 with
      | mk o r3 =>
        rw [hy] at h3
        cases h3
        exact ⟨_, rfl⟩

theorem Filled.run_some {w : World} (hw : ∀ r, (w.env r).Ok) {s : StyleFull} (hs : s.Known) {p : Filled} {r : Res} (hr : r.WF) (hp : p.Ok r)
    (hd : ∀ d ∈ p.base.content, d.Drawable) : ∃ x, (p.run w s r).1 = some x := by
  obtain ⟨x, h1⟩ := drawingsRun_some hw hs hr hp.known hd
  have hreach := drawingsRun_reach w s hs p.base.content r hp.known
  unfold Filled.run
  cases hx : drawingsRun w s p.base.content r with
  | mk o r1 =>
    rw [hx] at h1 hreach
    cases h1
    simp only
    obtain ⟨l1, w1⟩ := hreach.wf hr
    obtain ⟨b, r2, h2⟩ := opsBytes_some (ops := p.cols.flatMap ColumnFill.ops) w1 (by
      intro op hop
      obtain ⟨c, hc, hop⟩ := List.mem_flatMap.mp hop
      exact ((hp.mono l1).fonts c hc).ops op hop)
    simp only [h2]
    exact ⟨_, rfl⟩

theorem writePages_none {w : World} (hw : ∀ r, (w.env r).Ok) {s : StyleFull} (hs : s.Known) : ∀ {ps : List Filled} {r : Res}, r.WF → (∀ p ∈ ps, p.Ok r) →
    (∀ p ∈ ps, ∀ d ∈ p.base.content, d.Drawable) → (writePages w s ps r).err = none
  | [], r, _, _, _ => rfl
  | p :: ps, r, hr, hp, hd => by
    have hp0 := hp p (by simp)
    obtain ⟨x, h1⟩ := Filled.run_some hw hs hr hp0 (hd p (by simp))
    have hreach := p.reach w s hs r hp0.known
    rw [writePages]
    cases hx : p.run w s r with
    | mk o r1 =>
      rw [hx] at h1 hreach
      cases h1
      obtain ⟨l1, w1⟩ := hreach.wf hr
      exact writePages_none hw hs w1 (fun q hq => (hp q (by simp [hq])).mono l1) (fun q hq => hd q (by simp [hq]))

/-- Blocks that can be laid out whenever the tape is as `I` says, which stays so. -/
def Lays (w : World) (s : StyleFull) (I : Tape → Prop) (b : Block) : Prop :=
  ∀ r t, r.WF → I t → ∃ filled r', b.intoColumns w r s t.view = (some filled, r') ∧ I (t.fill filled)

theorem autoLoop_none {w : World} (hw : ∀ r, (w.env r).Ok) {s : StyleFull} (hs : s.Known) {pages : Nat → Page} (hpages : ∀ n, (pages n).columns ≠ [])
    (hd : ∀ n, ∀ d ∈ (pages n).content, d.Drawable) {I : Tape → Prop} : ∀ {bs : List Block} {k : Nat} {doc : Nat → PageFill} {t : Tape} {r : Res}, r.WF →
    (∀ b ∈ bs, b.Known) → (∀ b ∈ bs, Lays w s I b) → (∀ n, (doc n).Ok r) → PagesInv pages k doc t → I t → (autoLoop w s bs doc r).err = none
  | [], k, doc, t, r, hr, _, _, hok, hinv, _ => by
    rw [autoLoop]
    refine writePages_none hw hs hr ?_ ?_
    · intro p hp
      simp only [List.mem_singleton] at hp
      subst hp
      refine ⟨(hok 0).known, ?_⟩
      intro c hc
      rcases List.mem_append.mp hc with hc | hc
      · exact (hok 0).done c hc
      · exact (hok 0).todo c hc
    · intro p hp d hdm
      simp only [List.mem_singleton] at hp
      subst hp
      simp only [hinv.base 0] at hdm
      exact hd _ d hdm
  | b :: bs, k, doc, t, r, hr, hk, hl, hok, hinv, hI => by
    have h1 := b.reach w s r (columnsLeft doc) (hk b (by simp)) hs
    obtain ⟨filled, r1, hx, hI'⟩ := hl b (by simp) r t hr hI
    rw [← hinv.view hpages] at hx
    rw [autoLoop]
    rw [hx] at h1
    obtain ⟨l1, w1⟩ := h1.wf hr
    obtain ⟨doc', completed, hf, e2, e3, e4⟩ := fillInto_spec hpages hinv filled
    simp only [hx, hf]
    have h2 := Block.intoColumns_fonts hr (hk b (by simp)) hs (columnsLeft_fonts hok) hx
    obtain ⟨k1, k2⟩ := fillInto_ok hf h2 fun n => (hok n).mono l1
    have hp : ∀ p ∈ completed.map (fun p => (⟨p.base, p.done⟩ : Filled)), p.Ok r1 := by
      intro p hp
      obtain ⟨q, hq, rfl⟩ := List.mem_map.1 hp
      exact ⟨(k1 q hq).known, (k1 q hq).done⟩
    have h3 := writePages_reach w s hs (completed.map fun p => ⟨p.base, p.done⟩) r1 fun p hp' => (hp p hp').known
    obtain ⟨l3, w3⟩ := h3.wf w1
    have hnone := writePages_none hw hs w1 hp (by
      intro p hp' d hdm
      obtain ⟨q, hq, rfl⟩ := List.mem_map.1 hp'
      have : q.base ∈ completed.map (·.base) := List.mem_map_of_mem hq
      rw [e2] at this
      obtain ⟨j, -, e⟩ := List.mem_map.1 this
      simp only [← e] at hdm
      exact hd _ d hdm)
    rw [PagesRun.andThen, hnone]
    exact autoLoop_none hw hs hpages hd w3 (fun x hx => hk x (by simp [hx])) (fun x hx => hl x (by simp [hx])) (fun n => (k2 n).mono l3) e4 hI'

end Pdfje
