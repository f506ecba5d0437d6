import Verif.Proofs.KnownPages
/-
Pages that are written name fonts of the registry, and can be read back.
-/

namespace Pdfje
open PdfSpec

theorem ShowItem.good_of {r : Res} {i : ShowItem} (h : i.Printable) (hf : i.Fonts r.Knows) : i.Good r := by
  cases i with
  | adj x => exact h
  | txt f s => exact hf

theorem TextOp.good_of {r : Res} {op : TextOp} (h : op.Printable) (hf : op.Fonts r.Knows) : op.Good r := by
  cases op with
  | tf f z => exact ⟨hf, h⟩
  | tj is => exact fun i hi => ShowItem.good_of (h i hi) (hf i hi)
  | _ => exact h

theorem PageOp.good_of {r : Res} {op : PageOp} (h : op.Printable) (hf : op.Fonts r.Knows) : op.Good r := by
  cases op with
  | text ops => exact fun op hop => TextOp.good_of (h op hop) (hf op hop)
  | _ => exact h

/-- What holds of operators that were written as `b`, with respect to any later registry. -/
def OpsOk (R : Res) (ops : List PageOp) (b : Bytes) : Prop :=
  (∀ op ∈ ops, op.Fonts R.Knows) ∧ (R.Small → (∀ op ∈ ops, op.Printable) → ∃ cs, OpsStand R ops cs ∧ Reads b cs)

theorem OpsOk.append {R : Res} {ops ops' : List PageOp} {b b' : Bytes} (h : OpsOk R ops b) (h' : OpsOk R ops' b') : OpsOk R (ops ++ ops') (b ++ b') := by
  constructor
  · intro op hop
    rcases List.mem_append.mp hop with hop | hop
    · exact h.1 op hop
    · exact h'.1 op hop
  · intro hs hp
    obtain ⟨cs, ⟨css, h1, rfl⟩, h2⟩ := h.2 hs fun op hop => hp op (List.mem_append_left _ hop)
    obtain ⟨cs', ⟨css', h3, rfl⟩, h4⟩ := h'.2 hs fun op hop => hp op (List.mem_append_right _ hop)
    exact ⟨_, ⟨css ++ css', List.rel_append h1 h3, by rw [List.flatten_append]⟩, h2.append h4⟩

theorem opsBytes_ok {ops : List PageOp} {r r' R : Res} {b : Bytes} (hr : r.WF) (hf : ∀ op ∈ ops, op.Fonts r.Knows) (h : opsBytes ops r = some (b, r')) (hle : r'.Le R) :
    OpsOk R ops b :=
  ⟨fun op hop => (hf op hop).mono fun _ hk => hk.le (((opsBytes_reach ops h).wf hr).1.trans hle),
    fun hs hp => ops_read hr (fun op hop => PageOp.good_of (hp op hop) (hf op hop)) h hle hs⟩

theorem drawingsRun_ok {w : World} {s : StyleFull} (hs : s.Known) : ∀ {ds : List Drawing} {r r' R : Res} {ops : List PageOp} {b : Bytes}, r.WF → (∀ d ∈ ds, d.Known) →
    drawingsRun w s ds r = (some (ops, b), r') → r'.Le R → OpsOk R ops b
  | [], r, r', R, ops, b, hr, hd, h, hle => by
    simp only [drawingsRun, Prod.mk.injEq, Option.some.injEq] at h
    obtain ⟨⟨rfl, rfl⟩, rfl⟩ := h
    exact ⟨by simp, fun _ _ => ⟨[], ⟨[], .nil, rfl⟩, .nil⟩⟩
  | d :: ds, r, r', R, ops, b, hr, hd, h, hle => by
    have hk := hd d (by simp)
    have hks : ∀ d ∈ ds, d.Known := fun x hx => hd x (by simp [hx])
    have h1 := d.reach w s r hk hs
    rw [drawingsRun] at h
    cases hx : d.render w s r with
    | mk o r1 =>
      rw [hx] at h h1
      cases o with
      | none => cases h
      | some part =>
        simp only at h
        split at h
        · cases h
        · rename_i b1 r2 hb
          have h3 := drawingsRun_reach w s hs ds r2 hks
          split at h
          · cases h
          · rename_i ops' b' r3 hy
            simp only [Prod.mk.injEq, Option.some.injEq] at h
            obtain ⟨⟨rfl, rfl⟩, rfl⟩ := h
            have w1 := (h1.wf hr).2
            have w2 := ((opsBytes_reach part hb).wf w1).2
            rw [hy] at h3
            exact (opsBytes_ok w1 (Drawing.render_fonts hr hk hs hx) hb ((h3.wf w2).1.trans hle)).append (drawingsRun_ok hs w2 hks hy hle)

/-- A page with columns. -/
structure Filled.Ok (p : Filled) (r : Res) : Prop where
  known : p.base.Known
  fonts : ∀ c ∈ p.cols, c.Fonts r.Knows

theorem Filled.Ok.mono {p : Filled} {r r' : Res} (h : p.Ok r) (hle : r.Le r') : p.Ok r' := ⟨h.known, fun c hc => (h.fonts c hc).mono fun _ hk => hk.le hle⟩

theorem Filled.run_ok {w : World} {s : StyleFull} (hs : s.Known) {p : Filled} {r r' R : Res} {ops : List PageOp} {b : Bytes} (hr : r.WF) (hp : p.Ok r)
    (h : p.run w s r = (some (ops, b), r')) (hle : r'.Le R) : OpsOk R ops b := by
  have h1 := drawingsRun_reach w s hs p.base.content r hp.known
  unfold Filled.run at h
  split at h
  · cases h
  · rename_i ops1 b1 r1 hd
    rw [hd] at h1
    split at h
    · cases h
    · rename_i b2 r2 hb
      simp only [Prod.mk.injEq, Option.some.injEq] at h
      obtain ⟨⟨rfl, rfl⟩, rfl⟩ := h
      obtain ⟨l1, w1⟩ := h1.wf hr
      refine (drawingsRun_ok hs hr hp.known hd (((opsBytes_reach _ hb).wf w1).1.trans hle)).append (opsBytes_ok w1 ?_ hb hle)
      intro op hop
      obtain ⟨c, hc, hop⟩ := List.mem_flatMap.mp hop
      exact ((hp.mono l1).fonts c hc).ops op hop

theorem writePages_ok {w : World} {s : StyleFull} (hs : s.Known) {R : Res} : ∀ {ps : List Filled} {r : Res}, r.WF → (∀ p ∈ ps, p.Ok r) → (writePages w s ps r).res.Le R →
    ∀ x ∈ (writePages w s ps r).pages, OpsOk R x.ops x.bytes
  | [], r, hr, hp, hle => by simp [writePages]
  | p :: ps, r, hr, hp, hle => by
    have hp0 := hp p (by simp)
    have h1 := p.reach w s hs r hp0.known
    rw [writePages] at hle ⊢
    cases hx : p.run w s r with
    | mk o r1 =>
      rw [hx] at h1 hle
      cases o with
      | none => simp
      | some y =>
        obtain ⟨ops, b⟩ := y
        obtain ⟨l1, w1⟩ := h1.wf hr
        simp only at hle ⊢
        have h2 := writePages_reach w s hs ps r1 fun q hq => (hp q (by simp [hq])).known
        intro x hxm
        rcases List.mem_cons.mp hxm with rfl | hxm
        · exact Filled.run_ok hs hr hp0 hx ((h2.wf w1).1.trans hle)
        · exact writePages_ok hs w1 (fun q hq => (hp q (by simp [hq])).mono l1) hle x hxm

/-! ### Pages being filled -/

/-- A page that is being filled. -/
structure PageFill.Ok (p : PageFill) (r : Res) : Prop where
  known : p.base.Known
  todo : ∀ c ∈ p.todo, c.Fonts r.Knows
  done : ∀ c ∈ p.done, c.Fonts r.Knows

theorem PageFill.Ok.mono {p : PageFill} {r r' : Res} (h : p.Ok r) (hle : r.Le r') : p.Ok r' :=
  ⟨h.known, fun c hc => (h.todo c hc).mono fun _ hk => hk.le hle, fun c hc => (h.done c hc).mono fun _ hk => hk.le hle⟩

theorem flatNth_mem {α} : ∀ {fuel : Nat} {f : Nat → List α} {i : Nat} {a : α}, flatNth f fuel i = some a → ∃ n, a ∈ f n
  | 0, f, i, a, h => by simp [flatNth] at h
  | fuel + 1, f, i, a, h => by
    rw [flatNth] at h
    split at h
    · exact ⟨0, List.mem_of_getElem? h⟩
    · obtain ⟨n, hn⟩ := flatNth_mem h
      exact ⟨n + 1, hn⟩

theorem columnsLeft_fonts {doc : Nat → PageFill} {r : Res} (h : ∀ n, (doc n).Ok r) (i : Nat) : (columnsLeft doc i).Fonts r.Knows := by
  unfold columnsLeft
  cases hf : flatNth (fun n => (doc n).todo) (i + 1) i with
  | none => simp [noColumn, ColumnFill.Fonts]
  | some c =>
    obtain ⟨n, hn⟩ := flatNth_mem hf
    exact (h n).todo c hn

theorem fillLoop_ok {r : Res} : ∀ {fuel : Nat} {filled : List ColumnFill} {doc : Nat → PageFill}, (∀ c ∈ filled, c.Fonts r.Knows) → (∀ n, (doc n).Ok r) →
    (∀ p ∈ (fillLoop fuel filled doc).1, p.Ok r) ∧ ∀ n, ((fillLoop fuel filled doc).2 n).Ok r
  | 0, filled, doc, hf, hd => ⟨by simp [fillLoop], hd⟩
  | fuel + 1, filled, doc, hf, hd => by
    have h0 : PageFill.Ok ⟨(doc 0).base, (doc 0).todo.drop (filled.take (doc 0).todo.length).length, (doc 0).done ++ filled.take (doc 0).todo.length⟩ r := by
      refine ⟨(hd 0).known, fun c hc => (hd 0).todo c (List.mem_of_mem_drop hc), ?_⟩
      intro c hc
      rcases List.mem_append.mp hc with hc | hc
      · exact (hd 0).done c hc
      · exact hf c (List.mem_of_mem_take hc)
    rw [fillLoop]
    simp only
    split
    · exact ⟨by simpa using h0, fun n => hd _⟩
    · obtain ⟨h1, h2⟩ := fillLoop_ok (fuel := fuel) (filled := filled.drop (doc 0).todo.length) (doc := fun n => doc (n + 1))
        (fun c hc => hf c (List.mem_of_mem_drop hc)) fun n => hd _
      refine ⟨?_, h2⟩
      intro p hp
      rcases List.mem_cons.mp hp with rfl | hp
      · exact h0
      · exact h1 p hp

theorem fillInto_ok {filled : List ColumnFill} {doc doc' : Nat → PageFill} {completed : List PageFill} {r : Res} (h : fillInto filled doc = some (doc', completed))
    (hf : ∀ c ∈ filled, c.Fonts r.Knows) (hd : ∀ n, (doc n).Ok r) : (∀ p ∈ completed, p.Ok r) ∧ ∀ n, (doc' n).Ok r := by
  unfold fillInto at h
  split at h
  · simp only [Option.some.injEq, Prod.mk.injEq] at h
    obtain ⟨rfl, rfl⟩ := h
    exact ⟨by simp, hd⟩
  · have hk := fillLoop_ok (fuel := filled.length) hf hd
    simp only at h
    split at h
    · cases h
    · rename_i p hp
      simp only [Option.map_eq_some_iff, Prod.mk.injEq] at h
      obtain ⟨q, hq, rfl, rfl⟩ := h
      refine ⟨fun x hx => hk.1 x (List.mem_of_mem_dropLast hx), fun n => ?_⟩
      cases n with
      | zero =>
        have h1 := hk.1 p (List.mem_of_getLast? hp)
        unfold PageFill.reopen at hq
        split at hq
        · cases hq
        · rename_i c hc
          simp only [Option.some.injEq] at hq
          subst hq
          refine ⟨h1.known, ?_, fun c hc => h1.done c (List.mem_of_mem_dropLast hc)⟩
          intro x hx
          rcases List.mem_cons.mp hx with rfl | hx
          · exact h1.done _ (List.mem_of_getLast? hc)
          · exact h1.todo x hx
      | succ n => exact hk.2 n

theorem autoLoop_ok {w : World} {s : StyleFull} (hs : s.Known) {R : Res} : ∀ {bs : List Block} {doc : Nat → PageFill} {r : Res}, r.WF → (∀ b ∈ bs, b.Known) →
    (∀ n, (doc n).Ok r) → (autoLoop w s bs doc r).res.Le R → ∀ x ∈ (autoLoop w s bs doc r).pages, OpsOk R x.ops x.bytes
  | [], doc, r, hr, hb, hd, hle => by
    refine writePages_ok hs hr ?_ hle
    intro p hp
    simp only [List.mem_singleton] at hp
    subst hp
    refine ⟨(hd 0).known, ?_⟩
    intro c hc
    rcases List.mem_append.mp hc with hc | hc
    · exact (hd 0).done c hc
    · exact (hd 0).todo c hc
  | b :: bs, doc, r, hr, hb, hd, hle => by
    have h1 := b.reach w s r (columnsLeft doc) (hb b (by simp)) hs
    have hbs : ∀ b ∈ bs, b.Known := fun x hx => hb x (by simp [hx])
    rw [autoLoop] at hle ⊢
    cases hx : b.intoColumns w r s (columnsLeft doc) with
    | mk o r1 =>
      rw [hx] at h1 hle
      obtain ⟨l1, w1⟩ := h1.wf hr
      cases o with
      | none => simp
      | some filled =>
        simp only at hle ⊢
        have h2 := Block.intoColumns_fonts hr (hb b (by simp)) hs (columnsLeft_fonts hd) hx
        cases hf : fillInto filled doc with
        | none => simp
        | some y =>
          obtain ⟨doc', completed⟩ := y
          rw [hf] at hle
          simp only at hle ⊢
          obtain ⟨k1, k2⟩ := fillInto_ok hf h2 fun n => (hd n).mono l1
          have hp : ∀ p ∈ completed.map (fun p => (⟨p.base, p.done⟩ : Filled)), p.Ok r1 := by
            intro p hp
            obtain ⟨q, hq, rfl⟩ := List.mem_map.1 hp
            exact ⟨(k1 q hq).known, (k1 q hq).done⟩
          have h3 := writePages_reach w s hs (completed.map fun p => ⟨p.base, p.done⟩) r1 fun p hp' => (hp p hp').known
          obtain ⟨l3, w3⟩ := h3.wf w1
          unfold PagesRun.andThen at hle ⊢
          split
          · rename_i e he
            rw [he] at hle
            exact writePages_ok hs w1 hp hle
          · rename_i he
            rw [he] at hle
            simp only at hle ⊢
            have h4 := autoLoop_reach w s hs bs doc' (writePages w s (completed.map fun p => ⟨p.base, p.done⟩) r1).res hbs fun n => (k2 n).known
            intro x hxm
            rcases List.mem_append.mp hxm with hxm | hxm
            · exact writePages_ok hs w1 hp ((h4.wf w3).1.trans hle) x hxm
            · exact autoLoop_ok hs w3 hbs (fun n => (k2 n).mono l3) hle x hxm

theorem DocItem.run_ok {w : World} {s : StyleFull} (hs : s.Known) {it : DocItem} (hk : it.Known) {pnum : Nat} {r R : Res} (hr : r.WF)
    (hle : (it.run w s pnum r).res.Le R) : ∀ x ∈ (it.run w s pnum r).pages, OpsOk R x.ops x.bytes := by
  cases it with
  | page p =>
    refine writePages_ok hs hr ?_ hle
    intro q hq
    simp only [List.mem_singleton] at hq
    subst hq
    exact ⟨hk, by simp⟩
  | auto a =>
    refine autoLoop_ok hs hr hk.1 (fun n => ⟨hk.2 _, ?_, by simp [PageFill.new]⟩) hle
    intro c hc
    obtain ⟨x, -, rfl⟩ := List.mem_map.mp hc
    exact ColumnFill.fonts_new x

end Pdfje
