import Verif.Proofs.Layout
import Verif.Spec.Placed
/-
The layout of paragraphs depends on the fonts in the registry, but not on the characters encoded so far.
-/

namespace Pdfje

/-- The registry without the characters encoded so far. -/
def Res.bare (r : Res) : Res := { r with subsets := r.subsets.map fun e => (e.1, { e.2 with cids := [] }) }

theorem font_bare (r : Res) (f : Typeface) (b i : Bool) : r.bare.font f b i = ((r.font f b i).1, (r.font f b i).2.bare) := by
  cases f with
  | builtin x =>
    have e : r.bare.builtins = r.builtins := rfl
    simp only [Res.font, e]
    split <;> rfl
  | trueType t =>
    have e : r.bare.subsets.findIdx? (fun e => e.1 == (t, b, i)) = r.subsets.findIdx? (fun e => e.1 == (t, b, i)) := by
      simp [Res.bare, List.findIdx?_map, Function.comp_def]
    simp only [Res.font, e]
    cases r.subsets.findIdx? (fun e => e.1 == (t, b, i)) with
    | some j => rfl
    | none => simp [Res.bare]

theorem asState_bare (s : StyleFull) (r : Res) : s.asState r.bare = ((s.asState r).1, (s.asState r).2.bare) := by
  simp only [StyleFull.asState, font_bare]

theorem pending_bare (p : Pending) (r : Res) : p.run r.bare = ((p.run r).1, (p.run r).2.bare) := by
  cases p with
  | style s base =>
    simp only [Pending.run, Style.diff, font_bare]
    split <;> rfl
  | full s base =>
    simp only [Pending.run, StyleFull.diff, font_bare]
    split <;> rfl

theorem runTodo_bare : ∀ (ps : List Pending) (r : Res), runTodo ps r.bare = ((runTodo ps r).1, (runTodo ps r).2.bare)
  | [], _ => rfl
  | p :: ps, r => by simp only [runTodo, pending_bare, runTodo_bare ps]

mutual
theorem flattenSpan_bare (style : Style) (base : StyleFull) (todo : List Pending) (content : List Item) (r : Res) :
    flattenSpan style base todo content r.bare = ((flattenSpan style base todo content r).1, (flattenSpan style base todo content r).2.1, (flattenSpan style base todo content r).2.2.bare) := by
  simp only [flattenSpan, flattenItems_bare (base.or style) (todo ++ [.style style base]) content]
termination_by (sizeOf content, 1)
theorem flattenItems_bare (newbase : StyleFull) (todo : List Pending) (content : List Item) (r : Res) :
    flattenItems newbase todo content r.bare = ((flattenItems newbase todo content r).1, (flattenItems newbase todo content r).2.1, (flattenItems newbase todo content r).2.2.bare) := by
  match content with
  | [] => simp only [flattenItems]
  | .str s :: rest => simp only [flattenItems, runTodo_bare, flattenItems_bare newbase [] rest]
  | .span c style :: rest => simp only [flattenItems, flattenSpan_bare style newbase todo c, flattenItems_bare newbase _ rest]
termination_by (sizeOf content, 0)
end

theorem env_bare (w : World) (r : Res) : w.env r.bare = w.env r := by
  have : w.metrics r.bare = w.metrics r := by
    funext f
    cases f with
    | builtin b => rfl
    | subset i =>
      simp only [World.metrics, Res.bare, List.getElem?_map]
      cases r.subsets[i]? <;> rfl
  simp only [World.env, this]

theorem block_bare (b : Block) (w : World) (r : Res) (s : StyleFull) (cs : Nat → ColumnFill) : b.intoColumns w r.bare s cs = ((b.intoColumns w r s cs).1, (b.intoColumns w r s cs).2.bare) := by
  cases b with
  | paragraph p => simp only [Block.intoColumns, Paragraph.intoColumns, asState_bare, flattenSpan_bare, env_bare]
  | rule x => rfl

/-- With the same fonts in the registry, a block becomes the same columns, and the same fonts are in the registry. -/
theorem block_alike {w : World} {r r' : Res} (h : r.bare = r'.bare) (b : Block) (s : StyleFull) (cs : Nat → ColumnFill) :
    (b.intoColumns w r s cs).1 = (b.intoColumns w r' s cs).1 ∧ (b.intoColumns w r s cs).2.bare = (b.intoColumns w r' s cs).2.bare := by
  have h1 := block_bare b w r s cs
  rw [h, block_bare] at h1
  exact ⟨(congrArg Prod.fst h1).symm, (congrArg Prod.snd h1).symm⟩

/-! ### Writing -/

theorem encode_bare {r r1 : Res} {f : FontRef} {t : List Char} {b : Bytes} (h : r.encode f t = some (b, r1)) : r1.bare = r.bare := by
  cases f with
  | builtin x => simp only [Res.encode, Option.some.injEq, Prod.mk.injEq] at h; rw [h.2]
  | subset i =>
    simp only [Res.encode] at h
    cases hi : r.subsets[i]? with
    | none => rw [hi] at h; cases h
    | some e =>
      rw [hi] at h
      simp only [Option.some.injEq, Prod.mk.injEq] at h
      rw [← h.2]
      simp only [Res.bare, List.map_set]
      congr 1
      refine List.ext_getElem? fun j => ?_
      rw [List.getElem?_set]
      split
      · rename_i hj
        subst hj
        split
        · rw [List.getElem?_map, hi]; rfl
        · rename_i hlt
          rw [List.getElem?_eq_none (by omega)]
      · rfl

theorem itemsBytes_bare : ∀ {is : List ShowItem} {r r1 : Res} {b : Bytes}, itemsBytes is r = some (b, r1) → r1.bare = r.bare
  | [], r, r1, b, h => by simp only [itemsBytes, Option.some.injEq, Prod.mk.injEq] at h; rw [h.2]
  | i :: is, r, r1, b, h => by
    simp only [itemsBytes] at h
    cases hi : i.bytes r with
    | none => rw [hi] at h; cases h
    | some x =>
      obtain ⟨b1, r2⟩ := x
      rw [hi] at h
      simp only at h
      have e1 : r2.bare = r.bare := by
        cases i with
        | adj x => simp only [ShowItem.bytes, Option.some.injEq, Prod.mk.injEq] at hi; rw [hi.2]
        | txt f s =>
          simp only [ShowItem.bytes] at hi
          cases he : r.encode f s with
          | none => rw [he] at hi; cases hi
          | some y =>
            rw [he] at hi
            simp only [Option.some.injEq, Prod.mk.injEq] at hi
            rw [← hi.2]
            exact encode_bare he
      cases hs : itemsBytes is r2 with
      | none => rw [hs] at h; cases h
      | some y =>
        rw [hs] at h
        simp only [Option.some.injEq, Prod.mk.injEq] at h
        rw [← h.2, itemsBytes_bare hs, e1]

theorem textOpsBytes_bare : ∀ {ops : List TextOp} {r r1 : Res} {b : Bytes}, textOpsBytes ops r = some (b, r1) → r1.bare = r.bare
  | [], r, r1, b, h => by simp only [textOpsBytes, Option.some.injEq, Prod.mk.injEq] at h; rw [h.2]
  | op :: ops, r, r1, b, h => by
    simp only [textOpsBytes] at h
    cases hi : op.bytes r with
    | none => rw [hi] at h; cases h
    | some x =>
      obtain ⟨b1, r2⟩ := x
      rw [hi] at h
      simp only at h
      have e1 : r2.bare = r.bare := by
        cases op with
        | tf f z =>
          simp only [TextOp.bytes] at hi
          cases he : r.fontId f with
          | none => rw [he] at hi; cases hi
          | some y =>
            rw [he] at hi
            simp only [Option.some.injEq, Prod.mk.injEq] at hi
            rw [hi.2]
        | tj is =>
          simp only [TextOp.bytes] at hi
          cases he : itemsBytes is r with
          | none => rw [he] at hi; cases hi
          | some y =>
            rw [he] at hi
            simp only [Option.some.injEq, Prod.mk.injEq] at hi
            rw [← hi.2]
            exact itemsBytes_bare he
        | _ => simp only [TextOp.bytes, Option.some.injEq, Prod.mk.injEq] at hi; rw [hi.2]
      cases hs : textOpsBytes ops r2 with
      | none => rw [hs] at h; cases h
      | some y =>
        rw [hs] at h
        simp only [Option.some.injEq, Prod.mk.injEq] at h
        rw [← h.2, textOpsBytes_bare hs, e1]

theorem opsBytes_bare : ∀ {ops : List PageOp} {r r1 : Res} {b : Bytes}, opsBytes ops r = some (b, r1) → r1.bare = r.bare
  | [], r, r1, b, h => by simp only [opsBytes, Option.some.injEq, Prod.mk.injEq] at h; rw [h.2]
  | op :: ops, r, r1, b, h => by
    simp only [opsBytes] at h
    cases hi : op.bytes r with
    | none => rw [hi] at h; cases h
    | some x =>
      obtain ⟨b1, r2⟩ := x
      rw [hi] at h
      simp only at h
      have e1 : r2.bare = r.bare := by
        cases op with
        | text ops =>
          simp only [PageOp.bytes] at hi
          cases he : textOpsBytes ops r with
          | none => rw [he] at hi; cases hi
          | some y =>
            rw [he] at hi
            simp only [Option.some.injEq, Prod.mk.injEq] at hi
            rw [← hi.2]
            exact textOpsBytes_bare he
        | _ => simp only [PageOp.bytes, Option.some.injEq, Prod.mk.injEq] at hi; rw [hi.2]
      cases hs : opsBytes ops r2 with
      | none => rw [hs] at h; cases h
      | some y =>
        rw [hs] at h
        simp only [Option.some.injEq, Prod.mk.injEq] at h
        rw [← h.2, opsBytes_bare hs, e1]

theorem drawingsRun_bare {w : World} {s : StyleFull} : ∀ {ds : List Drawing}, (∀ d ∈ ds, d.Graphic) → ∀ {r : Res}, (drawingsRun w s ds r).2.bare = r.bare
  | [], _, _ => rfl
  | d :: ds, hd, r => by
    have e1 : (d.render w s r).2 = r := by
      have := hd d (by simp)
      cases d <;> first | rfl | exact this.elim
    rw [drawingsRun]
    obtain ⟨⟨o, r1⟩, hx⟩ : ∃ z, d.render w s r = z := ⟨_, rfl⟩
    rw [hx] at e1 ⊢
    simp only at e1
    subst e1
    cases o with
    | none => rfl
    | some ops =>
      simp only
      cases hb : opsBytes ops r1 with
      | none => rfl
      | some y =>
        obtain ⟨b, r2⟩ := y
        have e2 := opsBytes_bare hb
        have e3 := drawingsRun_bare (w := w) (s := s) (fun d hm => hd d (List.mem_cons_of_mem _ hm)) (r := r2)
        simp only
        obtain ⟨⟨o3, r3⟩, hy⟩ : ∃ z, drawingsRun w s ds r2 = z := ⟨_, rfl⟩
        rw [hy] at e3 ⊢
        cases o3 <;> exact e3.trans e2

theorem filled_bare {w : World} {s : StyleFull} {p : Filled} (hd : ∀ d ∈ p.base.content, d.Graphic) {r : Res} : (p.run w s r).2.bare = r.bare := by
  have e1 := drawingsRun_bare (w := w) (s := s) hd (r := r)
  rw [Filled.run]
  obtain ⟨⟨o, r1⟩, hx⟩ : ∃ z, drawingsRun w s p.base.content r = z := ⟨_, rfl⟩
  rw [hx] at e1 ⊢
  cases o with
  | none => exact e1
  | some y =>
    obtain ⟨ops, b⟩ := y
    simp only
    cases hb : opsBytes (p.cols.flatMap ColumnFill.ops) r1 with
    | none => exact e1
    | some z =>
      obtain ⟨b', r2⟩ := z
      exact (opsBytes_bare hb).trans e1

theorem writePages_bare {w : World} {s : StyleFull} : ∀ {ps : List Filled}, (∀ p ∈ ps, ∀ d ∈ p.base.content, d.Graphic) → ∀ {r : Res}, (writePages w s ps r).res.bare = r.bare
  | [], _, _ => rfl
  | p :: ps, hp, r => by
    have e1 := filled_bare (w := w) (s := s) (hp p (by simp)) (r := r)
    rw [writePages]
    obtain ⟨⟨o, r1⟩, hx⟩ : ∃ z, p.run w s r = z := ⟨_, rfl⟩
    rw [hx] at e1 ⊢
    cases o with
    | none => exact e1
    | some y =>
      obtain ⟨ops, b⟩ := y
      exact (writePages_bare (fun q hq => hp q (List.mem_cons_of_mem _ hq))).trans e1

/-! ### The blocks fill the tape -/

/-- `Fills`, with the fonts in the registry from block to block. -/
inductive FillsFrom (w : World) (s : StyleFull) : List Block → Res → Tape → Tape → Prop
  | nil (r t) : FillsFrom w s [] r t t
  | cons (b bs t r r1 r2 filled t') : b.intoColumns w r s t.view = (some filled, r1) → r2.bare = r1.bare → FillsFrom w s bs r2 (t.fill filled) t' → FillsFrom w s (b :: bs) r t t'

theorem FillsFrom.fills {w : World} {s : StyleFull} {bs : List Block} {r : Res} {t t' : Tape} (h : FillsFrom w s bs r t t') : Fills w s bs t t' := by
  induction h with
  | nil r t => exact .nil t
  | cons b bs t r r1 r2 filled t' h1 _ _ ih => exact .cons b bs t r r1 filled t' h1 ih

/-- The loop over the blocks writes the pages of the tape that the blocks fill (`autoLoop_spec`), and the pages encode characters only. -/
theorem autoLoop_from {pages : Nat → Page} (hpages : ∀ n, (pages n).columns ≠ []) (hg : ∀ n, ∀ d ∈ (pages n).content, d.Graphic) (w : World) (s : StyleFull) (bs : List Block) :
    ∀ (k : Nat) (doc : Nat → PageFill) (t : Tape) (r : Res), PagesInv pages k doc t → (autoLoop w s bs doc r).err = none →
    ∃ t', FillsFrom w s bs r t t' ∧ ∃ P, (autoLoop w s bs doc r).pages.length = P + 1 ∧
      offset pages (k + P) ≤ t'.head ∧ t'.head < offset pages (k + P + 1) ∧
      ∀ (j : Nat) (x : Written), (autoLoop w s bs doc r).pages[j]? = some x → x.page = ⟨pages (k + j), t'.page pages (k + j)⟩ := by
  induction bs with
  | nil =>
    intro k doc t r h herr
    obtain ⟨t', f1, f2⟩ := autoLoop_spec hpages w s [] k doc t r h herr
    cases f1
    exact ⟨t, .nil r t, f2⟩
  | cons b bs ih =>
    intro k doc t r h herr
    rw [autoLoop] at herr ⊢
    rw [h.view hpages] at herr ⊢
    cases hb : b.intoColumns w r s t.view with
    | mk o r1 =>
      rw [hb] at herr
      cases o with
      | none => cases herr
      | some filled =>
        simp only at herr ⊢
        obtain ⟨doc', completed, e1, e2, e3, e4⟩ := fillInto_spec hpages h filled
        rw [e1] at herr ⊢
        simp only at herr ⊢
        obtain ⟨h1, h2, h3⟩ := PagesRun.andThen_none herr
        rw [h3]
        have hp := writePages_pages w s _ r1 h1
        have hbase : ∀ j (p : PageFill), completed[j]? = some p → p.base = pages (k + j) := by
          intro j p hj
          have hl := (List.getElem?_eq_some_iff.1 hj).1
          have : (completed.map (·.base))[j]? = some p.base := by rw [List.getElem?_map, hj]; rfl
          rw [e2, List.getElem?_map, List.getElem?_range hl] at this
          simpa using this.symm
        have hbare : (writePages w s (completed.map fun p => ⟨p.base, p.done⟩) r1).res.bare = r1.bare := by
          refine writePages_bare fun p hp d hd => ?_
          obtain ⟨q, hq, rfl⟩ := List.mem_map.1 hp
          obtain ⟨j, hj⟩ := List.getElem?_of_mem hq
          simp only [hbase j q hj] at hd
          exact hg _ d hd
        obtain ⟨t', f1, P, f2, f3, f4, f5⟩ := ih (k + completed.length) doc' (t.fill filled) _ e4 h2
        have hlen : (writePages w s (completed.map fun p => ⟨p.base, p.done⟩) r1).pages.length = completed.length := by
          rw [← List.length_map (f := (·.page)), hp, List.length_map]
        refine ⟨t', .cons b bs t r r1 _ filled t' hb hbare f1, completed.length + P, ?_, ?_, ?_, ?_⟩
        · rw [List.length_append, hlen, f2]; omega
        · rw [← Nat.add_assoc]; exact f3
        · rw [← Nat.add_assoc]; exact f4
        · intro j x hx
          rw [List.getElem?_append, hlen] at hx
          split at hx
          · rename_i hj
            have hxp : ((writePages w s (completed.map fun p => ⟨p.base, p.done⟩) r1).pages.map (·.page))[j]? = some x.page := by
              rw [List.getElem?_map, hx]; rfl
            rw [hp, List.getElem?_map] at hxp
            cases hc : completed[j]? with
            | none => rw [List.getElem?_eq_none_iff] at hc; omega
            | some p =>
              rw [hc] at hxp
              simp only [Option.map_some, Option.some.injEq] at hxp
              rw [← hxp, e3 j p hc, hbase j p hc]
              congr 1
              refine Tape.page_congr fun i hi => (f1.fills.before.2 i ?_).symm
              have := e4.lo
              have hm : offset pages (k + j + 1) ≤ offset pages (k + completed.length) := offset_mono (by omega)
              omega
          · rename_i hj
            rw [f5 _ x hx]
            have : k + completed.length + (j - completed.length) = k + j := by omega
            rw [this]

end Pdfje
