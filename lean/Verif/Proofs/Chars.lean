import Verif.Proofs.Written
import Verif.Proofs.Display
/-
The characters of operators, and the characters of fonts after the operators have been written.
-/

namespace Pdfje

variable {A : Char → Prop}

/-- Text of these characters only. -/
def ShowItem.Chars (A : Char → Prop) : ShowItem → Prop
  | .adj _ => True
  | .txt _ s => ∀ c ∈ s, A c

@[inherit_doc ShowItem.Chars] def TextOp.Chars (A : Char → Prop) : TextOp → Prop
  | .tj is => ∀ i ∈ is, i.Chars A
  | _ => True

@[inherit_doc ShowItem.Chars] def PageOp.Chars (A : Char → Prop) : PageOp → Prop
  | .text ops => ∀ op ∈ ops, op.Chars A
  | _ => True

/-! ### Words -/

theorem encodeKerningLoop_chars {w : Nat} {f : FontRef} {s : List Char} (h : ∀ c ∈ s, A c) : ∀ (ks : List (Nat × ℚ)) (prev : Nat),
    ∀ x ∈ encodeKerningLoop s w prev ks, (x.item f).Chars A
  | [], prev, x, hx => by
    simp only [encodeKerningLoop, List.mem_singleton] at hx
    subst hx
    exact fun c hc => h c (List.mem_of_mem_drop hc)
  | (i, k) :: ks, prev, x, hx => by
    simp only [encodeKerningLoop, List.mem_cons] at hx
    rcases hx with rfl | rfl | hx
    · exact fun c hc => h c (List.mem_of_mem_take (List.mem_of_mem_drop hc))
    · trivial
    · exact encodeKerningLoop_chars h ks _ x hx

theorem Slug.toItems_chars {s : Slug} (h : ∀ e ∈ s.styled, A e.1) : ∀ i ∈ s.toItems, i.Chars A := by
  have h' : ∀ c ∈ s.txt, A c := fun c hc => h (c, s.state) (List.mem_map_of_mem hc)
  intro i hi
  obtain ⟨x, hx, rfl⟩ := List.mem_map.1 hi
  unfold encodeKerning at hx
  split at hx
  · simp only [List.mem_singleton] at hx
    subst hx; exact h'
  · rcases List.mem_cons.1 hx with rfl | hx
    · trivial
    · exact encodeKerningLoop_chars h' _ _ x hx
  · exact encodeKerningLoop_chars h' _ _ x hx

mutual
theorem Command.ops_chars (c : Command) : ∀ op ∈ c.ops, op.Chars A := by
  match c with
  | .noop => simp [Command.ops]
  | .setFont f z => simp [Command.ops, TextOp.Chars]
  | .setColor c => simp [Command.ops, TextOp.Chars]
  | .setLineSpacing v => simp [Command.ops]
  | .setHyphens h => simp [Command.ops]
  | .chain l => rw [Command.ops]; exact opsAll_chars l
theorem opsAll_chars (l : List Command) : ∀ op ∈ opsAll l, op.Chars A := by
  match l with
  | [] => simp [opsAll]
  | c :: cs =>
    intro op hop
    rw [opsAll] at hop
    rcases List.mem_append.1 hop with h | h
    · exact Command.ops_chars c op h
    · exact opsAll_chars cs op h
end

/-- The operators, and the items that are not written yet. -/
def OutChars (A : Char → Prop) (x : List TextOp × List ShowItem) : Prop := (∀ op ∈ x.1, op.Chars A) ∧ ∀ i ∈ x.2, i.Chars A

theorem encodeSegments_chars : ∀ (segs : List (Slug × Command)) (line : List ShowItem), (∀ e ∈ segs.flatMap fun e => e.1.styled, A e.1) → (∀ i ∈ line, i.Chars A) →
    OutChars A (encodeSegments segs line)
  | [], line, _, hl => ⟨by simp [encodeSegments], hl⟩
  | (s, c) :: rest, line, h, hl => by
    obtain ⟨h1, h2⟩ := encodeSegments_chars rest [] (fun e he => h e (by rw [List.flatMap_cons]; exact List.mem_append_right _ he)) (by simp)
    simp only [encodeSegments]
    refine ⟨?_, h2⟩
    intro op hop
    rcases List.mem_append.1 hop with hop | hop
    · rcases List.mem_cons.1 hop with rfl | hop
      · intro i hi
        rcases List.mem_append.1 hi with hi | hi
        · exact hl i hi
        · exact Slug.toItems_chars (fun e he => h e (by rw [List.flatMap_cons]; exact List.mem_append_left _ he)) i hi
      · exact c.ops_chars op hop
    · exact h1 op hop

theorem Box.encodeInto_chars (b : Box) (line : List ShowItem) (h : ∀ e ∈ b.styled, A e.1) (hl : ∀ i ∈ line, i.Chars A) : OutChars A (b.encodeInto line) := by
  cases b with
  | slug s =>
    refine ⟨by simp [Box.encodeInto], fun i hi => ?_⟩
    rcases List.mem_append.1 hi with hi | hi
    · exact hl i hi
    · exact Slug.toItems_chars h i hi
  | mixed segs st => exact encodeSegments_chars segs line h hl

theorem encodeBoxes_chars : ∀ (bs : List Box) (line : List ShowItem), (∀ e ∈ bs.flatMap Box.styled, A e.1) → (∀ i ∈ line, i.Chars A) → OutChars A (encodeBoxes bs line)
  | [], line, _, hl => ⟨by simp [encodeBoxes], hl⟩
  | b :: bs, line, h, hl => by
    obtain ⟨h1, h2⟩ := b.encodeInto_chars line (fun e he => h e (by rw [List.flatMap_cons]; exact List.mem_append_left _ he)) hl
    obtain ⟨h3, h4⟩ := encodeBoxes_chars bs (b.encodeInto line).2 (fun e he => h e (by rw [List.flatMap_cons]; exact List.mem_append_right _ he)) h2
    simp only [encodeBoxes]
    refine ⟨fun op hop => ?_, h4⟩
    rcases List.mem_append.1 hop with hop | hop
    · exact h1 op hop
    · exact h3 op hop

theorem WordLike.encodeInto_chars : ∀ (w : WordLike) (line : List ShowItem), (∀ e ∈ w.styled, A e.1) → (∀ i ∈ line, i.Chars A) → OutChars A (w.encodeInto line)
  | .box b, line, h, hl => b.encodeInto_chars line h hl
  | .word w, line, h, hl => by
    obtain ⟨h1, h2⟩ := encodeBoxes_chars w.boxes line (fun e he => h e (List.mem_append_left _ he)) hl
    simp only [WordLike.encodeInto, Word.encodeInto]
    refine ⟨h1, ?_⟩
    cases ht : w.tail with
    | none => exact h2
    | some t =>
      intro i hi
      rcases List.mem_append.1 hi with hi | hi
      · exact h2 i hi
      · have hsp : A ' ' := h (' ', w.state) (by simp [WordLike.styled, Word.styled, ht])
        unfold TrailingSpace.toItems at hi
        rcases List.mem_append.1 hi with hi | hi
        · split at hi
          · simp only [List.mem_singleton] at hi; subst hi; trivial
          · simp at hi
        · simp only [List.mem_singleton] at hi
          subst hi
          intro c hc
          simp only [List.mem_singleton] at hc
          rw [hc]; exact hsp
  | .withCmd w c, line, h, hl => by
    obtain ⟨h1, h2⟩ := WordLike.encodeInto_chars w line h hl
    simp only [WordLike.encodeInto]
    refine ⟨fun op hop => ?_, by simp⟩
    rcases List.mem_append.1 hop with hop | hop
    · rcases List.mem_append.1 hop with hop | hop
      · exact h1 op hop
      · simp only [List.mem_singleton] at hop
        subst hop; exact h2
    · exact c.ops_chars op hop

/-- Lines of words have just the characters of the words. -/
theorem encodeWords_chars : ∀ (ws : List WordLike) (line : List ShowItem), (∀ e ∈ ws.flatMap WordLike.styled, A e.1) → (∀ i ∈ line, i.Chars A) →
    ∀ op ∈ encodeWords ws line, op.Chars A
  | [], line, _, hl => by
    intro op hop
    simp only [encodeWords, List.mem_singleton] at hop
    subst hop; exact hl
  | w :: ws, line, h, hl => by
    obtain ⟨h1, h2⟩ := w.encodeInto_chars line (fun e he => h e (by rw [List.flatMap_cons]; exact List.mem_append_left _ he)) hl
    intro op hop
    simp only [encodeWords] at hop
    rcases List.mem_append.1 hop with hop | hop
    · exact h1 op hop
    · exact encodeWords_chars ws _ (fun e he => h e (by rw [List.flatMap_cons]; exact List.mem_append_right _ he)) h2 op hop

/-! ### Rendering -/

@[inherit_doc ShowItem.Chars] def RLine.Chars (A : Char → Prop) (l : RLine) : Prop := ∀ op ∈ encodeWords l.words [], op.Chars A

theorem RLine.Chars.ops {l : RLine} (h : l.Chars A) : ∀ op ∈ l.ops, op.Chars A := by
  intro op hop
  rcases List.mem_append.mp hop with hop | hop
  · exact l.cmd.ops_chars op hop
  · exact h op hop

theorem renderCentered_chars {lead : ℚ} : ∀ {ls : List RLine} {prev : ℚ}, (∀ l ∈ ls, l.Chars A) → ∀ op ∈ renderCentered lead ls prev, op.Chars A
  | [], prev, h => by simp [renderCentered]
  | l :: ls, prev, h => by
    intro op hop
    simp only [renderCentered, List.cons_append, List.mem_cons, List.mem_append] at hop
    rcases hop with rfl | hop | hop
    · trivial
    · exact (h l (by simp)).ops op hop
    · exact renderCentered_chars (ls := ls) (fun x hx => h x (by simp [hx])) op hop

theorem renderRight_chars {lead : ℚ} : ∀ {ls : List RLine} {prev : ℚ}, (∀ l ∈ ls, l.Chars A) → ∀ op ∈ renderRight lead ls prev, op.Chars A
  | [], prev, h => by simp [renderRight]
  | l :: ls, prev, h => by
    intro op hop
    simp only [renderRight, List.cons_append, List.mem_cons, List.mem_append] at hop
    rcases hop with rfl | hop | hop
    · trivial
    · exact (h l (by simp)).ops op hop
    · exact renderRight_chars (ls := ls) (fun x hx => h x (by simp [hx])) op hop

theorem renderLeft_chars {lead : ℚ} {ls : List RLine} (h : ∀ l ∈ ls, l.Chars A) : ∀ op ∈ renderLeft ls lead, op.Chars A := by
  intro op hop
  simp only [renderLeft, List.mem_cons, List.mem_flatMap] at hop
  rcases hop with rfl | ⟨l, hl, rfl | hop⟩
  · trivial
  · trivial
  · exact (h l hl).ops op hop

theorem renderText_chars {pos : ℚ × ℚ} {st : Option State} {prev : ℚ} {ls : List RLine} {lead : ℚ} {align : Align}
    (h : ∀ l ∈ ls, l.Chars A) : (renderText pos st prev ls lead align).Chars A := by
  intro op hop
  simp only [List.cons_append, List.mem_cons, List.mem_append] at hop
  rcases hop with rfl | hop | hop
  · trivial
  · cases st with
    | none => simp at hop
    | some s =>
      simp only [State.ops, List.mem_cons, List.not_mem_nil, or_false] at hop
      rcases hop with rfl | rfl <;> trivial
  · cases align
    · exact renderLeft_chars h op hop
    · exact renderCentered_chars h op hop
    · exact renderRight_chars h op hop
    · exact renderLeft_chars h op hop

/-! ### The characters of the fonts -/

/-- The embedded fonts have codes for these characters only. -/
def Res.Within (A : Char → Prop) (r : Res) : Prop := ∀ e ∈ r.subsets, ∀ c ∈ e.2.cids, A c

theorem Res.within_empty : Res.empty.Within A := by simp [Res.Within, Res.empty]

theorem encodeCids_within : ∀ {s : List Char} {cids : List Char}, (∀ c ∈ cids, A c) → (∀ c ∈ s, A c) → ∀ c ∈ (encodeCids cids s).2, A c
  | [], cids, h, _ => h
  | c :: s, cids, h, hs => by
    simp only [encodeCids]
    refine encodeCids_within (s := s) ?_ fun x hx => hs x (by simp [hx])
    intro x hx
    unfold cidOf at hx
    split at hx
    · exact h x hx
    · rcases List.mem_append.1 hx with hx | hx
      · exact h x hx
      · simp only [List.mem_singleton] at hx
        rw [hx]; exact hs c (by simp)

theorem ShowItem.within {r r' : Res} {i : ShowItem} {b : Bytes} (h : i.bytes r = some (b, r')) (hr : r.Within A) (hi : i.Chars A) : r'.Within A := by
  cases i with
  | adj x => simp only [ShowItem.bytes, Option.some.injEq, Prod.mk.injEq] at h; rw [← h.2]; exact hr
  | txt f s =>
    simp only [ShowItem.bytes] at h
    split at h
    · cases h
    · rename_i b' r1 he
      simp only [Option.some.injEq, Prod.mk.injEq] at h
      rw [← h.2]
      cases f with
      | builtin g =>
        simp only [Res.encode, Option.some.injEq, Prod.mk.injEq] at he
        rw [← he.2]; exact hr
      | subset k =>
        simp only [Res.encode] at he
        split at he
        · cases he
        · rename_i e hk
          simp only [Option.some.injEq, Prod.mk.injEq] at he
          rw [← he.2]
          intro x hx
          rcases List.mem_or_eq_of_mem_set hx with hx | rfl
          · exact hr x hx
          · exact encodeCids_within (hr e (List.mem_of_getElem? hk)) hi

theorem itemsBytes_within : ∀ {is : List ShowItem} {r r' : Res} {b : Bytes}, itemsBytes is r = some (b, r') → r.Within A → (∀ i ∈ is, i.Chars A) → r'.Within A
  | [], r, r', b, h, hr, _ => by simp only [itemsBytes, Option.some.injEq, Prod.mk.injEq] at h; rw [← h.2]; exact hr
  | i :: is, r, r', b, h, hr, hi => by
    rw [itemsBytes] at h
    split at h
    · cases h
    · rename_i b1 r1 h1
      split at h
      · cases h
      · rename_i b2 r2 h2
        simp only [Option.some.injEq, Prod.mk.injEq] at h
        obtain ⟨-, rfl⟩ := h
        exact itemsBytes_within h2 (ShowItem.within h1 hr (hi i (by simp))) fun j hj => hi j (by simp [hj])

theorem TextOp.within {op : TextOp} {r r' : Res} {b : Bytes} (h : op.bytes r = some (b, r')) (hr : r.Within A) (ho : op.Chars A) : r'.Within A := by
  cases op with
  | tj is =>
    simp only [TextOp.bytes] at h
    split at h
    · cases h
    · rename_i b1 r1 h1
      simp only [Option.some.injEq, Prod.mk.injEq] at h
      obtain ⟨-, rfl⟩ := h
      exact itemsBytes_within h1 hr ho
  | tf f z =>
    simp only [TextOp.bytes] at h
    split at h
    · cases h
    · simp only [Option.some.injEq, Prod.mk.injEq] at h; obtain ⟨-, rfl⟩ := h; exact hr
  | _ => simp only [TextOp.bytes, Option.some.injEq, Prod.mk.injEq] at h; obtain ⟨-, rfl⟩ := h; exact hr

theorem textOpsBytes_within : ∀ {ops : List TextOp} {r r' : Res} {b : Bytes}, textOpsBytes ops r = some (b, r') → r.Within A → (∀ op ∈ ops, op.Chars A) → r'.Within A
  | [], r, r', b, h, hr, _ => by simp only [textOpsBytes, Option.some.injEq, Prod.mk.injEq] at h; rw [← h.2]; exact hr
  | i :: is, r, r', b, h, hr, hi => by
    rw [textOpsBytes] at h
    split at h
    · cases h
    · rename_i b1 r1 h1
      split at h
      · cases h
      · rename_i b2 r2 h2
        simp only [Option.some.injEq, Prod.mk.injEq] at h
        obtain ⟨-, rfl⟩ := h
        exact textOpsBytes_within h2 (TextOp.within h1 hr (hi i (by simp))) fun j hj => hi j (by simp [hj])

theorem PageOp.within {op : PageOp} {r r' : Res} {b : Bytes} (h : op.bytes r = some (b, r')) (hr : r.Within A) (ho : op.Chars A) : r'.Within A := by
  cases op with
  | text ops =>
    simp only [PageOp.bytes] at h
    split at h
    · cases h
    · rename_i b1 r1 h1
      simp only [Option.some.injEq, Prod.mk.injEq] at h
      obtain ⟨-, rfl⟩ := h
      exact textOpsBytes_within h1 hr ho
  | _ => simp only [PageOp.bytes, Option.some.injEq, Prod.mk.injEq] at h; obtain ⟨-, rfl⟩ := h; exact hr

theorem opsBytes_within : ∀ {ops : List PageOp} {r r' : Res} {b : Bytes}, opsBytes ops r = some (b, r') → r.Within A → (∀ op ∈ ops, op.Chars A) → r'.Within A
  | [], r, r', b, h, hr, _ => by simp only [opsBytes, Option.some.injEq, Prod.mk.injEq] at h; rw [← h.2]; exact hr
  | i :: is, r, r', b, h, hr, hi => by
    rw [opsBytes] at h
    split at h
    · cases h
    · rename_i b1 r1 h1
      split at h
      · cases h
      · rename_i b2 r2 h2
        simp only [Option.some.injEq, Prod.mk.injEq] at h
        obtain ⟨-, rfl⟩ := h
        exact opsBytes_within h2 (PageOp.within h1 hr (hi i (by simp))) fun j hj => hi j (by simp [hj])

/-! ### Requests add no characters -/

theorem Res.within_font {r : Res} (hr : r.Within A) (f : Typeface) (b i : Bool) : (r.font f b i).2.Within A := by
  unfold Res.font
  cases f with
  | builtin x =>
    simp only
    split <;> exact hr
  | trueType t =>
    simp only
    split
    · exact hr
    · intro e he
      simp only [List.mem_append, List.mem_singleton] at he
      rcases he with he | rfl
      · exact hr e he
      · simp

theorem Pending.run_within (p : Pending) {r : Res} (hr : r.Within A) : (p.run r).2.Within A := by
  cases p with
  | style s b =>
    simp only [Pending.run, Style.diff]
    split
    · exact Res.within_font hr _ _ _
    · exact hr
  | full s b =>
    simp only [Pending.run, StyleFull.diff]
    split
    · exact Res.within_font hr _ _ _
    · exact hr

theorem runTodo_within (todo : List Pending) : ∀ {r : Res}, r.Within A → (runTodo todo r).2.Within A := by
  induction todo with
  | nil => intro r hr; exact hr
  | cons p todo ih => intro r hr; rw [runTodo]; exact ih (p.run_within hr)

mutual
theorem flattenSpan_within (style : Style) (base : StyleFull) (todo : List Pending) (content : List Item) {r : Res} (hr : r.Within A) :
    (flattenSpan style base todo content r).2.2.Within A := by
  rw [flattenSpan]
  exact flattenItems_within _ _ content hr
termination_by (sizeOf content, 1)
theorem flattenItems_within (newbase : StyleFull) (todo : List Pending) (content : List Item) {r : Res} (hr : r.Within A) :
    (flattenItems newbase todo content r).2.2.Within A := by
  match content with
  | [] => rw [flattenItems]; exact hr
  | .str s :: rest => rw [flattenItems]; exact flattenItems_within newbase [] rest (runTodo_within todo hr)
  | .span c style :: rest =>
    rw [flattenItems]
    exact flattenItems_within newbase _ rest (flattenSpan_within style newbase todo c hr)
termination_by (sizeOf content, 0)
end

theorem asState_within (s : StyleFull) {r : Res} (hr : r.Within A) : (s.asState r).2.Within A := Res.within_font hr _ _ _

theorem Drawing.render_within (w : World) (s : StyleFull) {r : Res} (hr : r.Within A) (d : Drawing) : (d.render w s r).2.Within A := by
  cases d with
  | text loc content style align => exact flattenSpan_within _ _ _ _ (asState_within s hr)
  | _ => exact hr

theorem Block.intoColumns_within (w : World) (s : StyleFull) {r : Res} (hr : r.Within A) (b : Block) (cs : Nat → ColumnFill) : (b.intoColumns w r s cs).2.Within A := by
  cases b with
  | paragraph p => exact flattenSpan_within _ _ _ _ (asState_within _ hr)
  | rule x => exact hr

/-! ### Pages: if their operators have only these characters, then so have the fonts -/

theorem drawingsRun_within (w : World) (s : StyleFull) : ∀ {ds : List Drawing} {r r' : Res} {ops : List PageOp} {b : Bytes},
    drawingsRun w s ds r = (some (ops, b), r') → r.Within A → (∀ op ∈ ops, op.Chars A) → r'.Within A
  | [], r, r', ops, b, h, hr, _ => by simp only [drawingsRun, Prod.mk.injEq] at h; rw [← h.2]; exact hr
  | d :: ds, r, r', ops, b, h, hr, ho => by
    have h1 := Drawing.render_within w s hr d
    rw [drawingsRun] at h
    cases hx : d.render w s r with
    | mk o r1 =>
      rw [hx] at h h1
      cases o with
      | none => simp only at h; cases h
      | some part =>
        simp only at h
        split at h
        · cases h
        · rename_i b1 r2 hb
          split at h
          · cases h
          · rename_i ops' b' r3 hy
            simp only [Prod.mk.injEq, Option.some.injEq] at h
            obtain ⟨⟨rfl, -⟩, rfl⟩ := h
            exact drawingsRun_within w s hy (opsBytes_within hb h1 fun op hop => ho op (by simp [hop])) fun op hop => ho op (by simp [hop])

theorem Filled.run_within (w : World) (s : StyleFull) {p : Filled} {r r' : Res} {ops : List PageOp} {b : Bytes} (h : p.run w s r = (some (ops, b), r')) (hr : r.Within A)
    (ho : ∀ op ∈ ops, op.Chars A) : r'.Within A := by
  unfold Filled.run at h
  split at h
  · cases h
  · rename_i ops1 b1 r1 hd
    split at h
    · cases h
    · rename_i b2 r2 hb
      simp only [Prod.mk.injEq, Option.some.injEq] at h
      obtain ⟨⟨rfl, -⟩, rfl⟩ := h
      exact opsBytes_within hb (drawingsRun_within w s hd hr fun op hop => ho op (by simp only [List.mem_append]; exact Or.inl hop))
        fun op hop => ho op (by simp only [List.mem_append]; exact Or.inr hop)

theorem writePages_within (w : World) (s : StyleFull) : ∀ {ps : List Filled} {r : Res}, (writePages w s ps r).err = none → r.Within A →
    (∀ x ∈ (writePages w s ps r).pages, ∀ op ∈ x.ops, op.Chars A) → (writePages w s ps r).res.Within A
  | [], r, _, hr, _ => hr
  | p :: ps, r, he, hr, ho => by
    rw [writePages] at he ho ⊢
    cases hx : p.run w s r with
    | mk o r1 =>
      rw [hx] at he ho
      cases o with
      | none => simp at he
      | some y =>
        obtain ⟨ops, b⟩ := y
        simp only at he ho ⊢
        exact writePages_within w s he (Filled.run_within w s hx hr (ho ⟨p, ops, b⟩ (List.mem_cons_self ..))) fun x hx => ho x (List.mem_cons_of_mem _ hx)

theorem autoLoop_within (w : World) (s : StyleFull) : ∀ {bs : List Block} {doc : Nat → PageFill} {r : Res}, (autoLoop w s bs doc r).err = none → r.Within A →
    (∀ x ∈ (autoLoop w s bs doc r).pages, ∀ op ∈ x.ops, op.Chars A) → (autoLoop w s bs doc r).res.Within A
  | [], doc, r, he, hr, ho => writePages_within w s he hr ho
  | b :: bs, doc, r, he, hr, ho => by
    have h1 := Block.intoColumns_within w s hr b (columnsLeft doc)
    rw [autoLoop] at he ho ⊢
    cases hx : b.intoColumns w r s (columnsLeft doc) with
    | mk o r1 =>
      rw [hx] at h1 he ho
      cases o with
      | none => cases he
      | some filled =>
        simp only at he ho ⊢
        cases hf : fillInto filled doc with
        | none => rw [hf] at he; cases he
        | some y =>
          obtain ⟨doc', completed⟩ := y
          rw [hf] at he ho
          simp only at he ho ⊢
          obtain ⟨e1, e2, e3⟩ := PagesRun.andThen_none he
          rw [e3] at ho
          have e4 : ((writePages w s (completed.map fun p => ⟨p.base, p.done⟩) r1).andThen (autoLoop w s bs doc')).res =
              (autoLoop w s bs doc' (writePages w s (completed.map fun p => ⟨p.base, p.done⟩) r1).res).res := by
            rw [PagesRun.andThen, e1]
          rw [e4]
          refine autoLoop_within w s e2 (writePages_within w s e1 h1 fun x hx => ho x (List.mem_append_left _ hx)) fun x hx => ho x (List.mem_append_right _ hx)

theorem DocItem.run_within (w : World) (s : StyleFull) {it : DocItem} {pnum : Nat} {r : Res} (he : (it.run w s pnum r).err = none) (hr : r.Within A)
    (ho : ∀ x ∈ (it.run w s pnum r).pages, ∀ op ∈ x.ops, op.Chars A) : (it.run w s pnum r).res.Within A := by
  cases it with
  | page p => exact writePages_within w s he hr ho
  | auto a => exact autoLoop_within w s he hr ho

end Pdfje
