import Verif.Proofs.Isolated
/-
Styles and texts, with fonts of other numbers.
-/

namespace Pdfje

/-- Commands that name no font. -/
def Command.plain : Command → Bool
  | .setColor _ => true
  | .setLineSpacing _ => true
  | .setHyphens _ => true
  | _ => false

theorem plain_via (ν : Renaming) {l : List Command} (h : ∀ c ∈ l, c.plain = true) : l.map (Command.via ν.change) = l := by
  have : ∀ c ∈ l, Command.via ν.change c = id c := by
    intro c hc
    have := h c hc
    cases c <;> first | rfl | simp [Command.plain] at this
  rw [List.map_congr_left this, List.map_id]

theorem plain_rest (color : Option RGB) (spacing : Option ℚ) (hyph : Option Nat) (base : StyleFull) : ∀ c ∈ diffRest color spacing hyph base, c.plain = true := by
  intro c hc
  unfold diffRest at hc
  simp only [List.mem_append] at hc
  rcases hc with (hc | hc) | hc
  all_goals
    split at hc
    · simp only [Option.mem_toList, Option.map_eq_some_iff] at hc
      obtain ⟨x, -, rfl⟩ := hc
      rfl
    · simp at hc

theorem plain_full (s base : StyleFull) : ∀ c ∈ ((if s.color ≠ base.color then [Command.setColor s.color] else [])
    ++ (if s.lineSpacing ≠ base.lineSpacing then [.setLineSpacing s.lineSpacing] else [])
    ++ (if s.hyphens ≠ base.hyphens then [.setHyphens s.hyphens] else [])), c.plain = true := by
  intro c hc
  simp only [List.mem_append] at hc
  rcases hc with (hc | hc) | hc
  all_goals
    split at hc
    · simp only [List.mem_singleton] at hc
      subst hc
      rfl
    · simp at hc

theorem setFont_via (ν : Renaming) (f : FontRef) (z : ℚ) : (Command.setFont f z).via ν.change = .setFont (ν.font f) z := by
  simp [Command.via, Renaming.change]

theorem asState_good {r r' : Res} (h : r.Pair r') {s : StyleFull} (hs : s.Known) :
    (s.asState r).2.Pair (s.asState r').2 ∧ ∀ ν : Renaming, ν.Good (s.asState r).2 (s.asState r').2 → (s.asState r').1 = (s.asState r).1.via ν.change := by
  refine ⟨font_pair h hs _ _, fun ν hν => ?_⟩
  have := font_good h hs s.bold s.italic hν
  simp only [StyleFull.asState, State.via, Renaming.change, one_mul, id, this]

theorem pending_good {r r' : Res} (h : r.Pair r') {p : Pending} (hp : p.Known) :
    (p.run r).2.Pair (p.run r').2 ∧ ∀ ν : Renaming, ν.Good (p.run r).2 (p.run r').2 → (p.run r').1 = (p.run r).1.map (Command.via ν.change) := by
  cases p with
  | style s b =>
    have hk : (fallback s.font b.font).Known := by
      cases hf : s.font with
      | none => exact hp.2
      | some f => exact hp.1 f hf
    simp only [Pending.run, Style.diff]
    split
    · refine ⟨font_pair h hk _ _, fun ν hν => ?_⟩
      simp only [List.map_cons, setFont_via, plain_via ν (plain_rest _ _ _ _), font_good h hk _ _ hν]
    · exact ⟨h, fun ν _ => (plain_via ν (plain_rest _ _ _ _)).symm⟩
  | full s b =>
    simp only [Pending.run, StyleFull.diff]
    split
    · refine ⟨font_pair h hp _ _, fun ν hν => ?_⟩
      simp only [List.map_cons, setFont_via, plain_via ν (plain_full _ _), font_good h hp _ _ hν]
    · exact ⟨h, fun ν _ => (plain_via ν (plain_full _ _)).symm⟩

/-- Numbers that are right at the end are right before. -/
theorem Renaming.Good.before {ν : Renaming} {r r' r2 r2' : Res} (h : ν.Good r2 r2') (p : r.Pair r') (l : r.Reach r2) (l' : r'.Reach r2') : ν.Good r r' :=
  h.back (l.wf p.left).1 (l'.wf p.right).1 (l'.wf p.right).2 p.sub

theorem runTodo_good : ∀ {todo : List Pending} {r r' : Res}, r.Pair r' → (∀ p ∈ todo, p.Known) →
    (runTodo todo r).2.Pair (runTodo todo r').2 ∧ ∀ ν : Renaming, ν.Good (runTodo todo r).2 (runTodo todo r').2 → (runTodo todo r').1 = (runTodo todo r).1.map (Command.via ν.change)
  | [], r, r', h, _ => ⟨h, fun _ _ => rfl⟩
  | p :: todo, r, r', h, hk => by
    obtain ⟨h1, e1⟩ := pending_good h (hk p (by simp))
    have hk' : ∀ q ∈ todo, q.Known := fun q hq => hk q (by simp [hq])
    obtain ⟨h2, e2⟩ := runTodo_good h1 hk'
    simp only [runTodo]
    refine ⟨h2, fun ν hν => ?_⟩
    rw [e2 ν hν, e1 ν (hν.before h1 (runTodo_reach todo _ hk') (runTodo_reach todo _ hk')), List.map_append]

mutual
theorem flattenSpan_good (style : Style) (base : StyleFull) (todo : List Pending) (content : List Item) (r r' : Res) (h : r.Pair r')
    (hc : ∀ i ∈ content, i.Known) (hs : style.Known) (hb : base.Known) (ht : ∀ p ∈ todo, p.Known) :
    (flattenSpan style base todo content r).2.2.Pair (flattenSpan style base todo content r').2.2 ∧
    (flattenSpan style base todo content r').2.1 = (flattenSpan style base todo content r).2.1 ∧
    ∀ ν : Renaming, ν.Good (flattenSpan style base todo content r).2.2 (flattenSpan style base todo content r').2.2 →
      (flattenSpan style base todo content r').1 = (flattenSpan style base todo content r).1.map (Passage.via ν.change) := by
  rw [flattenSpan, flattenSpan]
  obtain ⟨h1, h2, h3⟩ := flattenItems_good (base.or style) (todo ++ [.style style base]) content r r' h hc (StyleFull.known_or hb hs) (by
    intro p hp
    rcases List.mem_append.mp hp with hp | hp
    · exact ht p hp
    · simp only [List.mem_singleton] at hp; subst hp; exact ⟨hs, hb⟩)
  exact ⟨h1, by simp only [h2], h3⟩
termination_by (sizeOf content, 1)
theorem flattenItems_good (newbase : StyleFull) (todo : List Pending) (content : List Item) (r r' : Res) (h : r.Pair r')
    (hc : ∀ i ∈ content, i.Known) (hb : newbase.Known) (ht : ∀ p ∈ todo, p.Known) :
    (flattenItems newbase todo content r).2.2.Pair (flattenItems newbase todo content r').2.2 ∧
    (flattenItems newbase todo content r').2.1 = (flattenItems newbase todo content r).2.1 ∧
    ∀ ν : Renaming, ν.Good (flattenItems newbase todo content r).2.2 (flattenItems newbase todo content r').2.2 →
      (flattenItems newbase todo content r').1 = (flattenItems newbase todo content r).1.map (Passage.via ν.change) := by
  match content with
  | [] => rw [flattenItems, flattenItems]; exact ⟨h, rfl, fun _ _ => rfl⟩
  | .str s :: rest =>
    rw [flattenItems, flattenItems]
    have hc' : ∀ i ∈ rest, i.Known := fun i hi => hc i (by simp [hi])
    obtain ⟨h1, e1⟩ := runTodo_good h ht
    obtain ⟨h2, k2, e2⟩ := flattenItems_good newbase [] rest _ _ h1 hc' hb (by simp)
    refine ⟨h2, k2, fun ν hν => ?_⟩
    have hb' := hν.before h1 (flattenItems_reach newbase [] rest _ hc' hb (by simp)).1 (flattenItems_reach newbase [] rest _ hc' hb (by simp)).1
    simp only [e1 ν hb', squash_via, e2 ν hν, List.map_cons]
    rfl
  | .span c style :: rest =>
    rw [flattenItems, flattenItems]
    have hk := hc (.span c style) (by simp)
    cases hk with
    | span _ _ hk1 hk2 =>
      have hc' : ∀ i ∈ rest, i.Known := fun i hi => hc i (by simp [hi])
      obtain ⟨h1, k1, e1⟩ := flattenSpan_good style newbase todo c r r' h hk1 hk2 hb ht
      have ht1 := (flattenSpan_reach style newbase todo c r hk1 hk2 hb ht).2
      obtain ⟨h2, k2, e2⟩ := flattenItems_good newbase (flattenSpan style newbase todo c r).2.1 rest _ _ h1 hc' hb ht1
      simp only [k1]
      refine ⟨h2, k2, fun ν hν => ?_⟩
      have hb' := hν.before h1 (flattenItems_reach newbase _ rest _ hc' hb ht1).1 (flattenItems_reach newbase _ rest _ hc' hb ht1).1
      rw [e1 ν hb', e2 ν hν, List.map_append]
termination_by (sizeOf content, 0)
end

/-! ### The bytes of operators add no font -/

theorem encode_keys {r r' : Res} {f : FontRef} {s : List Char} {b : Bytes} (h : r.encode f s = some (b, r')) : r'.subKeys = r.subKeys := by
  unfold Res.encode at h
  cases f with
  | builtin f => simp only [Option.some.injEq, Prod.mk.injEq] at h; rw [h.2]
  | subset i =>
    simp only at h
    cases he : r.subsets[i]? with
    | none => rw [he] at h; cases h
    | some e =>
      rw [he] at h
      simp only [Option.some.injEq, Prod.mk.injEq] at h
      obtain ⟨-, rfl⟩ := h
      obtain ⟨hlt, hv⟩ := List.getElem?_eq_some_iff.1 he
      apply List.ext_getElem?
      intro n
      simp only [Res.subKeys, List.getElem?_map, List.getElem?_set]
      by_cases hn : i = n
      · subst hn; simp [hlt, hv]
      · simp [hn]

theorem itemsBytes_keys : ∀ {is : List ShowItem} {r r' : Res} {b : Bytes}, itemsBytes is r = some (b, r') → r'.subKeys = r.subKeys
  | [], r, r', b, h => by simp only [itemsBytes, Option.some.injEq, Prod.mk.injEq] at h; rw [h.2]
  | i :: is, r, r', b, h => by
    rw [itemsBytes] at h
    split at h
    · cases h
    · rename_i b1 r1 h1
      split at h
      · cases h
      · rename_i b2 r2 h2
        simp only [Option.some.injEq, Prod.mk.injEq] at h
        obtain ⟨-, rfl⟩ := h
        rw [itemsBytes_keys h2]
        cases i with
        | adj x => simp only [ShowItem.bytes, Option.some.injEq, Prod.mk.injEq] at h1; rw [h1.2]
        | txt f s =>
          simp only [ShowItem.bytes] at h1
          split at h1
          · cases h1
          · rename_i b3 r3 h3
            simp only [Option.some.injEq, Prod.mk.injEq] at h1
            rw [← h1.2, encode_keys h3]

theorem textOpBytes_keys {op : TextOp} {r r' : Res} {b : Bytes} (h : op.bytes r = some (b, r')) : r'.subKeys = r.subKeys := by
  cases op with
  | tf f z =>
    simp only [TextOp.bytes] at h
    split at h
    · cases h
    · simp only [Option.some.injEq, Prod.mk.injEq] at h; rw [h.2]
  | tj is =>
    simp only [TextOp.bytes] at h
    split at h
    · cases h
    · rename_i b1 r1 h1
      simp only [Option.some.injEq, Prod.mk.injEq] at h
      rw [← h.2, itemsBytes_keys h1]
  | _ => simp only [TextOp.bytes, Option.some.injEq, Prod.mk.injEq] at h; rw [h.2]

theorem textOpsBytes_keys : ∀ {ops : List TextOp} {r r' : Res} {b : Bytes}, textOpsBytes ops r = some (b, r') → r'.subKeys = r.subKeys
  | [], r, r', b, h => by simp only [textOpsBytes, Option.some.injEq, Prod.mk.injEq] at h; rw [h.2]
  | op :: ops, r, r', b, h => by
    rw [textOpsBytes] at h
    split at h
    · cases h
    · rename_i b1 r1 h1
      split at h
      · cases h
      · rename_i b2 r2 h2
        simp only [Option.some.injEq, Prod.mk.injEq] at h
        obtain ⟨-, rfl⟩ := h
        rw [textOpsBytes_keys h2, textOpBytes_keys h1]

theorem opBytes_keys {op : PageOp} {r r' : Res} {b : Bytes} (h : op.bytes r = some (b, r')) : r'.subKeys = r.subKeys := by
  cases op with
  | text ops =>
    simp only [PageOp.bytes] at h
    split at h
    · cases h
    · rename_i b1 r1 h1
      simp only [Option.some.injEq, Prod.mk.injEq] at h
      rw [← h.2, textOpsBytes_keys h1]
  | _ => simp only [PageOp.bytes, Option.some.injEq, Prod.mk.injEq] at h; rw [h.2]

theorem opsBytes_keys : ∀ {ops : List PageOp} {r r' : Res} {b : Bytes}, opsBytes ops r = some (b, r') → r'.subKeys = r.subKeys
  | [], r, r', b, h => by simp only [opsBytes, Option.some.injEq, Prod.mk.injEq] at h; rw [h.2]
  | op :: ops, r, r', b, h => by
    rw [opsBytes] at h
    split at h
    · cases h
    · rename_i b1 r1 h1
      split at h
      · cases h
      · rename_i b2 r2 h2
        simp only [Option.some.injEq, Prod.mk.injEq] at h
        obtain ⟨-, rfl⟩ := h
        rw [opsBytes_keys h2, opBytes_keys h1]

/-! ### Numbers of fonts that are not used do not matter -/

section
variable {ν μ : Renaming} {P : FontRef → Prop}

theorem stateAgree (h : ∀ f, P f → ν.font f = μ.font f) {s : State} (hs : P s.font) : s.via ν.change = s.via μ.change := by
  simp only [State.via, Renaming.change, h _ hs]

mutual
theorem commandAgree (h : ∀ f, P f → ν.font f = μ.font f) : ∀ (c : Command), c.Fonts P → c.via ν.change = c.via μ.change
  | .noop, _ => rfl
  | .setFont f z, hc => by
    have : P f := hc (.tf f z) (by simp [Command.ops])
    rw [setFont_via, setFont_via, h f this]
  | .setColor _, _ => rfl
  | .setLineSpacing _, _ => rfl
  | .setHyphens _, _ => rfl
  | .chain l, hc => by
    rw [Command.via, Command.via, commandsAgree h l fun op hop => hc op (by rw [Command.ops]; exact hop)]
theorem commandsAgree (h : ∀ f, P f → ν.font f = μ.font f) : ∀ (l : List Command), (∀ op ∈ opsAll l, op.Fonts P) → commandsVia ν.change l = commandsVia μ.change l
  | [], _ => rfl
  | c :: cs, hc => by
    rw [commandsVia, commandsVia, commandAgree h c fun op hop => hc op (by rw [opsAll]; simp [hop]), commandsAgree h cs fun op hop => hc op (by rw [opsAll]; simp [hop])]
end

theorem slugAgree (h : ∀ f, P f → ν.font f = μ.font f) {s : Slug} (hs : P s.state.font) : s.via ν.change = s.via μ.change := by
  simp only [Slug.via, stateAgree h hs]
  rfl

theorem boxAgree (h : ∀ f, P f → ν.font f = μ.font f) {b : Box} (hb : b.Fonts P) : b.via ν.change = b.via μ.change := by
  cases b with
  | slug s => rw [Box.via, Box.via, slugAgree h hb]
  | mixed segs st =>
    rw [Box.via, Box.via, stateAgree h hb.2]
    congr 1
    refine List.map_congr_left fun e he => ?_
    rw [segVia, segVia, slugAgree h (hb.1 e he).1, commandAgree h _ (hb.1 e he).2]

theorem wordAgree (h : ∀ f, P f → ν.font f = μ.font f) {w : Word} (hw : w.Fonts P) : w.via ν.change = w.via μ.change := by
  simp only [Word.via, stateAgree h hw.2, List.map_congr_left fun b hb => boxAgree h (hw.1 b hb)]
  rfl

theorem wordLikeAgree (h : ∀ f, P f → ν.font f = μ.font f) : ∀ {w : WordLike}, w.Fonts P → w.via ν.change = w.via μ.change
  | .box b, hw => by rw [WordLike.via, WordLike.via, boxAgree h hw]
  | .word w, hw => by rw [WordLike.via, WordLike.via, wordAgree h hw]
  | .withCmd w c, hw => by rw [WordLike.via, WordLike.via, wordLikeAgree h hw.1, commandAgree h c hw.2]

theorem shapedAgree (h : ∀ f, P f → ν.font f = μ.font f) {s : Shaped} (hs : s.Fonts P) : s.via ν.change = s.via μ.change := by
  cases s with
  | rule a b c d => rfl
  | text t =>
    rw [Shaped.via, Shaped.via]
    congr 1
    simp only [ShapedText.via]
    congr 1
    refine List.map_congr_left fun l hl => ?_
    simp only [TLine.via]
    congr 1
    exact List.map_congr_left fun w hw => wordLikeAgree h (hs l hl w hw)

theorem columnAgree (h : ∀ f, P f → ν.font f = μ.font f) {c : ColumnFill} (hc : c.Fonts P) : c.via ν.change = c.via μ.change := by
  simp only [ColumnFill.via]
  congr 1
  refine List.map_congr_left fun e he => ?_
  rw [shapedAgree h (hc e he)]
  rfl

theorem opAgree (h : ∀ f, P f → ν.font f = μ.font f) {op : PageOp} (ho : op.Fonts P) : op.via ν.change = op.via μ.change := by
  cases op with
  | text ops =>
    rw [PageOp.via, PageOp.via]
    congr 1
    refine List.map_congr_left fun t ht => ?_
    have hf := ho t ht
    cases t with
    | tf f z => simp only [TextOp.via, Renaming.change, h f hf]
    | tj is =>
      rw [TextOp.via, TextOp.via]
      congr 1
      refine List.map_congr_left fun i hi => ?_
      cases i with
      | adj x => rfl
      | txt f s => simp only [ShowItem.via, Renaming.change, h f (hf _ hi)]
    | _ => rfl
  | _ => rfl

theorem opsAgree (h : ∀ f, P f → ν.font f = μ.font f) {ops : List PageOp} (ho : ∀ op ∈ ops, op.Fonts P) : ops.map (PageOp.via ν.change) = ops.map (PageOp.via μ.change) :=
  List.map_congr_left fun op hop => opAgree h (ho op hop)

end

/-! ### What is not text does not change -/

section
variable (ν : Renaming)

theorem Renaming.pt (p : ℚ × ℚ) : ν.change.toRescale.pt p = p := by simp [Rescale.pt, Renaming.change]

theorem styleRenamed (s : Style) : s.via ν.change.toRescale = s := by
  have h1 : (s.size.map fun x => ν.change.factor * x) = s.size := by cases s.size <;> simp [Renaming.change]
  have h2 : s.color.map ν.change.color = s.color := by cases s.color <;> rfl
  simp only [Style.via, h1, h2]

theorem fullRenamed (s : StyleFull) : s.via ν.change.toRescale = s := by simp [StyleFull.via, Renaming.change]

mutual
theorem itemRenamed : ∀ i : Item, i.via ν.change.toRescale = i
  | .str s => by rw [Item.via]
  | .span c st => by rw [Item.via, itemsRenamed c, styleRenamed]
theorem itemsRenamed : ∀ l : List Item, itemsVia ν.change.toRescale l = l
  | [] => by rw [itemsVia]
  | i :: is => by rw [itemsVia, itemRenamed i, itemsRenamed is]
end

theorem boxRenamed (c : Column) : c.via ν.change.toRescale = c := by
  simp [Column.via, Renaming.pt]
  simp [Renaming.change]

theorem paragraphRenamed (p : Paragraph) : p.via ν.change.toRescale = p := by
  simp only [Paragraph.via, itemsRenamed, styleRenamed]
  simp [Renaming.change]

theorem optionColor (c : Option RGB) : c.map ν.change.color = c := by cases c <;> rfl

theorem drawingRenamed (d : Drawing) : d.via ν.change.toRescale = d := by
  cases d with
  | polyline ps close fill stroke =>
    have : ps.map (PointLike.via ν.change.toRescale) = ps := by
      refine (List.map_congr_left fun q _ => ?_).trans (List.map_id' _)
      cases q <;> simp [PointLike.via, Renaming.pt]
    simp [Drawing.via, this, optionColor]
  | text loc content style align => simp [Drawing.via, Renaming.pt, itemsRenamed, styleRenamed]
  | _ => simp [Drawing.via, Renaming.pt, optionColor]; try simp [Renaming.change]

theorem pageRenamed (p : Page) : p.via ν.change.toRescale = p := by
  have h1 : p.content.map (Drawing.via ν.change.toRescale) = p.content := (List.map_congr_left fun q _ => drawingRenamed ν q).trans (List.map_id' _)
  have h2 : p.columns.map (Column.via ν.change.toRescale) = p.columns := (List.map_congr_left fun q _ => boxRenamed ν q).trans (List.map_id' _)
  simp only [Page.via, h1, h2, Renaming.pt]

theorem shapesRenamed (s : Shape) : s.via ν.change.toRescale = s := by
  have hseg : ∀ x : Seg, x.via ν.change.toRescale = x := fun x => by cases x <;> simp [Seg.via, Renaming.pt]
  have hsub : ∀ x : Subpath, x.via ν.change.toRescale = x := fun x => by
    have : x.segs.map (Seg.via ν.change.toRescale) = x.segs := (List.map_congr_left fun a _ => hseg a).trans (List.map_id' _)
    simp [Subpath.via, Renaming.pt, this]
  have : s.path.map (Subpath.via ν.change.toRescale) = s.path := (List.map_congr_left fun a _ => hsub a).trans (List.map_id' _)
  simp only [Shape.via, this, optionColor]

theorem glyphRenamed (g : Glyph) : g.viaC ν.change = g.renamed ν.font := by
  simp [Glyph.viaC, Glyph.renamed, Renaming.change]

end

end Pdfje
