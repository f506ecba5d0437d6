import Verif.Proofs.Kerning
/-
C70: embedded fonts are kerned as their tables say.
-/

namespace Pdfje

/-- The first entry for a character is the last entry for its glyph: no character after it shares the glyph. -/
def Ttf.OwnGlyph (t : Ttf) (a : Char) : Prop := ∃ pre l post, t.cmap = pre ++ (a, l) :: post ∧ l ∉ post.map (·.2)

/-- A font as the formats require, with one entry for each character, for whose kerning the tables do not interact: lookup
indices exist; the lookups of the feature `kern` are pair positioning lookups with simple subtables; if two subtables apply to the
same pair of glyphs, they are in one lookup, and the first is of format 1 (pairs), the second of format 2 (classes). -/
structure Ttf.SimpleKern (t : Ttf) (g : Gpos) : Prop where
  units : t.unitsPerEm ≠ 0
  chars : (t.cmap.map (·.1)).Nodup
  indexes : ∀ f ∈ g.features, ∀ i ∈ f.2, i < g.lookups.length
  types : ∀ lk ∈ g.kernFeature, lk.type = 2 ∨ lk.type = 9
  subs : ∀ lk ∈ g.kernFeature, ∀ s ∈ lk.subs, match s with | .pairPos p => p.Simple | .extension p => p.Simple | .extensionOther t => t = 8
  apart : g.kernFeature.Pairwise fun a b => ∀ p ∈ a.pairPos, ∀ q ∈ b.pairPos, ∀ l r, p.applied l r = none ∨ q.applied l r = none
  order : ∀ lk ∈ g.kernFeature, lk.pairPos.Pairwise fun p q => ∀ l r, p.applied l r = none ∨ q.applied l r = none ∨
    match p, q with | .format1 .., .format2 .. => True | _, _ => False

/-! ### The lookups of the feature -/

theorem kernLookupIndexes_spec (fs : List (List Char × List Nat)) :
    (kernLookupIndexes fs).Nodup ∧ ∀ i, i ∈ kernLookupIndexes fs ↔ ∃ f ∈ fs, f.1 = "kern".toList ∧ i ∈ f.2 := by
  have h : ∀ (xs l : List Nat), l.Nodup → (xs.foldl (fun l i => if i ∈ l then l else l ++ [i]) l).Nodup ∧
      ∀ i, i ∈ xs.foldl (fun l i => if i ∈ l then l else l ++ [i]) l ↔ i ∈ l ∨ i ∈ xs := by
    intro xs
    induction xs with
    | nil => intro l hl; simp [hl]
    | cons x xs ih =>
      intro l hl
      rw [List.foldl_cons]
      by_cases hx : x ∈ l
      · simp only [hx, if_true]
        refine ⟨(ih l hl).1, fun i => ?_⟩
        rw [(ih l hl).2]
        simp only [List.mem_cons]
        constructor
        · tauto
        · rintro (h | rfl | h) <;> tauto
      · simp only [hx, if_false]
        have hl' : (l ++ [x]).Nodup := by
          rw [List.nodup_append]
          exact ⟨hl, List.nodup_singleton _, fun a ha b hb => by simp only [List.mem_singleton] at hb; subst hb; exact fun h => hx (h ▸ ha)⟩
        refine ⟨(ih _ hl').1, fun i => ?_⟩
        rw [(ih _ hl').2]
        simp only [List.mem_append, List.mem_cons, List.not_mem_nil, or_false, or_assoc]
  refine ⟨(h _ _ List.nodup_nil).1, fun i => ?_⟩
  rw [kernLookupIndexes, (h _ _ List.nodup_nil).2]
  simp only [List.not_mem_nil, false_or, List.mem_flatMap]
  constructor
  · rintro ⟨f, hf, hi⟩
    split at hi
    · exact ⟨f, hf, ‹_›, hi⟩
    · simp at hi
  · rintro ⟨f, hf, hk, hi⟩
    exact ⟨f, hf, by rw [if_pos hk]; exact hi⟩

theorem sorted_indexes (g : Gpos) (h : ∀ f ∈ g.features, ∀ i ∈ f.2, i < g.lookups.length) :
    (kernLookupIndexes g.features).mergeSort (· ≤ ·) =
      (List.range g.lookups.length).filter fun i => g.features.any fun f => f.1 = "kern".toList ∧ i ∈ f.2 := by
  obtain ⟨hn, hm⟩ := kernLookupIndexes_spec g.features
  have hperm : ((kernLookupIndexes g.features).mergeSort (· ≤ ·)).Perm
      ((List.range g.lookups.length).filter fun i => g.features.any fun f => f.1 = "kern".toList ∧ i ∈ f.2) := by
    rw [List.perm_ext_iff_of_nodup ((List.mergeSort_perm _ _).nodup_iff.2 hn) (List.nodup_range.filter _)]
    intro i
    rw [(List.mergeSort_perm _ _).mem_iff, hm]
    simp only [List.mem_filter, List.mem_range, List.any_eq_true, decide_eq_true_eq]
    constructor
    · rintro ⟨f, hf, hk, hi⟩; exact ⟨h f hf i hi, f, hf, hk, hi⟩
    · rintro ⟨_, f, hf, hk, hi⟩; exact ⟨f, hf, hk, hi⟩
  refine hperm.eq_of_pairwise (le := fun a b => decide (a ≤ b)) (fun a b _ _ h1 h2 => ?_) ?_ ?_
  · simp only [decide_eq_true_eq] at h1 h2; omega
  · exact List.pairwise_mergeSort (fun a b c h1 h2 => by simp only [decide_eq_true_eq] at *; omega)
      (fun a b => by simp only [Bool.or_eq_true, decide_eq_true_eq]; omega) _
  · refine List.Pairwise.filter _ ?_
    exact List.pairwise_lt_range.imp fun h => by simp only [decide_eq_true_eq]; omega

theorem mapM_getElem {α} (ls : List α) : ∀ (is : List Nat), (∀ i ∈ is, i < ls.length) →
    is.mapM (fun i => ls[i]?) = some (is.filterMap fun i => ls[i]?)
  | [], _ => rfl
  | i :: is, h => by
    rw [List.mapM_cons, List.getElem?_eq_getElem (h i (List.mem_cons_self ..)),
      mapM_getElem ls is fun j hj => h j (List.mem_cons_of_mem _ hj)]
    simp [List.getElem?_eq_getElem (h i (List.mem_cons_self ..))]

theorem kernLookups_eq {t : Ttf} {g : Gpos} (h : t.SimpleKern g) : kernLookups g = some g.kernFeature := by
  rw [kernLookups, sorted_indexes g h.indexes, mapM_getElem _ _ (fun i hi => List.mem_range.1 (List.mem_filter.1 hi).1)]
  simp only [Option.map_some, Option.some.injEq]
  refine List.filter_eq_self.2 fun lk hlk => ?_
  simpa using h.types lk hlk

theorem pairPosList_eq {t : Ttf} {g : Gpos} (h : t.SimpleKern g) : pairPosList g.kernFeature = some (g.kernFeature.flatMap GposLookup.pairPos) := by
  have hsub : ∀ subs : List GposSub, (∀ s ∈ subs, match s with | .pairPos p => p.Simple | .extension p => p.Simple | .extensionOther t => t = 8) →
      (subs.mapM GposSub.pairPosList).map List.flatten = some (subs.filterMap fun s => match s with | .pairPos p => some p | .extension p => some p | .extensionOther _ => none) := by
    intro subs
    induction subs with
    | nil => intro _; rfl
    | cons s subs ih =>
      intro hs
      have ih := ih fun x hx => hs x (List.mem_cons_of_mem _ hx)
      obtain ⟨xs, hxs, he⟩ := Option.map_eq_some_iff.1 ih
      rw [List.mapM_cons, hxs]
      have h0 := hs s (List.mem_cons_self ..)
      cases s with
      | pairPos p => simp [GposSub.pairPosList, he]
      | extension p => simp [GposSub.pairPosList, he]
      | extensionOther t => simp only at h0; subst h0; simp [GposSub.pairPosList, he]
  rw [pairPosList, hsub]
  · congr 1
    rw [List.filterMap_flatMap]; rfl
  · intro s hs
    obtain ⟨lk, hlk, hs⟩ := List.mem_flatMap.1 hs
    exact h.subs lk hlk s hs

theorem simple_subs {t : Ttf} {g : Gpos} (h : t.SimpleKern g) : ∀ p ∈ g.kernFeature.flatMap GposLookup.pairPos, p.Simple := by
  intro p hp
  obtain ⟨lk, hlk, hp⟩ := List.mem_flatMap.1 hp
  obtain ⟨s, hs, hp⟩ := List.mem_filterMap.1 hp
  have := h.subs lk hlk s hs
  cases s with
  | pairPos q => simp only [Option.some.injEq] at hp; exact hp ▸ this
  | extension q => simp only [Option.some.injEq] at hp; exact hp ▸ this
  | extensionOther t => simp at hp

/-! ### The values -/

/-- The order of subtables that may apply to the same pair. -/
def Ordered (l r : GlyphName) (p q : PairPos) : Prop :=
  p.applied l r = none ∨ q.applied l r = none ∨ match p, q with | .format1 .., .format2 .. => True | _, _ => False

theorem ordered_all {t : Ttf} {g : Gpos} (h : t.SimpleKern g) (l r : GlyphName) :
    (g.kernFeature.flatMap GposLookup.pairPos).Pairwise (Ordered l r) := by
  rw [List.pairwise_flatMap]
  refine ⟨fun lk hlk => (h.order lk hlk).imp fun hx => hx l r, ?_⟩
  refine h.apart.imp fun {a b} hx p hp q hq => ?_
  rcases hx p hp q hq l r with h | h
  · exact .inl h
  · exact .inr (.inl h)

theorem ordered_value {l r : GlyphName} : ∀ (ps : List PairPos), ps.Pairwise (Ordered l r) →
    ((ps.reverse.findSome? fun p => p.single l r).or (ps.findSome? fun p => p.classes l r)).getD (.num 0) =
      .num ((ps.findSome? fun p => p.applied l r).getD 0)
  | [], _ => rfl
  | p :: ps, h => by
    obtain ⟨h1, h2⟩ := List.pairwise_cons.1 h
    have ih := ordered_value ps h2
    rw [List.reverse_cons, List.findSome?_append, List.findSome?_cons, List.findSome?_cons, List.findSome?_cons, List.findSome?_nil]
    cases ha : p.applied l r with
    | none =>
      have hs : p.single l r = none := by cases p <;> simp [PairPos.single, ha]
      have hc : p.classes l r = none := by cases p <;> simp [PairPos.classes, ha]
      simp only [hs, hc, Option.or_none]
      exact ih
    | some v =>
      have hs' : ps.reverse.findSome? (fun p => p.single l r) = none := by
        rw [List.findSome?_eq_none_iff]
        intro q hq
        rcases h1 q (List.mem_reverse.1 hq) with h | h | h
        · rw [ha] at h; simp at h
        · cases q <;> simp [PairPos.single, h]
        · cases q with
          | format1 => cases p <;> simp at h
          | format2 => rfl
      rw [hs']
      cases p with
      | format1 c vf sets =>
        simp [PairPos.single, ha]
      | format2 c vf c1 c2 recs =>
        have hc' : ps.findSome? (fun p => p.classes l r) = none := by
          rw [List.findSome?_eq_none_iff]
          intro q hq
          rcases h1 q hq with h | h | h
          · rw [ha] at h; simp at h
          · cases q <;> simp [PairPos.classes, h]
          · simp at h
        rw [hc']
        simp only [PairPos.single, PairPos.classes, ha, Option.none_or, Option.bind_some]
        by_cases hv : v = 0 <;> simp [hv]

theorem apart_sum {l r : GlyphName} : ∀ (lks : List GposLookup),
    lks.Pairwise (fun a b => ∀ p ∈ a.pairPos, ∀ q ∈ b.pairPos, ∀ l r, p.applied l r = none ∨ q.applied l r = none) →
    (lks.map fun lk => lk.applied l r).sum = ((lks.flatMap GposLookup.pairPos).findSome? fun p => p.applied l r).getD 0
  | [], _ => rfl
  | lk :: lks, h => by
    obtain ⟨h1, h2⟩ := List.pairwise_cons.1 h
    have ih := apart_sum (l := l) (r := r) lks h2
    rw [List.map_cons, List.sum_cons, ih, List.flatMap_cons, List.findSome?_append, GposLookup.applied]
    cases hf : lk.pairPos.findSome? fun p => p.applied l r with
    | none => simp
    | some v =>
      obtain ⟨p, hp, hv⟩ := List.exists_of_findSome?_eq_some hf
      have : (lks.flatMap GposLookup.pairPos).findSome? (fun p => p.applied l r) = none := by
        rw [List.findSome?_eq_none_iff]
        intro q hq
        obtain ⟨b, hb, hq⟩ := List.mem_flatMap.1 hq
        rcases h1 b hb p hp q hq l r with h | h
        · rw [hv] at h; simp at h
        · exact h
      rw [this]
      simp

/-- The dictionary of pairs of glyphs. -/
theorem readKerning_spec {t : Ttf} {g : Gpos} (hg : t.gpos = some g) (h : t.SimpleKern g) :
    ∃ d, readKerning t.gpos = some d ∧ (∀ e ∈ d, e.2 ≠ .text) ∧ (d.map (·.1)).Nodup ∧ ∀ l r, (d.lookup (l, r)).getD (.num 0) = .num (t.glyphKern l r) := by
  obtain ⟨d, hd, hl⟩ := classes_lookup (g.kernFeature.flatMap GposLookup.pairPos)
    ((g.kernFeature.flatMap GposLookup.pairPos).foldl addSingles []) (simple_subs h)
  refine ⟨d, ?_, (read_keys (simple_subs h) hd).1, (read_keys (simple_subs h) hd).2, fun l r => ?_⟩
  · rw [hg, readKerning, kernLookups_eq h, Option.bind_some, pairPosList_eq h]
    exact hd
  · rw [hl, singles_lookup _ _ _ _ (simple_subs h)]
    simp only [List.lookup_nil, Option.or_none]
    rw [ordered_value _ (ordered_all h l r), Ttf.glyphKern, hg]
    simp only
    rw [apart_sum _ h.apart]

/-! ### Characters -/

theorem foldDict_mem {α β γ : Type} [BEq α] [LawfulBEq α] (f : γ → α) (v : γ → β) : ∀ (es : List γ) (d : List (α × β)) (e : α × β),
    e ∈ es.foldl (fun d x => dictSet d (f x) (v x)) d → e ∈ d ∨ ∃ x ∈ es, e = (f x, v x)
  | [], d, e, h => .inl h
  | x :: es, d, e, h => by
    rcases foldDict_mem f v es _ e h with h | ⟨y, hy, he⟩
    · rcases mem_dictSet_iff h with h | h
      · exact .inr ⟨x, List.mem_cons_self .., h⟩
      · exact .inl h
    · exact .inr ⟨y, List.mem_cons_of_mem _ hy, he⟩

theorem foldDict_lookup {α β γ : Type} [BEq α] [LawfulBEq α] (f : γ → α) (v : γ → β) : ∀ (es : List γ) (d : List (α × β)) (k : α),
    (es.foldl (fun d x => dictSet d (f x) (v x)) d).lookup k =
      ((es.reverse.findSome? fun x => if k == f x then some (v x) else none).or (d.lookup k))
  | [], d, k => by simp
  | x :: es, d, k => by
    rw [List.foldl_cons, foldDict_lookup f v es, lookup_dictSet, List.reverse_cons, List.findSome?_append]
    simp only [List.findSome?_cons, List.findSome?_nil]
    cases es.reverse.findSome? (fun x => if k == f x then some (v x) else none) with
    | some _ => rfl
    | none => cases hk : k == f x <;> simp

theorem glyphChars_own {t : Ttf} {a : Char} (hn : (t.cmap.map (·.1)).Nodup) (h : t.OwnGlyph a) :
    ∃ l, t.cmap.lookup a = some l ∧ (glyphChars t.cmap).lookup l = some a := by
  obtain ⟨pre, l, post, hc, hl⟩ := h
  refine ⟨l, lookup_of_mem hn (by rw [hc]; simp), ?_⟩
  rw [glyphChars, foldDict_lookup (fun e : Char × GlyphName => e.2) (fun e => e.1), hc]
  rw [List.reverse_append, List.reverse_cons, List.append_assoc, List.findSome?_append]
  have : post.reverse.findSome? (fun x => if l == x.2 then some x.1 else none) = none := by
    rw [List.findSome?_eq_none_iff]
    intro x hx
    have : l ≠ x.2 := fun e => hl (e ▸ List.mem_map.2 ⟨x, List.mem_reverse.1 hx, rfl⟩)
    simp [this]
  rw [this]
  simp

theorem glyphChars_inj {cmap : List (Char × GlyphName)} (hn : (cmap.map (·.1)).Nodup) {l l' : GlyphName} {a : Char}
    (h : (glyphChars cmap).lookup l = some a) (h' : (glyphChars cmap).lookup l' = some a) : l = l' := by
  have hm : ∀ l, (glyphChars cmap).lookup l = some a → cmap.lookup a = some l := by
    intro l h
    rcases foldDict_mem (fun e : Char × GlyphName => e.2) (fun e => e.1) cmap [] _ (lookup_mem h) with h | ⟨x, hx, he⟩
    · simp at h
    · simp only [Prod.mk.injEq] at he
      exact lookup_of_mem hn (by rw [he.1, he.2]; exact hx)
  have := (hm l h).symm.trans (hm l' h')
  simpa using this

/-- The entries for pairs of characters, from one for pairs of glyphs. -/
def charEntry (cmap : List (Char × GlyphName)) (e : (GlyphName × GlyphName) × KernValue) : Option ((Char × Char) × KernValue) :=
  match (glyphChars cmap).lookup e.1.1, (glyphChars cmap).lookup e.1.2 with
  | some a, some b => some ((a, b), e.2)
  | _, _ => none

theorem charEntry_some {cmap : List (Char × GlyphName)} {e : (GlyphName × GlyphName) × KernValue} {x}
    (h : charEntry cmap e = some x) : (glyphChars cmap).lookup e.1.1 = some x.1.1 ∧ (glyphChars cmap).lookup e.1.2 = some x.1.2 ∧ x.2 = e.2 := by
  simp only [charEntry] at h
  split at h
  · rename_i a b h1 h2
    simp only [Option.some.injEq] at h
    subst h
    exact ⟨h1, h2, rfl⟩
  · simp at h

theorem kernPairs_spec {t : Ttf} {g : Gpos} (hg : t.gpos = some g) (h : t.SimpleKern g) :
    ∃ ps, kernPairs t = some ps ∧ (∀ e ∈ ps, e.2 ≠ .text) ∧ ∀ a b l r, t.OwnGlyph a → t.OwnGlyph b →
      t.cmap.lookup a = some l → t.cmap.lookup b = some r → (ps.lookup (a, b)).getD (.num 0) = .num (t.glyphKern l r) := by
  obtain ⟨d, hd, hnum, hkeys, hl⟩ := readKerning_spec hg h
  refine ⟨(d.filterMap (charEntry t.cmap)).foldl (fun d e => dictSet d e.1 e.2) [], ?_, ?_, ?_⟩
  · rw [kernPairs, hd]; rfl
  · intro e he
    rcases foldDict_mem (fun e : (Char × Char) × KernValue => e.1) (fun e => e.2) _ _ _ he with h | ⟨x, hx, rfl⟩
    · simp at h
    · obtain ⟨y, hy, hx⟩ := List.mem_filterMap.1 hx
      simp only [(charEntry_some hx).2.2]
      exact hnum y hy
  · intro a b l r ha hb hla hlb
    obtain ⟨l', hl', hga⟩ := glyphChars_own h.chars ha
    obtain ⟨r', hr', hgb⟩ := glyphChars_own h.chars hb
    obtain rfl : l = l' := by simpa using hla.symm.trans hl'
    obtain rfl : r = r' := by simpa using hlb.symm.trans hr'
    rw [foldDict_lookup (fun e : (Char × Char) × KernValue => e.1) (fun e => e.2), ← hl l r]
    simp only [List.lookup_nil, Option.or_none]
    congr 1
    have honly : ∀ e ∈ d, ∀ x, charEntry t.cmap e = some x → x.1 = (a, b) → e.1 = (l, r) ∧ x.2 = e.2 := by
      intro e he x hx hxa
      obtain ⟨h1, h2, h3⟩ := charEntry_some hx
      rw [hxa] at h1 h2
      exact ⟨Prod.ext (glyphChars_inj h.chars h1 hga) (glyphChars_inj h.chars h2 hgb), h3⟩
    cases hdl : d.lookup (l, r) with
    | none =>
      rw [List.findSome?_eq_none_iff]
      intro x hx
      obtain ⟨e, he, hx⟩ := List.mem_filterMap.1 (List.mem_reverse.1 hx)
      by_cases hxa : x.1 = (a, b)
      · have := honly e he x hx hxa
        rw [lookup_of_mem hkeys (v := e.2) (by rw [← this.1]; exact he)] at hdl
        simp at hdl
      · have : ((a, b) == x.1) = false := by simpa using fun e => hxa e.symm
        simp [this]
    | some v =>
      have hm := lookup_mem hdl
      cases hf : (d.filterMap (charEntry t.cmap)).reverse.findSome? (fun x => if (a, b) == x.1 then some x.2 else none) with
      | none =>
        rw [List.findSome?_eq_none_iff] at hf
        have := hf ((a, b), v) (List.mem_reverse.2 (List.mem_filterMap.2 ⟨_, hm, by simp [charEntry, hga, hgb]⟩))
        simp at this
      | some w =>
        obtain ⟨x, hx, hw⟩ := List.exists_of_findSome?_eq_some hf
        obtain ⟨e, he, hx⟩ := List.mem_filterMap.1 (List.mem_reverse.1 hx)
        split at hw
        · rename_i hxa
          have := honly e he x hx (eq_of_beq hxa).symm
          simp only [Option.some.injEq] at hw
          rw [← hw, this.2, ← hdl, lookup_of_mem hkeys (v := e.2) (by rw [← this.1]; exact he)]
        · simp at hw

theorem scaled_mapM (s : ℚ) : ∀ ps : List ((Char × Char) × KernValue), (∀ e ∈ ps, e.2 ≠ .text) →
    ∃ vs, ps.mapM (fun (e : (Char × Char) × KernValue) => (e.2.scaled s).map fun v => (e.1, v)) = some vs ∧
      ∀ k v, (ps.lookup k).getD (.num 0) = .num v → (vs.lookup k).getD 0 = v * s
  | [], _ => ⟨[], rfl, fun k v h => by
      simp only [List.lookup_nil, Option.getD_none, KernValue.num.injEq] at h ⊢
      simp [← h]⟩
  | e :: ps, h => by
    obtain ⟨vs, hvs, hl⟩ := scaled_mapM s ps fun x hx => h x (List.mem_cons_of_mem _ hx)
    have h0 := h e (List.mem_cons_self ..)
    obtain ⟨k0, v0⟩ := e
    cases v0 with
    | text => simp at h0
    | num v0 =>
      refine ⟨(k0, v0 * s) :: vs, by rw [List.mapM_cons, hvs]; rfl, fun k v hk => ?_⟩
      rw [List.lookup_cons] at hk ⊢
      cases hkk : k == k0
      · rw [hkk] at hk; exact hl k v hk
      · rw [hkk] at hk
        simp only [Option.getD_some, KernValue.num.injEq] at hk ⊢
        rw [hk]

/-- C70, restricted: for a font whose pair positioning tables do not interact, the layout kerns two characters, each the last with its glyph, as
the tables of the font say. -/
theorem C70_kerning_partial {t : Ttf} {g : Gpos} (hg : t.gpos = some g) (h : t.SimpleKern g) (rest : FontFile) :
    ∃ f, t.fontFile rest = some f ∧ ∀ a b, t.OwnGlyph a → t.OwnGlyph b → f.metrics.kerning (a, b) = t.charKern a b := by
  obtain ⟨ps, hps, hnum, hl⟩ := kernPairs_spec hg h
  obtain ⟨vs, hvs, hlv⟩ := scaled_mapM t.scale ps hnum
  have hchar : ∀ a b, t.OwnGlyph a → t.OwnGlyph b → ∃ v : ℤ, (ps.lookup (a, b)).getD (.num 0) = .num v ∧ v * t.scale = t.charKern a b := by
    intro a b ha hb
    obtain ⟨l, hla, -⟩ := glyphChars_own h.chars ha
    obtain ⟨r, hlb, -⟩ := glyphChars_own h.chars hb
    refine ⟨_, hl a b l r ha hb hla hlb, ?_⟩
    simp only [Ttf.charKern, hla, hlb, Ttf.scale]
    ring
  cases hp : ps with
  | nil =>
    refine ⟨{ rest with charwidth := t.charwidth, kerning := none }, by simp [Ttf.fontFile, h.units, Ttf.kerning, hps, hp], fun a b ha hb => ?_⟩
    obtain ⟨v, hv, he⟩ := hchar a b ha hb
    rw [hp] at hv
    simp only [List.lookup_nil, Option.getD_none, KernValue.num.injEq] at hv
    rw [← he, ← hv]
    simp [FontFile.metrics]
  | cons e es =>
    refine ⟨{ rest with charwidth := t.charwidth, kerning := some fun p => (vs.lookup p).getD 0 }, ?_, fun a b ha hb => ?_⟩
    · simp only [Ttf.fontFile, h.units, if_false, Ttf.kerning, hps, hp]
      rw [← hp, hvs]; rfl
    · obtain ⟨v, hv, he⟩ := hchar a b ha hb
      rw [← he, ← hlv _ _ hv]
      rfl

/-- A subtable as the format requires: no glyph twice, a pair set for each covered glyph, values for all classes. -/
def PairPos.WellFormed : PairPos → Prop
  | .format1 coverage _ sets => coverage.Nodup ∧ sets.length = coverage.length ∧ ∀ s ∈ sets, (s.map (·.1)).Nodup
  | .format2 _ _ class1 class2 records => (class1.map (·.1)).Nodup ∧ (class2.map (·.1)).Nodup ∧
      (∃ n, (∀ row ∈ records, row.length = n) ∧ 0 < n ∧ ∀ e ∈ class2, e.2 < n) ∧ 0 < records.length ∧ ∀ e ∈ class1, e.2 < records.length

/-- A font as the formats require, kerned with pair positioning lookups only. -/
structure Ttf.WellFormed (t : Ttf) (g : Gpos) : Prop where
  units : t.unitsPerEm ≠ 0
  chars : (t.cmap.map (·.1)).Nodup
  indexes : ∀ f ∈ g.features, ∀ i ∈ f.2, i < g.lookups.length
  types : ∀ lk ∈ g.kernFeature, lk.type = 2 ∨ lk.type = 9
  subs : ∀ lk ∈ g.kernFeature, ∀ s ∈ lk.subs, match s with | .pairPos p => p.WellFormed | .extension p => p.WellFormed | .extensionOther _ => False

/-- The conditions of the restricted theorem are conditions on well-formed fonts. -/
theorem PairPos.Simple.wellFormed {p : PairPos} (h : p.Simple) : p.WellFormed := by
  cases p with
  | format1 => exact h.2
  | format2 =>
    obtain ⟨-, h1, h2, -, h3, h4, h5, -⟩ := h
    exact ⟨h1, h2, h3, h4, h5⟩

/-- C70 as stated: every well-formed font can be used, and every two characters it has are kerned as its tables say. -/
def C70_Statement : Prop := ∀ (t : Ttf) (g : Gpos) (rest : FontFile), t.gpos = some g → t.WellFormed g →
  ∃ f, t.fontFile rest = some f ∧
    ∀ a b, (t.cmap.lookup a).isSome → (t.cmap.lookup b).isSome → f.metrics.kerning (a, b) = t.charKern a b

/-- What is not read from the tables of these fonts. -/
def blankFile : FontFile := ⟨b!"Demo", fun _ => 0, none, fun _ => 0, fun _ _ => 0, fun _ => 4, fun _ => (0, 0, 0, 0), fun _ => 0, fun _ => 0, fun _ => 0,
  fun _ => 0, fun _ => 50, fun _ => []⟩

/-- One lookup for the feature `kern`. -/
def oneLookup (subs : List GposSub) : Gpos := ⟨[("kern".toList, [0]), ("mark".toList, [])], [⟨2, subs⟩]⟩

theorem oneLookup_feature (subs : List GposSub) : (oneLookup subs).kernFeature = [⟨2, subs⟩] := rfl

theorem oneLookup_lookups (subs : List GposSub) : kernLookups (oneLookup subs) = some [⟨2, subs⟩] := by
  rw [kernLookups, sorted_indexes (oneLookup subs) (by simp [oneLookup])]
  rfl

/-- "T", and a glyph for the space, which is also the glyph of the no-break space; and a glyph for "o". -/
def demoCmap : List (Char × GlyphName) :=
  [(' ', "space".toList), ('T', "T".toList), ('o', "o".toList), (Char.ofNat 0xA0, "space".toList)]

/-- A pair subtable, "T" and the space, and one with classes: "T" before "o". -/
def demoSubs : List GposSub :=
  [.pairPos (.format1 ["T".toList] 4 [[("space".toList, ⟨0, -20⟩)]]),
   .pairPos (.format2 ["T".toList] 4 [("T".toList, 1)] [("o".toList, 1)] [[⟨0, 0⟩, ⟨0, 0⟩], [⟨0, 0⟩, ⟨0, -100⟩]])]

/-- The font with these tables. -/
def demoTtf : Ttf := ⟨2000, demoCmap, fun _ => 1000, some (oneLookup demoSubs)⟩

theorem demoTtf_simple : demoTtf.SimpleKern (oneLookup demoSubs) where
  units := by decide
  chars := by decide
  indexes := by decide
  types := by rw [oneLookup_feature]; decide
  subs := by
    rw [oneLookup_feature]
    intro lk hlk s hs
    simp only [List.mem_singleton] at hlk
    subst hlk
    simp only [demoSubs, List.mem_cons, List.not_mem_nil, or_false] at hs
    rcases hs with rfl | rfl
    · exact ⟨rfl, by decide, by decide, by decide⟩
    · exact ⟨rfl, by decide, by decide, by decide, ⟨2, by decide, by decide, by decide⟩, by decide, by decide, by decide⟩
  apart := by rw [oneLookup_feature]; simp
  order := by
    rw [oneLookup_feature]
    intro lk hlk
    simp only [List.mem_singleton] at hlk
    subst hlk
    simp [GposLookup.pairPos, demoSubs]

/-- The conditions are met by a font with pairs and classes: "T" and "o" are kerned by -50 thousandths. -/
example : ∃ f, demoTtf.fontFile blankFile = some f ∧ f.metrics.kerning ('T', 'o') = -50 := by
  obtain ⟨f, hf, hk⟩ := C70_kerning_partial rfl demoTtf_simple blankFile
  refine ⟨f, hf, ?_⟩
  rw [hk _ _ ⟨[(' ', "space".toList)], "T".toList, _, rfl, by decide⟩ ⟨[(' ', "space".toList), ('T', "T".toList)], "o".toList, _, rfl, by decide⟩]
  decide +kernel

/-- C70 fails: the space and the no-break space share a glyph (as they usually do), and of characters that share a glyph only
the last is kerned. Here the pair of "T" and a space is not. -/
theorem C70_counterexample : ¬ C70_Statement := by
  intro h
  obtain ⟨f, hf, hk⟩ := h demoTtf (oneLookup demoSubs) blankFile rfl
    ⟨demoTtf_simple.units, demoTtf_simple.chars, demoTtf_simple.indexes, demoTtf_simple.types, fun lk hlk s hs => by
      have := demoTtf_simple.subs lk hlk s hs
      cases s with
      | pairPos p => exact this.wellFormed
      | extension p => exact this.wellFormed
      | extensionOther t =>
        rw [oneLookup_feature] at hlk
        simp only [List.mem_singleton] at hlk
        subst hlk
        simp [demoSubs] at hs⟩
  have h1 := hk 'T' ' ' (by decide) (by decide)
  have h2 : demoTtf.charKern 'T' ' ' = -10 := by decide +kernel
  have h3 : f.metrics.kerning ('T', ' ') = 0 := by
    have hp : kernPairs demoTtf = some [(('T', Char.ofNat 0xA0), .num (-20)), (('T', 'o'), .num (-100))] := by
      rw [kernPairs, demoTtf, readKerning, oneLookup_lookups]
      decide +kernel
    simp only [Ttf.fontFile, demoTtf_simple.units, if_false, Ttf.kerning, hp, Option.map_eq_some_iff] at hf
    obtain ⟨k, ⟨vs, hvs, rfl⟩, rfl⟩ := hf
    simp only [List.mapM_cons, List.mapM_nil, KernValue.scaled, Option.map_some, Option.pure_def, Option.bind_eq_bind, Option.bind_some,
      Option.some.injEq] at hvs
    subst hvs
    simp only [FontFile.metrics, List.lookup_cons]
    decide +kernel
  rw [h2, h3] at h1
  norm_num at h1

/-- A font with one character for each glyph and one subtable. -/
def oneTtf (p : PairPos) : Ttf :=
  ⟨1000, [('T', "T".toList), ('o', "o".toList)], fun _ => 500, some (oneLookup [.pairPos p])⟩

theorem oneTtf_wellFormed {p : PairPos} (h : p.WellFormed) : (oneTtf p).WellFormed (oneLookup [.pairPos p]) where
  units := by simp [oneTtf]
  chars := by simp only [oneTtf]; decide
  indexes := by simp [oneLookup]
  types := by rw [oneLookup_feature]; simp
  subs := by rw [oneLookup_feature]; simpa using h

theorem oneTtf_read (p : PairPos) : readKerning (oneTtf p).gpos = addClasses (addSingles [] p) p := by
  rw [oneTtf]
  simp only [readKerning]
  rw [oneLookup_lookups]
  simp only [Option.bind_some, pairPosList, List.flatMap_cons, List.flatMap_nil, List.append_nil, List.mapM_cons, List.mapM_nil,
    GposSub.pairPosList, Option.pure_def, Option.bind_eq_bind, Option.map_some, List.flatten_cons, List.flatten_nil,
    List.foldlM_cons, List.foldlM_nil, List.foldl_cons, List.foldl_nil]
  cases addClasses (addSingles [] p) p <;> rfl

/-- Kerning with second glyphs that are in no class. -/
def class0Sub : PairPos := .format2 ["T".toList] 4 [("T".toList, 1)] [("T".toList, 1)] [[⟨0, 0⟩, ⟨0, 0⟩], [⟨0, -70⟩, ⟨0, 0⟩]]

/-- C70 fails in another way: kerning with all glyphs that are in no class (class 0 of the second glyph) is ignored. -/
theorem C70_counterexample_class : ∃ f, (oneTtf class0Sub).WellFormed (oneLookup [.pairPos class0Sub]) ∧
    (oneTtf class0Sub).fontFile blankFile = some f ∧ f.metrics.kerning ('T', 'o') = 0 ∧ (oneTtf class0Sub).charKern 'T' 'o' = -70 := by
  refine ⟨{ blankFile with charwidth := (oneTtf class0Sub).charwidth, kerning := none }, oneTtf_wellFormed ?_, ?_, rfl, ?_⟩
  · exact ⟨by decide, by decide, ⟨2, by decide, by decide, by decide⟩, by decide, by decide⟩
  · have hp : kernPairs (oneTtf class0Sub) = some [] := by
      rw [kernPairs, oneTtf_read]
      decide +kernel
    have hu : (oneTtf class0Sub).unitsPerEm ≠ 0 := by decide
    simp [Ttf.fontFile, hu, Ttf.kerning, hp]
  · decide +kernel

/-- Kerning of a script that is written from right to left: the first glyph is also moved. -/
def rtlSub : PairPos := .format1 ["T".toList] 5 [[("o".toList, ⟨-30, -30⟩)]]

/-- C70 fails in another way: a font with kerning for text from right to left cannot be used at all. (In the code the error is raised when a
pair with such kerning is typeset; see `Ttf.kerning`.) -/
theorem C70_counterexample_rtl : (oneTtf rtlSub).WellFormed (oneLookup [.pairPos rtlSub]) ∧
    (kernPairs (oneTtf rtlSub)).map (fun ps => ps.lookup ('T', 'o')) = some (some .text) ∧ (oneTtf rtlSub).fontFile blankFile = none := by
  have hp : kernPairs (oneTtf rtlSub) = some [(('T', 'o'), .text)] := by
    rw [kernPairs, oneTtf_read]
    decide +kernel
  refine ⟨oneTtf_wellFormed ⟨by decide, by decide, by decide⟩, by rw [hp]; decide +kernel, ?_⟩
  have hu : (oneTtf rtlSub).unitsPerEm ≠ 0 := by decide
  simp [Ttf.fontFile, hu, Ttf.kerning, hp, KernValue.scaled]

end Pdfje
