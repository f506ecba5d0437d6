import Verif.Spec.OpenType
import Mathlib.Data.List.Nodup
/-
The dictionary of kerning pairs read from a font.
-/

namespace Pdfje

section
variable {α β : Type} [BEq α] [LawfulBEq α]

theorem lookup_dictSet (d : List (α × β)) (k k' : α) (v : β) :
    (dictSet d k v).lookup k' = if k' == k then some v else d.lookup k' := by
  induction d with
  | nil => simp only [dictSet, List.lookup]; cases k' == k <;> rfl
  | cons e d ih =>
    obtain ⟨a, b⟩ := e
    simp only [dictSet]
    split
    · rename_i h
      have h := eq_of_beq h
      subst h
      simp only [List.lookup_cons]
      cases k' == a <;> rfl
    · rename_i h
      simp only [List.lookup_cons, ih]
      cases h1 : k' == a
      · rfl
      · have h1 := eq_of_beq h1
        subst h1
        simp [h]

theorem mem_dictSet_iff {d : List (α × β)} {k : α} {v : β} {e : α × β} (h : e ∈ dictSet d k v) : e = (k, v) ∨ e ∈ d := by
  induction d with
  | nil => simpa [dictSet] using h
  | cons x d ih =>
    obtain ⟨a, b⟩ := x
    simp only [dictSet] at h
    split at h
    · rename_i hk
      have hk := eq_of_beq hk
      subst hk
      rcases List.mem_cons.1 h with h | h
      · exact .inl h
      · exact .inr (List.mem_cons_of_mem _ h)
    · rcases List.mem_cons.1 h with h | h
      · exact .inr (h ▸ List.mem_cons_self ..)
      · exact (ih h).imp_right (List.mem_cons_of_mem _)

theorem lookup_mem {d : List (α × β)} {k : α} {v : β} (h : d.lookup k = some v) : (k, v) ∈ d := by
  induction d with
  | nil => simp at h
  | cons e d ih =>
    obtain ⟨a, b⟩ := e
    simp only [List.lookup_cons] at h
    cases h1 : k == a
    · rw [h1] at h; exact List.mem_cons_of_mem _ (ih h)
    · rw [h1] at h
      have h1 := eq_of_beq h1
      subst h1
      simp only [Option.some.injEq] at h
      subst h
      exact List.mem_cons_self ..

theorem lookup_of_mem {d : List (α × β)} {k : α} {v : β} (hn : (d.map (·.1)).Nodup) (h : (k, v) ∈ d) : d.lookup k = some v := by
  induction d with
  | nil => simp at h
  | cons e d ih =>
    obtain ⟨a, b⟩ := e
    simp only [List.map_cons, List.nodup_cons] at hn
    rw [List.lookup_cons]
    rcases List.mem_cons.1 h with h | h
    · simp only [Prod.mk.injEq] at h
      simp [h.1, h.2]
    · cases h1 : k == a
      · exact ih hn.2 h
      · exact absurd (List.mem_map.2 ⟨_, h, eq_of_beq h1⟩) hn.1

theorem lookup_none {d : List (α × β)} {k : α} (h : k ∉ d.map (·.1)) : d.lookup k = none := by
  cases hk : d.lookup k with
  | none => rfl
  | some v => exact absurd (List.mem_map.2 ⟨_, lookup_mem hk, rfl⟩) h

end

/-! ### Single pairs -/

theorem addPairSet_lookup (left : GlyphName) : ∀ (set : List (GlyphName × GposValue)) (d : KernPairs) (l r : GlyphName),
    (set.map (·.1)).Nodup →
    (addPairSet 4 left set d).lookup (l, r) =
      ((if l = left then (set.lookup r).map fun v => KernValue.num v.xAdvance else none).or (d.lookup (l, r)))
  | [], d, l, r, _ => by simp [addPairSet]
  | e :: set, d, l, r, hn => by
    have ih := addPairSet_lookup left set (dictSet d (left, e.1) (.num e.2.xAdvance)) l r (List.nodup_cons.1 hn).2
    have he : addPairSet 4 left (e :: set) d = addPairSet 4 left set (dictSet d (left, e.1) (.num e.2.xAdvance)) := rfl
    rw [he, ih, lookup_dictSet]
    obtain ⟨a, v⟩ := e
    have hn' := (List.nodup_cons.1 hn).1
    by_cases hl : l = left
    · subst hl
      by_cases hr : r = a
      · subst hr
        rw [List.lookup_cons]
        simp [lookup_none hn']
      · rw [List.lookup_cons, show (r == a) = false by simpa using hr]
        simp [hr]
    · simp [hl]

/-- What a format 1 subtable lists. -/
def PairPos.single (p : PairPos) (l r : GlyphName) : Option KernValue :=
  match p with
  | .format1 .. => (p.applied l r).map .num
  | .format2 .. => none

theorem zipSets_lookup : ∀ (zs : List (GlyphName × List (GlyphName × GposValue))) (d : KernPairs) (l r : GlyphName),
    (zs.map (·.1)).Nodup → (∀ e ∈ zs, (e.2.map (·.1)).Nodup) →
    (zs.foldl (fun d e => addPairSet 4 e.1 e.2 d) d).lookup (l, r) =
      (((zs.lookup l).bind fun set => (set.lookup r).map fun v => KernValue.num v.xAdvance).or (d.lookup (l, r)))
  | [], d, l, r, _, _ => by simp
  | e :: zs, d, l, r, hn, hs => by
    rw [List.foldl_cons, zipSets_lookup zs _ l r (List.nodup_cons.1 hn).2 fun e he => hs e (List.mem_cons_of_mem _ he),
      addPairSet_lookup _ _ _ _ _ (hs e (List.mem_cons_self ..))]
    obtain ⟨a, set⟩ := e
    have hn' := (List.nodup_cons.1 hn).1
    rw [List.lookup_cons]
    by_cases hl : l = a
    · subst hl
      simp [lookup_none hn']
    · rw [show (l == a) = false by simpa using hl]
      simp [hl]

/-- The conditions on a subtable under which its values are read as they are meant: tables as the format requires (no glyph
twice, values for all classes), advance adjustments only, first glyphs with a class are covered, no kerning with second glyphs in no class. -/
def PairPos.Simple : PairPos → Prop
  | .format1 coverage vf sets => vf = 4 ∧ coverage.Nodup ∧ sets.length = coverage.length ∧ ∀ s ∈ sets, (s.map (·.1)).Nodup
  | .format2 coverage vf class1 class2 records => vf = 4 ∧ (class1.map (·.1)).Nodup ∧ (class2.map (·.1)).Nodup ∧
      (∀ e ∈ class1, e.1 ∈ coverage) ∧
      (∃ n, (∀ row ∈ records, row.length = n) ∧ 0 < n ∧ ∀ e ∈ class2, e.2 < n) ∧
      0 < records.length ∧ (∀ e ∈ class1, e.2 < records.length) ∧
      ∀ row ∈ records, ∀ v ∈ row.head?, v.xAdvance = 0

theorem map_fst_zip {α β} : ∀ (a : List α) (b : List β), b.length = a.length → (a.zip b).map (·.1) = a
  | [], _, _ => by simp
  | x :: a, [], h => by simp at h
  | x :: a, y :: b, h => by simp [map_fst_zip a b (by simpa using h)]

theorem addSingles_lookup {p : PairPos} (hp : p.Simple) (d : KernPairs) (l r : GlyphName) :
    (addSingles d p).lookup (l, r) = (p.single l r).or (d.lookup (l, r)) := by
  cases p with
  | format2 => simp [addSingles, PairPos.single]
  | format1 coverage vf sets =>
    obtain ⟨rfl, hc, hl, hs⟩ := hp
    simp only [addSingles, PairPos.single, PairPos.applied]
    rw [zipSets_lookup _ _ _ _ (by rw [map_fst_zip _ _ hl]; exact hc)
      (fun e he => hs _ (List.of_mem_zip he).2)]
    congr 1
    cases (coverage.zip sets).lookup l with
    | none => rfl
    | some set =>
      simp only [Option.bind_some]
      cases set.lookup r with
      | none => rfl
      | some v => simp [advanceOf]

theorem singles_lookup : ∀ (ps : List PairPos) (d : KernPairs) (l r : GlyphName), (∀ p ∈ ps, p.Simple) →
    (ps.foldl addSingles d).lookup (l, r) = ((ps.reverse.findSome? fun p => p.single l r).or (d.lookup (l, r)))
  | [], d, l, r, _ => by simp
  | p :: ps, d, l, r, h => by
    rw [List.foldl_cons, singles_lookup ps _ l r fun q hq => h q (List.mem_cons_of_mem _ hq),
      addSingles_lookup (h p (List.mem_cons_self ..)), List.reverse_cons, List.findSome?_append]
    simp only [List.findSome?_cons, List.findSome?_nil]
    cases ps.reverse.findSome? (fun p => p.single l r) <;> cases p.single l r <;> rfl

/-! ### Classes -/

/-- A glyph is listed in a class. -/
def InClass (cls : List (Nat × List GlyphName)) (c : Nat) (g : GlyphName) : Prop := ∃ gs, (c, gs) ∈ cls ∧ g ∈ gs

theorem inClass_add (d : List (Nat × List GlyphName)) (c : Nat) (g : GlyphName) (c' : Nat) (g' : GlyphName) :
    InClass (addToClass d c g) c' g' ↔ InClass d c' g' ∨ (c' = c ∧ g' = g) := by
  induction d with
  | nil => simp [addToClass, InClass]
  | cons e d ih =>
    obtain ⟨a, gs⟩ := e
    have hcons : ∀ x (d : List (Nat × List GlyphName)), InClass (x :: d) c' g' ↔ (c' = x.1 ∧ g' ∈ x.2) ∨ InClass d c' g' := by
      intro x d
      obtain ⟨y, z⟩ := x
      simp only [InClass, List.mem_cons, Prod.mk.injEq]
      constructor
      · rintro ⟨gs, ⟨rfl, rfl⟩ | h, hg⟩
        · exact .inl ⟨rfl, hg⟩
        · exact .inr ⟨gs, h, hg⟩
      · rintro (⟨rfl, hg⟩ | ⟨gs, h, hg⟩)
        · exact ⟨_, .inl ⟨rfl, rfl⟩, hg⟩
        · exact ⟨gs, .inr h, hg⟩
    simp only [addToClass]
    split
    · rename_i h
      subst h
      simp only [hcons, List.mem_append, List.mem_singleton]
      tauto
    · simp only [hcons, ih]
      tauto

theorem inClass_fold (es : List (GlyphName × Nat)) : ∀ (d : List (Nat × List GlyphName)) (c : Nat) (g : GlyphName),
    InClass (es.foldl (fun d e => addToClass d e.2 e.1) d) c g ↔ InClass d c g ∨ (g, c) ∈ es := by
  induction es with
  | nil => intro d c g; simp
  | cons e es ih =>
    intro d c g
    obtain ⟨a, b⟩ := e
    rw [List.foldl_cons, ih, inClass_add]
    simp only [List.mem_cons, Prod.mk.injEq]
    tauto

theorem inClass_right {class2 : List (GlyphName × Nat)} (hn : (class2.map (·.1)).Nodup) (c : Nat) (g : GlyphName) :
    InClass (rightClasses class2) c g ↔ class2.lookup g = some c := by
  rw [rightClasses, inClass_fold]
  constructor
  · rintro (⟨gs, h, _⟩ | h)
    · simp at h
    · exact lookup_of_mem hn h
  · exact fun h => .inr (lookup_mem h)

theorem inClass_left {coverage : List GlyphName} {class1 : List (GlyphName × Nat)} (hn : (class1.map (·.1)).Nodup)
    (hc : ∀ e ∈ class1, e.1 ∈ coverage) (c : Nat) (g : GlyphName) :
    InClass (leftClasses coverage class1) c g ↔ g ∈ coverage ∧ c = (class1.lookup g).getD 0 := by
  rw [leftClasses, inClass_fold]
  simp only [List.mem_filter, decide_eq_true_eq]
  constructor
  · rintro (⟨gs, h, hg⟩ | ⟨h, hz⟩)
    · simp only [List.mem_singleton, Prod.mk.injEq] at h
      obtain ⟨rfl, rfl⟩ := h
      simp only [List.mem_filter, decide_eq_true_eq, List.mem_map, not_exists, not_and] at hg
      refine ⟨hg.1, ?_⟩
      cases hl : class1.lookup g with
      | none => rfl
      | some v =>
        by_contra hv
        exact hg.2 (g, v) ⟨lookup_mem hl, fun h => hv h.symm⟩ rfl
    · refine ⟨hc _ h, ?_⟩
      rw [lookup_of_mem hn h]; rfl
  · rintro ⟨hg, rfl⟩
    cases hl : class1.lookup g with
    | none =>
      refine .inl ⟨_, List.mem_singleton.2 rfl, ?_⟩
      simp only [List.mem_filter, decide_eq_true_eq, List.mem_map, not_exists, not_and]
      refine ⟨hg, fun e he heq => ?_⟩
      subst heq
      rw [lookup_of_mem hn (v := e.2) he.1] at hl
      simp at hl
    | some v =>
      by_cases hv : v = 0
      · subst hv
        refine .inl ⟨_, List.mem_singleton.2 rfl, ?_⟩
        simp only [List.mem_filter, decide_eq_true_eq, List.mem_map, not_exists, not_and]
        refine ⟨hg, fun e he heq => ?_⟩
        subst heq
        rw [lookup_of_mem hn (v := e.2) he.1] at hl
        exact he.2 (by simpa using hl)
      · exact .inr ⟨lookup_mem hl, hv⟩

theorem inClass_key {class1 : List (GlyphName × Nat)} : ∀ {d : List (Nat × List GlyphName)} {e : Nat × List GlyphName},
    e ∈ class1.foldl (fun d e => addToClass d e.2 e.1) d → (∃ x ∈ d, e.1 = x.1) ∨ ∃ x ∈ class1, e.1 = x.2 := by
  have hadd : ∀ (d : List (Nat × List GlyphName)) (c : Nat) (g : GlyphName) (e), e ∈ addToClass d c g → (∃ x ∈ d, e.1 = x.1) ∨ e.1 = c := by
    intro d c g e he
    induction d with
    | nil => simp only [addToClass, List.mem_singleton] at he; exact .inr (he ▸ rfl)
    | cons x d ih =>
      obtain ⟨a, gs⟩ := x
      simp only [addToClass] at he
      split at he
      · rcases List.mem_cons.1 he with he | he
        · exact .inl ⟨(a, gs), List.mem_cons_self .., he ▸ rfl⟩
        · exact .inl ⟨e, List.mem_cons_of_mem _ he, rfl⟩
      · rcases List.mem_cons.1 he with he | he
        · exact .inl ⟨(a, gs), List.mem_cons_self .., he ▸ rfl⟩
        · rcases ih he with ⟨x, hx, h⟩ | h
          · exact .inl ⟨x, List.mem_cons_of_mem _ hx, h⟩
          · exact .inr h
  induction class1 with
  | nil => intro d e he; exact .inl ⟨e, he, rfl⟩
  | cons x xs ih =>
    intro d e he
    rcases ih he with ⟨y, hy, h⟩ | ⟨y, hy, h⟩
    · rcases hadd _ _ _ _ hy with ⟨z, hz, h'⟩ | h'
      · exact .inl ⟨z, hz, h.trans h'⟩
      · exact .inr ⟨x, List.mem_cons_self .., h.trans h'⟩
    · exact .inr ⟨y, List.mem_cons_of_mem _ hy, h⟩

theorem foldSet_lookup (k : KernValue) (x : GlyphName × GlyphName) : ∀ (ps : List (GlyphName × GlyphName)) (d : KernPairs),
    (ps.foldl (fun d p => if (d.lookup p).isSome then d else dictSet d p k) d).lookup x =
      ((d.lookup x).or (if x ∈ ps then some k else none))
  | [], d => by simp
  | p :: ps, d => by
    rw [List.foldl_cons, foldSet_lookup k x ps]
    by_cases hx : x = p
    · subst hx
      cases h : d.lookup x with
      | none => simp [lookup_dictSet]
      | some v => simp [h]
    · have : ((if (d.lookup p).isSome then d else dictSet d p k).lookup x) = d.lookup x := by
        split
        · rfl
        · rw [lookup_dictSet]; simp [hx]
      rw [this]
      simp [hx]

theorem addClassPair_lookup (k : KernValue) (left right : List GlyphName) (d : KernPairs) (l r : GlyphName) :
    (addClassPair k left right d).lookup (l, r) = ((d.lookup (l, r)).or (if l ∈ left ∧ r ∈ right then some k else none)) := by
  rw [addClassPair, foldSet_lookup]
  simp only [List.mem_flatMap, List.mem_map, Prod.mk.injEq]
  congr 2
  apply propext
  constructor
  · rintro ⟨a, ha, b, hb, rfl, rfl⟩; exact ⟨ha, hb⟩
  · rintro ⟨ha, hb⟩; exact ⟨l, ha, r, hb, rfl, rfl⟩

/-- The loop over pairs of classes. -/
theorem classLoop {records : List (List GposValue)} {vf : Nat} : ∀ (ps : List ((Nat × List GlyphName) × (Nat × List GlyphName))) (d : KernPairs),
    (∀ p ∈ ps, ∃ v, ((records[p.1.1]?).bind fun row => row[p.2.1]?) = some v) →
    ∃ d', ps.foldlM
      (fun d (p : (Nat × List GlyphName) × (Nat × List GlyphName)) =>
        match (records[p.1.1]?).bind fun row => row[p.2.1]? with
        | none => none
        | some v =>
          match classValue vf v with
          | none => some d
          | some k => some (addClassPair k p.1.2 p.2.2 d)) d = some d' ∧
      ∀ l r cl cr, (∀ p ∈ ps, l ∈ p.1.2 → r ∈ p.2.2 → p.1.1 = cl ∧ p.2.1 = cr) →
        d'.lookup (l, r) = ((d.lookup (l, r)).or (if ∃ p ∈ ps, l ∈ p.1.2 ∧ r ∈ p.2.2 then
          ((records[cl]?).bind fun row => row[cr]?).bind (classValue vf) else none))
  | [], d, _ => ⟨d, rfl, fun l r cl cr _ => by simp⟩
  | p :: ps, d, h => by
    obtain ⟨v, hv⟩ := h p (List.mem_cons_self ..)
    have hrest := fun q hq => h q (List.mem_cons_of_mem _ hq)
    obtain ⟨d', hd', hl'⟩ := classLoop (vf := vf) ps
      (match classValue vf v with | none => d | some k => addClassPair k p.1.2 p.2.2 d) hrest
    refine ⟨d', ?_, ?_⟩
    · rw [List.foldlM_cons]
      simp only [hv]
      cases hk : classValue vf v with
      | none => rw [hk] at hd'; exact hd'
      | some k => rw [hk] at hd'; exact hd'
    · intro l r cl cr hu
      rw [hl' l r cl cr fun q hq => hu q (List.mem_cons_of_mem _ hq)]
      by_cases hp : l ∈ p.1.2 ∧ r ∈ p.2.2
      · obtain ⟨rfl, rfl⟩ := hu p (List.mem_cons_self ..) hp.1 hp.2
        have hex : ∃ q ∈ p :: ps, l ∈ q.1.2 ∧ r ∈ q.2.2 := ⟨p, List.mem_cons_self .., hp⟩
        rw [if_pos hex, hv]
        simp only [Option.bind_some]
        cases hk : classValue vf v with
        | none => simp
        | some k =>
          simp only [addClassPair_lookup, if_pos hp]
          cases d.lookup (l, r) <;> simp
      · have hl : (match classValue vf v with | none => d | some k => addClassPair k p.1.2 p.2.2 d).lookup (l, r) = d.lookup (l, r) := by
          cases classValue vf v with
          | none => rfl
          | some k => simp only [addClassPair_lookup, if_neg hp, Option.or_none]
        rw [hl]
        congr 2
        apply propext
        constructor
        · rintro ⟨q, hq, hx⟩; exact ⟨q, List.mem_cons_of_mem _ hq, hx⟩
        · rintro ⟨q, hq, hx⟩
          rcases List.mem_cons.1 hq with rfl | hq
          · exact absurd hx hp
          · exact ⟨q, hq, hx⟩

/-- What a format 2 subtable adds. -/
def PairPos.classes (p : PairPos) (l r : GlyphName) : Option KernValue :=
  match p with
  | .format1 .. => none
  | .format2 .. => (p.applied l r).bind fun v => if v = 0 then none else some (.num v)

theorem addClasses_lookup {p : PairPos} (hp : p.Simple) (d : KernPairs) :
    ∃ d', addClasses d p = some d' ∧ ∀ l r, d'.lookup (l, r) = ((d.lookup (l, r)).or (p.classes l r)) := by
  cases p with
  | format1 => exact ⟨d, rfl, fun l r => by simp [PairPos.classes]⟩
  | format2 coverage vf class1 class2 records =>
    obtain ⟨rfl, hn1, hn2, hcov, ⟨n, hrows, hn, h2⟩, h0, h1, hz⟩ := hp
    have hrow : ∀ i, i < records.length → ∃ row, records[i]? = some row ∧ row.length = n := fun i hi =>
      ⟨records[i], List.getElem?_eq_getElem hi, hrows _ (List.getElem_mem hi)⟩
    obtain ⟨d', hd', hl'⟩ := classLoop (records := records) (vf := 4)
      ((leftClasses coverage class1).flatMap fun l => (rightClasses class2).map fun r => (l, r)) d (by
        intro p hp
        simp only [List.mem_flatMap, List.mem_map] at hp
        obtain ⟨l, hl, r, hr, rfl⟩ := hp
        have hl : l.1 < records.length := by
          rcases inClass_key hl with ⟨x, hx, h⟩ | ⟨x, hx, h⟩
          · simp only [List.mem_singleton] at hx; subst hx; simpa [h] using h0
          · exact h ▸ h1 x (List.mem_filter.1 hx).1
        have hr : r.1 < n := by
          rcases inClass_key hr with ⟨x, hx, h⟩ | ⟨x, hx, h⟩
          · simp at hx
          · exact h ▸ h2 x hx
        obtain ⟨row, hrow, hlen⟩ := hrow _ hl
        refine ⟨row[r.1]'(by omega), ?_⟩
        simp only [hrow, Option.bind_some, List.getElem?_eq_getElem (show r.1 < row.length by omega)])
    refine ⟨d', hd', fun l r => ?_⟩
    rw [hl' l r ((class1.lookup l).getD 0) ((class2.lookup r).getD 0)]
    · congr 1
      simp only [PairPos.classes, PairPos.applied]
      have hex : (∃ p ∈ (leftClasses coverage class1).flatMap fun l => (rightClasses class2).map fun r => (l, r), l ∈ p.1.2 ∧ r ∈ p.2.2) ↔
          l ∈ coverage ∧ (class2.lookup r).isSome := by
        constructor
        · rintro ⟨p, hp, hl, hr⟩
          simp only [List.mem_flatMap, List.mem_map] at hp
          obtain ⟨x, hx, y, hy, rfl⟩ := hp
          refine ⟨((inClass_left hn1 hcov x.1 l).1 ⟨x.2, hx, hl⟩).1, ?_⟩
          rw [(inClass_right hn2 y.1 r).1 ⟨y.2, hy, hr⟩]; rfl
        · rintro ⟨hl, hr⟩
          obtain ⟨c, hc⟩ := Option.isSome_iff_exists.1 hr
          obtain ⟨gs, hx, hg⟩ := (inClass_left hn1 hcov _ l).2 ⟨hl, rfl⟩
          obtain ⟨gs', hx', hg'⟩ := (inClass_right hn2 c r).2 hc
          exact ⟨_, List.mem_flatMap.2 ⟨_, hx, List.mem_map.2 ⟨_, hx', rfl⟩⟩, hg, hg'⟩
      rw [if_congr hex rfl rfl]
      by_cases hl : l ∈ coverage
      · simp only [hl, true_and, if_true]
        have hcl : (class1.lookup l).getD 0 < records.length := by
          cases h : class1.lookup l with
          | none => simpa using h0
          | some c => exact h1 _ (lookup_mem h)
        obtain ⟨row, hrow, hlen⟩ := hrow _ hcl
        simp only [hrow, Option.bind_some]
        cases hr : class2.lookup r with
        | none =>
          have hpos : 0 < row.length := by omega
          simp only [Option.isSome_none, Bool.false_eq_true, if_false, Option.getD_none, List.getElem?_eq_getElem hpos, Option.map_some, Option.bind_some]
          have := hz row (List.mem_of_getElem? hrow) row[0] (by
            rw [List.head?_eq_getElem?, List.getElem?_eq_getElem hpos]; rfl)
          simp [advanceOf, this]
        | some c =>
          have hc : c < row.length := by have := h2 _ (lookup_mem hr); simp only at this; omega
          simp only [Option.isSome_some, if_true, Option.getD_some, List.getElem?_eq_getElem hc, Option.map_some, Option.bind_some]
          simp [classValue, advanceOf]
      · simp [hl]
    · intro p hp hl hr
      simp only [List.mem_flatMap, List.mem_map] at hp
      obtain ⟨x, hx, y, hy, rfl⟩ := hp
      refine ⟨((inClass_left hn1 hcov x.1 l).1 ⟨x.2, hx, hl⟩).2, ?_⟩
      rw [(inClass_right hn2 y.1 r).1 ⟨y.2, hy, hr⟩]; rfl

theorem classes_lookup : ∀ (ps : List PairPos) (d : KernPairs), (∀ p ∈ ps, p.Simple) →
    ∃ d', ps.foldlM addClasses d = some d' ∧
      ∀ l r, d'.lookup (l, r) = ((d.lookup (l, r)).or (ps.findSome? fun p => p.classes l r))
  | [], d, _ => ⟨d, rfl, fun l r => by simp⟩
  | p :: ps, d, h => by
    obtain ⟨d1, h1, hl1⟩ := addClasses_lookup (h p (List.mem_cons_self ..)) d
    obtain ⟨d2, h2, hl2⟩ := classes_lookup ps d1 fun q hq => h q (List.mem_cons_of_mem _ hq)
    refine ⟨d2, ?_, fun l r => ?_⟩
    · rw [List.foldlM_cons, h1]; exact h2
    · rw [hl2, hl1, List.findSome?_cons]
      cases d.lookup (l, r) <;> cases p.classes l r <;> simp

/-! ### Every entry is a number, and is there once -/

theorem keys_dictSet {α β : Type} [BEq α] [LawfulBEq α] (d : List (α × β)) (k : α) (v : β) (h : (d.map (·.1)).Nodup) :
    ((dictSet d k v).map (·.1)).Nodup := by
  induction d with
  | nil => simp [dictSet]
  | cons e d ih =>
    obtain ⟨a, b⟩ := e
    simp only [List.map_cons, List.nodup_cons] at h
    simp only [dictSet]
    split
    · simpa using h
    · rename_i hk
      simp only [List.map_cons, List.nodup_cons]
      refine ⟨fun hm => ?_, ih h.2⟩
      obtain ⟨x, hx, he⟩ := List.mem_map.1 hm
      rcases mem_dictSet_iff hx with rfl | hx
      · exact hk (by simp [← he])
      · exact h.1 (List.mem_map.2 ⟨x, hx, he⟩)

section
variable {P : KernPairs → Prop} (hP : ∀ d k v, v ≠ .text → P d → P (dictSet d k v))
include hP

theorem addSingles_ind {p : PairPos} (hp : p.Simple) {d : KernPairs} (hd : P d) : P (addSingles d p) := by
  cases p with
  | format2 => exact hd
  | format1 coverage vf sets =>
    obtain ⟨rfl, -⟩ := hp
    simp only [addSingles]
    generalize coverage.zip sets = zs
    induction zs generalizing d with
    | nil => exact hd
    | cons z zs ih =>
      rw [List.foldl_cons]
      refine ih ?_
      have : ∀ (set : List (GlyphName × GposValue)) (d : KernPairs), P d → P (addPairSet 4 z.1 set d) := by
        intro set
        induction set with
        | nil => exact fun d hd => hd
        | cons x xs ih2 => exact fun d hd => ih2 (dictSet d (z.1, x.1) (.num x.2.xAdvance)) (hP _ _ _ (by simp) hd)
      exact this _ _ hd

theorem addClasses_ind {p : PairPos} (hp : p.Simple) {d d' : KernPairs} (hd : P d) (h : addClasses d p = some d') : P d' := by
  cases p with
  | format1 => simp only [addClasses, Option.some.injEq] at h; exact h ▸ hd
  | format2 coverage vf class1 class2 records =>
    obtain ⟨rfl, -⟩ := hp
    simp only [addClasses] at h
    revert h
    generalize ((leftClasses coverage class1).flatMap fun l => (rightClasses class2).map fun r => (l, r)) = ps
    intro h
    induction ps generalizing d with
    | nil => simp only [List.foldlM_nil] at h; cases h; exact hd
    | cons p ps ih =>
      rw [List.foldlM_cons] at h
      cases hv : ((records[p.1.1]?).bind fun row => row[p.2.1]?) with
      | none => simp [hv] at h
      | some v =>
        simp only [hv] at h
        cases hk : classValue 4 v with
        | none => rw [hk] at h; exact ih hd h
        | some k =>
          rw [hk] at h
          refine ih (d := addClassPair k p.1.2 p.2.2 d) ?_ h
          have hk' : k ≠ .text := by
            simp only [classValue] at hk
            split at hk
            · simp at hk
            · simp only [if_true, Option.some.injEq] at hk
              subst hk; simp
          rw [addClassPair]
          generalize (p.1.2.flatMap fun l => p.2.2.map fun r => (l, r)) = qs
          clear h
          induction qs generalizing d with
          | nil => exact hd
          | cons q qs ih3 =>
            rw [List.foldl_cons]
            refine ih3 ?_
            split
            · exact hd
            · exact hP _ _ _ hk' hd

theorem read_ind {ps : List PairPos} (hs : ∀ p ∈ ps, p.Simple) (h0 : P []) {d : KernPairs}
    (h : ps.foldlM addClasses (ps.foldl addSingles []) = some d) : P d := by
  have h1 : ∀ (qs : List PairPos) (d : KernPairs), (∀ p ∈ qs, p.Simple) → P d → P (qs.foldl addSingles d) := by
    intro qs
    induction qs with
    | nil => exact fun d _ hd => hd
    | cons q qs ih => exact fun d hq hd => ih _ (fun p hp => hq p (List.mem_cons_of_mem _ hp)) (addSingles_ind hP (hq q (List.mem_cons_self ..)) hd)
  have h2 : ∀ (qs : List PairPos) (d d' : KernPairs), (∀ p ∈ qs, p.Simple) → P d → qs.foldlM addClasses d = some d' → P d' := by
    intro qs
    induction qs with
    | nil => intro d d' _ hd h; cases h; exact hd
    | cons q qs ih =>
      intro d d' hq hd h
      rw [List.foldlM_cons] at h
      cases hx : addClasses d q with
      | none => simp [hx] at h
      | some x =>
        rw [hx] at h
        exact ih _ _ (fun p hp => hq p (List.mem_cons_of_mem _ hp)) (addClasses_ind hP (hq q (List.mem_cons_self ..)) hd hx) h
  exact h2 _ _ _ hs (h1 _ _ hs h0) h

end

theorem read_keys {ps : List PairPos} (hs : ∀ p ∈ ps, p.Simple) {d : KernPairs}
    (h : ps.foldlM addClasses (ps.foldl addSingles []) = some d) : (∀ e ∈ d, e.2 ≠ .text) ∧ (d.map (·.1)).Nodup := by
  refine read_ind (P := fun d => (∀ e ∈ d, e.2 ≠ .text) ∧ (d.map (·.1)).Nodup) ?_ hs ⟨by simp, by simp⟩ h
  intro d k v hv hd
  refine ⟨fun e he => ?_, keys_dictSet _ _ _ hd.2⟩
  rcases mem_dictSet_iff he with rfl | h
  · exact hv
  · exact hd.1 _ h

end Pdfje
