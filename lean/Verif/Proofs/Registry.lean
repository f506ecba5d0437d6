import Verif.Model.Resources
import Verif.Proofs.Fonts
/-
Invariants of the font registry over arbitrary histories.
-/

namespace Pdfje
open PdfSpec

/-- The registry knows this variant as `x`. -/
def Res.has (r : Res) (f : Typeface) (bold italic : Bool) (x : FontRef) : Prop :=
  match f with
  | .builtin b => ∃ e, r.builtins.find? (fun e => e.1 == (b.regular.name, bold, italic)) = some e ∧ x = .builtin e.2
  | .trueType t => ∃ i, r.subsets.findIdx? (fun e => e.1 == (t, bold, italic)) = some i ∧ x = .subset i

theorem Res.has_functional {r : Res} {f bold italic x y} (h1 : r.has f bold italic x) (h2 : r.has f bold italic y) :
    x = y := by
  cases f with
  | builtin b =>
    obtain ⟨e, h, rfl⟩ := h1
    obtain ⟨e', h', rfl⟩ := h2
    rw [h] at h'; cases h'; rfl
  | trueType t =>
    obtain ⟨e, h, rfl⟩ := h1
    obtain ⟨e', h', rfl⟩ := h2
    rw [h] at h'; cases h'; rfl

/-- How the registry evolves: builtin entries are only appended, subsets keep key, id and path, and their
character list only grows. -/
structure Res.Le (r r' : Res) : Prop where
  builtins : r.builtins <+: r'.builtins
  subsets : ∀ (i : Nat) (e : (TrueType × Bool × Bool) × Subset), r.subsets[i]? = some e →
    ∃ e' : (TrueType × Bool × Bool) × Subset, r'.subsets[i]? = some e' ∧ e'.1 = e.1 ∧ e'.2.id = e.2.id ∧
    e'.2.path = e.2.path ∧ (e.2.cids.Nodup → e'.2.cids.Nodup ∧ e.2.cids <+: e'.2.cids)

theorem Res.Le.refl (r : Res) : r.Le r :=
  ⟨List.prefix_rfl, fun _ e h => ⟨e, h, rfl, rfl, rfl, fun h => ⟨h, List.prefix_rfl⟩⟩⟩

theorem Res.Le.trans {r1 r2 r3 : Res} (h1 : r1.Le r2) (h2 : r2.Le r3) : r1.Le r3 := by
  refine ⟨h1.builtins.trans h2.builtins, fun i e h => ?_⟩
  obtain ⟨e2, g2, a2, b2, c2, d2⟩ := h1.subsets i e h
  obtain ⟨e3, g3, a3, b3, c3, d3⟩ := h2.subsets i e2 g2
  refine ⟨e3, g3, a3.trans a2, b3.trans b2, c3.trans c2, fun hn => ?_⟩
  exact ⟨(d3 (d2 hn).1).1, (d2 hn).2.trans (d3 (d2 hn).1).2⟩

/-- Well-formed registries. -/
structure Res.WF (r : Res) : Prop where
  next : r.next = r.subsets.length
  sub : ∀ (i : Nat) (e : (TrueType × Bool × Bool) × Subset), r.subsets[i]? = some e → e.2.id = b!"F" ++ decNat i ∧ e.2.path = e.1.1.font e.1.2.1 e.1.2.2 ∧
    e.2.cids.Nodup
  subKeys : (r.subsets.map (·.1)).Nodup
  keys : (r.builtins.map (·.1)).Nodup
  built : ∀ e ∈ r.builtins, ∃ f ∈ builtinTypefaces, e.1.1 = f.regular.name ∧ e.2 = f.font e.1.2.1 e.1.2.2

theorem Res.wf_empty : Res.empty.WF := by
  constructor <;> simp [Res.empty]

/-- The typefaces a user can name. -/
def ResOp.Ok : ResOp → Prop
  | .font (.builtin b) _ _ => b ∈ builtinTypefaces
  | _ => True

theorem find?_append_of_some {α} {p : α → Bool} {l l' : List α} {e : α} (h : l.find? p = some e) :
    (l ++ l').find? p = some e := by
  rw [List.find?_append, h]; rfl

theorem findIdx?_append_of_some {α} {p : α → Bool} {l l' : List α} {i : Nat} (h : l.findIdx? p = some i) :
    (l ++ l').findIdx? p = some i := by
  rw [List.findIdx?_append, h]; rfl

theorem findIdx?_eq_of_fst {α β} [BEq α] [LawfulBEq α] (l l' : List (α × β)) (k : α) (i : Nat)
    (h : l.findIdx? (fun e => e.1 == k) = some i)
    (hl : ∀ (j : Nat) (e : α × β), l[j]? = some e → ∃ e' : α × β, l'[j]? = some e' ∧ e'.1 = e.1) :
    l'.findIdx? (fun e => e.1 == k) = some i := by
  rw [List.findIdx?_eq_some_iff_getElem] at h ⊢
  obtain ⟨hi, h1, h2⟩ := h
  obtain ⟨e', he', hk⟩ := hl i l[i] (List.getElem?_eq_getElem hi)
  obtain ⟨hi', he''⟩ := List.getElem?_eq_some_iff.mp he'
  refine ⟨hi', by rw [he'', hk]; exact h1, fun j hj => ?_⟩
  obtain ⟨e2, h3, h4⟩ := hl j l[j] (List.getElem?_eq_getElem (by omega))
  obtain ⟨hj', h5⟩ := List.getElem?_eq_some_iff.mp h3
  rw [h5, h4]
  exact h2 j hj

theorem Res.has_mono {r r' : Res} (hle : r.Le r') {f bold italic x} (h : r.has f bold italic x) :
    r'.has f bold italic x := by
  cases f with
  | builtin b =>
    obtain ⟨e, h, rfl⟩ := h
    obtain ⟨t, ht⟩ := hle.builtins
    exact ⟨e, by rw [← ht]; exact find?_append_of_some h, rfl⟩
  | trueType t =>
    obtain ⟨i, h, rfl⟩ := h
    refine ⟨i, findIdx?_eq_of_fst _ _ _ _ h fun j e hj => ?_, rfl⟩
    obtain ⟨e', h1, h2, -⟩ := hle.subsets j e hj
    exact ⟨e', h1, h2⟩

theorem Res.font_spec (r : Res) (hr : r.WF) (f : Typeface) (bold italic : Bool)
    (hok : (ResOp.font f bold italic).Ok) :
    (r.font f bold italic).2.has f bold italic (r.font f bold italic).1 ∧ r.Le (r.font f bold italic).2 ∧
      (r.font f bold italic).2.WF := by
  cases f with
  | builtin b =>
    simp only [Res.font]
    split
    · rename_i e he
      exact ⟨⟨e, he, rfl⟩, Res.Le.refl _, hr⟩
    · rename_i hn
      refine ⟨⟨((b.regular.name, bold, italic), b.font bold italic), ?_, rfl⟩, ⟨List.prefix_append _ _, fun i e h =>
        ⟨e, h, rfl, rfl, rfl, fun h => ⟨h, List.prefix_rfl⟩⟩⟩, ?_⟩
      · rw [List.find?_append, hn]; simp
      · refine ⟨hr.next, hr.sub, hr.subKeys, ?_, ?_⟩
        · rw [List.map_append, List.nodup_append]
          refine ⟨hr.keys, by simp, ?_⟩
          intro a ha b' hb'
          simp only [List.map_cons, List.map_nil, List.mem_singleton] at hb'
          subst hb'
          rintro rfl
          obtain ⟨e, he, hk⟩ := List.mem_map.mp ha
          have := (List.find?_eq_none.mp hn) e he
          simp [hk] at this
        · intro e he
          rcases List.mem_append.mp he with he | he
          · exact hr.built e he
          · rw [List.mem_singleton] at he
            subst he
            exact ⟨b, hok, rfl, rfl⟩
  | trueType t =>
    simp only [Res.font]
    split
    · rename_i e he
      exact ⟨⟨e, he, rfl⟩, Res.Le.refl _, hr⟩
    · rename_i hn
      refine ⟨⟨r.subsets.length, ?_, rfl⟩, ⟨List.prefix_rfl, fun i e h => ⟨e, ?_, rfl, rfl, rfl,
        fun h => ⟨h, List.prefix_rfl⟩⟩⟩, ?_⟩
      · rw [List.findIdx?_append, hn]; simp
      · simp only
        rw [List.getElem?_append_left]
        · exact h
        · exact (List.getElem?_eq_some_iff.mp h).1
      · refine ⟨by simp [hr.next], fun i e h => ?_, ?_, hr.keys, hr.built⟩
        · simp only at h
          rw [List.getElem?_append] at h
          split at h
          · exact hr.sub i e h
          · rename_i hlt
            have hi : i - r.subsets.length = 0 := by
              by_contra hne
              rw [List.getElem?_eq_none] at h
              · cases h
              · simp; omega
            have : i = r.subsets.length := by omega
            subst this
            simp only [Nat.sub_self, List.getElem?_cons_zero, Option.some.injEq] at h
            subst h
            exact ⟨by rw [hr.next], rfl, List.nodup_nil⟩
        · simp only
          rw [List.map_append, List.nodup_append]
          refine ⟨hr.subKeys, by simp, ?_⟩
          intro a ha b' hb'
          simp only [List.map_cons, List.map_nil, List.mem_singleton] at hb'
          subst hb'
          rintro rfl
          obtain ⟨e, he, hk⟩ := List.mem_map.mp ha
          have := (List.findIdx?_eq_none_iff.mp hn) e he
          simp [hk] at this

theorem Res.encode_spec (r : Res) (hr : r.WF) (f : FontRef) (s : List Char) (b : Bytes) (r' : Res)
    (h : r.encode f s = some (b, r')) : r.Le r' ∧ r'.WF := by
  cases f with
  | builtin g =>
    simp only [Res.encode, Option.some.injEq, Prod.mk.injEq] at h
    obtain ⟨-, rfl⟩ := h
    exact ⟨Res.Le.refl _, hr⟩
  | subset i =>
    simp only [Res.encode] at h
    split at h
    · cases h
    · rename_i e he
      simp only [Option.some.injEq, Prod.mk.injEq] at h
      obtain ⟨-, rfl⟩ := h
      have hi := (List.getElem?_eq_some_iff.mp he).1
      have hn := (hr.sub i e he).2.2
      obtain ⟨q1, q2, -⟩ := encodeCids_spec s e.2.cids hn
      refine ⟨⟨List.prefix_rfl, fun j e' hj => ?_⟩, ?_⟩
      · by_cases hij : i = j
        · subst hij
          rw [he] at hj; cases hj
          refine ⟨_, List.getElem?_set_self hi, rfl, rfl, rfl, fun _ => ⟨q1, q2⟩⟩
        · exact ⟨e', by simp only; rw [List.getElem?_set_ne hij]; exact hj, rfl, rfl, rfl,
            fun h => ⟨h, List.prefix_rfl⟩⟩
      · refine ⟨by simpa using hr.next, fun j e' hj => ?_, ?_, hr.keys, hr.built⟩
        · simp only at hj
          by_cases hij : i = j
          · subst hij
            rw [List.getElem?_set_self hi] at hj
            cases hj
            exact ⟨(hr.sub i e he).1, (hr.sub i e he).2.1, q1⟩
          · rw [List.getElem?_set_ne hij] at hj
            exact hr.sub j e' hj
        · simp only
          have : (r.subsets.set i (e.1, { e.2 with cids := (encodeCids e.2.cids s).2 })).map (·.1) = r.subsets.map (·.1) := by
            rw [List.map_set]
            apply List.ext_getElem?
            intro j
            by_cases hij : i = j
            · subst hij
              rw [List.getElem?_set_self (by simpa using hi), List.getElem?_map, he]; rfl
            · rw [List.getElem?_set_ne hij]
          rw [this]
          exact hr.subKeys

theorem Res.step_spec (r : Res) (hr : r.WF) (op : ResOp) (hok : op.Ok) (o : ResOut) (r' : Res)
    (h : r.step op = some (o, r')) : r.Le r' ∧ r'.WF := by
  cases op with
  | font f b i =>
    simp only [Res.step, Option.some.injEq, Prod.mk.injEq] at h
    obtain ⟨-, rfl⟩ := h
    exact (r.font_spec hr f b i hok).2
  | encode f s =>
    simp only [Res.step, Option.map_eq_some_iff, Prod.mk.injEq] at h
    obtain ⟨⟨b, r1⟩, h1, -, rfl⟩ := h
    exact r.encode_spec hr f s b r1 h1

theorem Res.run_cons {r : Res} {op : ResOp} {ops : List ResOp} {os : List ResOut} {r' : Res}
    (h : r.run (op :: ops) = some (os, r')) :
    ∃ o r1 os1, r.step op = some (o, r1) ∧ r1.run ops = some (os1, r') ∧ os = o :: os1 := by
  simp only [Res.run] at h
  split at h
  · cases h
  · rename_i o r1 h1
    split at h
    · cases h
    · rename_i os1 r2 h2
      simp only [Option.some.injEq, Prod.mk.injEq] at h
      obtain ⟨rfl, rfl⟩ := h
      exact ⟨o, r1, os1, h1, h2, rfl⟩

theorem Res.run_spec (ops : List ResOp) : ∀ (r : Res), r.WF → (∀ op ∈ ops, op.Ok) → ∀ os r',
    r.run ops = some (os, r') → r.Le r' ∧ r'.WF ∧
      (∀ (j : Nat) f b i, ops[j]? = some (ResOp.font f b i) → ∃ x, os[j]? = some (ResOut.font x) ∧ r'.has f b i x) ∧
      os.length = ops.length := by
  induction ops with
  | nil =>
    intro r hr _ os r' h
    simp only [Res.run, Option.some.injEq, Prod.mk.injEq] at h
    obtain ⟨rfl, rfl⟩ := h
    exact ⟨Res.Le.refl _, hr, by simp, rfl⟩
  | cons op ops ih =>
    intro r hr hok os r' h
    obtain ⟨o, r1, os1, h1, h2, rfl⟩ := Res.run_cons h
    have hs := r.step_spec hr op (hok _ (by simp)) o r1 h1
    obtain ⟨i1, i2, i3, i4⟩ := ih r1 hs.2 (fun op h => hok _ (by simp [h])) os1 r' h2
    refine ⟨hs.1.trans i1, i2, fun j f b i hj => ?_, by simp [i4]⟩
    cases j with
    | succ j => exact i3 j f b i (by simpa using hj)
    | zero =>
      simp only [List.getElem?_cons_zero, Option.some.injEq] at hj
      subst hj
      simp only [Res.step, Option.some.injEq, Prod.mk.injEq] at h1
      obtain ⟨rfl, rfl⟩ := h1
      exact ⟨_, rfl, Res.has_mono i1 (r.font_spec hr f b i (hok _ (by simp))).1⟩

/-- Every builtin font registered was requested. -/
theorem Res.run_builtins (ops : List ResOp) : ∀ (r : Res) os r', r.run ops = some (os, r') →
    ∀ e ∈ r'.builtins, e ∈ r.builtins ∨ ∃ f, ResOp.font (.builtin f) e.1.2.1 e.1.2.2 ∈ ops ∧
      e.1.1 = f.regular.name ∧ e.2 = f.font e.1.2.1 e.1.2.2 := by
  induction ops with
  | nil =>
    intro r os r' h e he
    simp only [Res.run, Option.some.injEq, Prod.mk.injEq] at h
    obtain ⟨rfl, rfl⟩ := h
    exact Or.inl he
  | cons op ops ih =>
    intro r os r' h e he
    obtain ⟨o, r1, os1, h1, h2, rfl⟩ := Res.run_cons h
    rcases ih r1 os1 r' h2 e he with h3 | ⟨f, h3, h4, h5⟩
    swap
    · exact Or.inr ⟨f, by simp [h3], h4, h5⟩
    cases op with
    | encode f s =>
      simp only [Res.step, Option.map_eq_some_iff, Prod.mk.injEq] at h1
      obtain ⟨⟨b, r2⟩, h1, rfl, rfl⟩ := h1
      left
      cases f with
      | builtin g =>
        simp only [Res.encode, Option.some.injEq, Prod.mk.injEq] at h1
        obtain ⟨rfl, rfl⟩ := h1
        exact h3
      | subset j =>
        simp only [Res.encode] at h1
        split at h1
        · cases h1
        · simp only [Option.some.injEq, Prod.mk.injEq] at h1
          obtain ⟨rfl, rfl⟩ := h1
          exact h3
    | font f b t =>
      simp only [Res.step, Option.some.injEq, Prod.mk.injEq] at h1
      obtain ⟨rfl, rfl⟩ := h1
      cases f with
      | trueType g =>
        simp only [Res.font] at h3
        split at h3 <;> exact Or.inl h3
      | builtin g =>
        simp only [Res.font] at h3
        split at h3
        · exact Or.inl h3
        · simp only [List.mem_append, List.mem_singleton] at h3
          rcases h3 with h3 | rfl
          · exact Or.inl h3
          · exact Or.inr ⟨g, by simp, rfl, rfl⟩

/-! ### Encodings with one subset -/

/-- The strings a history encodes with subset `i`, with what came out. -/
def encodings (i : Nat) : List ResOp → List ResOut → List (List Char × Bytes)
  | .encode (.subset j) s :: ops, .bytes b :: os => if j = i then (s, b) :: encodings i ops os else encodings i ops os
  | _ :: ops, _ :: os => encodings i ops os
  | _, _ => []

theorem encodings_font (i : Nat) (f b t ops x os) :
    encodings i (.font f b t :: ops) (x :: os) = encodings i ops os := by
  cases x <;> rfl

/-- The characters of subset `i`, if made yet. -/
def Res.cidsOf (r : Res) (i : Nat) : List Char := ((r.subsets[i]?).map (·.2.cids)).getD []

theorem Res.font_cidsOf (r : Res) (f b t) (i : Nat) : (r.font f b t).2.cidsOf i = r.cidsOf i := by
  unfold Res.font Res.cidsOf
  cases f with
  | builtin g => simp only; split <;> rfl
  | trueType g =>
    simp only
    split
    · rfl
    · simp only
      rw [List.getElem?_append]
      split
      · rfl
      · rename_i hlt
        rw [List.getElem?_eq_none (l := r.subsets) (by omega)]
        cases hk : i - r.subsets.length with
        | zero => rfl
        | succ k => rfl

theorem Res.run_encodings (ops : List ResOp) (i : Nat) : ∀ (r : Res) os r',
    r.run ops = some (os, r') →
      encodeHistory (r.cidsOf i) ((encodings i ops os).map (·.1)) = ((encodings i ops os).map (·.2), r'.cidsOf i) := by
  induction ops with
  | nil =>
    intro r os r' h
    simp only [Res.run, Option.some.injEq, Prod.mk.injEq] at h
    obtain ⟨rfl, rfl⟩ := h
    rfl
  | cons op ops ih =>
    intro r os r' h
    obtain ⟨o, r1, os1, h1, h2, rfl⟩ := Res.run_cons h
    have := ih r1 os1 r' h2
    cases op with
    | font f b t =>
      simp only [Res.step, Option.some.injEq, Prod.mk.injEq] at h1
      obtain ⟨rfl, rfl⟩ := h1
      rw [encodings_font, ← Res.font_cidsOf r f b t i]
      exact this
    | encode f s =>
      simp only [Res.step, Option.map_eq_some_iff, Prod.mk.injEq] at h1
      obtain ⟨⟨b, r2⟩, h1, rfl, rfl⟩ := h1
      cases f with
      | builtin g =>
        simp only [Res.encode, Option.some.injEq, Prod.mk.injEq] at h1
        obtain ⟨rfl, rfl⟩ := h1
        exact this
      | subset j =>
        simp only [Res.encode] at h1
        split at h1
        · cases h1
        · rename_i e he
          simp only [Option.some.injEq, Prod.mk.injEq] at h1
          obtain ⟨rfl, rfl⟩ := h1
          have hj := (List.getElem?_eq_some_iff.mp he).1
          by_cases hij : j = i
          · subst hij
            have e1 : Res.cidsOf { r with subsets := r.subsets.set j (e.1, { e.2 with cids := (encodeCids e.2.cids s).2 }) } j
                = (encodeCids e.2.cids s).2 := by
              simp [Res.cidsOf, List.getElem?_set_self hj]
            have e2 : r.cidsOf j = e.2.cids := by simp [Res.cidsOf, he]
            rw [e1] at this
            simp only [encodings, if_true, List.map_cons]
            rw [e2]
            simp only [encodeHistory]
            rw [this]
          · simp only [encodings, if_neg hij]
            have e1 : Res.cidsOf { r with subsets := r.subsets.set j (e.1, { e.2 with cids := (encodeCids e.2.cids s).2 }) } i
                = r.cidsOf i := by
              simp [Res.cidsOf, List.getElem?_set_ne hij]
            rw [e1] at this
            exact this

/-! ### The font dictionary -/

theorem subsetEntries_get (ss : List Subset) : ∀ (n i : Nat) (s : Subset), ss[i]? = some s →
    (subsetEntries ss n)[i]? = some (s.id, .ref (n + i * objsPerFont)) := by
  induction ss with
  | nil => intro n i s h; simp at h
  | cons a ss ih =>
    intro n i s h
    cases i with
    | zero => simp only [List.getElem?_cons_zero, Option.some.injEq] at h; subst h; simp [subsetEntries]
    | succ i =>
      simp only [List.getElem?_cons_succ] at h
      simp only [subsetEntries, List.getElem?_cons_succ]
      rw [ih _ i s h, Nat.succ_mul, Nat.add_assoc, Nat.add_comm objsPerFont]

theorem subsetEntries_keys (ss : List Subset) : ∀ n, (subsetEntries ss n).map (·.1) = ss.map (·.id) := by
  induction ss with
  | nil => intro n; rfl
  | cons a ss ih => intro n; simp [subsetEntries, ih]

theorem find?_of_get_nodup {α β} [BEq α] [LawfulBEq α] (l : List (α × β)) (h : (l.map (·.1)).Nodup) (i : Nat) (e : α × β)
    (hi : l[i]? = some e) : l.find? (fun x => x.1 == e.1) = some e := by
  induction l generalizing i with
  | nil => simp at hi
  | cons a l ih =>
    simp only [List.map_cons, List.nodup_cons] at h
    cases i with
    | zero => simp only [List.getElem?_cons_zero, Option.some.injEq] at hi; subst hi; simp
    | succ i =>
      simp only [List.getElem?_cons_succ] at hi
      rw [List.find?_cons_of_neg, ih h.2 i hi]
      simp only [beq_iff_eq]
      intro he
      exact h.1 (he ▸ List.mem_map.mpr ⟨e, List.mem_of_getElem? hi, rfl⟩)

theorem subset_ids_nodup {r : Res} (hr : r.WF) : ((r.subsets.map (·.2)).map (·.id)).Nodup := by
  rw [List.nodup_iff_getElem?_ne_getElem?]
  intro i j hij hj heq
  simp only [List.length_map] at hj
  obtain ⟨ei, hi⟩ : ∃ e, r.subsets[i]? = some e := ⟨_, List.getElem?_eq_getElem (by omega)⟩
  obtain ⟨ej, hj⟩ : ∃ e, r.subsets[j]? = some e := ⟨_, List.getElem?_eq_getElem hj⟩
  simp only [List.getElem?_map, hi, hj, Option.map_some, Option.some.injEq] at heq
  rw [(hr.sub i ei hi).1, (hr.sub j ej hj).1] at heq
  have := decNat_inj (List.append_cancel_left heq)
  omega

/-- Facts about the five builtin typefaces: keys start with `f`, and a key determines the font. -/
theorem builtin_fid_head : ∀ f ∈ builtinTypefaces, ∀ b i, (f.font b i).fid.head? = some 0x66 := by decide +kernel

theorem builtin_fid_inj : ∀ f ∈ builtinTypefaces, ∀ g ∈ builtinTypefaces, ∀ b i b' i',
    (f.font b i).fid = (g.font b' i').fid → f.font b i = g.font b' i' := by decide +kernel

theorem builtin_name_inj : ∀ f ∈ builtinTypefaces, ∀ g ∈ builtinTypefaces,
    f.regular.name = g.regular.name → f = g := by decide +kernel

theorem builtin_fid_variant : ∀ f ∈ builtinTypefaces, ∀ g ∈ builtinTypefaces, ∀ b i b' i',
    (f.font b i).fid = (g.font b' i').fid → f = g ∧ (f = symbol ∨ f = zapfDingbats ∨ (b = b' ∧ i = i')) := by
  decide +kernel

theorem fontEntries_builtin {r : Res} (hr : r.WF) (first : Nat) {e} (he : e ∈ r.builtins) :
    (r.fontEntries first).find? (fun x => x.1 == e.2.fid) = some (e.2.fid, e.2.toResource) := by
  unfold Res.fontEntries
  rw [List.find?_append]
  have : ∀ l : List ((Bytes × Bool × Bool) × BuiltinFont), (∀ x ∈ l, x ∈ r.builtins) → e ∈ l →
      (l.map (fun e => (e.2.fid, e.2.toResource))).find? (fun x => x.1 == e.2.fid) = some (e.2.fid, e.2.toResource) := by
    intro l
    induction l with
    | nil => intro _ h; cases h
    | cons a l ih =>
      intro hl hm
      rw [List.map_cons]
      by_cases ha : a.2.fid = e.2.fid
      · rw [List.find?_cons_of_pos (by simp [ha])]
        obtain ⟨f, hf, -, ef⟩ := hr.built a (hl a (by simp))
        obtain ⟨g, hg, -, eg⟩ := hr.built e he
        have := builtin_fid_inj f hf g hg _ _ _ _ (by rw [← ef, ← eg]; exact ha)
        rw [ef, this, ← eg]
      · rw [List.find?_cons_of_neg (by simp [ha])]
        rcases List.mem_cons.mp hm with rfl | hm
        · exact absurd rfl ha
        · exact ih (fun x hx => hl x (by simp [hx])) hm
  rw [this r.builtins (fun _ h => h) he]
  rfl

theorem fontEntries_subset {r : Res} (hr : r.WF) (first : Nat) {i : Nat} {e} (he : r.subsets[i]? = some e) :
    (r.fontEntries first).find? (fun x => x.1 == e.2.id) = some (e.2.id, .ref (first + i * objsPerFont)) := by
  unfold Res.fontEntries
  have h1 : (r.builtins.map (fun e => (e.2.fid, e.2.toResource))).find? (fun x => x.1 == e.2.id) = none := by
    rw [List.find?_eq_none]
    intro x hx
    obtain ⟨y, hy, rfl⟩ := List.mem_map.mp hx
    obtain ⟨f, hf, -, ef⟩ := hr.built y hy
    have hh := builtin_fid_head f hf y.1.2.1 y.1.2.2
    simp only [beq_iff_eq]
    intro hc
    rw [← ef, hc, (hr.sub i e he).1] at hh
    simp at hh
  rw [List.find?_append, h1, Option.none_or]
  have hg := subsetEntries_get (r.subsets.map (·.2)) first i e.2 (by simp [he])
  exact find?_of_get_nodup _ (by rw [subsetEntries_keys]; exact subset_ids_nodup hr) i _ hg

/-- The objects of the i-th subset are in the list of font objects. -/
theorem subsetObjects_get (compress : Bytes → Bytes) (files : Path → FontFile) (ss : List Subset) :
    ∀ (n i : Nat) (s : Subset), (subsetObjects compress files ss n).2 = true → ss[i]? = some s →
      ∃ objs, s.toObjects compress (files s.path) (n + i * objsPerFont) = some objs ∧
        ∀ o ∈ objs, o ∈ (subsetObjects compress files ss n).1 := by
  induction ss with
  | nil => intro n i s _ h; simp at h
  | cons a ss ih =>
    intro n i s hok h
    simp only [subsetObjects] at hok ⊢
    split at hok
    · cases hok
    · rename_i objs hobjs
      simp only at hok ⊢
      cases i with
      | zero =>
        simp only [List.getElem?_cons_zero, Option.some.injEq] at h
        subst h
        refine ⟨objs, by simpa using hobjs, fun o ho => List.mem_append_left _ ho⟩
      | succ i =>
        simp only [List.getElem?_cons_succ] at h
        obtain ⟨o2, h2, h3⟩ := ih (n + objsPerFont) i s hok h
        refine ⟨o2, ?_, fun o ho => List.mem_append_right _ (h3 o ho)⟩
        rw [← h2, Nat.succ_mul]
        congr 1
        omega

end Pdfje
