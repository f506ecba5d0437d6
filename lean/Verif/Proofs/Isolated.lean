import Verif.Spec.Isolated
import Verif.Proofs.RescaledPages
import Verif.Proofs.Written
/-
What pages show does not depend on the numbers of fonts: registries and renamings.
-/

namespace Pdfje

/-- Other numbers of fonts. -/
structure Renaming where
  font : FontRef → FontRef
  inj : Function.Injective font
  other : FontRef → Metrics

/-- Only the numbers of fonts are changed. -/
def Renaming.change (ν : Renaming) : Change := ⟨⟨1, id, one_pos, Function.injective_id⟩, ν.font, ν.inj, ν.other⟩

/-! ### Registries -/

/-- The variants of typefaces that are embedded. -/
def Res.subKeys (r : Res) : List (TrueType × Bool × Bool) := r.subsets.map (·.1)

/-- The new numbers are those of the other registry. -/
structure Renaming.Good (ν : Renaming) (r r' : Res) : Prop where
  standard : ∀ b, ν.font (.builtin b) = .builtin b
  embedded : ∀ (i : Nat) k, r.subKeys[i]? = some k → ∃ j : Nat, ν.font (.subset i) = .subset j ∧ r'.subKeys[j]? = some k

/-- Well-formed registries; the second has all the fonts of the first. -/
structure Res.Pair (r r' : Res) : Prop where
  left : r.WF
  right : r'.WF
  sub : ∀ k ∈ r.subKeys, k ∈ r'.subKeys

theorem nodup_index {α : Type} {l : List α} (h : l.Nodup) {i j : Nat} {k : α} (hi : l[i]? = some k) (hj : l[j]? = some k) : i = j := by
  obtain ⟨h1, e1⟩ := List.getElem?_eq_some_iff.1 hi
  obtain ⟨h2, e2⟩ := List.getElem?_eq_some_iff.1 hj
  exact (List.Nodup.getElem_inj_iff h).1 (e1.trans e2.symm)

theorem subKeys_le {r r' : Res} (h : r.Le r') {i : Nat} {k} (hi : r.subKeys[i]? = some k) : r'.subKeys[i]? = some k := by
  unfold Res.subKeys at hi ⊢
  rw [List.getElem?_map, Option.map_eq_some_iff] at hi ⊢
  obtain ⟨e, he, rfl⟩ := hi
  obtain ⟨e', he', h1, -⟩ := h.subsets i e he
  exact ⟨e', he', h1⟩

theorem Renaming.Good.agree {ν μ : Renaming} {r r' : Res} (hr : r'.WF) (h : ν.Good r r') (h' : μ.Good r r') : ∀ f, r.Knows f → ν.font f = μ.font f := by
  intro f hf
  cases f with
  | builtin b => rw [h.standard, h'.standard]
  | subset i =>
    have hi : i < r.subKeys.length := by
      have : i < r.subsets.length := hf
      simpa [Res.subKeys] using this
    have hk : r.subKeys[i]? = some r.subKeys[i] := List.getElem?_eq_getElem hi
    obtain ⟨j, e, hj⟩ := h.embedded i _ hk
    obtain ⟨j', e', hj'⟩ := h'.embedded i _ hk
    rw [e, e', nodup_index hr.subKeys hj hj']

theorem Renaming.Good.back {ν : Renaming} {r r' r2 r2' : Res} (h : ν.Good r2 r2') (l : r.Le r2) (l' : r'.Le r2') (hw : r2'.WF) (hs : ∀ k ∈ r.subKeys, k ∈ r'.subKeys) : ν.Good r r' := by
  refine ⟨h.standard, fun i k hk => ?_⟩
  obtain ⟨j, e, hj⟩ := h.embedded i k (subKeys_le l hk)
  obtain ⟨j', hj'⟩ := List.mem_iff_getElem?.1 (hs k (List.mem_of_getElem? hk))
  refine ⟨j, e, ?_⟩
  rw [nodup_index hw.subKeys hj (subKeys_le l' hj'), hj']

open Classical in
/-- The numbers of fonts in the other registry. -/
noncomputable def pairFont (r r' : Res) : FontRef → FontRef
  | .builtin b => .builtin b
  | .subset i => if h : ∃ j : Nat, ∃ k, r.subKeys[i]? = some k ∧ r'.subKeys[j]? = some k then .subset h.choose else .subset (r'.subKeys.length + i)

theorem pairFont_spec {r r' : Res} (h : r.Pair r') (i : Nat) :
    (∃ (j : Nat) (k : TrueType × Bool × Bool), pairFont r r' (.subset i) = .subset j ∧ r.subKeys[i]? = some k ∧ r'.subKeys[j]? = some k) ∨ (r.subKeys.length ≤ i ∧ pairFont r r' (.subset i) = .subset (r'.subKeys.length + i)) := by
  by_cases hx : ∃ j : Nat, ∃ k, r.subKeys[i]? = some k ∧ r'.subKeys[j]? = some k
  · obtain ⟨k, h1, h2⟩ := hx.choose_spec
    exact .inl ⟨hx.choose, k, by simp only [pairFont, dif_pos hx], h1, h2⟩
  · refine .inr ⟨?_, by simp only [pairFont, dif_neg hx]⟩
    by_contra hn
    have hi : i < r.subKeys.length := by omega
    obtain ⟨j, hj⟩ := List.mem_iff_getElem?.1 (h.sub _ (List.getElem_mem hi))
    exact hx ⟨j, _, List.getElem?_eq_getElem hi, hj⟩

theorem pairFont_inj {r r' : Res} (h : r.Pair r') : Function.Injective (pairFont r r') := by
  intro f g e
  cases f with
  | builtin b => cases g with
    | builtin b' => simpa [pairFont] using e
    | subset i => rcases pairFont_spec h i with ⟨j, k, hj, -⟩ | ⟨-, hj⟩ <;> rw [hj] at e <;> cases e
  | subset i => cases g with
    | builtin b' => rcases pairFont_spec h i with ⟨j, k, hj, -⟩ | ⟨-, hj⟩ <;> rw [hj] at e <;> cases e
    | subset i' =>
      rcases pairFont_spec h i with ⟨j, k, hj, h1, h2⟩ | ⟨hi, hj⟩ <;> rcases pairFont_spec h i' with ⟨j', k', hj', h1', h2'⟩ | ⟨hi', hj'⟩ <;> rw [hj, hj'] at e <;> simp only [FontRef.subset.injEq] at e
      · subst e
        rw [h2] at h2'
        cases h2'
        rw [nodup_index h.left.subKeys h1 h1']
      · have := (List.getElem?_eq_some_iff.1 h2).1
        omega
      · have := (List.getElem?_eq_some_iff.1 h2').1
        omega
      · rw [show i = i' by omega]

/-- There are such numbers, and the fonts are the same. -/
theorem exists_good (w : World) {r r' : Res} (h : r.Pair r') : ∃ ν : Renaming, ν.Good r r' ∧ (w.env r).via ν.change = w.env r' := by
  refine ⟨⟨pairFont r r', pairFont_inj h, (w.env r').metrics⟩, ⟨fun b => rfl, fun i k hk => ?_⟩, Env.via_of _ ?_ rfl rfl rfl⟩
  · rcases pairFont_spec h i with ⟨j, k', hj, h1, h2⟩ | ⟨hi, -⟩
    · rw [hk] at h1
      cases h1
      exact ⟨j, hj, h2⟩
    · have := (List.getElem?_eq_some_iff.1 hk).1
      omega
  · intro f
    cases f with
    | builtin b => rfl
    | subset i =>
      change w.metrics r' (pairFont r r' (.subset i)) = w.metrics r (.subset i)
      rcases pairFont_spec h i with ⟨j, k, hj, h1, h2⟩ | ⟨hi, hj⟩
      · rw [hj]
        unfold Res.subKeys at h1 h2
        rw [List.getElem?_map, Option.map_eq_some_iff] at h1 h2
        obtain ⟨e, he, rfl⟩ := h1
        obtain ⟨e', he', hk⟩ := h2
        have p1 := (h.left.sub i e he).2.1
        have p2 := (h.right.sub j e' he').2.1
        simp only [World.metrics, he, he', p1, p2, hk]
      · rw [hj]
        have h1 : r.subsets[i]? = none := List.getElem?_eq_none (by simpa [Res.subKeys] using hi)
        have h2 : r'.subsets[r'.subKeys.length + i]? = none := List.getElem?_eq_none (by simp [Res.subKeys])
        simp only [World.metrics, h1, h2]

/-! ### Fonts -/

theorem mem_font_keys {r : Res} {f : Typeface} {b i : Bool} {k} : k ∈ (r.font f b i).2.subKeys ↔ k ∈ r.subKeys ∨ ∃ t, f = .trueType t ∧ k = (t, b, i) := by
  cases f with
  | builtin t =>
    simp only [Res.font]
    split <;> simp [Res.subKeys]
  | trueType t =>
    simp only [Res.font]
    split
    · rename_i n hn
      simp only [Typeface.trueType.injEq, exists_eq_left', iff_self_or]
      rintro rfl
      obtain ⟨hlt, hp, -⟩ := List.findIdx?_eq_some_iff_getElem.1 hn
      rw [Res.subKeys, List.mem_map]
      exact ⟨r.subsets[n], List.getElem_mem _, by simpa using hp⟩
    · simp [Res.subKeys]

theorem font_pair {r r' : Res} (h : r.Pair r') {f : Typeface} (hf : f.Known) (b i : Bool) : (r.font f b i).2.Pair (r'.font f b i).2 := by
  have ok : (ResOp.font f b i).Ok := by cases f <;> exact hf
  refine ⟨(r.font_spec h.left f b i ok).2.2, (r'.font_spec h.right f b i ok).2.2, fun k hk => ?_⟩
  rw [mem_font_keys] at hk ⊢
  exact hk.imp_left (h.sub k)

theorem builtin_of_wf {r : Res} (h : r.WF) {t : BuiltinTypeface} (ht : t ∈ builtinTypefaces) (b i : Bool) : (r.font (.builtin t) b i).1 = .builtin (t.font b i) := by
  simp only [Res.font]
  split
  · rename_i e he
    obtain ⟨g, hg, h1, h2⟩ := h.built e (List.mem_of_find?_eq_some he)
    have hk := List.find?_some he
    simp only [beq_iff_eq] at hk
    rw [hk] at h1 h2
    simp only at h1 h2
    have : g = t := builtin_name_inj g hg t ht h1.symm
    rw [h2, this]
  · rfl

theorem font_good {r r' : Res} (h : r.Pair r') {f : Typeface} (hf : f.Known) (b i : Bool) {ν : Renaming} (hν : ν.Good (r.font f b i).2 (r'.font f b i).2) :
    (r'.font f b i).1 = ν.font (r.font f b i).1 := by
  have ok : (ResOp.font f b i).Ok := by cases f <;> exact hf
  cases f with
  | builtin t => rw [builtin_of_wf h.left hf, builtin_of_wf h.right hf, hν.standard]
  | trueType t =>
    obtain ⟨⟨n, h1, e1⟩, -, w1⟩ := r.font_spec h.left (.trueType t) b i ok
    obtain ⟨⟨n', h2, e2⟩, -, w2⟩ := r'.font_spec h.right (.trueType t) b i ok
    have hx : ∀ {r : Res} {n : Nat}, r.subsets.findIdx? (fun e => e.1 == (t, b, i)) = some n → r.subKeys[n]? = some (t, b, i) := by
      intro r n hn
      obtain ⟨hlt, hp, -⟩ := List.findIdx?_eq_some_iff_getElem.1 hn
      rw [Res.subKeys, List.getElem?_map, List.getElem?_eq_getElem hlt]
      simpa using hp
    obtain ⟨j, e, hj⟩ := hν.embedded n _ (hx h1)
    rw [e1, e2, e, nodup_index w2.subKeys hj (hx h2)]

end Pdfje
