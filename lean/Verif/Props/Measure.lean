import Verif.Model.Render
import Verif.Proofs.Registry
/-
C19 for the fonts of a document: what text is measured with.
-/

namespace Pdfje

/-- C19, the tables: after any history of uses of the registry, text in a font that was requested is measured with the widths and kerning pairs of the
variant that was asked for: those of the standard font, or those of the font file of that variant (no kerning if it has no kerning table). -/
theorem C19_metrics (w : World) (ops : List ResOp) (hok : ∀ op ∈ ops, op.Ok) (outs : List ResOut) (r : Res)
    (h : Res.empty.run ops = some (outs, r)) (j : Nat) (bold italic : Bool) :
    (∀ b, ops[j]? = some (.font (.builtin b) bold italic) → ∃ f, outs[j]? = some (.font f) ∧
      ∀ c d, ((w.env r).metrics f).charwidth c = (w.builtin (b.font bold italic)).charwidth c ∧
        ((w.env r).metrics f).kerning (c, d) = (w.builtin (b.font bold italic)).kerning (c, d)) ∧
    (∀ t, ops[j]? = some (.font (.trueType t) bold italic) → ∃ f, outs[j]? = some (.font f) ∧
      ∀ c d, ((w.env r).metrics f).charwidth c = (w.files (t.font bold italic)).charwidth c ∧
        ((w.files (t.font bold italic)).kerning = none → ((w.env r).metrics f).kerning (c, d) = 0) ∧
        ∀ k, (w.files (t.font bold italic)).kerning = some k → ((w.env r).metrics f).kerning (c, d) = k (c, d)) := by
  obtain ⟨-, hwf, hhas, hlen⟩ := Res.run_spec ops Res.empty Res.wf_empty hok outs r h
  constructor
  · intro b hj
    have hb : b ∈ builtinTypefaces := hok _ (List.mem_of_getElem? hj)
    obtain ⟨x, hx, e, he, rfl⟩ := hhas j _ bold italic hj
    refine ⟨_, hx, fun c d => ?_⟩
    obtain ⟨f, hf, h1, h2⟩ := hwf.built e (List.mem_of_find?_eq_some he)
    have hk : e.1 = (b.regular.name, bold, italic) := by simpa using List.find?_some he
    rw [hk] at h1 h2
    have := builtin_name_inj b hb f hf h1
    subst this
    simp only [World.env, World.metrics, h2, and_self]
  · intro t hj
    obtain ⟨x, hx, n, hn, rfl⟩ := hhas j _ bold italic hj
    refine ⟨_, hx, fun c d => ?_⟩
    rw [List.findIdx?_eq_some_iff_getElem] at hn
    obtain ⟨hnl, hnk, -⟩ := hn
    have hnk : r.subsets[n].1 = (t, bold, italic) := by simpa using hnk
    have hget : r.subsets[n]? = some r.subsets[n] := List.getElem?_eq_getElem hnl
    obtain ⟨-, hp, -⟩ := hwf.sub n _ hget
    rw [hnk] at hp
    simp only [World.env, World.metrics, hget, FontFile.metrics, hp]
    refine ⟨trivial, fun h => by rw [h], fun k h => by rw [h]⟩

/-- A history with a font of each kind. -/
example : ∃ outs r, Res.empty.run [.font (.trueType ⟨['a'], ['b'], ['c'], ['d']⟩) true false, .font (.builtin courier) false true] = some (outs, r) := ⟨_, _, rfl⟩

end Pdfje
