import Verif.Proofs.File
/-
Which chunks of a file can end like the end-of-file marker, and how the file depends on its id.
-/

namespace Pdfje
open PdfSpec

variable (compress : Bytes → Bytes)

/-- Ends neither with `F` nor with `F\n`. -/
def NoF (c : Bytes) : Prop := (∀ t, c ≠ t ++ b!"F") ∧ ∀ t, c ≠ t ++ b!"F\n"

theorem eq_nil_or_snoc {α} (l : List α) : l = [] ∨ ∃ t x, l = t ++ [x] := by
  rcases List.eq_nil_or_concat l with h | ⟨t, x, h⟩
  · exact Or.inl h
  · exact Or.inr ⟨t, x, by rw [h, List.concat_eq_append]⟩

theorem noF_flatten (cs : List Bytes) (h : ∀ c ∈ cs, NoF c) : NoF cs.flatten := by
  induction cs using List.reverseRecOn with
  | nil => exact ⟨by simp, by simp⟩
  | append_singleton cs c ih =>
    have ih := ih (fun x hx => h x (by simp [hx]))
    have hc := h c (by simp)
    simp only [List.flatten_append, List.flatten_cons, List.flatten_nil, List.append_nil]
    rcases eq_nil_or_snoc c with rfl | ⟨c', x, rfl⟩
    · simpa using ih
    · refine ⟨?_, ?_⟩
      · intro t ht
        rw [← List.append_assoc] at ht
        have := List.append_inj_right' ht (by simp)
        simp at this; subst this
        exact hc.1 c' rfl
      · intro t ht
        rw [show t ++ b!"F\n" = (t ++ b!"F") ++ b!"\n" by simp, ← List.append_assoc] at ht
        have h1 := List.append_inj_right' ht (by simp)
        have h2 := List.append_inj_left' ht (by simp)
        simp at h1; subst h1
        rcases eq_nil_or_snoc c' with rfl | ⟨c'', y, rfl⟩
        · rw [List.append_nil] at h2; exact ih.1 t h2
        · rw [← List.append_assoc] at h2
          have := List.append_inj_right' h2 (by simp)
          simp at this; subst this
          exact hc.2 c'' (by simp)

theorem noF_of_last (c : Bytes) (a b : UInt8) (t : Bytes) (hc : c = t ++ [a, b]) (hb : b ≠ 0x46)
    (h : b = 0x0A → a ≠ 0x46) : NoF c := by
  subst hc
  refine ⟨?_, ?_⟩
  · intro t' ht
    rw [show t ++ [a, b] = (t ++ [a]) ++ [b] by simp] at ht
    have := List.append_inj_right' ht (by simp)
    simp at this; exact hb this
  · intro t' ht
    have := List.append_inj_right' ht (by simp)
    simp at this; exact h this.2 this.1

/-- Checkable form of `NoF` for literal chunks. -/
theorem noF_of (c : Bytes) (h : (c.reverse.head? != some 0x46 && c.reverse.take 2 != b!"\nF") = true) : NoF c := by
  simp only [Bool.and_eq_true, bne_iff_ne] at h
  refine ⟨?_, ?_⟩
  · rintro t rfl; simp at h
  · rintro t rfl; simp at h

theorem noF_append (t c : Bytes) (h1 : 2 ≤ c.length) (h : NoF c) : NoF (t ++ c) := by
  refine ⟨?_, ?_⟩
  · intro s hs
    rcases List.append_eq_append_iff.1 hs with ⟨a, ha, hb⟩ | ⟨a, ha, hb⟩
    · exact h.1 _ hb
    · have := congrArg List.length hb; simp at this; omega
  · intro s hs
    rcases List.append_eq_append_iff.1 hs with ⟨a, ha, hb⟩ | ⟨a, ha, hb⟩
    · exact h.2 _ hb
    · cases a with
      | nil => simp at hb; exact h.2 [] (by simp [← hb])
      | cons x a => have := congrArg List.length hb; simp at this; omega

theorem noF_digits (c : Bytes) (h : ∀ x ∈ c, isDigit x = true) : NoF c := by
  refine ⟨?_, ?_⟩
  · rintro t rfl; exact absurd (h 0x46 (by simp)) (by decide)
  · rintro t rfl; exact absurd (h 0x46 (by simp)) (by decide)

theorem hexlify_noUpper (v : Bytes) : ∀ c ∈ hexlify v, c ≠ 0x46 := by
  intro c hc
  simp only [hexlify, List.mem_flatMap] at hc
  obtain ⟨b, -, hc⟩ := hc
  have : ∀ d : Fin 16, hexDigitL d ≠ 0x46 := by decide
  have hb := b.toNat_lt
  simp at hc
  rcases hc with rfl | rfl
  · exact this ⟨b.toNat / 16, by omega⟩
  · exact this ⟨b.toNat % 16, by omega⟩

theorem noF_obj (o : Obj) : NoF (writeObj compress o) := by
  unfold writeObj
  exact noF_append _ _ (by simp) (noF_of _ (by decide))

theorem noF_header : NoF header := noF_of _ (by decide)

theorem trailer_dict_chunks (id : Bytes) (n : Nat) : ∀ c ∈ (trailerDict id n).chunks compress, NoF c := by
  have hnum : NoF (decInt ((n : Int) + 1)) := by
    rw [show ((n : Int) + 1) = Int.ofNat (n + 1) by simp]
    exact noF_digits _ (decNat_all _)
  have hhex : NoF (hexlify id) := by
    refine ⟨?_, ?_⟩
    · intro t ht; exact hexlify_noUpper id 0x46 (by rw [ht]; simp) rfl
    · intro t ht; exact hexlify_noUpper id 0x46 (by rw [ht]; simp) rfl
  have href : NoF (decNat 1 ++ b!" 0 R") := noF_append _ _ (by simp) (noF_of _ (by decide))
  simp only [trailerDict, Atom.chunks, itemChunks, entryChunks, List.append_nil, List.cons_append, List.nil_append,
    List.forall_mem_cons, List.not_mem_nil, false_implies, implies_true, and_true]
  refine ⟨noF_of _ (by decide), noF_of _ (by decide), noF_of _ (by decide), noF_of _ (by decide), href,
    noF_of _ (by decide), noF_of _ (by decide), noF_of _ (by decide), noF_of _ (by decide), hnum,
    noF_of _ (by decide), noF_of _ (by decide), noF_of _ (by decide), noF_of _ (by decide), ?_⟩
  exact ⟨noF_of _ (by decide), noF_of _ (by decide), hhex, noF_of _ (by decide), noF_of _ (by decide),
    noF_of _ (by decide), hhex, noF_of _ (by decide), noF_of _ (by decide), noF_of _ (by decide),
    noF_of _ (by decide), noF_of _ (by decide)⟩

theorem noF_xrefLine (o : Nat) : NoF (xrefLine o) := noF_append _ _ (by simp) (noF_of _ (by decide))

/-- Every file is `init` chunks none of which ends like the marker, and one last chunk that does. -/
theorem write_chunks (id : Bytes) (objs : List Obj) (chunks : List Bytes)
    (h : write compress id objs = some chunks) :
    ∃ init last, chunks = init ++ [last] ∧ (∀ c ∈ init, NoF c) ∧ ∃ t, last = t ++ b!"%%EOF\n" := by
  unfold write at h
  simp only at h
  split at h
  · rename_i xref res pt cat rest heq
    simp only [Option.some.injEq] at h
    subst h
    refine ⟨header :: objs.map (writeObj compress) ++ ([b!"xref\n" ++ decNat 0 ++ b!" " ++
      decNat (([cat, pt, res] ++ rest.reverse).length + 1) ++ b!"\n0000000000 65535 f \n"] ++
      ([cat, pt, res] ++ rest.reverse).map xrefLine ++ [b!"trailer\n"] ++
      (trailerDict id ([cat, pt, res] ++ rest.reverse).length).chunks compress),
      b!"\nstartxref\n" ++ decNat xref ++ b!"\n%%EOF\n", ?_, ?_, b!"\nstartxref\n" ++ decNat xref ++ b!"\n", ?_⟩
    · simp only [writeTrailer, trailerDict, List.append_assoc, List.cons_append, List.nil_append]
    · intro c hc
      simp only [List.cons_append, List.mem_cons, List.mem_append, List.mem_map, List.append_assoc,
        List.nil_append] at hc
      rcases hc with rfl | ⟨o, _, rfl⟩ | rfl | hc
      · exact noF_header
      · exact noF_obj compress o
      · rw [← List.cons_append]
        refine noF_of_last _ 0x20 0x0A (b!"xref\n" ++ decNat 0 ++ b!" " ++
          decNat (([cat, pt, res] ++ rest.reverse).length + 1) ++ b!"\n0000000000 65535 f") ?_ (by decide) (by decide)
        simp
      · rcases hc with ⟨o, _, rfl⟩ | hc
        · exact noF_xrefLine o
        · rcases hc with rfl | hc
          · exact noF_of _ (by decide)
          · exact trailer_dict_chunks compress id _ c (by simpa using hc)
    · simp
  · simp at h

/-- The file as a function of the id. -/
theorem writeBytes_id (id : Bytes) (objs : List Obj) (file : Bytes) (h : writeBytes compress id objs = some file) :
    ∃ A C, (∀ id', writeBytes compress id' objs =
      some (A ++ b!"/ID [<" ++ hexlify id' ++ b!"> <" ++ hexlify id' ++ b!"> ]\n>>\nstartxref\n" ++ C)) := by
  unfold writeBytes write at h ⊢
  simp only at h ⊢
  split at h
  · rename_i xref res pt cat rest heq
    refine ⟨(header :: objs.map (writeObj compress)).flatten ++ (b!"xref\n" ++ decNat 0 ++ b!" " ++
      decNat (([cat, pt, res] ++ rest.reverse).length + 1) ++ b!"\n0000000000 65535 f \n") ++
      (([cat, pt, res] ++ rest.reverse).map xrefLine).flatten ++ b!"trailer\n<<\n/Root " ++ (decNat 1 ++ b!" 0 R") ++
      b!"\n/Size " ++ decInt ((([cat, pt, res] ++ rest.reverse).length : Int) + 1) ++ b!"\n",
      decNat xref ++ b!"\n%%EOF\n", fun id' => ?_⟩
    simp only [Option.map_some, Option.some.injEq, writeTrailer, List.flatten_append, List.flatten_cons,
      List.flatten_nil, chunks_flatten, Atom.write, writeItems, writeEntries, List.append_assoc, List.cons_append,
      List.nil_append, List.append_nil]
  · simp at h

end Pdfje
