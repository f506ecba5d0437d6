import Verif.Spec.Header
import Verif.Props.EndToEnd
/-
C80: what is written begins with a PDF header.
-/

namespace Pdfje

open PdfSpec

theorem header_ok (rest : Bytes) : FileHeader b!"1.7" (header ++ rest) :=
  ⟨[0x80, 0x80, 0x80, 0x80] ++ b!" generated by pdfje", rest, by simp [header], by decide +kernel, by decide +kernel⟩

/-- C80. Whatever the items of the document are, whether writing succeeds or fails, and however many chunks the target accepts, unless none: what was written begins
with the header of PDF 1.7. -/
theorem C80_header (compress : Bytes → Bytes) (files : Path → FontFile) {I : Type} (render : I → Nat → Res → Run) (id : Bytes) (items : List I) (j : Nat) :
    FileHeader b!"1.7" ((docWrite compress files render id items).1.take (j + 1)).flatten := by
  have key : ∃ l, (docWrite compress files render id items).1 = header :: l := by
    unfold docWrite
    split
    · exact ⟨_, rfl⟩
    · split
      · rename_i chunks h
        simp only [write] at h
        split at h
        · simp only [Option.some.injEq] at h
          rw [← h]
          exact ⟨_, rfl⟩
        · simp at h
      · exact ⟨_, rfl⟩
  obtain ⟨l, h⟩ := key
  rw [h, List.take_succ_cons, List.flatten_cons]
  exact header_ok _

/-- A document of three items, of which the first three chunks are written. -/
example : FileHeader b!"1.7" ((docWrite id (fun _ => plainFont) sampleRender b!"0123456789abcdef" [2, 0, 1]).1.take 3).flatten :=
  C80_header id _ sampleRender _ _ 2

end Pdfje
