import Verif.Proofs.File
import Verif.Proofs.Crash
import Verif.Proofs.NumRange
/-
PROPERTIES of the object and file writers (C01, C04, C06-C12), stated against the independent reader of
`Spec/PdfReader` and the denotation of `Spec/Denotes`.
`compress`/`decompress` stand for zlib. `objs.map (·.1) = writeOrder k` says that the objects come in
the order `write` asks for: ids 4, 5, ..., k+3 and then 1, 2, 3; that every document meets this is C02.
-/

namespace Pdfje
open PdfSpec

variable (compress : Bytes → Bytes) (decompress : Bytes → Option Bytes)

/-! ### Objects used to show that the hypotheses can be met -/

/-- A small but complete set of objects: a page with a stream, a font and the three header objects. -/
def sampleObjs : List Obj :=
  [(4, .dict [(b!"Type", .name b!"Page"), (b!"MediaBox", .array [.real 0, .real 0, .real 595, .real (841 + 1/2)]),
      (b!"Contents", .ref 5), (b!"Rotate", .int 90)]),
   (5, .stream b!"0 0 m endstream\n" []),
   (6, .stream [0, 255, 10] [(b!"Length1", .int 3)]),
   (1, .dict [(b!"Type", .name b!"Catalog"), (b!"Pages", .ref 2)]),
   (2, .dict [(b!"Kids", .array [.ref 4]), (b!"Count", .int 1)]),
   (3, .dict [(b!"Font", .dict [(b!"F0", .ref 6)])])]

theorem sampleObjs_order : sampleObjs.map (·.1) = writeOrder 3 := by decide

theorem sampleObjs_ok : ∀ o ∈ sampleObjs, ObjOk o.2 := by
  simp only [sampleObjs, List.forall_mem_cons, List.not_mem_nil, false_implies, implies_true, and_true,
    ObjOk, Atom.Ok, entriesOk, itemsOk, true_and]
  have g : ∀ v, (v.all isRegular && (decodeName v).isSome) = true → GoodName v := goodName_of
  have r0 : GoodReal 0 := Or.inl rfl
  have r1 : GoodReal 595 := Or.inr (by norm_num [abs])
  have r2 : GoodReal (841 + 1/2) := Or.inr (by norm_num [abs])
  refine ⟨⟨g _ (by decide +kernel), g _ (by decide +kernel), g _ (by decide +kernel), ⟨r0, r0, r1, r2⟩,
    g _ (by decide +kernel), g _ (by decide +kernel)⟩, ⟨g _ (by decide +kernel), by decide +kernel⟩, ?_⟩
  exact ⟨⟨g _ (by decide +kernel), g _ (by decide +kernel), g _ (by decide +kernel)⟩,
    ⟨g _ (by decide +kernel), g _ (by decide +kernel)⟩, g _ (by decide +kernel), g _ (by decide +kernel)⟩

/-! ### C01 -/

/-- C01: in a written file (shorter than 10^10 bytes, the limit of the 10-digit offset format) a reader
finds the xref table; for each object `n` the table's offset is where `n 0 obj` starts; `startxref` is the
position of the `xref` keyword; the table has one entry of 20 bytes for each of the objects 0..N, after which
`trailer` follows at once; and `/Size` is N+1. -/
theorem C01_xref (id : Bytes) (objs : List Obj) (k : Nat) (h : objs.map (·.1) = writeOrder k) :
    ∃ file, writeBytes compress id objs = some file ∧ (file.length < 10 ^ 10 →
      (∃ p, xrefPos file = some p ∧ startsWith b!"xref\n" (file.drop p) = true) ∧
      (∃ tbl, xrefTable file = some (0, objs.length + 1, tbl) ∧
        startsWith b!"trailer\n" (tbl.drop (20 * (objs.length + 1))) = true) ∧
      (∃ d, trailer file = some d ∧ ∃ q, d.get b!"Size" = some (.num q) ∧ q = objs.length + 1) ∧
      (∃ d, trailer file = some d ∧ d.get b!"Root" = some (.ref 1 0)) ∧
      ∀ o ∈ objs, ∃ off, xrefOffset file o.1 = some off ∧
        startsWith (decNat o.1 ++ b!" 0 obj\n") (file.drop off) = true) := by
  obtain ⟨offs, hlen, hfile, hle, hobj⟩ := writeBytes_fileOf compress id objs k h
  refine ⟨_, hfile, fun hsmall => ?_⟩
  set front := header ++ (objs.map (writeObj compress)).flatten with hfront
  have hfl : front.length ≤ (fileOf compress front id offs).length := by
    simp only [fileOf, List.length_append]; omega
  have hoffs : ∀ o ∈ offs, o < 10 ^ 10 := fun o ho => by
    have := hle o ho; omega
  refine ⟨⟨front.length, xrefPos_tail _ _, ?_⟩, ?_, ⟨_, fileOf_trailer compress front id offs hoffs, ?_⟩,
    ⟨_, fileOf_trailer compress front id offs hoffs, ?_⟩, ?_⟩
  · simp only [fileOf, List.append_assoc, List.drop_left]
    exact startsWith_append _ _
  · refine ⟨_, by rw [fileOf_xrefTable, hlen], ?_⟩
    have hl := lines_length offs hoffs
    rw [← List.append_assoc]
    have : 20 * (objs.length + 1) = (b!"0000000000 65535 f \n" ++ (offs.map xrefLine).flatten).length := by
      rw [List.length_append, hl, hlen]; simp; omega
    rw [this, List.drop_left, List.append_assoc]
    exact startsWith_append _ _
  · exact ⟨(offs.length : ℚ) + 1, rfl, by rw [hlen]⟩
  · rfl
  · intro o ho
    obtain ⟨h1, pre, post, hsplit, hoff⟩ := hobj o ho
    refine ⟨_, fileOf_xrefOffset compress front id offs hoffs o.1 _ h1 hoff, ?_⟩
    have e : fileOf compress front id offs = (header ++ pre) ++ (decNat o.1 ++ b!" 0 obj\n" ++
        (o.2.write compress ++ b!"\nendobj\n" ++ (post ++ (fileOf compress front id offs).drop front.length))) := by
      conv_lhs => rw [← List.take_append_drop front.length (fileOf compress front id offs)]
      have : (fileOf compress front id offs).take front.length = front := by
        simp only [fileOf, List.append_assoc, List.take_left]
      rw [this, hfront, hsplit]
      simp [writeObj]
    rw [e, ← List.length_append, List.drop_left]
    exact startsWith_append _ _

example : ∃ file, writeBytes id b!"0123456789abcdef" sampleObjs = some file :=
  ⟨_, (C01_xref id b!"0123456789abcdef" sampleObjs 3 sampleObjs_order).choose_spec.1⟩

/-- With fewer than three objects nothing is written as a complete file (the unpacking at atoms.py:223-229
raises); so the hypothesis of C01 excludes no file that could be written with other numbers of objects. -/
theorem C01_too_few (id : Bytes) (objs : List Obj) (h : objs.length < 3) : writeBytes compress id objs = none := by
  simp [writeBytes, write_none compress id objs h]

/-! ### C04 -/

/-- C04: a stream object is framed so that a reader which takes `/Length` bytes after `stream` gets exactly
the compressed bytes, whatever they are, followed by `endstream endobj`; and they decompress to the content. -/
theorem C04_stream_framing (hz : ∀ x, decompress (compress x) = some x) (n : Nat) (content : Bytes)
    (extra : List (Bytes × Atom)) (hok : ObjOk (.stream content extra)) (rest : Bytes) :
    ∃ d raw, readIndirect (writeObj compress (n, .stream content extra) ++ rest) =
        some (n, .stream d raw, b!"\n" ++ rest) ∧
      lengthOf d = some raw.length ∧ decompress raw = some content ∧
      ∃ before, writeObj compress (n, .stream content extra) =
        before ++ b!"stream\n" ++ raw ++ b!"\nendstream\nendobj\n" := by
  obtain ⟨ps, h1, h2⟩ := readIndirect_stream compress n content extra hok.1 hok.2 rest
  refine ⟨_, _, h2, lengthOf_stream ps _ (entriesDenote_keys _ _ h1 _ hok.2) _, hz content,
    decNat n ++ b!" 0 obj\n" ++
      (Atom.dict (extra ++ streamExtra (compress content).length)).write compress ++ b!"\n", ?_⟩
  simp only [writeObj, stream_write_eq]
  simp

example : ObjOk (.stream b!"endstream endobj" [(b!"Length1", .int 3)]) :=
  ⟨⟨goodName_of _ (by decide +kernel), trivial, trivial⟩, by decide +kernel⟩

/-! ### C06, C07 -/

/-- C06: a reader gets back every byte string written as a literal string, and stops right behind it. -/
theorem C06_literal_string (v rest : Bytes) (fuel : Nat) :
    readObj (fuel + 1) ((Atom.lit v).write compress ++ rest) = some (.str v, rest) := by
  have e0 : skipWs ((Atom.lit v).write compress ++ rest) = 0x28 :: (escape v ++ b!")" ++ rest) := by
    simp [Atom.write, skipWs, isWs]
  have h2 := readLit_escape v rest ((escape v ++ b!")" ++ rest).length + 1) (by
    have := escape_length v
    simp only [List.length_append]; omega)
  unfold readObj
  simp only [e0, h2]
  rfl

/-- C07: the same for hexadecimal strings. -/
theorem C07_hex_string (v rest : Bytes) (fuel : Nat) :
    readObj (fuel + 1) ((Atom.hex v).write compress ++ rest) = some (.str v, rest) := by
  have e0 : skipWs ((Atom.hex v).write compress ++ rest) = 0x3C :: (hexlify v ++ b!">" ++ rest) := by
    simp [Atom.write, skipWs, isWs]
  have h2 := readHex_hexlify v rest
  have h3 := hexlify_head v rest
  unfold readObj
  simp only [e0]
  generalize hexlify v ++ b!">" ++ rest = X at h2 h3
  have n1 : (0x3C : UInt8) ≠ 0x2F := by decide
  have n2 : (0x3C : UInt8) ≠ 0x28 := by decide
  have n3 : (0x3C : UInt8) ≠ 0x5B := by decide
  simp only [n1, n2, n3, if_false, if_true]
  split
  · rename_i s'; exact absurd rfl (h3 _ _ rfl)
  · simp [h2]

/-! ### C08 -/

/-- C08: every well-formed direct object, in any context in which it is written, is read back as the
object it denotes; the reader needs no more steps than there are bytes. -/
theorem C08_object (a : Atom) (h : a.Ok) (ws rest : Bytes) (hw : ∀ c ∈ ws, isWs c = true)
    (hr : rest = [] ∨ (∃ t, rest = b!"\nendobj\n" ++ t) ∨ (∃ t, rest = b!"]" ++ t) ∨ (∃ t, rest = b!"\n>>" ++ t)
      ∨ (∃ t, rest = b!"\nstream\n" ++ t) ∨ (∃ t, rest = b!"\nstartxref\n" ++ t)) :
    ∃ p, a.Denotes p ∧
      readObj ((a.write compress).length + 1) (ws ++ a.write compress ++ rest) = some (p, rest) := by
  have hs : SafeTail rest := by
    rcases hr with rfl | ⟨t, rfl⟩ | ⟨t, rfl⟩ | ⟨t, rfl⟩ | ⟨t, rfl⟩ | ⟨t, rfl⟩
    · exact ⟨by simp, rfl⟩
    · exact safe_newline 0x65 _ rfl rfl
    · exact ⟨by intro x hx; simp at hx; subst hx; rfl, by simp [readRefTail, isWs]⟩
    · exact safe_newline 0x3E _ rfl rfl
    · exact safe_newline 0x73 _ rfl rfl
    · exact safe_newline 0x73 _ rfl rfl
  exact readObj_write compress a h _ (by have := size_le compress a h; omega) ws rest hw hs

/-- C08 for whole files: every object of a written file is found through the xref table and is read back
as what it denotes (streams with their decompressed contents). -/
theorem C08_file (hz : ∀ x, decompress (compress x) = some x) (id : Bytes) (objs : List Obj) (k : Nat)
    (h : objs.map (·.1) = writeOrder k) (hok : ∀ o ∈ objs, ObjOk o.2) :
    ∃ file, writeBytes compress id objs = some file ∧ (file.length < 10 ^ 10 →
      ∀ o ∈ objs, ∃ p, lookup file o.1 = some p ∧ ObjDenotes decompress o.2 p) := by
  obtain ⟨offs, hlen, hfile, hle, hobj⟩ := writeBytes_fileOf compress id objs k h
  refine ⟨_, hfile, fun hsmall o ho => ?_⟩
  set front := header ++ (objs.map (writeObj compress)).flatten with hfront
  have hfl : front.length ≤ (fileOf compress front id offs).length := by
    simp only [fileOf, List.length_append]; omega
  have hoffs : ∀ o ∈ offs, o < 10 ^ 10 := fun o ho => by
    have := hle o ho; omega
  obtain ⟨h1, pre, post, hsplit, hoff⟩ := hobj o ho
  have e : fileOf compress front id offs = (header ++ pre) ++ (writeObj compress o ++
      (post ++ (fileOf compress front id offs).drop front.length)) := by
    conv_lhs => rw [← List.take_append_drop front.length (fileOf compress front id offs)]
    have : (fileOf compress front id offs).take front.length = front := by
      simp only [fileOf, List.append_assoc, List.take_left]
    rw [this, hfront, hsplit]
    simp
  obtain ⟨p, hp, hr⟩ := readIndirect_writeObj compress decompress hz o.1 o.2 (hok o ho)
    (post ++ (fileOf compress front id offs).drop front.length)
  refine ⟨p, ?_, hp⟩
  have hx := fileOf_xrefOffset compress front id offs hoffs o.1 _ h1 hoff
  have hd : (fileOf compress front id offs).drop (header.length + pre.length) =
      writeObj compress o ++ (post ++ (fileOf compress front id offs).drop front.length) := by
    conv_lhs => rw [e, ← List.length_append, List.drop_left]
  unfold lookup
  simp only [hx, Option.bind_eq_bind, Option.bind_some, hd]
  rw [show writeObj compress o = writeObj compress (o.1, o.2) from rfl, hr]
  simp

example : ∃ file, writeBytes id b!"id" sampleObjs = some file ∧ (file.length < 10 ^ 10 →
    ∀ o ∈ sampleObjs, ∃ p, lookup file o.1 = some p ∧ ObjDenotes some o.2 p) :=
  C08_file id some (fun _ => rfl) _ sampleObjs 3 sampleObjs_order sampleObjs_ok

/-- The denotation is not vacuous: a stream atom never denotes a direct object, and two different integers
never denote the same object. -/
theorem C08_denotes_int_inj (a b : Int) (p : PObj) (ha : (Atom.int a).Denotes p) (hb : (Atom.int b).Denotes p) :
    a = b := by
  cases ha
  generalize hq : ((a : ℚ)) = q at hb
  cases hb
  exact_mod_cast hq

/-! ### C09 -/

/-- The bytes `sanitize_name` keeps. -/
def C09_kept (s : Bytes) : Bytes := s.filter fun c => 32 ≤ c ∧ c ≤ 126

/-- C09 in full: for every byte string `s`, a reader at `/` + sanitised `s` + any end of token reads one
name, `s` without the dropped bytes. -/
def C09_Statement : Prop :=
  ∀ s rest : Bytes, (∀ x, rest.head? = some x → isRegular x = false) →
    readObj 1 (b!"/" ++ sanitizeName s ++ rest) = some (.name (C09_kept s), rest)

/-- C09 is false of the code: delimiters are kept as they are (`A(B` is read as the name `A`). -/
theorem C09_counterexample : ¬ C09_Statement := by
  intro h
  have := h b!"A(B" [] (by simp)
  revert this
  have e : readObj 1 (b!"/" ++ sanitizeName b!"A(B" ++ []) = some (.name b!"A", b!"(B") := by
    rfl
  rw [e]
  simp

/-- C09 for strings without PDF delimiters `()<>[]{}/%`. Missing: strings with delimiters, for which the
code violates C09. -/
theorem C09_sanitized_name_partial (s rest : Bytes) (hs : ∀ c ∈ s, isDelim c = false)
    (hr : ∀ x, rest.head? = some x → isRegular x = false) :
    readObj 1 (b!"/" ++ sanitizeName s ++ rest) = some (.name (C09_kept s), rest) := by
  have hreg : ∀ c ∈ sanitizeName s, isRegular c = true := by
    intro c hc
    simp only [sanitizeName, List.mem_flatMap] at hc
    obtain ⟨a, ha, hc⟩ := hc
    exact List.all_eq_true.1 (sanitizeNameChar_regular a (hs a ha)) c hc
  have hk : C09_kept s = s.filter keptByte := by
    unfold C09_kept; congr 1; funext c; revert c; apply forall_byte; decide +kernel
  have hd := decodeName_sanitize s
  unfold readObj
  have e0 : skipWs (b!"/" ++ sanitizeName s ++ rest) = 0x2F :: (sanitizeName s ++ rest) := by
    simp [skipWs, isWs]
  simp only [e0, if_true, takeWhile_run _ _ _ hreg hr, dropWhile_run _ _ _ hreg hr, hd, hk, Option.map_some]

example : ∀ c ∈ b!"DejaVu Sans #2", isDelim c = false := by decide

/-! ### C10 -/

/-- C10 in full: every real is written as a PDF number that differs by at most 5 parts in a million. -/
def C10_Statement : Prop :=
  ∀ q : ℚ, ∃ v, parseNumber (fmtG q) = some v ∧ |v - q| ≤ |q| * (5 / 1000000)

/-- The written form is a PDF number exactly for 0 and in the range where `%g` needs no exponent. -/
theorem C10_valid_iff (q : ℚ) : (∃ v, parseNumber (fmtG q) = some v) ↔ GoodReal q := by
  constructor
  · rintro ⟨v, hv⟩
    by_contra hbad
    simp only [GoodReal, not_or] at hbad
    obtain ⟨hq0, hbad⟩ := hbad
    have key : ∀ q : ℚ, 0 < q → ¬ (9999995 / 100000000000 ≤ q ∧ q < 999999 + 1 / 2) →
        parseUnsigned (fmtGPos q) = none := by
      intro q hq h
      have := (fixed_iff q hq).not.2 h
      exact parse_fmtGPos_exp q (not_not.1 this)
    unfold fmtG at hv
    rw [if_neg hq0] at hv
    split at hv
    · rename_i hpos
      rw [abs_of_pos hpos] at hbad
      rw [parseNumber_noSign] at hv
      · rw [key q hpos hbad] at hv; simp at hv
      · intro c hc
        apply isDigit_ne_sign
        unfold fmtGPos at hc
        simp only at hc
        have hs := sciDigits_spec q hpos
        split at hc
        · simp at hc; subst hc; exact isDigit_digit (by omega)
        · split at hc
          · apply decNat_head (n := (sciDigits q).2 / 10 ^ (5 - (sciDigits q).1).toNat)
            cases hdn : decNat ((sciDigits q).2 / 10 ^ (5 - (sciDigits q).1).toNat) with
            | nil => exact absurd hdn (decNat_ne_nil _)
            | cons d t => rw [hdn] at hc; simpa using hc
          · simp at hc; subst hc; rfl
    · rename_i hneg
      have hpos : 0 < -q := by
        rcases lt_trichotomy q 0 with h | h | h
        · linarith
        · exact absurd h hq0
        · exact absurd h hneg
      rw [abs_of_neg (by linarith)] at hbad
      have := key (-q) hpos hbad
      simp [parseNumber, this] at hv
  · intro h
    obtain ⟨_, _, v, hv, _⟩ := fmtG_token q h
    exact ⟨v, hv⟩

/-- C10 is false of the code: a million is written `1e+06`. -/
theorem C10_counterexample : ¬ C10_Statement := by
  intro h
  obtain ⟨v, hv, -⟩ := h 1000000
  have := (C10_valid_iff 1000000).1 ⟨v, hv⟩
  rcases this with h | h
  · norm_num at h
  · norm_num [abs] at h

/-- C10 in the range where it holds (see `C10_valid_iff`: it fails everywhere else). Missing: magnitudes from
999999.5 up, and non-zero ones below 0.00009999995. -/
theorem C10_number_partial (q : ℚ) (h : q = 0 ∨ (9999995 / 100000000000 ≤ |q| ∧ |q| < 999999 + 1 / 2)) :
    ∃ v, parseNumber (fmtG q) = some v ∧ |v - q| ≤ |q| * (5 / 1000000) := by
  obtain ⟨_, _, v, hv, he⟩ := fmtG_token q h
  exact ⟨v, hv, he⟩

example : (595 + 276 / 1000 : ℚ) = 0 ∨ (9999995 / 100000000000 ≤ |(595 + 276 / 1000 : ℚ)| ∧
    |(595 + 276 / 1000 : ℚ)| < 999999 + 1 / 2) := Or.inr (by norm_num [abs])

/-! ### C11 -/

/-- C11: if only the first `j` chunks were written, the target holds a prefix of the complete file, and unless
all were written it does not end with the end-of-file marker line. -/
theorem C11_interrupted (id : Bytes) (objs : List Obj) (chunks : List Bytes)
    (h : write compress id objs = some chunks) (j : Nat) :
    (∃ t, chunks.flatten = (chunks.take j).flatten ++ t) ∧
    ((∃ t, (chunks.take j).flatten = t ++ b!"%%EOF\n") ↔ chunks.length ≤ j) := by
  obtain ⟨init, last, rfl, h1, t, rfl⟩ := write_chunks compress id objs chunks h
  refine ⟨⟨((init ++ [t ++ b!"%%EOF\n"]).drop j).flatten, ?_⟩, ?_⟩
  · rw [← List.flatten_append, List.take_append_drop]
  · constructor
    · rintro ⟨s, hs⟩
      by_contra hj
      have hj' : j ≤ init.length := by
        simp only [List.length_append, List.length_cons, List.length_nil] at hj; omega
      rw [List.take_append_of_le_length hj'] at hs
      have := noF_flatten (init.take j) (fun c hc => h1 c (List.mem_of_mem_take hc))
      exact this.2 (s ++ b!"%%EO") (by rw [hs]; simp)
    · intro hj
      rw [List.take_of_length_le hj]
      exact ⟨init.flatten ++ t, by simp⟩

example : ∃ chunks, write id b!"id" sampleObjs = some chunks ∧ 10 ≤ chunks.length := by
  refine ⟨_, rfl, ?_⟩
  decide +kernel

/-! ### C12 -/

/-- C12: the file written with another id (`token_bytes(16)`) is the same except for the two copies of the id
in hexadecimal; in particular it has the same length when the ids have. -/
theorem C12_only_id (objs : List Obj) (id : Bytes) (file : Bytes) (h : writeBytes compress id objs = some file) :
    ∃ A C, file = A ++ b!"/ID [<" ++ hexlify id ++ b!"> <" ++ hexlify id ++ b!"> ]\n>>\nstartxref\n" ++ C ∧
      ∀ id' : Bytes, ∃ file', writeBytes compress id' objs = some file' ∧
        file' = A ++ b!"/ID [<" ++ hexlify id' ++ b!"> <" ++ hexlify id' ++ b!"> ]\n>>\nstartxref\n" ++ C ∧
        (id'.length = id.length → file'.length = file.length) := by
  obtain ⟨A, C, hA⟩ := writeBytes_id compress id objs file h
  have hf := hA id
  rw [h] at hf
  refine ⟨A, C, Option.some.inj hf, fun id' => ⟨_, hA id', rfl, fun hl => ?_⟩⟩
  have hh : ∀ v : Bytes, (hexlify v).length = 2 * v.length := by
    intro v
    induction v with
    | nil => rfl
    | cons x v ih =>
      simp only [hexlify, List.flatMap_cons, List.length_append, List.length_cons, List.length_nil] at ih ⊢
      omega
  rw [Option.some.inj hf]
  simp only [List.length_append, hh, hl]

example : ∃ file, writeBytes id b!"0123456789abcdef" sampleObjs = some file := ⟨_, rfl⟩

end Pdfje
