import Verif.Proofs.Objects
/-
Reading back indirect objects and whole files.
-/

namespace Pdfje
open PdfSpec

variable (compress : Bytes → Bytes)

theorem entriesOk_append (es fs : List (Bytes × Atom)) :
    entriesOk (es ++ fs) ↔ entriesOk es ∧ entriesOk fs := by
  induction es with
  | nil => simp [entriesOk]
  | cons e es ih => obtain ⟨k, a⟩ := e; simp [entriesOk, ih, and_assoc]

theorem writeEntries_append (es fs : List (Bytes × Atom)) :
    writeEntries compress (es ++ fs) = writeEntries compress es ++ writeEntries compress fs := by
  induction es with
  | nil => simp [writeEntries]
  | cons e es ih => obtain ⟨k, a⟩ := e; simp [writeEntries, ih]

theorem entriesDenote_append_inv (es fs : List (Bytes × Atom)) (ps : List (Bytes × PObj))
    (h : EntriesDenote (es ++ fs) ps) :
    ∃ p1 p2, ps = p1 ++ p2 ∧ EntriesDenote es p1 ∧ EntriesDenote fs p2 := by
  induction es generalizing ps with
  | nil => exact ⟨[], ps, rfl, .nil, h⟩
  | cons e es ih =>
    cases h with
    | cons hd ha hes =>
      obtain ⟨p1, p2, rfl, h1, h2⟩ := ih _ hes
      exact ⟨_ :: p1, p2, rfl, .cons hd ha h1, h2⟩

theorem entriesDenote_keys (es : List (Bytes × Atom)) (ps : List (Bytes × PObj))
    (h : EntriesDenote es ps) (k : Bytes) (hk : ∀ e ∈ es, decodeName e.1 ≠ some k) :
    ∀ p ∈ ps, p.1 ≠ k := by
  match h with
  | .nil => simp
  | .cons hd ha hes =>
    intro p hp
    rcases List.mem_cons.1 hp with rfl | hp
    · intro he; subst he; exact hk _ (List.mem_cons_self ..) hd
    · exact entriesDenote_keys _ _ hes k (fun e he => hk e (by simp [he])) p hp

/-- A checkable form of `GoodName`. -/
theorem goodName_of (v : Bytes) (h : (v.all isRegular && (decodeName v).isSome) = true) : GoodName v := by
  simp only [Bool.and_eq_true, List.all_eq_true, Option.isSome_iff_exists] at h
  exact h

/-- The two entries added to every stream dictionary. -/
def streamExtra (len : Nat) : List (Bytes × Atom) :=
  [(b!"Length", .int len), (b!"Filter", .name b!"FlateDecode")]

theorem streamExtra_ok (len : Nat) : entriesOk (streamExtra len) := by
  simp only [streamExtra, entriesOk, Atom.Ok, and_true, true_and]
  exact ⟨goodName_of _ (by decide +kernel), goodName_of _ (by decide +kernel), goodName_of _ (by decide +kernel)⟩

theorem streamExtra_denotes (len : Nat) (ps : List (Bytes × PObj)) (h : EntriesDenote (streamExtra len) ps) :
    ps = [(b!"Length", .num (len : ℚ)), (b!"Filter", .name b!"FlateDecode")] := by
  cases h with
  | cons hd ha hes =>
    cases ha
    cases hes with
    | cons hd2 ha2 hes2 =>
      cases hes2
      cases ha2 with
      | name h3 =>
        have e1 : decodeName b!"Length" = some b!"Length" := by decide +kernel
        have e2 : decodeName b!"Filter" = some b!"Filter" := by decide +kernel
        have e3 : decodeName b!"FlateDecode" = some b!"FlateDecode" := by decide +kernel
        rw [e1] at hd; rw [e2] at hd2; rw [e3] at h3
        cases hd; cases hd2; cases h3
        simp

theorem stream_write_eq (content : Bytes) (extra : List (Bytes × Atom)) :
    (Atom.stream content extra).write compress =
      (Atom.dict (extra ++ streamExtra (compress content).length)).write compress ++
        b!"\nstream\n" ++ compress content ++ b!"\nendstream" := by
  simp [Atom.write, writeEntries_append, streamExtra, writeEntries]

theorem lengthOf_stream (ps : List (Bytes × PObj)) (n : Nat) (h : ∀ p ∈ ps, p.1 ≠ b!"Length") (t) :
    lengthOf (.dict (ps ++ (b!"Length", .num (n : ℚ)) :: t)) = some n := by
  have : (ps ++ (b!"Length", PObj.num (n : ℚ)) :: t).find? (fun e => e.1 == b!"Length") =
      some (b!"Length", .num (n : ℚ)) := by
    rw [List.find?_append]
    have : ps.find? (fun e => e.1 == b!"Length") = none := by
      rw [List.find?_eq_none]; intro x hx; simpa using h x hx
    rw [this]; simp
  unfold lengthOf PObj.get
  simp only [this]
  simp

/-- The head of an indirect object. -/
theorem readHead (n : Nat) (X : Bytes) :
    readNat (decNat n ++ b!" 0 obj\n" ++ X) = some (n, b!" 0 obj\n" ++ X) ∧
    readNat (skipWs (b!" 0 obj\n" ++ X)) = some (0, b!" obj\n" ++ X) ∧
    skipWs (b!" obj\n" ++ X) = b!"obj\n" ++ X := by
  refine ⟨?_, ?_, ?_⟩
  · rw [List.append_assoc]
    exact readNat_decNat n _ (by intro x hx; simp at hx; subst hx; rfl)
  · have e1 : skipWs (b!" 0 obj\n" ++ X) = b!"0" ++ (b!" obj\n" ++ X) := by
      simp [skipWs, isWs]
    rw [e1]
    have := readNat_decNat 0 (b!" obj\n" ++ X) (by intro x hx; simp at hx; subst hx; rfl)
    have d0 : decNat 0 = b!"0" := by unfold decNat; rfl
    rwa [d0] at this
  · simp [skipWs, isWs]

theorem drop3_obj (X : Bytes) : (b!"obj\n" ++ X).drop 3 = b!"\n" ++ X := rfl

theorem readIndirect_direct (n : Nat) (a : Atom) (h : a.Ok) (rest : Bytes) :
    ∃ p, a.Denotes p ∧
      readIndirect (writeObj compress (n, a) ++ rest) = some (n, .direct p, b!"\n" ++ rest) := by
  have hsafe : SafeTail (b!"\nendobj\n" ++ rest) := by
    have := safe_newline 0x65 (b!"ndobj\n" ++ rest) rfl rfl
    simpa using this
  have hlen : a.size ≤ (writeObj compress (n, a) ++ rest).length + 1 := by
    have := size_le compress a h
    simp only [writeObj, List.length_append]; omega
  obtain ⟨p, hp, hr⟩ := readObj_write compress a h _ hlen b!"\n" _
    (by intro c hc; simp at hc; subst hc; rfl) hsafe
  refine ⟨p, hp, ?_⟩
  have hd := readHead n (a.write compress ++ (b!"\nendobj\n" ++ rest))
  have e : writeObj compress (n, a) ++ rest =
      decNat n ++ b!" 0 obj\n" ++ (a.write compress ++ (b!"\nendobj\n" ++ rest)) := by
    simp [writeObj]
  have e2 : skipWs (b!"\nendobj\n" ++ rest) = b!"endobj\n" ++ rest := by simp [skipWs, isWs]
  rw [List.append_assoc] at hr
  unfold readIndirect
  rw [e] at hr ⊢
  simp only [hd.1, hd.2.1, hd.2.2, Option.bind_eq_bind, Option.bind_some, drop3_obj, hr, e2]
  simp [startsWith]

theorem readIndirect_stream (n : Nat) (content : Bytes) (extra : List (Bytes × Atom))
    (h : entriesOk extra) (hL : ∀ e ∈ extra, decodeName e.1 ≠ some b!"Length") (rest : Bytes) :
    ∃ ps, EntriesDenote extra ps ∧
      readIndirect (writeObj compress (n, .stream content extra) ++ rest) =
        some (n, .stream (.dict (ps ++ [(b!"Length", .num ((compress content).length : ℚ)),
          (b!"Filter", .name b!"FlateDecode")])) (compress content), b!"\n" ++ rest) := by
  set c := compress content with hc
  set d := Atom.dict (extra ++ streamExtra c.length) with hd
  have hok : d.Ok := by
    simp only [hd, Atom.Ok, entriesOk_append]; exact ⟨h, streamExtra_ok _⟩
  have hsafe : SafeTail (b!"\nstream\n" ++ (c ++ (b!"\nendstream\nendobj\n" ++ rest))) := by
    have := safe_newline 0x73 (b!"tream\n" ++ (c ++ (b!"\nendstream\nendobj\n" ++ rest))) rfl rfl
    simpa using this
  have e : writeObj compress (n, .stream content extra) ++ rest =
      decNat n ++ b!" 0 obj\n" ++ (d.write compress ++
        (b!"\nstream\n" ++ (c ++ (b!"\nendstream\nendobj\n" ++ rest)))) := by
    simp only [writeObj, stream_write_eq]
    simp [hd, hc]
  have hlen : d.size ≤ (decNat n ++ b!" 0 obj\n" ++ (d.write compress ++
        (b!"\nstream\n" ++ (c ++ (b!"\nendstream\nendobj\n" ++ rest))))).length + 1 := by
    have := size_le compress d hok
    simp only [List.length_append]; omega
  obtain ⟨p, hp, hr⟩ := readObj_write compress d hok _ hlen b!"\n" _
    (by intro c hc; simp at hc; subst hc; rfl) hsafe
  rw [hd] at hp
  cases hp with
  | dict hes =>
    obtain ⟨p1, p2, rfl, h1, h2⟩ := entriesDenote_append_inv _ _ _ hes
    have := streamExtra_denotes _ _ h2
    subst this
    refine ⟨p1, h1, ?_⟩
    have hl := lengthOf_stream p1 c.length (entriesDenote_keys _ _ h1 _ hL)
      [(b!"Filter", .name b!"FlateDecode")]
    have hh := readHead n (d.write compress ++ (b!"\nstream\n" ++ (c ++ (b!"\nendstream\nendobj\n" ++ rest))))
    rw [List.append_assoc b!"\n"] at hr
    have e2 : skipWs (b!"\nstream\n" ++ (c ++ (b!"\nendstream\nendobj\n" ++ rest))) =
      b!"stream\n" ++ (c ++ (b!"\nendstream\nendobj\n" ++ rest)) := by simp [skipWs, isWs]
    have e3 : skipWs (b!"\nendstream\nendobj\n" ++ rest) = b!"endstream\nendobj\n" ++ rest := by
      simp [skipWs, isWs]
    have e4 : skipWs (b!"\nendobj\n" ++ rest) = b!"endobj\n" ++ rest := by
      simp [skipWs, isWs]
    have e5 : (b!"stream\n" ++ (c ++ (b!"\nendstream\nendobj\n" ++ rest))).drop 7 =
      c ++ (b!"\nendstream\nendobj\n" ++ rest) := rfl
    have e6 : (b!"endstream\nendobj\n" ++ rest).drop 9 = b!"\nendobj\n" ++ rest := rfl
    have e7 : (b!"endobj\n" ++ rest).drop 6 = b!"\n" ++ rest := rfl
    unfold readIndirect
    rw [e]
    simp only [hh.1, hh.2.1, hh.2.2, Option.bind_eq_bind, Option.bind_some, drop3_obj, hr, e2, hl, e5,
      List.take_left, List.drop_left, e3, e6, e4, e7]
    simp [startsWith]

theorem readIndirect_writeObj (decompress : Bytes → Option Bytes)
    (hz : ∀ x, decompress (compress x) = some x) (n : Nat) (a : Atom) (h : ObjOk a) (rest : Bytes) :
    ∃ p, ObjDenotes decompress a p ∧
      readIndirect (writeObj compress (n, a) ++ rest) = some (n, p, b!"\n" ++ rest) := by
  match a with
  | .stream content extra =>
    obtain ⟨ps, h1, h2⟩ := readIndirect_stream compress n content extra h.1 h.2 rest
    exact ⟨_, .stream h1 (hz content), h2⟩
  | .name _ | .int _ | .real _ | .lit _ | .hex _ | .array _ | .dict _ | .ref _ =>
    obtain ⟨p, h1, h2⟩ := readIndirect_direct compress n _ h rest
    exact ⟨_, .direct h1, h2⟩

/-! ### Chunks -/

mutual
theorem chunks_flatten (a : Atom) : (a.chunks compress).flatten = a.write compress := by
  match a with
  | .name _ | .int _ | .real _ | .lit _ | .hex _ | .ref _ => simp [Atom.chunks, Atom.write]
  | .array as => simp [Atom.chunks, Atom.write, itemChunks_flatten as]
  | .dict es => simp [Atom.chunks, Atom.write, entryChunks_flatten es]
  | .stream c es => simp [Atom.chunks, Atom.write, entryChunks_flatten es]
theorem itemChunks_flatten (as : List Atom) : (itemChunks compress as).flatten = writeItems compress as := by
  match as with
  | [] => rfl
  | a :: as => simp [itemChunks, writeItems, chunks_flatten a, itemChunks_flatten as]
theorem entryChunks_flatten (es : List (Bytes × Atom)) :
    (entryChunks compress es).flatten = writeEntries compress es := by
  match es with
  | [] => rfl
  | (k, a) :: es => simp [entryChunks, writeEntries, chunks_flatten a, entryChunks_flatten es]
end

/-! ### Offsets -/

theorem drop_len_add {α} (a b : List α) (n : Nat) : (a ++ b).drop (a.length + n) = b.drop n := by
  simp [List.drop_append]

/-- Start positions of consecutive chunks. -/
def starts : Nat → List Bytes → List Nat
  | _, [] => []
  | b, c :: cs => b :: starts (b + c.length) cs

theorem cons_accumulate (h : Nat) (chunks : List Bytes) :
    h :: accumulate h (chunks.map List.length) = starts h chunks ++ [h + chunks.flatten.length] := by
  induction chunks generalizing h with
  | nil => simp [accumulate, starts]
  | cons c cs ih =>
    simp only [List.map_cons, accumulate, starts, List.cons_append, List.flatten_cons, List.length_append]
    rw [ih, Nat.add_assoc]

theorem starts_append (b : Nat) (xs ys : List Bytes) :
    starts b (xs ++ ys) = starts b xs ++ starts (b + xs.flatten.length) ys := by
  induction xs generalizing b with
  | nil => simp [starts]
  | cons x xs ih => simp [starts, ih, Nat.add_assoc]

@[simp] theorem starts_length (b : Nat) (xs : List Bytes) : (starts b xs).length = xs.length := by
  induction xs generalizing b with
  | nil => rfl
  | cons x xs ih => simp [starts, ih]

theorem starts_getElem? (b : Nat) (xs : List Bytes) (i : Nat) (h : i < xs.length) :
    (starts b xs)[i]? = some (b + (xs.take i).flatten.length) := by
  induction xs generalizing b i with
  | nil => simp at h
  | cons x xs ih =>
    cases i with
    | zero => simp [starts]
    | succ i =>
      simp only [starts, List.getElem?_cons_succ, List.take_succ_cons, List.flatten_cons,
        List.length_append]
      rw [ih _ _ (by simpa using h), Nat.add_assoc]

/-- What `write` yields when the objects are `body` followed by catalog, page tree and resources. -/
theorem write_eq (id : Bytes) (body : List Obj) (o1 o2 o3 : Obj) :
    let chunks := (body ++ [o1, o2, o3]).map (writeObj compress)
    let st := starts header.length chunks
    write compress id (body ++ [o1, o2, o3]) =
      some (header :: chunks ++ writeTrailer compress id
        (st.drop body.length ++ st.take body.length) (header.length + chunks.flatten.length)) := by
  intro chunks st
  have hst : st = starts header.length (body.map (writeObj compress)) ++
      starts (header.length + (body.map (writeObj compress)).flatten.length)
        ([o1, o2, o3].map (writeObj compress)) := by
    simp only [st, chunks, List.map_append, starts_append]
  have h1 : chunkOffsets chunks = st ++ [header.length + chunks.flatten.length] := by
    have := cons_accumulate header.length chunks
    simp only [chunkOffsets, accumulate, Nat.zero_add]
    exact this
  unfold write
  change (match (chunkOffsets chunks).reverse with | _ => _) = _
  have htake : st.take body.length = starts header.length (body.map (writeObj compress)) := by
    rw [hst]; simp
  have hdrop : st.drop body.length = starts (header.length + (body.map (writeObj compress)).flatten.length)
        ([o1, o2, o3].map (writeObj compress)) := by
    rw [hst]; simp
  rw [h1, htake, hdrop, hst]
  simp only [List.map_cons, List.map_nil, starts, List.reverse_append, List.reverse_cons, List.reverse_nil,
    List.nil_append, List.cons_append, List.reverse_reverse]
  rfl

theorem write_none (id : Bytes) (objs : List Obj) (h : objs.length < 3) : write compress id objs = none := by
  match objs with
  | [] => rfl
  | [_] => rfl
  | [_, _] => rfl
  | _ :: _ :: _ :: _ => simp at h; omega

/-! ### Finding `startxref` -/

theorem afterLast_none (s : Bytes) (h : 0x73 ∉ s) : afterLastStartxref s = none := by
  induction s with
  | nil => rfl
  | cons c s ih =>
    simp only [List.mem_cons, not_or] at h
    simp [afterLastStartxref, ih h.2, startsWith, h.1]

theorem afterLast_append (p s r : Bytes) (h : afterLastStartxref s = some r) :
    afterLastStartxref (p ++ s) = some r := by
  induction p with
  | nil => exact h
  | cons c p ih => simp [afterLastStartxref, ih]

theorem digit_ne_s : ∀ c : UInt8, isDigit c = true → c ≠ 0x73 := by
  apply forall_byte; decide +kernel

theorem xrefPos_tail (p : Bytes) (n : Nat) :
    xrefPos (p ++ (b!"\nstartxref\n" ++ decNat n ++ b!"\n%%EOF\n")) = some n := by
  have h1 : afterLastStartxref (b!"startxref" ++ (b!"\n" ++ decNat n ++ b!"\n%%EOF\n")) =
      some (b!"\n" ++ decNat n ++ b!"\n%%EOF\n") := by
    have hn : afterLastStartxref (b!"tartxref" ++ (b!"\n" ++ decNat n ++ b!"\n%%EOF\n")) = none := by
      apply afterLast_none
      intro hm
      simp only [List.mem_append] at hm
      rcases hm with hm | (hm | hm) | hm
      · revert hm; decide
      · revert hm; decide
      · exact digit_ne_s _ (decNat_all n _ hm) rfl
      · revert hm; decide
    have hs := startsWith_append b!"startxref" (b!"\n" ++ decNat n ++ b!"\n%%EOF\n")
    simp only [List.cons_append, List.nil_append] at hn hs ⊢
    rw [afterLastStartxref, hn]
    simp only [hs, if_true]
    rfl
  have h2 := afterLast_append (p ++ b!"\n") _ _ h1
  have h3 : skipWs (b!"\n" ++ decNat n ++ b!"\n%%EOF\n") = decNat n ++ b!"\n%%EOF\n" := by
    obtain ⟨c, t, hct⟩ : ∃ c t, decNat n = c :: t := by
      cases h : decNat n with
      | nil => exact absurd h (decNat_ne_nil n)
      | cons c t => exact ⟨c, t, rfl⟩
    have hd : isDigit c = true := decNat_all n c (by rw [hct]; simp)
    have hw := (numChar_facts c (digit_numChar c hd)).2.1
    have := readObj_char 0 b!"\n" (t ++ b!"\n%%EOF\n") c (by intro c hc; simp at hc; subst hc; rfl) hw
    rw [hct]; simpa using this
  have h4 := readNat_decNat n b!"\n%%EOF\n" (by intro x hx; simp at hx; subst hx; rfl)
  unfold xrefPos
  have e : p ++ (b!"\nstartxref\n" ++ decNat n ++ b!"\n%%EOF\n") =
      p ++ b!"\n" ++ (b!"startxref" ++ (b!"\n" ++ decNat n ++ b!"\n%%EOF\n")) := by simp
  rw [e, h2]
  simp only [Option.bind_eq_bind, Option.bind_some, h3, h4]
  simp [startsWith]

/-! ### Shape of the whole file -/

/-- The bytes of the trailer dictionary. -/
def trailerDict (id : Bytes) (n : Nat) : Atom :=
  .dict [(b!"Root", .ref 1), (b!"Size", .int ((n : Int) + 1)), (b!"ID", .array [.hex id, .hex id])]

theorem xrefLine_length (off : Nat) (h : off < 10 ^ 10) : (xrefLine off).length = 20 := by
  simp only [xrefLine, List.length_append, decPad_length (by omega : 0 < 10) h]; rfl

theorem lines_length (offs : List Nat) (h : ∀ o ∈ offs, o < 10 ^ 10) :
    ((offs.map xrefLine).flatten).length = 20 * offs.length := by
  induction offs with
  | nil => rfl
  | cons o offs ih =>
    simp only [List.map_cons, List.flatten_cons, List.length_append, List.length_cons]
    rw [ih (fun x hx => h x (by simp [hx])), xrefLine_length o (h o (by simp))]; omega

theorem lines_drop (offs : List Nat) (h : ∀ o ∈ offs, o < 10 ^ 10) (i : Nat) (o : Nat)
    (hi : offs[i]? = some o) (t : Bytes) :
    (((offs.map xrefLine).flatten ++ t).drop (20 * i)).take 20 = xrefLine o := by
  induction offs generalizing i with
  | nil => simp at hi
  | cons a offs ih =>
    cases i with
    | zero =>
      simp at hi; subst hi
      simp only [List.map_cons, List.flatten_cons, Nat.mul_zero, List.drop_zero, List.append_assoc]
      rw [List.take_append_of_le_length (by rw [xrefLine_length _ (h _ (by simp))]),
        List.take_of_length_le (by rw [xrefLine_length _ (h _ (by simp))])]
    | succ i =>
      have hl := xrefLine_length a (h a (by simp))
      simp only [List.map_cons, List.flatten_cons, List.append_assoc]
      rw [show 20 * (i + 1) = (xrefLine a).length + 20 * i by rw [hl]; omega, drop_len_add]
      exact ih (fun x hx => h x (by simp [hx])) i (by simpa using hi)

/-- A file with its parts named: `front` is everything before the xref table. -/
def fileOf (front : Bytes) (id : Bytes) (offs : List Nat) : Bytes :=
  front ++ (b!"xref\n" ++ decNat 0 ++ b!" " ++ decNat (offs.length + 1) ++ b!"\n0000000000 65535 f \n") ++
    (offs.map xrefLine).flatten ++ b!"trailer\n" ++ (trailerDict id offs.length).write compress ++
    (b!"\nstartxref\n" ++ decNat front.length ++ b!"\n%%EOF\n")

theorem fileOf_xrefTable (front id : Bytes) (offs : List Nat) :
    xrefTable (fileOf compress front id offs) =
      some (0, offs.length + 1, b!"0000000000 65535 f \n" ++ ((offs.map xrefLine).flatten ++ (b!"trailer\n" ++
        (trailerDict id offs.length).write compress ++
        (b!"\nstartxref\n" ++ decNat front.length ++ b!"\n%%EOF\n")))) := by
  set T := (offs.map xrefLine).flatten ++ (b!"trailer\n" ++
        (trailerDict id offs.length).write compress ++
        (b!"\nstartxref\n" ++ decNat front.length ++ b!"\n%%EOF\n")) with hT
  have hp : xrefPos (fileOf compress front id offs) = some front.length := xrefPos_tail _ _
  have hd : (fileOf compress front id offs).drop front.length =
      b!"xref\n" ++ (decNat 0 ++ (b!" " ++ (decNat (offs.length + 1) ++ (b!"\n0000000000 65535 f \n" ++ T)))) := by
    have : fileOf compress front id offs = front ++
       (b!"xref\n" ++ (decNat 0 ++ (b!" " ++ (decNat (offs.length + 1) ++ (b!"\n0000000000 65535 f \n" ++ T))))) := by
      simp [fileOf, hT]
    rw [this, List.drop_left]
  have h1 := readNat_decNat 0 (b!" " ++ (decNat (offs.length + 1) ++ (b!"\n0000000000 65535 f \n" ++ T)))
    (by intro x hx; simp at hx; subst hx; rfl)
  have h2 : skipWs (b!" " ++ (decNat (offs.length + 1) ++ (b!"\n0000000000 65535 f \n" ++ T))) =
      decNat (offs.length + 1) ++ (b!"\n0000000000 65535 f \n" ++ T) := by
    obtain ⟨c, t, hct⟩ : ∃ c t, decNat (offs.length + 1) = c :: t := by
      cases h : decNat (offs.length + 1) with
      | nil => exact absurd h (decNat_ne_nil _)
      | cons c t => exact ⟨c, t, rfl⟩
    have hd : isDigit c = true := decNat_all _ c (by rw [hct]; simp)
    have hw := (numChar_facts c (digit_numChar c hd)).2.1
    have := readObj_char 0 b!" " (t ++ (b!"\n0000000000 65535 f \n" ++ T)) c
      (by intro c hc; simp at hc; subst hc; rfl) hw
    rw [hct]; simpa using this
  have h3 := readNat_decNat (offs.length + 1) (b!"\n0000000000 65535 f \n" ++ T)
    (by intro x hx; simp at hx; subst hx; rfl)
  unfold xrefTable
  simp only [hp, Option.bind_eq_bind, Option.bind_some, hd, startsWith_append, Bool.not_true,
    Bool.false_eq_true, if_false]
  have e5 : (b!"xref\n" ++ (decNat 0 ++ (b!" " ++ (decNat (offs.length + 1) ++ (b!"\n0000000000 65535 f \n" ++ T))))).drop 5
    = decNat 0 ++ (b!" " ++ (decNat (offs.length + 1) ++ (b!"\n0000000000 65535 f \n" ++ T))) := rfl
  simp only [e5, h1, Option.bind_some, h2, h3]
  simp

theorem fileOf_xrefOffset (front id : Bytes) (offs : List Nat) (h : ∀ o ∈ offs, o < 10 ^ 10) (n o : Nat)
    (hn : 1 ≤ n) (ho : offs[n - 1]? = some o) :
    xrefOffset (fileOf compress front id offs) n = some o := by
  obtain ⟨m, rfl⟩ : ∃ m, n = m + 1 := ⟨n - 1, by omega⟩
  simp only [Nat.add_sub_cancel] at ho
  have hlt : m < offs.length := by
    rw [List.getElem?_eq_some_iff] at ho; exact ho.1
  have hom : o ∈ offs := List.mem_of_getElem? ho
  unfold xrefOffset
  rw [fileOf_xrefTable]
  simp only [Option.bind_eq_bind, Option.bind_some, Nat.sub_zero]
  rw [if_pos (by omega)]
  have hl := lines_drop offs h m o ho (b!"trailer\n" ++
        (trailerDict id offs.length).write compress ++
        (b!"\nstartxref\n" ++ decNat front.length ++ b!"\n%%EOF\n"))
  rw [show 20 * (m + 1) = (b!"0000000000 65535 f \n").length + 20 * m by
    rw [show (b!"0000000000 65535 f \n").length = 20 from rfl]; omega, drop_len_add, hl]
  have hl20 := xrefLine_length o (h o hom)
  have hp10 := decPad_length (by omega : 0 < 10) (h o hom)
  have t10 : (xrefLine o).take 10 = decPad 10 o := by
    unfold xrefLine
    rw [List.take_append_of_le_length (by omega), List.take_of_length_le (by omega)]
  have d10 : (xrefLine o).drop 10 = b!" 00000 n \n" := by
    unfold xrefLine
    rw [List.drop_append_of_le_length (by omega), List.drop_of_length_le (by omega), List.nil_append]
  rw [hl20, t10, d10]
  have : (decPad 10 o).all isDigit = true := List.all_eq_true.2 (decPad_all 10 o)
  simp [this, digitsVal_decPad]

theorem trailerDict_ok (id : Bytes) (n : Nat) : (trailerDict id n).Ok := by
  simp only [trailerDict, Atom.Ok, entriesOk, itemsOk, and_true, true_and]
  exact ⟨goodName_of _ (by decide +kernel), goodName_of _ (by decide +kernel), goodName_of _ (by decide +kernel)⟩

/-- What a reader sees as the trailer dictionary. -/
def trailerObj (id : Bytes) (n : Nat) : PObj :=
  .dict [(b!"Root", .ref 1 0), (b!"Size", .num ((n : ℚ) + 1)), (b!"ID", .arr [.str id, .str id])]

theorem trailerDict_denotes (id : Bytes) (n : Nat) (p : PObj) (h : (trailerDict id n).Denotes p) :
    p = trailerObj id n := by
  have e1 : decodeName b!"Root" = some b!"Root" := by decide +kernel
  have e2 : decodeName b!"Size" = some b!"Size" := by decide +kernel
  have e3 : decodeName b!"ID" = some b!"ID" := by decide +kernel
  cases h with
  | dict h =>
    cases h with
    | cons k1 v1 h => cases h with
    | cons k2 v2 h => cases h with
    | cons k3 v3 h =>
      cases h
      rw [e1] at k1; rw [e2] at k2; rw [e3] at k3
      cases k1; cases k2; cases k3
      cases v1; cases v2
      cases v3 with
      | array h => cases h with
      | cons a h => cases h with
      | cons b h => cases h; cases a; cases b; simp [trailerObj]

theorem fileOf_trailer (front id : Bytes) (offs : List Nat) (h : ∀ o ∈ offs, o < 10 ^ 10) :
    trailer (fileOf compress front id offs) = some (trailerObj id offs.length) := by
  set D := (trailerDict id offs.length).write compress with hD
  set E := b!"\nstartxref\n" ++ decNat front.length ++ b!"\n%%EOF\n" with hE
  have hl := lines_length offs h
  unfold trailer
  rw [fileOf_xrefTable]
  simp only [Option.bind_eq_bind, Option.bind_some]
  have e1 : (b!"0000000000 65535 f \n" ++ ((offs.map xrefLine).flatten ++ (b!"trailer\n" ++ D ++ E))).drop
      (20 * (offs.length + 1)) = b!"trailer\n" ++ D ++ E := by
    rw [← List.append_assoc]
    have : 20 * (offs.length + 1) = (b!"0000000000 65535 f \n" ++ (offs.map xrefLine).flatten).length := by
      rw [List.length_append, hl]; simp; omega
    rw [this, List.drop_left]
  have e2 : skipWs (b!"trailer\n" ++ D ++ E) = b!"trailer" ++ (b!"\n" ++ D ++ E) := by
    simp [skipWs, isWs]
  have hsafe : SafeTail E := by
    have := safe_newline 0x73 (b!"tartxref\n" ++ decNat front.length ++ b!"\n%%EOF\n") rfl rfl
    simpa [hE] using this
  obtain ⟨p, hp, hr⟩ := readObj_write compress _ (trailerDict_ok id offs.length)
    ((b!"trailer" ++ (b!"\n" ++ D ++ E)).length + 1) (by
      have := size_le compress _ (trailerDict_ok id offs.length)
      rw [← hD] at this
      simp only [List.length_append]; omega) b!"\n" E
    (by intro c hc; simp at hc; subst hc; rfl) hsafe
  rw [trailerDict_denotes _ _ _ hp] at hr
  have e3 : (b!"trailer" ++ (b!"\n" ++ D ++ E)).drop 7 = b!"\n" ++ D ++ E := rfl
  rw [e1, e2]
  simp only [startsWith_append, if_true, e3]
  rw [← hD] at hr
  rw [hr]
  simp

/-! ### `write` produces such a file -/

/-- The order in which `write` expects the object ids (atoms.py:213-215). -/
def writeOrder (k : Nat) : List Nat := (List.range' 4 k) ++ [1, 2, 3]

theorem split_last3 (objs : List Obj) (k : Nat) (h : objs.map (·.1) = writeOrder k) :
    ∃ body o1 o2 o3, objs = body ++ [o1, o2, o3] ∧ body.length = k ∧ o1.1 = 1 ∧ o2.1 = 2 ∧ o3.1 = 3 ∧
      body.map (·.1) = List.range' 4 k := by
  unfold writeOrder at h
  rw [List.map_eq_append_iff] at h
  obtain ⟨body, tl, rfl, hb, ht⟩ := h
  match tl, ht with
  | [], ht => simp at ht
  | [_], ht => simp at ht
  | [_, _], ht => simp at ht
  | _ :: _ :: _ :: _ :: _, ht => simp at ht
  | [o1, o2, o3], ht =>
    simp at ht
    refine ⟨body, o1, o2, o3, rfl, ?_, ht.1, ht.2.1, ht.2.2, hb⟩
    simpa using congrArg List.length hb

theorem writeBytes_fileOf (id : Bytes) (objs : List Obj) (k : Nat) (h : objs.map (·.1) = writeOrder k) :
    ∃ offs : List Nat, offs.length = objs.length ∧
      writeBytes compress id objs =
        some (fileOf compress (header ++ (objs.map (writeObj compress)).flatten) id offs) ∧
      (∀ o ∈ offs, o ≤ (header ++ (objs.map (writeObj compress)).flatten).length) ∧
      ∀ o ∈ objs, 1 ≤ o.1 ∧ ∃ pre post, (objs.map (writeObj compress)).flatten = pre ++ writeObj compress o ++ post ∧
        offs[o.1 - 1]? = some (header.length + pre.length) := by
  obtain ⟨body, o1, o2, o3, rfl, hlen, h1, h2, h3, hb⟩ := split_last3 objs k h
  set objs := body ++ [o1, o2, o3] with hobjs
  set chunks := objs.map (writeObj compress) with hchunks
  set st := starts header.length chunks with hst
  have hstl : st.length = k + 3 := by simp [hst, hchunks, hobjs, hlen]
  have hw := write_eq compress id body o1 o2 o3
  simp only at hw
  refine ⟨st.drop body.length ++ st.take body.length, ?_, ?_, ?_, ?_⟩
  · simp only [List.length_append, List.length_drop, List.length_take, hstl, hobjs, List.length_cons,
      List.length_nil]; omega
  · unfold writeBytes
    rw [hw]
    rw [← hobjs, ← hchunks, ← hst]
    simp only [Option.map_some, writeTrailer, fileOf, trailerDict, List.length_append]
    simp only [chunks_flatten, List.flatten_append, List.flatten_cons, List.flatten_nil, List.append_assoc, List.append_nil,
      List.cons_append, List.nil_append, Nat.cast_add]
  · intro o ho
    have ho' : o ∈ st := by
      rcases List.mem_append.1 ho with ho | ho
      · exact List.mem_of_mem_drop ho
      · exact List.mem_of_mem_take ho
    obtain ⟨i, hi, rfl⟩ := List.mem_iff_getElem.1 ho'
    have := starts_getElem? header.length chunks i (by simpa [hst] using hi)
    rw [← hst, List.getElem?_eq_getElem hi] at this
    rw [Option.some.inj this, List.length_append]
    have : (chunks.take i).flatten.length ≤ chunks.flatten.length := by
      conv_rhs => rw [← List.take_append_drop i chunks, List.flatten_append, List.length_append]
      omega
    omega
  · intro o ho
    obtain ⟨i, hi, rfl⟩ := List.mem_iff_getElem.1 ho
    have hic : i < chunks.length := by simpa [hchunks] using hi
    have hik : i < k + 3 := by simpa [hobjs, hlen] using hi
    have hfst : objs[i].1 = (writeOrder k)[i]'(by simp [writeOrder]; omega) := by
      have : (objs.map (·.1))[i]'(by simpa using hi) = objs[i].1 := by simp
      rw [← this]; simp only [h]
    have hsi : st[i]? = some (header.length + (chunks.take i).flatten.length) :=
      starts_getElem? _ _ _ hic
    have hsplit : chunks.flatten = (chunks.take i).flatten ++ writeObj compress objs[i] ++
        (chunks.drop (i + 1)).flatten := by
      conv_lhs => rw [← List.take_append_drop i chunks, List.drop_eq_getElem_cons hic]
      simp [hchunks]
    have key : (st.drop body.length ++ st.take body.length)[objs[i].1 - 1]? =
        some (header.length + (chunks.take i).flatten.length) ∧ 1 ≤ objs[i].1 := by
      by_cases hb : i < k
      · have : objs[i].1 = 4 + i := by
          rw [hfst]; simp [writeOrder, hb, List.getElem_append_left]
        rw [this, List.getElem?_append_right (by simp only [List.length_drop, hstl, hlen]; omega)]
        simp only [List.length_drop, hstl, hlen]
        rw [show 4 + i - 1 - (k + 3 - k) = i by omega, List.getElem?_take_of_lt hb, hsi]
        exact ⟨rfl, by omega⟩
      · obtain ⟨j, hj⟩ : ∃ j, i = k + j := ⟨i - k, by omega⟩
        have hj3 : j < 3 := by omega
        have : objs[i].1 = j + 1 := by
          rw [hfst]
          have : (writeOrder k)[i]'(by simp [writeOrder]; omega) = [1, 2, 3][j] := by
            simp only [writeOrder]
            rw [List.getElem_append_right (by simp; omega)]
            simp [hj]
          rw [this]
          match j, hj3 with
          | 0, _ => rfl
          | 1, _ => rfl
          | 2, _ => rfl
        rw [this, List.getElem?_append_left (by simp [hstl, hlen]; omega), List.getElem?_drop]
        rw [show body.length + (j + 1 - 1) = i by omega, hsi]
        exact ⟨rfl, by omega⟩
    exact ⟨key.2, _, _, hsplit, key.1⟩

end Pdfje
