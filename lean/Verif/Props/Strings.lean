import Verif.Props.Flow
import Verif.Props.SetsText
/-
C64 and C22 for documents made from a string or a block, with a style.
-/

namespace Pdfje
open PdfSpec

/-- C22 for the style of a document: what it sets holds; otherwise text is in Helvetica, 12 points, neither bold nor italic, black, with line spacing 1.25 and the default hyphenation. -/
theorem C22_default (s : Style) : s.setdefault.font = s.font.getD (.builtin helvetica) ∧ s.setdefault.size = s.size.getD 12 ∧
    s.setdefault.bold = s.bold.getD false ∧ s.setdefault.italic = s.italic.getD false ∧ s.setdefault.color = s.color.getD ⟨0, 0, 0⟩ ∧
    s.setdefault.lineSpacing = s.lineSpacing.getD (5/4) ∧ s.setdefault.hyphens = s.hyphens.getD 1 := C22_full .default s

/-- `Style(size=20)` for a document. -/
example : ({ size := some 20 } : Style).setdefault = ⟨.builtin helvetica, 20, false, false, ⟨0, 0, 0⟩, 5/4, 1⟩ := by decide +kernel

section
variable {compress : Bytes → Bytes} {decompress : Bytes → Option Bytes}

/-- C64 for a document made from a block (`Document(block, style)`). -/
theorem C64_block (hz : ∀ x, decompress (compress x) = some x) (w : World) (hw : ∀ r, (w.env r).Ok) (s : StyleFull) (b : Block) (file : Bytes)
    (h : WrittenDoc compress w s (DocContent.block b).items' file) (hp : ∀ x ∈ docWritten w s (DocContent.block b).items', ∀ op ∈ x.ops, op.Printable)
    (hfl : b.Flowing s 698) :
    ∃ (parts : List (List Nat)) (read : List (List (List Nat))),
      (docWritten w s (DocContent.block b).items').length = parts.length ∧
      (∀ (j : Nat) (part : List Nat), parts[j]? = some part → pageText decompress file j = some part) ∧
      List.Forall₂ LinesRead read (b.lines s) ∧ parts.flatten = read.flatten.flatten := by
  obtain ⟨parts, read, h1, h2, h3, h4⟩ := C64_flow hz w hw s [] [] ⟨[b], fun _ => .default⟩ file h hp (by simp [Page.default]) 698 (by norm_num)
    (by intro n c hc; simp only [Page.default, List.mem_singleton] at hc; subst hc; norm_num) (by simp [Page.default])
    (by intro b' hb; rw [List.mem_singleton] at hb; subst hb; exact hfl)
  have e0 : (docWritten w s []).length = 0 := rfl
  rw [e0, Nat.zero_add] at h1
  refine ⟨parts, read, h1, fun j part hj => ?_, by simpa using h3, h4⟩
  have := h2 j part hj
  rw [e0, Nat.zero_add] at this
  simpa [Page.default] using this

/-- C64 for a document made from a string (`Document("...", style)`): a reader extracts exactly the lines of the string from its pages, in the typeface of the style. -/
theorem C64_text (hz : ∀ x, decompress (compress x) = some x) (w : World) (hw : ∀ r, (w.env r).Ok) (s : Style) (text : List Char) (hne : text ≠ []) (file : Bytes)
    (h : WrittenDoc compress w s.setdefault (DocContent.text text).items' file)
    (hp : ∀ x ∈ docWritten w s.setdefault (DocContent.text text).items', ∀ op ∈ x.ops, op.Printable)
    (hsize : 0 < s.size.getD 12) (hspacing : 0 < s.lineSpacing.getD (5/4)) (hlead : s.size.getD 12 * s.lineSpacing.getD (5/4) ≤ 698) :
    ∃ (parts : List (List Nat)) (read : List (List (List Nat))),
      (docWritten w s.setdefault (DocContent.text text).items').length = parts.length ∧
      (∀ (j : Nat) (part : List Nat), parts[j]? = some part → pageText decompress file j = some part) ∧
      List.Forall₂ LinesRead read (readLines [(text, s.font.getD (.builtin helvetica))]) ∧ parts.flatten = read.flatten.flatten := by
  obtain ⟨f1, f2, -, -, -, f3, -⟩ := C22_default s
  have hov : s.setdefault.overlay [Style.empty] = s.setdefault := (C22_or Style.empty Style.empty Style.empty s.setdefault).2.2.2.2.2.2
  have := C64_block hz w hw s.setdefault (.ofText text) file h hp (by
    refine ⟨by simp [Paragraph.plain, plain_strings], ?_, fun r => ?_⟩
    · intro e he
      simp only [Paragraph.plain, plain_strings, List.mem_singleton] at he
      subst he
      rw [hov, f2, f3]
      exact ⟨hne, hsize, hspacing, hlead⟩
    · simp only [Paragraph.plain, contentStrings, plain_strings, List.map_cons, List.map_nil]
      exact List.isChain_singleton _)
  have hl : (Block.ofText text).lines s.setdefault = readLines [(text, s.font.getD (.builtin helvetica))] := by
    simp only [Block.ofText, Block.lines, Paragraph.plain, plain_strings, List.map_cons, List.map_nil, hov, f1]
  rw [hl] at this
  exact this

end

/-! ### `Document("a b")` in the demo font -/

/-- The style of this document. -/
def textStyle : Style := { font := some (.trueType demoFace), hyphens := some 0 }

theorem textStyle_eq : textStyle.setdefault = faceStyle := by decide +kernel

/-- The column of the default page. -/
def wideColumn : Column := ⟨(72, 72), 595 - 72 - 72, 842 - 72 - 72⟩

/-- The column of the paragraph. -/
def textQueue : ColQueue := ColQueue.new (fun _ => (595 - 72 - 72, 842 - 72 - 72)) 15 false

/-- The boxes of the paragraph. -/
def textBoxes : List (Fragment × KBox) := (intoBoxes (demoWorld.env shortRes) shortWords false).getD []

/-- The lines of the paragraph. -/
def stringLines : List TLine := (breakLines ⟨1, 1000, 1000, 1000⟩ false textBoxes textQueue).getD []

/-- The one chunk of the paragraph. -/
def textChunks : List ShapedText := (groupLines textQueue stringLines).map fun ls => ⟨ls, 15, .left, ls.length * 15⟩

theorem textChunks_eq : optimumShape (demoWorld.env shortRes) (fun _ => (595 - 72 - 72, 842 - 72 - 72)) 15 true .left ⟨1, 1000, 1000, 1000⟩ shortWords false = some textChunks := by
  have e1 : intoBoxes (demoWorld.env shortRes) shortWords false = some textBoxes := eq_some_getD (by decide +kernel)
  have e2 : breakLines ⟨1, 1000, 1000, 1000⟩ false textBoxes textQueue = some stringLines := eq_some_getD (by decide +kernel)
  have e4 : orphaned textQueue (groupLines textQueue stringLines) = some false := by decide +kernel
  rw [optimumShape, if_neg (by norm_num)]
  simp only [show decide (Align.left = .justify) = false from rfl, e1]
  rw [if_neg (by decide +kernel), shapeFrom, if_neg (by decide +kernel),
    show ColQueue.new (fun _ => (595 - 72 - 72, 842 - 72 - 72)) 15 false = textQueue from rfl, e2]
  simp only
  rw [if_neg (by simp)]
  simp only [placeLines, if_true]
  rw [orphanLoop, e4]
  rfl

theorem text_columnsLeft : columnsLeft (fun _ => PageFill.new .default) = fun _ => .new wideColumn := by
  funext i
  have : ∀ n i, i < n → flatNth (fun _ => [ColumnFill.new wideColumn]) n i = some (.new wideColumn) := by
    intro n
    induction n with
    | zero => intro i h; omega
    | succ n ih =>
      intro i h
      rw [flatNth]
      split
      · rename_i h'
        have : i = 0 := by simpa using h'
        subst this; rfl
      · rename_i h'
        simp only [List.length_singleton] at h' ⊢
        exact ih (i - 1) (by omega)
  unfold columnsLeft
  rw [show (fun n => (fun _ : Nat => PageFill.new .default) n |>.todo) = fun _ => [ColumnFill.new wideColumn] from rfl, this _ _ (by omega)]
  rfl

theorem text_columns : (Block.ofText ['a', ' ', 'b']).intoColumns demoWorld Res.empty faceStyle (fun _ => .new wideColumn) =
    (some (textChunks.map fun c => (ColumnFill.new wideColumn).add (.text c)), shortRes) := by
  have h5 : maxLead [⟨.noop, ['a', ' ', 'b']⟩] faceState = 15 := by decide +kernel
  have hf : flattenSpan (Paragraph.plain [.str ['a', ' ', 'b']]).style (faceStyle.or (Paragraph.plain [.str ['a', ' ', 'b']]).style) [] (Paragraph.plain [.str ['a', ' ', 'b']]).content
      ((faceStyle.or (Paragraph.plain [.str ['a', ' ', 'b']]).style).asState Res.empty).2 =
      ([⟨.noop, ['a', ' ', 'b']⟩], [.full faceStyle faceStyle], shortRes) := by simp only [Paragraph.plain, flattenSpan, flattenItems]; rfl
  have hs : splitlines [⟨.noop, ['a', ' ', 'b']⟩] = [[⟨.noop, ['a', ' ', 'b']⟩]] := by rw [splitlines, splitFrom_none (by rfl)]; rfl
  have hlen : textChunks.length = 1 := by decide +kernel
  simp only [Block.ofText, Block.intoColumns, Paragraph.intoColumns]
  rw [hf]
  simp only [hs]
  rw [show ((faceStyle.or (Paragraph.plain [.str ['a', ' ', 'b']]).style).asState Res.empty).1 = faceState from rfl, h5, paragraphLoop]
  have h9 : fillParagraph (.plain [.str ['a', ' ', 'b']]) (demoWorld.env shortRes) [⟨.noop, ['a', ' ', 'b']⟩] (fun _ => .new wideColumn) faceState 15 =
      some (addChunks textChunks (fun _ => .new wideColumn), chunksState textChunks (Command.noop.apply faceState)) := by
    unfold fillParagraph
    rw [shortWords_eq]
    show (optimumShape (demoWorld.env shortRes) (fun _ => (595 - 72 - 72, 842 - 72 - 72)) 15 true .left ⟨1, 1000, 1000, 1000⟩ shortWords false).map _ = _
    rw [textChunks_eq]
    rfl
  rw [h9]
  obtain ⟨c1, h2⟩ := List.length_eq_one_iff.1 hlen
  rw [h2]
  rfl

/-- The document. -/
def textRun : PagesRun := writePages demoWorld faceStyle (textChunks.map fun c => ⟨.default, [(ColumnFill.new wideColumn).add (.text c)]⟩) shortRes

theorem text_run : docRun demoWorld faceStyle (DocContent.text ['a', ' ', 'b']).items' 0 Res.empty = textRun := by
  have hlen : textChunks.length = 1 := by decide +kernel
  obtain ⟨c1, h2⟩ := List.length_eq_one_iff.1 hlen
  have hf := text_columns
  rw [DocContent.items', docRun]
  have hrun : DocItem.run demoWorld faceStyle (.auto ⟨[.ofText ['a', ' ', 'b']], fun _ => .default⟩) (0 + 1) Res.empty = textRun := by
    show autoLoop demoWorld faceStyle [.ofText ['a', ' ', 'b']] (fun _ => PageFill.new .default) Res.empty = _
    rw [autoLoop, text_columnsLeft, hf]
    unfold textRun
    rw [h2]
    generalize shortRes = r
    have hfill : fillInto ([c1].map fun c => (ColumnFill.new wideColumn).add (.text c)) (fun _ => PageFill.new .default) =
        some (consStream ⟨.default, [(ColumnFill.new wideColumn).add (.text c1)], []⟩ (fun _ => PageFill.new .default), []) := rfl
    simp only [hfill]
    simp only [autoLoop, consStream, List.map_cons, List.map_nil, List.nil_append, writePages, PagesRun.andThen]
  rw [hrun]
  have herr : textRun.err = none := by decide +kernel
  simp only [PagesRun.andThen, herr, docRun, List.append_nil]
  rw [← herr]

/-- The file of this document. -/
def textFile : Bytes :=
  (docWrite id demoWorld.files (fun (_ : Unit) _ _ => (⟨textRun.pages.map Written.rendered, textRun.res, none⟩ : Run)) b!"0123456789abcdef" [()]).1.flatten

theorem text_written : WrittenDoc id demoWorld textStyle.setdefault (DocContent.text ['a', ' ', 'b']).items' textFile := by
  rw [textStyle_eq]
  refine ⟨?_, ?_, ?_, ?_, ?_, ?_⟩
  · trivial
  · intro it hit
    rw [DocContent.items', List.mem_singleton] at hit
    subst hit
    refine ⟨?_, fun n d hd => by cases hd⟩
    intro b hb
    rw [List.mem_singleton] at hb
    subst hb
    exact ⟨by simp [Item.Known.str, Paragraph.plain], by simp [Style.Known, Style.empty, Paragraph.plain]⟩
  · intro p
    exact ⟨(by decide +kernel : ∀ c ∈ b!"Demo", isDelim c = false), fun cs => Or.inl rfl⟩
  · rw [docWritten, text_run]
    decide +kernel
  · refine ⟨b!"0123456789abcdef", _, ?_, rfl⟩
    have hd : docPages (DocItem.render demoWorld faceStyle) (DocContent.text ['a', ' ', 'b']).items' 0 Res.empty =
        docPages (fun (_ : Unit) _ _ => (⟨textRun.pages.map Written.rendered, textRun.res, none⟩ : Run)) [()] 0 Res.empty := by
      have herr : textRun.err = none := by decide +kernel
      rw [docPages_docRun, text_run, herr]
      simp [docPages]
    have ho : docObjects id demoWorld.files (DocItem.render demoWorld faceStyle) (DocContent.text ['a', ' ', 'b']).items' =
        docObjects id demoWorld.files (fun (_ : Unit) _ _ => (⟨textRun.pages.map Written.rendered, textRun.res, none⟩ : Run)) [()] := by
      unfold docObjects
      rw [hd]
    unfold docWrite
    rw [ho]
    refine Prod.ext rfl ?_
    decide +kernel
  · decide +kernel

/-- The document meets the hypotheses of C64_text. -/
example : ∃ (parts : List (List Nat)) (read : List (List (List Nat))),
    (∀ (j : Nat) (part : List Nat), parts[j]? = some part → pageText some textFile j = some part) ∧
    List.Forall₂ LinesRead read [['a'.toNat, 0x20, 'b'.toNat]] ∧ parts.flatten = read.flatten.flatten := by
  obtain ⟨parts, read, -, h2, h3, h4⟩ := C64_text (compress := id) (decompress := some) (fun _ => rfl) demoWorld demoWorld_ok textStyle ['a', ' ', 'b'] (by simp) textFile text_written
    (by rw [textStyle_eq, docWritten, text_run]; decide +kernel) (by norm_num [textStyle]) (by norm_num [textStyle]) (by norm_num [textStyle])
  have : readLines [(['a', ' ', 'b'], textStyle.font.getD (.builtin helvetica))] = [['a'.toNat, 0x20, 'b'.toNat]] := by decide +kernel
  exact ⟨parts, read, h2, this ▸ h3, h4⟩

end Pdfje
