import Verif.Proofs.DocRead
import Verif.Props.Text
import Verif.Props.Pages
/-
C61, C62, C63: the content of the pages of a written document, as it is read back from the bytes of the file.
-/

namespace Pdfje
open PdfSpec

section
variable (compress : Bytes → Bytes) (decompress : Bytes → Option Bytes)

/-- The pages of a document with the operators that they are made of. -/
def docWritten (w : World) (s : StyleFull) (items : List DocItem) : List Written := (docRun w s items 0 Res.empty).pages

/-- The fonts of a document after all its pages have been made. -/
def docFonts (w : World) (s : StyleFull) (items : List DocItem) : Res := (docRun w s items 0 Res.empty).res

/-- The pages that are written are these: same order, size, rotation and content. -/
theorem docWritten_pages (w : World) (s : StyleFull) (items : List DocItem) :
    renderedPages (DocItem.render w s) items = (docWritten w s items).map Written.rendered := by
  unfold renderedPages docWritten
  rw [docPages_docRun]

/-- A document that is written completely (to fewer than 10^10 bytes), with typefaces that pdfje has or that are files, page sizes that
can be printed, and fonts whose names have no PDF delimiters. -/
structure WrittenDoc (w : World) (s : StyleFull) (items : List DocItem) (file : Bytes) : Prop where
  style : s.Known
  known : ∀ it ∈ items, it.Known
  fonts : FontsOk w.files
  sizes : ∀ x ∈ docWritten w s items, GoodReal x.page.base.size.1 ∧ GoodReal x.page.base.size.2
  done : ∃ id chunks, docWrite compress w.files (DocItem.render w s) id items = (chunks, true) ∧ chunks.flatten = file
  small : file.length < 10 ^ 10

variable {compress decompress}

theorem WrittenDoc.read (hz : ∀ x, decompress (compress x) = some x) {w : World} {s : StyleFull} {items : List DocItem} {file : Bytes}
    (h : WrittenDoc compress w s items file) :
    ∃ objs, DocObjs compress w.files ((docWritten w s items).map Written.rendered) (docFonts w s items) objs ∧ FileHolds decompress file objs := by
  obtain ⟨id, chunks, hd, rfl⟩ := h.done
  obtain ⟨l, hl⟩ := attach_known items h.known
  have hsize := h.sizes
  have hsmall := h.small
  have hk := h.known
  obtain ⟨objs, h1, h2⟩ := docWrite_holds (decompress := decompress) (files := w.files) hz (fun i : {it : DocItem // it.Known} => DocItem.render w s i.1) (renderOk w s h.style) id l h.fonts (by
      intro p hp
      unfold renderedPages at hp
      rw [docPages_map (DocItem.render w s), hl, docPages_docRun] at hp
      obtain ⟨x, hx, rfl⟩ := List.mem_map.mp hp
      exact hsize x hx) chunks (by rw [docWrite_map compress w.files (DocItem.render w s), hl]; exact hd) hsmall
  rw [docPages_map (DocItem.render w s), hl, docPages_docRun] at h1
  exact ⟨objs, h1, h2⟩

theorem WrittenDoc.ops (hz : ∀ x, decompress (compress x) = some x) {w : World} {s : StyleFull} {items : List DocItem} {file : Bytes}
    (h : WrittenDoc compress w s items file) : ∀ x ∈ docWritten w s items, OpsOk (docFonts w s items) x.ops x.bytes :=
  docRun_ok h.style h.known Res.wf_empty (Res.Le.refl _)

/-- C61. Take the k-th page of a document that is written: a reader of the file's bytes finds a page object there, and its decompressed content,
read by the syntax of content streams (all of it, nothing left over), consists of exactly the operators of the page in their order, with operands that differ by
at most 5 parts in a million, provided that their numbers are printed without exponents. (See C10 for other numbers.) -/
theorem C61_operators (hz : ∀ x, decompress (compress x) = some x) (w : World) (s : StyleFull) (items : List DocItem) (file : Bytes)
    (h : WrittenDoc compress w s items file) (k : Nat) (x : Written) (hk : (docWritten w s items)[k]? = some x) (hp : ∀ op ∈ x.ops, op.Printable) :
    ∃ page content cs, pageObject file k = some page ∧ pageContent decompress file page = some content ∧ readContent content = some cs ∧
      OpsStand (docFonts w s items) x.ops cs := by
  obtain ⟨objs, h1, h2⟩ := h.read hz
  obtain ⟨page, h3, h4⟩ := h1.page h2 (k := k) (p := x.rendered) (by simp [hk])
  obtain ⟨cs, h5, h6⟩ := (h.ops hz x (List.mem_of_getElem? hk)).2 h1.small hp
  exact ⟨page, x.bytes, cs, h3, h4.content, h6.content, h5⟩

/-- C62. Every font that the operators of a page refer to (in which they show text, or for which text was encoded) was registered under a name, and a reader
of the file's bytes finds it in the resources of the page object under that name: a standard font by its PostScript name, an embedded one with the font program
made of the font file of that variant, for all the characters that were encoded. -/
theorem C62_fonts (hz : ∀ x, decompress (compress x) = some x) (w : World) (s : StyleFull) (items : List DocItem) (file : Bytes)
    (h : WrittenDoc compress w s items file) (k : Nat) (x : Written) (hk : (docWritten w s items)[k]? = some x) :
    ∃ page, pageObject file k = some page ∧ ∀ op ∈ x.ops, op.Fonts fun f =>
      ∃ name font, (docFonts w s items).fontId f = some name ∧ pageFont file page name = some font ∧ font.get b!"Type" = some (.name b!"Font") ∧
        (∀ g, f = .builtin g → font.get b!"BaseFont" = some (.name g.name)) ∧
        ∀ i e, f = .subset i → (docFonts w s items).subsets[i]? = some e →
          fontProgram decompress file font = some ((w.files (e.1.1.font e.1.2.1 e.1.2.2)).saved e.2.cids) := by
  obtain ⟨objs, h1, h2⟩ := h.read hz
  obtain ⟨page, h3, h4⟩ := h1.page h2 (k := k) (p := x.rendered) (by simp [hk])
  refine ⟨page, h3, fun op hop => ((h.ops hz x (List.mem_of_getElem? hk)).1 op hop).mono fun f hf => ?_⟩
  obtain ⟨name, font, j1, j2, j3⟩ := h1.font h2 h4 hf
  exact ⟨name, font, j1, j2, j3.type, j3.standard, j3.program⟩

/-- C63. The text that a reader of the file's bytes extracts from the k-th page consists of exactly the characters that the page shows, in the order in which they are
drawn (characters that a standard font does not have are question marks), if every glyph is drawn in the font for which it was encoded. -/
theorem C63_extract (hz : ∀ x, decompress (compress x) = some x) (w : World) (s : StyleFull) (items : List DocItem) (file : Bytes)
    (h : WrittenDoc compress w s items file) (k : Nat) (x : Written) (hk : (docWritten w s items)[k]? = some x) (hp : ∀ op ∈ x.ops, op.Printable)
    (W : FontRef → Char → ℚ) (hg : ∀ g ∈ pageGlyphs W x.ops, g.InFont) :
    pageText decompress file k = some ((pageGlyphs W x.ops).map fun g => readAs g.enc g.char) := by
  obtain ⟨objs, h1, h2⟩ := h.read hz
  obtain ⟨page, h3, h4⟩ := h1.page h2 (k := k) (p := x.rendered) (by simp [hk])
  obtain ⟨h7, h8⟩ := h.ops hz x (List.mem_of_getElem? hk)
  obtain ⟨cs, ⟨css, h5, rfl⟩, h6⟩ := h8 h1.small hp
  have hc : pageContent decompress file page = some x.bytes := h4.content
  simp only [pageText, h3, Option.bind_some, hc, h6.content]
  refine page_text (files := w.files) (R := docFonts w s items) ?_ h5 h7 ?_ hg
  · intro f hf n hn
    obtain ⟨name, font, j1, j2, j3⟩ := h1.font h2 h4 hf
    rw [hn] at j1
    cases j1
    exact ⟨font, j2, j3⟩
  · intro f z hv
    cases hv

/-! ### Text drawings -/

/-- The text of a drawing without its newlines: all strings in order, each read in the typeface of its style (its innermost style overrides the ones around it). -/
def Drawing.chars (base : StyleFull) : Drawing → List Nat
  | .text _ content style _ => (itemsStrings [style] content).flatMap fun e => (textLines e.1).flatten.map (base.overlay e.2).font.readAs
  | _ => []

/-- A text drawing without empty strings in which no empty line has a change of style (see C47 for other text). -/
def Drawing.Steady (base : StyleFull) : Drawing → Prop
  | .text _ content style _ => (∀ e ∈ itemsStrings [style] content, e.1 ≠ []) ∧
      ∀ r, KeepsOnEmptyLines (base.asState r).1 (contentStrings base style content r)
  | _ => True

theorem joinLines_flatten {α} : ∀ a b : List (List α), (joinLines a b).flatten = a.flatten ++ b.flatten
  | [], b => by simp [joinLines]
  | [l], [] => by simp [joinLines]
  | [l], l' :: b => by simp [joinLines]
  | l :: l2 :: ls, b => by
    rw [joinLines_cons _ _ _ (by simp), List.flatten_cons, joinLines_flatten]; simp

theorem contentLines_flatten (strings : List (List Char × State)) :
    (contentLines strings).flatten = strings.flatMap fun e => (textLines e.1).flatten.map fun c => (c, e.2) := by
  have key : ∀ l : List (List Char × State), (stringsLines l).flatten = l.flatMap fun e => (textLines e.1).flatten.map fun c => (c, e.2) := by
    intro l
    induction l with
    | nil => rfl
    | cons e l ih => obtain ⟨t, st⟩ := e; rw [stringsLines, joinLines_flatten, ih, List.flatMap_cons, List.map_flatten]
  unfold contentLines
  split
  · rename_i h; subst h; rfl
  · exact key _

theorem asState_readAs (s : StyleFull) (r : Res) (c : Char) : readAs (s.asState r).1.font c = s.font.readAs c := by
  unfold StyleFull.asState
  cases s.font with
  | builtin b => simp only [Res.font]; split <;> rfl
  | trueType t => simp only [Res.font]; split <;> rfl

/-- Widths and positions do not matter for what is shown in which font. -/
theorem showText_same {W W' : FontRef → Char → ℚ} (f : FontRef) : ∀ (s : List Char) (v v' : Viewer), v.font = v'.font →
    (Viewer.showText W f s v).1.map (fun g => (g.char, g.enc, g.font)) = (Viewer.showText W' f s v').1.map fun g => (g.char, g.enc, g.font)
  | [], _, _, _ => rfl
  | c :: s, v, v', h => by
    rw [Viewer.showText, Viewer.showText]
    simp only [List.map_cons, Viewer.glyph, List.cons.injEq]
    exact ⟨by rw [h], showText_same f s _ _ h⟩

theorem show_same {W W' : FontRef → Char → ℚ} : ∀ (is : List ShowItem) (v v' : Viewer), v.font = v'.font →
    (Viewer.show W is v).1.map (fun g => (g.char, g.enc, g.font)) = (Viewer.show W' is v').1.map fun g => (g.char, g.enc, g.font)
  | [], _, _, _ => rfl
  | .adj a :: is, v, v', h => by rw [Viewer.show, Viewer.show]; exact show_same is _ _ h
  | .txt f s :: is, v, v', h => by
    rw [Viewer.show, Viewer.show]
    simp only [List.map_append]
    rw [showText_same f s v v' h, show_same is _ (Viewer.showText W' f s v').2 (by rw [(showText_glyphs f s v).2.2, (showText_glyphs f s v').2.2, h])]

theorem step_font {W W' : FontRef → Char → ℚ} (op : TextOp) (v v' : Viewer) (h : v.font = v'.font) : (v.step W op).2.font = (v'.step W' op).2.font := by
  cases op with
  | tj is => exact (show_font is v).trans (h.trans (show_font is v').symm)
  | tf => rfl
  | _ => exact h

theorem run_same {W W' : FontRef → Char → ℚ} : ∀ (ops : List TextOp) (v v' : Viewer), v.font = v'.font →
    (Viewer.run W ops v).1.map (fun g => (g.char, g.enc, g.font)) = (Viewer.run W' ops v').1.map fun g => (g.char, g.enc, g.font)
  | [], _, _, _ => rfl
  | op :: ops, v, v', h => by
    rw [Viewer.run, Viewer.run]
    simp only [List.map_append]
    rw [run_same ops _ _ (step_font op v v' h)]
    congr 1
    cases op with
    | tj is => exact show_same is v v' h
    | _ => rfl

theorem looks_flatten : ∀ {ss : List ShownLine} {lines : List (List (Char × State))}, ss.length = lines.length →
    (∀ (k : Nat) (s : ShownLine) (l : List (Char × State)), ss[k]? = some s → lines[k]? = some l → s.glyphs.map Glyph.look = l.map (lookOf s.y)) →
    (ss.flatMap ShownLine.glyphs).map (fun g => (g.char, g.enc, g.font)) = lines.flatten.map fun e => (e.1, e.2.font, some (e.2.font, e.2.size))
  | [], [], _, _ => rfl
  | s :: ss, l :: lines, h, hl => by
    rw [List.flatMap_cons, List.map_append, List.flatten_cons, List.map_append,
      looks_flatten (by simpa using h) fun k a b ha hb => hl (k + 1) a b (by simpa using ha) (by simpa using hb)]
    congr 1
    have := congrArg (List.map fun x : Char × FontRef × Option (FontRef × ℚ) × RGB × ℚ => (x.1, x.2.1, x.2.2.1)) (hl 0 s l rfl rfl)
    simpa [List.map_map, Function.comp_def, Glyph.look, lookOf] using this

/-- What the glyphs of a text drawing are. -/
theorem text_glyphs {w : World} (hw : ∀ r, (w.env r).Ok) {base : StyleFull} {d : Drawing} (hd : d.Steady base) {r r' : Res} {ops : List PageOp}
    (h : d.render w base r = (some ops, r')) (W : FontRef → Char → ℚ) (v : Viewer) :
    glyphsRead (Viewer.page W ops v).1 = d.chars base ∧ ∀ g ∈ (Viewer.page W ops v).1, g.InFont := by
  have none : ∀ (l : List PageOp) (v : Viewer), (∀ op ∈ l, ∀ t, op ≠ .text t) → (Viewer.page W l v).1 = [] := by
    intro l
    induction l with
    | nil => intro v _; rfl
    | cons op l ih =>
      intro v hl
      have := fun v => ih v fun x hx => hl x (by simp [hx])
      cases op with
      | text t => exact absurd rfl (hl _ (by simp) t)
      | _ => rw [Viewer.page] <;> simp [this]
  have quiet : (∀ op ∈ ops, ∀ t, op ≠ .text t) → d.chars base = [] → glyphsRead (Viewer.page W ops v).1 = d.chars base ∧ ∀ g ∈ (Viewer.page W ops v).1, g.InFont := by
    intro h1 h2
    rw [none _ _ h1, h2]
    exact ⟨rfl, by simp⟩
  have hfin : ∀ (f s : Option RGB) (c : Bool), ∀ op ∈ finish f s c, ∀ t, op ≠ PageOp.text t := by
    intro f s c op hop t he
    subst he
    unfold finish at hop
    revert hop
    cases f <;> cases s <;> cases c <;> simp
  cases d with
  | text loc content style align =>
    obtain ⟨hne, hq⟩ := hd
    obtain ⟨t, r1, h1, h2⟩ := C47_text_partial w hw base loc content style align r hne hq
    rw [h, Prod.mk.injEq, Option.some.injEq] at h1
    obtain ⟨rfl, rfl⟩ := h1
    obtain ⟨b1, b2, ss, lead, h3, h4, h5, h6⟩ := h2 v
    have hg := congrArg (List.flatMap ShownLine.glyphs) h3
    rw [Viewer.textLines, lines_glyphs, List.nil_append, List.flatMap_cons, List.flatMap_cons, h4, h5, List.nil_append, List.nil_append] at hg
    have hl := looks_flatten h6.count h6.looks
    have hs := run_same (W := W) (W' := (w.env r').widths) t v.beginText v.beginText rfl
    rw [hg, hl, contentLines_flatten] at hs
    simp only [Viewer.page, List.append_nil]
    constructor
    · have := congrArg (List.map fun x : Char × FontRef × Option (FontRef × ℚ) => readAs x.2.1 x.1) hs
      simp only [List.map_map, Function.comp_def, contentStrings, List.flatMap_map, List.map_flatMap, asState_readAs] at this
      exact this
    · intro g hm
      have : (g.char, g.enc, g.font) ∈ ((Viewer.run W t v.beginText).1.map fun g => (g.char, g.enc, g.font)) := List.mem_map_of_mem hm
      rw [hs] at this
      obtain ⟨e, -, he⟩ := List.mem_map.mp this
      simp only [Prod.mk.injEq] at he
      rw [Glyph.InFont, ← he.2.2, ← he.2.1]
      rfl
  | line a b stroke =>
    simp only [Drawing.render, Prod.mk.injEq, Option.some.injEq] at h
    refine quiet ?_ rfl
    rw [← h.1]
    simpa using hfin Option.none stroke false
  | rect o width height fill stroke =>
    simp only [Drawing.render, Prod.mk.injEq, Option.some.injEq] at h
    refine quiet ?_ rfl
    rw [← h.1]
    simpa using hfin fill stroke false
  | ellipse c width height fill stroke =>
    simp only [Drawing.render, Prod.mk.injEq, Option.some.injEq] at h
    refine quiet ?_ rfl
    rw [← h.1]
    simpa [ellipseOps] using hfin fill stroke false
  | circle c radius fill stroke =>
    simp only [Drawing.render, Prod.mk.injEq, Option.some.injEq] at h
    refine quiet ?_ rfl
    rw [← h.1]
    simpa [ellipseOps] using hfin fill stroke false
  | polyline points close fill stroke =>
    simp only [Drawing.render, Prod.mk.injEq] at h
    refine quiet ?_ rfl
    have h1 := h.1
    unfold polylineOps at h1
    split at h1
    · cases h1; simp
    · cases h1
    · simp only [Option.some.injEq] at h1
      rw [← h1]
      intro op hop t
      simp only [List.cons_append, List.mem_cons, List.mem_append, List.mem_map] at hop
      rcases hop with rfl | ⟨q, -, rfl⟩ | hop
      · simp
      · simp
      · exact hfin fill stroke close op hop t

theorem page_append (W : FontRef → Char → ℚ) : ∀ (a b : List PageOp) (v : Viewer),
    (Viewer.page W (a ++ b) v).1 = (Viewer.page W a v).1 ++ (Viewer.page W b (Viewer.page W a v).2).1
  | [], b, v => rfl
  | op :: a, b, v => by
    cases op with
    | text t => simp only [List.cons_append, Viewer.page, page_append W a b, List.append_assoc]
    | _ => simp only [List.cons_append, Viewer.page, page_append W a b]

theorem drawings_glyphs {w : World} (hw : ∀ r, (w.env r).Ok) {base : StyleFull} (W : FontRef → Char → ℚ) : ∀ {ds : List Drawing} {parts : List (List PageOp)},
    List.Forall₂ (fun d ops => ∃ r r', d.render w base r = (some ops, r')) ds parts → (∀ d ∈ ds, d.Steady base) → ∀ v : Viewer,
    glyphsRead (Viewer.page W parts.flatten v).1 = ds.flatMap (Drawing.chars base) ∧ ∀ g ∈ (Viewer.page W parts.flatten v).1, g.InFont
  | [], _, .nil, _, v => by simp [Viewer.page, glyphsRead]
  | d :: ds, part :: parts, .cons ⟨r, r', h⟩ hr, hd, v => by
    obtain ⟨h1, h2⟩ := text_glyphs hw (hd d (by simp)) h W v
    obtain ⟨h3, h4⟩ := drawings_glyphs hw W hr (fun x hx => hd x (by simp [hx])) (Viewer.page W part v).2
    rw [List.flatten_cons, page_append]
    refine ⟨?_, ?_⟩
    · rw [glyphsRead, List.map_append, List.flatMap_cons]
      rw [glyphsRead] at h1 h3
      rw [h1, h3]
    · intro g hg
      rcases List.mem_append.mp hg with hg | hg
      · exact h2 g hg
      · exact h4 g hg

theorem docRun_ordered (w : World) (s : StyleFull) : ∀ (items : List DocItem) (done : Nat) (r : Res), ∀ x ∈ (docRun w s items done r).pages, x.Ordered w s
  | [], _, _ => by simp [docRun]
  | it :: its, done, r => by
    intro x hx
    rw [docRun, PagesRun.andThen] at hx
    cases he : (it.run w s (done + 1) r).err with
    | some e =>
      simp only [he] at hx
      exact C60_order w s it _ r x hx
    | none =>
      simp only [he] at hx
      rcases List.mem_append.mp hx with hx | hx
      · exact C60_order w s it _ r x hx
      · exact docRun_ordered w s its _ _ x hx

/-- C63 for explicit pages: the text that is extracted from the k-th page of the file is the text of its drawings, string by string, without the newlines. -/
theorem C63_drawings (hz : ∀ x, decompress (compress x) = some x) (w : World) (hw : ∀ r, (w.env r).Ok) (s : StyleFull) (items : List DocItem) (file : Bytes)
    (h : WrittenDoc compress w s items file) (k : Nat) (x : Written) (hk : (docWritten w s items)[k]? = some x) (hp : ∀ op ∈ x.ops, op.Printable)
    (hx : x.page.cols = []) (hd : ∀ d ∈ x.page.base.content, d.Steady s) :
    pageText decompress file k = some (x.page.base.content.flatMap (Drawing.chars s)) := by
  have hrun : x.Ordered w s := docRun_ordered w s items 0 Res.empty x (List.mem_of_getElem? hk)
  obtain ⟨parts, h1, h2⟩ := hrun.content
  rw [hx, List.flatMap_nil, List.append_nil] at h1
  obtain ⟨h3, h4⟩ := drawings_glyphs hw (fun _ _ => 0) h2 hd .initial
  rw [← h1] at h3 h4
  rw [C63_extract hz w s items file h k x hk hp _ h4, ← h3]
  rfl

end

/-! ### A concrete document -/

/-- The registry with the regular font of the typeface. -/
def oneRes : Res := (Res.font Res.empty (.trueType demoFace) false false).2

/-- The word "b" set with that registry. -/
def wordC : Word := ⟨[.slug (Slug.new (demoWorld.env oneRes) ['b'] faceState none)], none, faceState⟩

/-- A text and a rectangle. -/
def demoDrawings : List Drawing := [.text (10, 20) [.str ['b']] Style.empty .left, .rect (0, 0) 5 5 none (some ⟨1, 0, 0⟩)]

theorem demoText_render : Drawing.render demoWorld faceStyle Res.empty (.text (10, 20) [.str ['b']] Style.empty .left) =
    (some [renderText (10, 20) (some faceState) 0 [⟨.noop, [.word wordC], wordC.width + 0⟩] (maxLead [⟨.noop, ['b']⟩] faceState) .left], oneRes) := by
  have h1 : flattenSpan Style.empty faceStyle [] [.str ['b']] (faceStyle.asState Res.empty).2 =
      ([⟨.noop, ['b']⟩], (flattenSpan Style.empty faceStyle [] [.str ['b']] (faceStyle.asState Res.empty).2).2.1, oneRes) := by
    simp only [flattenSpan, flattenItems]
    rfl
  have h2 : splitlines [⟨.noop, ['b']⟩] = [[⟨.noop, ['b']⟩]] := by
    rw [splitlines, splitFrom_none (by rfl)]
    rfl
  have h3 : parse (demoWorld.env oneRes) [] faceState ['b'] = some [.word wordC] :=
    parse_one (by simp) (rest := []) (head := ['b']) (by rw [parseSimple, allWords_eq]; rfl) rfl
  have h4 : intoTextLines (demoWorld.env oneRes) [[⟨.noop, ['b']⟩]] faceState = some [⟨.noop, [.word wordC], wordC.width + 0⟩] := by
    have e2 : intoWords (demoWorld.env oneRes) [⟨.noop, ['b']⟩] faceState = some (.noop, [.word wordC]) := by
      show (parse (demoWorld.env oneRes) [] faceState ['b']).map _ = _
      rw [h3]; rfl
    simp only [intoTextLines, e2, Option.map_some]
    rfl
  have h5 : (faceStyle.asState Res.empty).1 = faceState := rfl
  simp only [Drawing.render, textOps]
  rw [h1, h5]
  simp only [h2, h4, Option.map_some]

/-- A page with these drawings. -/
def demoPage : Page := ⟨demoDrawings, a4, 0, []⟩

/-- The operators of the two drawings. -/
def demoOps : List PageOp := [renderText (10, 20) (some faceState) 0 [⟨.noop, [.word wordC], wordC.width + 0⟩] (maxLead [⟨.noop, ['b']⟩] faceState) .left]
@[inherit_doc demoOps] def rectOps : List PageOp := [.rect 0 0 5 5, .strokeColor ⟨1, 0, 0⟩, .paint .stroke]

/-- Their bytes. -/
def demoOut : Bytes × Res := (opsBytes demoOps oneRes).getD ([], Res.empty)
@[inherit_doc demoOut] def rectOut : Bytes × Res := (opsBytes rectOps demoOut.2).getD ([], Res.empty)

/-- A document with this page. -/
theorem demo_run : docRun demoWorld faceStyle [.page demoPage] 0 Res.empty =
    ⟨[⟨⟨demoPage, []⟩, demoOps ++ rectOps, demoOut.1 ++ rectOut.1⟩], rectOut.2, none⟩ := by
  have h1 : opsBytes demoOps oneRes = some (demoOut.1, demoOut.2) := eq_some_getD (d := ([], Res.empty)) (by decide +kernel)
  have h2 : opsBytes rectOps demoOut.2 = some (rectOut.1, rectOut.2) := eq_some_getD (d := ([], Res.empty)) (by decide +kernel)
  have h3 : Drawing.render demoWorld faceStyle demoOut.2 (.rect (0, 0) 5 5 none (some ⟨1, 0, 0⟩)) = (some rectOps, demoOut.2) := rfl
  have h4 : drawingsRun demoWorld faceStyle demoDrawings Res.empty = (some (demoOps ++ rectOps, demoOut.1 ++ rectOut.1), rectOut.2) := by
    simp only [drawingsRun, demoDrawings, demoText_render]
    rw [show [renderText (10, 20) (some faceState) 0 [⟨.noop, [.word wordC], wordC.width + 0⟩] (maxLead [⟨.noop, ['b']⟩] faceState) .left] = demoOps from rfl, h1]
    simp only [h3, h2, List.append_nil]
  simp only [docRun, DocItem.run, writePages, Filled.run, PagesRun.andThen]
  rw [show (⟨demoPage, []⟩ : Filled).base.content = demoDrawings from rfl, h4]
  simp [opsBytes]

/-- The file of this document. -/
def demoFile : Bytes :=
  (docWrite id demoWorld.files (fun (_ : Unit) _ _ => (⟨[⟨0, a4, demoOut.1 ++ rectOut.1⟩], rectOut.2, none⟩ : Run)) b!"0123456789abcdef" [()]).1.flatten

theorem demo_written : WrittenDoc id demoWorld faceStyle [.page demoPage] demoFile := by
  refine ⟨?_, ?_, ?_, ?_, ?_, ?_⟩
  · trivial
  · intro it hit
    rw [List.mem_singleton] at hit
    subst hit
    intro d hd
    simp only [demoPage, demoDrawings, List.mem_cons, List.not_mem_nil, or_false] at hd
    rcases hd with rfl | rfl
    · exact ⟨by simp [Item.Known.str], by simp [Style.Known, Style.empty]⟩
    · trivial
  · intro p
    exact ⟨(by decide +kernel : ∀ c ∈ b!"Demo", isDelim c = false), fun cs => Or.inl rfl⟩
  · rw [docWritten, demo_run]
    intro x hx
    rw [List.mem_singleton] at hx
    subst hx
    exact ⟨Or.inr (by norm_num [demoPage, a4]), Or.inr (by norm_num [demoPage, a4])⟩
  · refine ⟨b!"0123456789abcdef", _, ?_, rfl⟩
    have hd : docPages (DocItem.render demoWorld faceStyle) [.page demoPage] 0 Res.empty = docPages (fun (_ : Unit) _ _ => (⟨[⟨0, a4, demoOut.1 ++ rectOut.1⟩], rectOut.2, none⟩ : Run)) [()] 0 Res.empty := by
      rw [docPages_docRun, demo_run]
      rfl
    have ho : docObjects id demoWorld.files (DocItem.render demoWorld faceStyle) [.page demoPage] =
        docObjects id demoWorld.files (fun (_ : Unit) _ _ => (⟨[⟨0, a4, demoOut.1 ++ rectOut.1⟩], rectOut.2, none⟩ : Run)) [()] := by
      unfold docObjects
      rw [hd]
    unfold docWrite
    rw [ho]
    refine Prod.ext rfl ?_
    decide +kernel
  · decide +kernel

instance (q : ℚ) : Decidable (GoodReal q) := inferInstanceAs (Decidable (_ ∨ _))

instance : (i : ShowItem) → Decidable i.Printable
  | .adj x => inferInstanceAs (Decidable (GoodReal x))
  | .txt _ _ => inferInstanceAs (Decidable True)

instance : (op : TextOp) → Decidable op.Printable
  | .tf _ z => inferInstanceAs (Decidable (GoodReal z))
  | .rg c => inferInstanceAs (Decidable (GoodReal c.red ∧ GoodReal c.green ∧ GoodReal c.blue))
  | .tj is => inferInstanceAs (Decidable (∀ i ∈ is, i.Printable))
  | .td x y => inferInstanceAs (Decidable (GoodReal x ∧ GoodReal y))
  | .tdl x y => inferInstanceAs (Decidable (GoodReal x ∧ GoodReal y))
  | .tl l => inferInstanceAs (Decidable (GoodReal l))
  | .tstar => inferInstanceAs (Decidable True)

instance : (op : PageOp) → Decidable op.Printable
  | .moveTo x y => inferInstanceAs (Decidable (GoodReal x ∧ GoodReal y))
  | .lineTo x y => inferInstanceAs (Decidable (GoodReal x ∧ GoodReal y))
  | .curveTo x1 y1 x2 y2 x3 y3 => inferInstanceAs (Decidable (GoodReal x1 ∧ GoodReal y1 ∧ GoodReal x2 ∧ GoodReal y2 ∧ GoodReal x3 ∧ GoodReal y3))
  | .rect x y w h => inferInstanceAs (Decidable (GoodReal x ∧ GoodReal y ∧ GoodReal w ∧ GoodReal h))
  | .fillColor c => inferInstanceAs (Decidable (GoodReal c.red ∧ GoodReal c.green ∧ GoodReal c.blue))
  | .strokeColor c => inferInstanceAs (Decidable (GoodReal c.red ∧ GoodReal c.green ∧ GoodReal c.blue))
  | .paint _ => inferInstanceAs (Decidable True)
  | .text ops => inferInstanceAs (Decidable (∀ op ∈ ops, op.Printable))

/-- All numbers of the page can be printed. -/
theorem demo_printable : ∀ op ∈ demoOps ++ rectOps, op.Printable := by decide +kernel

/-- The document meets the hypotheses of C61, C62 and C63, and its text is extracted. -/
example : pageText some demoFile 0 = some ['b'.toNat] := by
  have := C63_drawings (fun _ => rfl) demoWorld demoWorld_ok faceStyle [.page demoPage] demoFile demo_written 0 ⟨⟨demoPage, []⟩, demoOps ++ rectOps, demoOut.1 ++ rectOut.1⟩
    (by rw [docWritten, demo_run]; rfl) demo_printable rfl ?_
  · rw [this]
    decide +kernel
  · intro d hd
    simp only [demoPage, demoDrawings, List.mem_cons, List.not_mem_nil, or_false] at hd
    rcases hd with rfl | rfl
    · refine ⟨by simp [itemsStrings, Item.strings], fun r => ?_⟩
      simp [KeepsOnEmptyLines, contentStrings, itemsStrings, Item.strings, StartsLine]
    · trivial
end Pdfje
