import Verif.Spec.OpenType
import Verif.Props.Content
/-
C66: text in embedded fonts is as wide for the reader of the file as it was for the layout. C15, read from the file.
-/

namespace Pdfje
open PdfSpec

section
variable {compress : Bytes → Bytes} {decompress : Bytes → Option Bytes}

/-- C15, from the bytes of the file: for every embedded font that a page refers to, the reader finds in the resources of the page a font in which every encoded string stands for
exactly the characters that were encoded; the width array has the (truncated) widths of these characters, and the glyph map has the glyphs of these characters in the font program
embedded with it. -/
theorem C15_file (hz : ∀ x, decompress (compress x) = some x) (w : World) (s : StyleFull) (items : List DocItem) (file : Bytes)
    (h : WrittenDoc compress w s items file) (k : Nat) (x : Written) (hk : (docWritten w s items)[k]? = some x) :
    ∃ page, pageObject file k = some page ∧ ∀ op ∈ x.ops, op.Fonts fun f => ∀ i e, f = .subset i → (docFonts w s items).subsets[i]? = some e →
      ∃ name font, (docFonts w s items).fontId f = some name ∧ pageFont file page name = some font ∧
        ∀ t b, Encodes (docFonts w s items) f t b → fontText decompress file font b = some (t.map Char.toNat) ∧
          fontWidths file font b = some (t.map fun c => ((truncQ ((w.files (e.1.1.font e.1.2.1 e.1.2.2)).charwidth c) : ℤ) : ℚ)) ∧
          ((∀ c, (w.files (e.1.1.font e.1.2.1 e.1.2.2)).glyphId e.2.cids c < 0x10000) →
            fontGlyphs decompress file font b = some (t.map ((w.files (e.1.1.font e.1.2.1 e.1.2.2)).glyphId e.2.cids))) := by
  obtain ⟨objs, h1, h2⟩ := h.read hz
  obtain ⟨page, h3, h4⟩ := h1.page h2 (k := k) (p := x.rendered) (by simp [hk])
  refine ⟨page, h3, fun op hop => ((h.ops hz x (List.mem_of_getElem? hk)).1 op hop).mono fun f hf i e hi he => ?_⟩
  obtain ⟨name, font, j1, j2, j3⟩ := h1.font h2 h4 hf
  refine ⟨name, font, j1, j2, fun t b hb => ⟨?_, j3.widths i e hi he t b hb, fun hg => j3.glyphs i e hi he hg t b hb⟩⟩
  rw [j3.text t b hb]
  subst hi
  rfl

/-! ### C66 -/

/-- C66 as it should be: the widths that the reader of the file finds for the characters of an encoded string in an embedded font are those that the layout was made with. -/
def C66_Statement : Prop := ∀ (compress : Bytes → Bytes) (decompress : Bytes → Option Bytes), (∀ x, decompress (compress x) = some x) →
  ∀ (w : World) (s : StyleFull) (items : List DocItem) (file : Bytes), WrittenDoc compress w s items file →
    ∀ (k : Nat) (x : Written), (docWritten w s items)[k]? = some x →
      ∃ page, pageObject file k = some page ∧ ∀ op ∈ x.ops, op.Fonts fun f => ∀ i e, f = .subset i → (docFonts w s items).subsets[i]? = some e →
        ∃ name font, (docFonts w s items).fontId f = some name ∧ pageFont file page name = some font ∧
          ∀ t b, Encodes (docFonts w s items) f t b → fontWidths file font b = some (t.map (w.files (e.1.1.font e.1.2.1 e.1.2.2)).charwidth)

theorem truncQ_lt (q : ℚ) : |q - ((truncQ q : ℤ) : ℚ)| < 1 := by
  unfold truncQ
  split
  · rw [abs_of_nonneg (by linarith [Int.floor_le q])]
    linarith [Int.lt_floor_add_one q]
  · push_cast
    rw [abs_of_nonpos (by linarith [Int.floor_le (-q)])]
    linarith [Int.lt_floor_add_one (-q)]

theorem truncQ_int (z : ℤ) : truncQ (z : ℚ) = z := by
  unfold truncQ
  split
  · simp
  · have : (-(z : ℚ)) = ((-z : ℤ) : ℚ) := by push_cast; rfl
    rw [this, Int.floor_intCast]; simp

/-- C66, what is true of the widths: those that the reader of the file finds are less than one thousandth of the font size away from those of the layout, and are the same if these are
whole numbers of thousandths. Missing: they are cut off (`int`), not rounded or written as reals. -/
theorem C66_file_partial (hz : ∀ x, decompress (compress x) = some x) (w : World) (s : StyleFull) (items : List DocItem) (file : Bytes)
    (h : WrittenDoc compress w s items file) (k : Nat) (x : Written) (hk : (docWritten w s items)[k]? = some x) :
    ∃ page, pageObject file k = some page ∧ ∀ op ∈ x.ops, op.Fonts fun f => ∀ i e, f = .subset i → (docFonts w s items).subsets[i]? = some e →
      ∃ name font, (docFonts w s items).fontId f = some name ∧ pageFont file page name = some font ∧
        ∀ t b, Encodes (docFonts w s items) f t b → ∃ ws, fontWidths file font b = some ws ∧
          List.Forall₂ (fun c v => |(w.files (e.1.1.font e.1.2.1 e.1.2.2)).charwidth c - v| < 1 ∧
            ∀ z : ℤ, (w.files (e.1.1.font e.1.2.1 e.1.2.2)).charwidth c = z → v = z) t ws := by
  obtain ⟨page, h1, h2⟩ := C15_file hz w s items file h k x hk
  refine ⟨page, h1, fun op hop => (h2 op hop).mono fun f hf i e hi he => ?_⟩
  obtain ⟨name, font, h3, h4, h5⟩ := hf i e hi he
  refine ⟨name, font, h3, h4, fun t b hb => ⟨_, (h5 t b hb).2.1, ?_⟩⟩
  rw [List.forall₂_map_right_iff]
  refine List.forall₂_same.2 fun c _ => ⟨truncQ_lt _, fun z hz => ?_⟩
  rw [hz, truncQ_int]
/-- C66, for the fonts themselves: the widths that the reader of the file finds for a TrueType font are those of its glyphs in the font program, scaled by its units per em, but for less than one thousandth
of the font size, and exactly those if these are whole numbers (as for all fonts with 1000 units per em). Missing: they are cut off. -/
theorem C66_truetype_partial (hz : ∀ x, decompress (compress x) = some x) (w : World) (s : StyleFull) (items : List DocItem) (file : Bytes)
    (h : WrittenDoc compress w s items file) (k : Nat) (x : Written) (hk : (docWritten w s items)[k]? = some x) :
    ∃ page, pageObject file k = some page ∧ ∀ op ∈ x.ops, op.Fonts fun f => ∀ i e, f = .subset i → (docFonts w s items).subsets[i]? = some e →
      ∀ (ttf : Ttf) (rest : FontFile), ttf.fontFile rest = some (w.files (e.1.1.font e.1.2.1 e.1.2.2)) →
      ∃ name font, (docFonts w s items).fontId f = some name ∧ pageFont file page name = some font ∧
        ∀ t b, Encodes (docFonts w s items) f t b → ∃ ws, fontWidths file font b = some ws ∧
          List.Forall₂ (fun c v => |ttf.charAdvance c - v| < 1 ∧ (∀ z : ℤ, ttf.charAdvance c = z → v = z) ∧
            (ttf.unitsPerEm = 1000 → v = ttf.charAdvance c)) t ws := by
  obtain ⟨page, h1, h2⟩ := C66_file_partial hz w s items file h k x hk
  refine ⟨page, h1, fun op hop => (h2 op hop).mono fun f hf i e hi he ttf rest hfile => ?_⟩
  obtain ⟨name, font, h3, h4, h5⟩ := hf i e hi he
  refine ⟨name, font, h3, h4, fun t b hb => ?_⟩
  obtain ⟨ws, h6, h7⟩ := h5 t b hb
  have hw : ∀ c, (w.files (e.1.1.font e.1.2.1 e.1.2.2)).charwidth c = ttf.charAdvance c := by
    intro c
    unfold Ttf.fontFile at hfile
    split at hfile
    · simp at hfile
    · obtain ⟨kn, -, hk⟩ := Option.map_eq_some_iff.1 hfile
      rw [← hk]
      show ttf.charwidth c = _
      unfold Ttf.charwidth Ttf.charAdvance Ttf.scale notdef
      cases ttf.cmap.lookup c <;> simp only [Option.getD_some, Option.getD_none] <;> ring
  refine ⟨ws, h6, h7.imp fun c v hv => ?_⟩
  rw [hw c] at hv
  refine ⟨hv.1, hv.2, fun hu => ?_⟩
  have : ∃ n : ℤ, ttf.charAdvance c = n := by
    unfold Ttf.charAdvance
    rw [hu]
    cases ttf.cmap.lookup c with
    | none => exact ⟨ttf.advance ".notdef".toList, by push_cast; ring⟩
    | some g => exact ⟨ttf.advance g, by push_cast; ring⟩
  obtain ⟨n, hn⟩ := this
  rw [hn, hv.2 n hn]
end

/-! ### What it does to positions -/

/-- The same but for the horizontal position. -/
def Viewer.Same (v v' : Viewer) : Prop := v.font = v'.font ∧ v.color = v'.color ∧ v.lineX = v'.lineX ∧ v.lineY = v'.lineY ∧ v.leading = v'.leading

/-- Glyphs that are the same but for their horizontal position, which is off by at most `δ` for each glyph from the `n`-th on. -/
inductive GlyphsNear (δ : ℚ) : Nat → List Glyph → List Glyph → Prop
  | nil (n) : GlyphsNear δ n [] []
  | cons {n : Nat} {g g' gs gs'} : g.look = g'.look → |g.x - g'.x| ≤ n * δ → GlyphsNear δ (n + 1) gs gs' → GlyphsNear δ n (g :: gs) (g' :: gs')

theorem GlyphsNear.append {δ : ℚ} {n : Nat} {a a' b b' : List Glyph} (h : GlyphsNear δ n a a') (h2 : GlyphsNear δ (n + a.length) b b') : GlyphsNear δ n (a ++ b) (a' ++ b') := by
  induction h with
  | nil n => exact h2
  | cons h1 h3 _ ih =>
    refine .cons h1 h3 (ih ?_)
    rwa [List.length_cons, ← Nat.add_assoc, Nat.add_right_comm] at h2

theorem GlyphsNear.length {δ : ℚ} {n : Nat} {a a' : List Glyph} (h : GlyphsNear δ n a a') : a.length = a'.length := by
  induction h with
  | nil => rfl
  | cons _ _ _ ih => simp [ih]

theorem GlyphsNear.get {δ : ℚ} {n : Nat} {a a' : List Glyph} (h : GlyphsNear δ n a a') : ∀ (i : Nat) g g', a[i]? = some g → a'[i]? = some g' →
    g.look = g'.look ∧ |g.x - g'.x| ≤ (n + i : ℕ) * δ := by
  induction h with
  | nil => intro i g g' h; simp at h
  | cons h1 h3 _ ih =>
    intro i g g' h h'
    cases i with
    | zero =>
      simp only [List.getElem?_cons_zero, Option.some.injEq] at h h'
      subst h; subst h'
      exact ⟨h1, h3⟩
    | succ i =>
      rw [show ∀ m, m + (i + 1) = m + 1 + i from fun m => by omega]
      exact ih i g g' (by simpa using h) (by simpa using h')

section
variable {W W' : FontRef → Char → ℚ} {z : ℚ} (hW : ∀ f c, |W f c - W' f c| ≤ 1)
include hW

theorem dist_near {v : Viewer} (hz : ∀ f q, v.font = some (f, q) → |q| ≤ z) (h0 : 0 ≤ z) (c : Char) : |v.dist (v.charWidth W c) - v.dist (v.charWidth W' c)| ≤ z / 1000 := by
  unfold Viewer.dist Viewer.charWidth
  cases hf : v.font with
  | none => simp; positivity
  | some p =>
    obtain ⟨f, q⟩ := p
    have h1 := hz f q hf
    have h2 := hW f c
    simp only
    rw [show W f c / 1000 * q - W' f c / 1000 * q = (W f c - W' f c) * q / 1000 by ring, abs_div, abs_mul, abs_of_pos (by norm_num : (0 : ℚ) < 1000)]
    have : |W f c - W' f c| * |q| ≤ 1 * z := mul_le_mul h2 h1 (abs_nonneg _) (by norm_num)
    linarith

theorem showText_near (h0 : 0 ≤ z) (f : FontRef) : ∀ (s : List Char) (n : Nat) (v v' : Viewer), v.Same v' → (∀ f q, v.font = some (f, q) → |q| ≤ z) → |v.x - v'.x| ≤ n * (z / 1000) →
    GlyphsNear (z / 1000) n (Viewer.showText W f s v).1 (Viewer.showText W' f s v').1 ∧ (Viewer.showText W f s v).2.Same (Viewer.showText W' f s v').2 ∧
      |(Viewer.showText W f s v).2.x - (Viewer.showText W' f s v').2.x| ≤ (n + (Viewer.showText W f s v).1.length : ℕ) * (z / 1000)
  | [], n, v, v', hs, _, hx => ⟨.nil _, hs, by simpa [Viewer.showText] using hx⟩
  | c :: s, n, v, v', hs, hz, hx => by
    obtain ⟨e1, e2, e3, e4, e5⟩ := hs
    have hd : v'.dist (v'.charWidth W' c) = v.dist (v.charWidth W' c) := by unfold Viewer.dist Viewer.charWidth; rw [e1]
    obtain ⟨h1, h2, h3⟩ := showText_near h0 f s (n + 1) { v with x := v.x + v.dist (v.charWidth W c) } { v' with x := v'.x + v'.dist (v'.charWidth W' c) } ⟨e1, e2, e3, e4, e5⟩ hz (by
      have := dist_near hW hz h0 c
      simp only [hd]
      push_cast
      rw [abs_le] at this hx ⊢
      constructor <;> linarith [this.1, this.2, hx.1, hx.2])
    rw [Viewer.showText, Viewer.showText]
    refine ⟨.cons ?_ hx h1, h2, ?_⟩
    · simp [Viewer.glyph, Glyph.look, e1, e2, e4]
    · simp only [List.length_cons]
      rw [Nat.add_comm _ 1, ← Nat.add_assoc]
      exact h3

theorem show_near (h0 : 0 ≤ z) : ∀ (is : List ShowItem) (n : Nat) (v v' : Viewer), v.Same v' → (∀ f q, v.font = some (f, q) → |q| ≤ z) → |v.x - v'.x| ≤ n * (z / 1000) →
    GlyphsNear (z / 1000) n (Viewer.show W is v).1 (Viewer.show W' is v').1 ∧ (Viewer.show W is v).2.Same (Viewer.show W' is v').2 ∧
      |(Viewer.show W is v).2.x - (Viewer.show W' is v').2.x| ≤ (n + (Viewer.show W is v).1.length : ℕ) * (z / 1000)
  | [], n, v, v', hs, _, hx => ⟨.nil _, hs, by simpa [Viewer.show] using hx⟩
  | .adj a :: is, n, v, v', hs, hz, hx => by
    rw [Viewer.show, Viewer.show]
    have hd : v'.dist a = v.dist a := by unfold Viewer.dist; rw [hs.1]
    exact show_near h0 is n _ _ hs hz (by simpa [hd] using hx)
  | .txt f s :: is, n, v, v', hs, hz, hx => by
    obtain ⟨h1, h2, h3⟩ := showText_near hW h0 f s n v v' hs hz hx
    obtain ⟨h4, h5, h6⟩ := show_near h0 is _ _ _ h2 (by rw [(showText_glyphs f s v).2.2]; exact hz) h3
    rw [Viewer.show, Viewer.show]
    exact ⟨h1.append h4, h5, by simpa [Nat.add_assoc] using h6⟩

/-- The lines are the same but for the horizontal positions: these are off by at most `δ` for each glyph before. -/
def LinesNear (δ : ℚ) (l l' : ShownLine) : Prop :=
  l.y = l'.y ∧ l.left = l'.left ∧ GlyphsNear δ 0 l.glyphs l'.glyphs ∧ |l.right - l'.right| ≤ l.glyphs.length * δ

theorem lines_near (h0 : 0 ≤ z) : ∀ (ops : List TextOp) (v v' : Viewer) (cur cur' : ShownLine), v.Same v' → (∀ f q, v.font = some (f, q) → |q| ≤ z) →
    (∀ f q, .tf f q ∈ ops → |q| ≤ z) → |v.x - v'.x| ≤ cur.glyphs.length * (z / 1000) → LinesNear (z / 1000) cur cur' →
    List.Forall₂ (LinesNear (z / 1000)) (Viewer.lines W ops v cur) (Viewer.lines W' ops v' cur')
  | [], v, v', cur, cur', _, _, _, _, hl => by simpa [Viewer.lines] using hl
  | op :: ops, v, v', cur, cur', hs, hv, hops, hx, hl => by
    have hops' : ∀ f q, .tf f q ∈ ops → |q| ≤ z := fun f q hm => hops f q (List.mem_cons_of_mem _ hm)
    obtain ⟨e1, e2, e3, e4, e5⟩ := hs
    obtain ⟨l1, l2, l3, l4⟩ := hl
    have same : ∀ (g : ShownLine), LinesNear (z / 1000) ⟨[], g.y, g.left, g.left⟩ ⟨[], g.y, g.left, g.left⟩ := fun g => ⟨rfl, rfl, .nil _, by simp⟩
    rw [Viewer.lines, Viewer.lines]
    cases op with
    | tf f q =>
      simp only [Viewer.step, TextOp.moves, Bool.false_eq_true, if_false, List.append_nil]
      exact lines_near h0 ops _ _ _ _ ⟨rfl, e2, e3, e4, e5⟩ (by
        intro f' q' h
        simp only [Option.some.injEq, Prod.mk.injEq] at h
        rw [← h.2]; exact hops f q (by simp)) hops' hx ⟨l1, l2, l3, hx⟩
    | rg c =>
      simp only [Viewer.step, TextOp.moves, Bool.false_eq_true, if_false, List.append_nil]
      exact lines_near h0 ops _ _ _ _ ⟨e1, rfl, e3, e4, e5⟩ hv hops' hx ⟨l1, l2, l3, hx⟩
    | tl l =>
      simp only [Viewer.step, TextOp.moves, Bool.false_eq_true, if_false, List.append_nil]
      exact lines_near h0 ops _ _ _ _ ⟨e1, e2, e3, e4, rfl⟩ hv hops' hx ⟨l1, l2, l3, hx⟩
    | tj is =>
      simp only [Viewer.step, TextOp.moves, Bool.false_eq_true, if_false]
      obtain ⟨h1, h2, h3⟩ := show_near hW h0 is cur.glyphs.length v v' ⟨e1, e2, e3, e4, e5⟩ hv hx
      refine lines_near h0 ops _ _ _ _ h2 (by rw [show_font]; exact hv) hops' ?_ ⟨l1, l2, ?_, ?_⟩
      · simpa using h3
      · exact l3.append (by simpa using h1)
      · simpa using h3
    | td a b =>
      simp only [Viewer.step, TextOp.moves, if_true, Viewer.newLine, e3, e4]
      refine .cons ⟨l1, l2, l3, l4⟩ (lines_near h0 ops _ _ _ _ ⟨e1, e2, rfl, rfl, e5⟩ hv hops' (by simp) ⟨rfl, rfl, .nil _, by simp⟩)
    | tdl a b =>
      simp only [Viewer.step, TextOp.moves, if_true, Viewer.newLine, e3, e4]
      refine .cons ⟨l1, l2, l3, l4⟩ (lines_near h0 ops _ _ _ _ ⟨e1, e2, rfl, rfl, rfl⟩ hv hops' (by simp) ⟨rfl, rfl, .nil _, by simp⟩)
    | tstar =>
      simp only [Viewer.step, TextOp.moves, if_true, Viewer.newLine, e3, e4, e5]
      refine .cons ⟨l1, l2, l3, l4⟩ (lines_near h0 ops _ _ _ _ ⟨e1, e2, rfl, rfl, rfl⟩ hv hops' (by simp) ⟨rfl, rfl, .nil _, by simp⟩)
end

/-- C66, what is true of positions: when a viewer draws a text object with widths that are at most one thousandth of the font size away from those of the layout (such as the widths written for embedded fonts,
`C66_file_partial`), the lines have the same baselines, beginnings and glyphs, and the `n`-th glyph of a line is at most `n` thousandths of the largest font size away from where it
should be, to the left or right. -/
theorem C66_positions_partial (w : World) (r : Res) (W : FontRef → Char → ℚ) (hW : ∀ f c, |(w.env r).widths f c - W f c| ≤ 1) (ops : List TextOp) (v : Viewer) (z : ℚ) (h0 : 0 ≤ z)
    (hv : ∀ f q, v.font = some (f, q) → |q| ≤ z) (hops : ∀ f q, .tf f q ∈ ops → |q| ≤ z) :
    List.Forall₂ (fun should is : ShownLine => should.y = is.y ∧ should.left = is.left ∧ should.glyphs.length = is.glyphs.length ∧
        (∀ (n : Nat) g g', should.glyphs[n]? = some g → is.glyphs[n]? = some g' → g.look = g'.look ∧ |g.x - g'.x| ≤ n * (z / 1000)) ∧
        |should.right - is.right| ≤ should.glyphs.length * (z / 1000))
      (Viewer.textLines (w.env r).widths ops v) (Viewer.textLines W ops v) := by
  unfold Viewer.textLines
  refine (lines_near hW h0 ops v.beginText v.beginText ⟨[], 0, 0, 0⟩ ⟨[], 0, 0, 0⟩ ⟨rfl, rfl, rfl, rfl, rfl⟩ hv hops (by simp) ⟨rfl, rfl, .nil _, by simp⟩).imp ?_
  rintro l l' ⟨h1, h2, h3, h4⟩
  refine ⟨h1, h2, h3.length, fun n g g' hg hg' => ?_, h4⟩
  simpa using h3.get n g g' hg hg'

/-! ### A font whose characters are 500.5 thousandths wide -/

/-- A world in which font files have such characters. -/
def fracWorld : World := { demoWorld with files := fun p => { demoWorld.files p with charwidth := fun _ => 1001 / 2 } }

/-- The word "b" set with that registry. -/
def fracWord : Word := ⟨[.slug (Slug.new (fracWorld.env oneRes) ['b'] faceState none)], none, faceState⟩

theorem fracText_render : Drawing.render fracWorld faceStyle Res.empty (.text (10, 20) [.str ['b']] Style.empty .left) =
    (some [renderText (10, 20) (some faceState) 0 [⟨.noop, [.word fracWord], fracWord.width + 0⟩] (maxLead [⟨.noop, ['b']⟩] faceState) .left], oneRes) := by
  have h1 : flattenSpan Style.empty faceStyle [] [.str ['b']] (faceStyle.asState Res.empty).2 =
      ([⟨.noop, ['b']⟩], (flattenSpan Style.empty faceStyle [] [.str ['b']] (faceStyle.asState Res.empty).2).2.1, oneRes) := by
    simp only [flattenSpan, flattenItems]
    rfl
  have h2 : splitlines [⟨.noop, ['b']⟩] = [[⟨.noop, ['b']⟩]] := by
    rw [splitlines, splitFrom_none (by rfl)]
    rfl
  have h3 : parse (fracWorld.env oneRes) [] faceState ['b'] = some [.word fracWord] :=
    parse_one (by simp) (rest := []) (head := ['b']) (by rw [parseSimple, allWords_eq]; rfl) rfl
  have h4 : intoTextLines (fracWorld.env oneRes) [[⟨.noop, ['b']⟩]] faceState = some [⟨.noop, [.word fracWord], fracWord.width + 0⟩] := by
    have e2 : intoWords (fracWorld.env oneRes) [⟨.noop, ['b']⟩] faceState = some (.noop, [.word fracWord]) := by
      show (parse (fracWorld.env oneRes) [] faceState ['b']).map _ = _
      rw [h3]; rfl
    simp only [intoTextLines, e2, Option.map_some]
    rfl
  have h5 : (faceStyle.asState Res.empty).1 = faceState := rfl
  simp only [Drawing.render, textOps]
  rw [h1, h5]
  simp only [h2, h4, Option.map_some]

/-- The operators of the text. -/
def fracOps : List PageOp := [renderText (10, 20) (some faceState) 0 [⟨.noop, [.word fracWord], fracWord.width + 0⟩] (maxLead [⟨.noop, ['b']⟩] faceState) .left]

/-- Their bytes. -/
def fracOut : Bytes × Res := (opsBytes fracOps oneRes).getD ([], Res.empty)
@[inherit_doc fracOut] def fracRectOut : Bytes × Res := (opsBytes rectOps fracOut.2).getD ([], Res.empty)

/-- A document with this page. -/
theorem frac_run : docRun fracWorld faceStyle [.page demoPage] 0 Res.empty =
    ⟨[⟨⟨demoPage, []⟩, fracOps ++ rectOps, fracOut.1 ++ fracRectOut.1⟩], fracRectOut.2, none⟩ := by
  have h1 : opsBytes fracOps oneRes = some (fracOut.1, fracOut.2) := eq_some_getD (d := ([], Res.empty)) (by decide +kernel)
  have h2 : opsBytes rectOps fracOut.2 = some (fracRectOut.1, fracRectOut.2) := eq_some_getD (d := ([], Res.empty)) (by decide +kernel)
  have h3 : Drawing.render fracWorld faceStyle fracOut.2 (.rect (0, 0) 5 5 none (some ⟨1, 0, 0⟩)) = (some rectOps, fracOut.2) := rfl
  have h4 : drawingsRun fracWorld faceStyle demoDrawings Res.empty = (some (fracOps ++ rectOps, fracOut.1 ++ fracRectOut.1), fracRectOut.2) := by
    simp only [drawingsRun, demoDrawings, fracText_render]
    rw [show [renderText (10, 20) (some faceState) 0 [⟨.noop, [.word fracWord], fracWord.width + 0⟩] (maxLead [⟨.noop, ['b']⟩] faceState) .left] = fracOps from rfl, h1]
    simp only [h3, h2, List.append_nil]
  simp only [docRun, DocItem.run, writePages, Filled.run, PagesRun.andThen]
  rw [show (⟨demoPage, []⟩ : Filled).base.content = demoDrawings from rfl, h4]
  simp [opsBytes]

/-- The file of this document. -/
def fracFile : Bytes :=
  (docWrite id fracWorld.files (fun (_ : Unit) _ _ => (⟨[⟨0, a4, fracOut.1 ++ fracRectOut.1⟩], fracRectOut.2, none⟩ : Run)) b!"0123456789abcdef" [()]).1.flatten

theorem frac_written : WrittenDoc id fracWorld faceStyle [.page demoPage] fracFile := by
  refine ⟨?_, ?_, ?_, ?_, ?_, ?_⟩
  · trivial
  · intro it hit
    rw [List.mem_singleton] at hit
    subst hit
    intro d hd
    simp only [demoPage, demoDrawings, List.mem_cons, List.not_mem_nil, or_false] at hd
    rcases hd with rfl | rfl
    · exact ⟨by simp [Item.Known.str], by simp [Style.Known, Style.empty]⟩
    · trivial
  · intro p
    exact ⟨(by decide +kernel : ∀ c ∈ b!"Demo", isDelim c = false), fun cs => Or.inl rfl⟩
  · rw [docWritten, frac_run]
    intro x hx
    rw [List.mem_singleton] at hx
    subst hx
    exact ⟨Or.inr (by norm_num [demoPage, a4]), Or.inr (by norm_num [demoPage, a4])⟩
  · refine ⟨b!"0123456789abcdef", _, ?_, rfl⟩
    have hd : docPages (DocItem.render fracWorld faceStyle) [.page demoPage] 0 Res.empty = docPages (fun (_ : Unit) _ _ => (⟨[⟨0, a4, fracOut.1 ++ fracRectOut.1⟩], fracRectOut.2, none⟩ : Run)) [()] 0 Res.empty := by
      rw [docPages_docRun, frac_run]
      rfl
    have ho : docObjects id fracWorld.files (DocItem.render fracWorld faceStyle) [.page demoPage] =
        docObjects id fracWorld.files (fun (_ : Unit) _ _ => (⟨[⟨0, a4, fracOut.1 ++ fracRectOut.1⟩], fracRectOut.2, none⟩ : Run)) [()] := by
      unfold docObjects
      rw [hd]
    unfold docWrite
    rw [ho]
    refine Prod.ext rfl ?_
    decide +kernel
  · decide +kernel

theorem C66_counterexample : ¬ C66_Statement := by
  intro h
  obtain ⟨page, h1, h2⟩ := h id some (fun _ => rfl) fracWorld faceStyle _ fracFile frac_written 0 _ (by rw [docWritten, frac_run]; rfl)
  obtain ⟨page', h1', h2'⟩ := C15_file (decompress := some) (fun _ => rfl) fracWorld faceStyle _ fracFile frac_written 0 _ (by rw [docWritten, frac_run]; rfl)
  rw [h1] at h1'
  cases h1'
  have hop : fracOps.head (by decide) ∈ fracOps ++ rectOps := by simp [fracOps]
  have hd : docFonts fracWorld faceStyle [.page demoPage] = fracRectOut.2 := by rw [docFonts, frac_run]
  have he : ∃ e, (docFonts fracWorld faceStyle [.page demoPage]).subsets[0]? = some e := by
    rw [hd]; exact Option.isSome_iff_exists.1 (by decide +kernel)
  obtain ⟨e, he⟩ := he
  have hf : ∀ P : FontRef → Prop, (fracOps.head (by decide)).Fonts P → P (.subset 0) := by
    intro P hP
    simp only [fracOps, List.head_cons, renderText, PageOp.Fonts] at hP
    exact hP (.tf (.subset 0) 12) (by simp [faceState, State.ops])
  obtain ⟨name, font, h3, h4, h5⟩ := hf _ (h2 _ hop) 0 e rfl he
  obtain ⟨name', font', h3', h4', h5'⟩ := hf _ (h2' _ hop) 0 e rfl he
  rw [h3] at h3'; cases h3'
  rw [h4] at h4'; cases h4'
  have hb : Encodes (docFonts fracWorld faceStyle [.page demoPage]) (.subset 0) ['b'] [0, 0] := by
    rw [hd]
    exact ⟨[0], by decide +kernel, by decide +kernel⟩
  have h6 := h5 _ _ hb
  rw [(h5' _ _ hb).2.1] at h6
  simp only [List.map_cons, List.map_nil, Option.some.injEq, List.cons.injEq, and_true] at h6
  have : ((truncQ (1001 / 2) : ℤ) : ℚ) = 1001 / 2 := h6
  rw [show truncQ (1001 / 2) = 500 by decide +kernel] at this
  norm_num at this

/-- The document is one for which the hypotheses of `C15_file` and `C66_file_partial` hold. -/
example : ∃ x, (docWritten fracWorld faceStyle [.page demoPage])[0]? = some x ∧ WrittenDoc id fracWorld faceStyle [.page demoPage] fracFile :=
  ⟨_, by rw [docWritten, frac_run]; rfl, frac_written⟩

/-- Widths that are cut off meet the hypothesis of `C66_positions_partial`. -/
example (r : Res) : ∀ f c, |(fracWorld.env r).widths f c - ((truncQ ((fracWorld.env r).widths f c) : ℤ) : ℚ)| ≤ 1 := fun _ _ => (truncQ_lt _).le

/-- The fonts of that world are what is read from a font with 2000 units per em in which all advance widths are 1001. -/
example (p : Path) : Ttf.fontFile ⟨2000, [('b', ['b'])], fun _ => 1001, none⟩ (fracWorld.files p) = some (fracWorld.files p) := by
  have h : kernPairs ⟨2000, [('b', ['b'])], fun _ => 1001, none⟩ = some [] := by decide +kernel
  have hw : (Ttf.charwidth ⟨2000, [('b', ['b'])], fun _ => 1001, none⟩) = fun _ => 1001 / 2 := by
    funext c
    simp only [Ttf.charwidth, Ttf.scale]
    norm_num
  simp only [Ttf.fontFile, Ttf.kerning, h, hw]
  rfl

end Pdfje
