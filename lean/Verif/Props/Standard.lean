import Verif.Model.Builtins
import Verif.Spec.Standard
import Verif.Spec.Lines
import Verif.Props.Fonts
import Verif.Props.Written
/-
C67, C68: the metrics of the standard fonts.
-/

namespace Pdfje
open PdfSpec

theorem mem_of_lookupEq {β : Type} : ∀ {l : List (Nat × β)} {k : Nat} {v : β}, l.lookup k = some v → (k, v) ∈ l
  | [], _, _, h => by cases h
  | (a, b) :: l, k, v, h => by
    rw [List.lookup_cons] at h
    split at h
    · rename_i e
      cases h
      rw [beq_iff_eq] at e
      subst e
      exact .head _
    · exact .tail _ (mem_of_lookupEq h)

/-- The tables of the fonts of Helvetica and Times: widths, width of other characters, kerning. -/
def standardTables : List (List (Nat × Nat) × Nat × List (Nat × List (Nat × Int))) :=
  [(helveticaWidths, 556, helveticaKerning), (helveticaBoldWidths, 611, helveticaBoldKerning), (timesWidths, 444, timesKerning), (timesBoldWidths, 500, timesBoldKerning),
   (timesItalicWidths, 500, timesItalicKerning), (timesBoldItalicWidths, 500, timesBoldItalicKerning)]

/-- A font has the metrics of one of the tables. -/
def UsesTable (m : Metrics) : Prop := ∃ t ∈ standardTables, ∀ c d, m.charwidth c = dictGet t.1 t.2.1 c ∧ m.kerning (c, d) = kernGet t.2.2 (c, d)

theorem textFonts_tables : ∀ f ∈ [helvetica, timesRoman], ∀ bold italic, UsesTable (standardMetrics (f.font bold italic)) := by
  intro f hf bold italic
  simp only [List.mem_cons, List.not_mem_nil, or_false] at hf
  rcases hf with rfl | rfl <;> cases bold <;> cases italic
  · exact ⟨(helveticaWidths, 556, helveticaKerning), by simp [standardTables], fun c d => ⟨rfl, rfl⟩⟩
  · exact ⟨(helveticaWidths, 556, helveticaKerning), by simp [standardTables], fun c d => ⟨rfl, rfl⟩⟩
  · exact ⟨(helveticaBoldWidths, 611, helveticaBoldKerning), by simp [standardTables], fun c d => ⟨rfl, rfl⟩⟩
  · exact ⟨(helveticaBoldWidths, 611, helveticaBoldKerning), by simp [standardTables], fun c d => ⟨rfl, rfl⟩⟩
  · exact ⟨(timesWidths, 444, timesKerning), by simp [standardTables], fun c d => ⟨rfl, rfl⟩⟩
  · exact ⟨(timesItalicWidths, 500, timesItalicKerning), by simp [standardTables], fun c d => ⟨rfl, rfl⟩⟩
  · exact ⟨(timesBoldWidths, 500, timesBoldKerning), by simp [standardTables], fun c d => ⟨rfl, rfl⟩⟩
  · exact ⟨(timesBoldItalicWidths, 500, timesBoldItalicKerning), by simp [standardTables], fun c d => ⟨rfl, rfl⟩⟩

theorem dictGet_eq (t : List (Nat × Nat)) (d : Nat) (c : Char) : dictGet t d c = (t.lookup c.toNat).getD d := rfl

theorem kernGet_cases (t : List (Nat × List (Nat × Int))) (a b : Char) : kernGet t (a, b) = 0 ∨ ∃ row ∈ t, ∃ e ∈ row.2, row.1 = a.toNat ∧ e.1 = b.toNat ∧ kernGet t (a, b) = e.2 := by
  unfold kernGet
  cases h : t.lookup a.toNat with
  | none => simp
  | some row =>
    simp only [Option.bind_some]
    cases h2 : row.lookup b.toNat with
    | none => simp
    | some v => exact .inr ⟨_, mem_of_lookupEq h, _, mem_of_lookupEq h2, rfl, rfl, rfl⟩

/-! ### C68 -/

theorem tables_positive : ∀ t ∈ standardTables, 0 < t.2.1 ∧ ∀ e ∈ t.1, 0 < e.2 := by decide +kernel

theorem tables_kerning : ∀ t ∈ standardTables, ∀ row ∈ t.2.2, ∀ e ∈ row.2,
    (0 : Int) ≤ (t.1.lookup e.1).getD t.2.1 + e.2 ∧ (0 : Int) < (t.1.lookup row.1).getD t.2.1 + e.2 := by decide +kernel

theorem usesTable_advance {m : Metrics} (h : UsesTable m) (a b : Char) :
    0 < m.charwidth a ∧ 0 < m.charwidth a + m.kerning (a, b) ∧ 0 ≤ m.charwidth b + m.kerning (a, b) := by
  obtain ⟨t, ht, hm⟩ := h
  have pos : ∀ c, (0 : ℚ) < dictGet t.1 t.2.1 c := by
    intro c
    obtain ⟨h1, h2⟩ := tables_positive t ht
    rw [dictGet_eq]
    cases hl : t.1.lookup c.toNat with
    | none => simpa using h1
    | some v => simpa using h2 _ (mem_of_lookupEq hl)
  rw [(hm a b).1, (hm b a).1, (hm a b).2]
  refine ⟨pos a, ?_⟩
  rcases kernGet_cases t.2.2 a b with h | ⟨row, hr, e, he, e1, e2, h⟩
  · rw [h]
    exact ⟨by rw [Int.cast_zero, add_zero]; exact pos a, by rw [Int.cast_zero, add_zero]; exact (pos b).le⟩
  · rw [h, dictGet_eq, dictGet_eq, ← e1, ← e2]
    obtain ⟨h1, h2⟩ := tables_kerning t ht row hr e he
    constructor
    · exact_mod_cast h2
    · exact_mod_cast h1

/-- C68. In every standard font, every character (also one that the font does not have) is wider than nothing, the next character always starts to the right of it, whatever the kerning, and
text never gets narrower when a character is added to it. -/
theorem C68_advance (f : BuiltinTypeface) (hf : f ∈ builtinTypefaces) (bold italic : Bool) (a b : Char) :
    0 < (standardMetrics (f.font bold italic)).charwidth a ∧
    0 < (standardMetrics (f.font bold italic)).charwidth a + (standardMetrics (f.font bold italic)).kerning (a, b) ∧
    0 ≤ (standardMetrics (f.font bold italic)).charwidth b + (standardMetrics (f.font bold italic)).kerning (a, b) := by
  by_cases h : f ∈ [helvetica, timesRoman]
  · exact usesTable_advance (textFonts_tables f h bold italic) a b
  · have : ∃ w : ℚ, 0 < w ∧ standardMetrics (f.font bold italic) = ⟨fun _ => w, fun _ => 0⟩ := by
      simp only [builtinTypefaces, List.mem_cons, List.not_mem_nil, or_false, not_or] at hf h
      rcases hf with rfl | rfl | rfl | rfl | rfl
      · exact absurd rfl h.1
      · exact absurd rfl h.2
      · cases bold <;> cases italic <;> exact ⟨600, by norm_num, rfl⟩
      · cases bold <;> cases italic <;> exact ⟨1000, by norm_num, rfl⟩
      · cases bold <;> cases italic <;> exact ⟨1000, by norm_num, rfl⟩
    obtain ⟨w, hw, e⟩ := this
    rw [e]
    simp [hw, hw.le]

/-! ### C67 -/

/-- C67 as it should be: in Helvetica, Times and Courier, every character is measured as the glyph that is shown for it. -/
def C67_Statement : Prop := ∀ f ∈ [helvetica, timesRoman, courier], ∀ bold italic (c d : Char), d.toNat = shownFor c.toNat →
  (standardMetrics (f.font bold italic)).charwidth c = (standardMetrics (f.font bold italic)).charwidth d

/-- A no-break space is measured as wide as a question mark. -/
theorem C67_counterexample : ¬ C67_Statement := by
  intro h
  have := h helvetica (by simp) false false (Char.ofNat 0xA0) ' ' (by decide +kernel)
  revert this
  show ¬ ((dictGet helveticaWidths 556 (Char.ofNat 0xA0) : ℕ) : ℚ) = ((dictGet helveticaWidths 556 ' ' : ℕ) : ℚ)
  rw [Nat.cast_inj]
  decide +kernel

/-- The characters for which it is not so: no-break space, soft hyphen, six accents and signs of WinAnsiEncoding, and characters that are not in WinAnsiEncoding but have a width of their own. -/
def wrongWidths : List Nat :=
  [0xA0, 0xAD, 0xA8, 0xAF, 0xB4, 0xB5, 0xB8, 0x2DC] ++
  [0x131, 0x141, 0x142, 0x2C7, 0x301, 0x303, 0x304, 0x306, 0x307, 0x308, 0x30A, 0x30B, 0x327, 0x328, 0x3BC, 0x2044, 0x2212, 0xFB01, 0xFB02]

theorem tables_encoded : ∀ t ∈ standardTables, (∀ e ∈ t.1, InWinAnsi e.1 ∨ e.1 ∈ wrongWidths) ∧ t.1.lookup 0x3F = some t.2.1 := by decide +kernel

/-- C67 for all other characters. -/
theorem C67_widths_partial (f : BuiltinTypeface) (hf : f ∈ [helvetica, timesRoman, courier]) (bold italic : Bool) (c d : Char) (hd : d.toNat = shownFor c.toNat)
    (hc : c.toNat ∉ wrongWidths) : (standardMetrics (f.font bold italic)).charwidth c = (standardMetrics (f.font bold italic)).charwidth d := by
  by_cases h : f ∈ [helvetica, timesRoman]
  · obtain ⟨t, ht, hm⟩ := textFonts_tables f h bold italic
    rw [(hm c c).1, (hm d d).1]
    congr 1
    rw [dictGet_eq, dictGet_eq, hd]
    by_cases hw : InWinAnsi c.toNat
    · have : shownFor c.toNat = c.toNat := by
        simp only [wrongWidths, List.cons_append, List.nil_append, List.mem_cons, List.not_mem_nil, or_false, not_or] at hc
        simp only [shownFor, hw, if_true]
        rw [if_neg hc.1, if_neg (by tauto), if_neg (by tauto), if_neg (by tauto), if_neg (by tauto), if_neg (by tauto), if_neg (by tauto), if_neg (by tauto)]
      rw [this]
    · have : shownFor c.toNat = 0x3F := by
        simp only [wrongWidths, List.cons_append, List.nil_append, List.mem_cons, List.not_mem_nil, or_false, not_or] at hc
        simp only [shownFor, hw, if_false]
        rw [if_neg hc.1, if_neg (by tauto), if_neg (by tauto), if_neg (by tauto), if_neg (by tauto), if_neg (by tauto), if_neg (by tauto), if_neg (by tauto)]
      obtain ⟨h1, h2⟩ := tables_encoded t ht
      rw [this, h2]
      cases hl : t.1.lookup c.toNat with
      | none => rfl
      | some v =>
        rcases h1 _ (mem_of_lookupEq hl) with h | h
        · exact absurd h hw
        · exact absurd h hc
  · have : f = courier := by
      simp only [List.mem_cons, List.not_mem_nil, or_false] at hf h
      tauto
    subst this
    cases bold <;> cases italic <;> rfl

/-- Most characters are not exceptions: the euro sign (in WinAnsiEncoding), and the Greek alpha, which is shown as a question mark. -/
example : '€'.toNat ∉ wrongWidths ∧ shownFor '€'.toNat = '€'.toNat ∧ 'α'.toNat ∉ wrongWidths ∧ shownFor 'α'.toNat = '?'.toNat := by decide +kernel

theorem published_tables : ∀ p ∈ [(helveticaWidths, 556, helveticaAscii), (helveticaBoldWidths, 611, helveticaBoldAscii), (timesWidths, 444, timesAscii), (timesBoldWidths, 500, timesBoldAscii),
    (timesItalicWidths, 500, timesItalicAscii), (timesBoldItalicWidths, 500, timesBoldItalicAscii)],
    ∀ e ∈ p.2.2.zipIdx 32, (p.1.lookup e.2).getD p.2.1 = e.1 := by decide +kernel

/-- C67. In every text font, the printable ASCII characters are measured with the widths that Adobe publishes. -/
theorem C67_published (f : BuiltinTypeface) (hf : f ∈ [helvetica, timesRoman, courier]) (bold italic : Bool) : ∃ widths, ((f.font bold italic).name, widths) ∈ publishedAscii ∧ widths.length = 95 ∧
    ∀ (c : Char) (n v : Nat), c.toNat = 32 + n → widths[n]? = some v → (standardMetrics (f.font bold italic)).charwidth c = v := by
  have table : ∀ {t d w}, (t, d, w) ∈ [(helveticaWidths, 556, helveticaAscii), (helveticaBoldWidths, 611, helveticaBoldAscii), (timesWidths, 444, timesAscii), (timesBoldWidths, 500, timesBoldAscii),
      (timesItalicWidths, 500, timesItalicAscii), (timesBoldItalicWidths, 500, timesBoldItalicAscii)] → ∀ (c : Char) (n v : Nat), c.toNat = 32 + n → w[n]? = some v →
      ((dictGet t d c : ℕ) : ℚ) = v := by
    intro t d w ht c n v hc hv
    have := published_tables _ ht (v, 32 + n) (List.mem_zipIdx_iff_le_and_getElem?_sub.2 ⟨by simp, by simpa using hv⟩)
    rw [dictGet_eq, hc]
    exact congrArg _ this
  simp only [List.mem_cons, List.not_mem_nil, or_false] at hf
  rcases hf with rfl | rfl | rfl <;> cases bold <;> cases italic
  · exact ⟨helveticaAscii, by decide +kernel, by decide +kernel, table (by simp)⟩
  · exact ⟨helveticaAscii, by decide +kernel, by decide +kernel, table (by simp)⟩
  · exact ⟨helveticaBoldAscii, by decide +kernel, by decide +kernel, table (by simp)⟩
  · exact ⟨helveticaBoldAscii, by decide +kernel, by decide +kernel, table (by simp)⟩
  · exact ⟨timesAscii, by decide +kernel, by decide +kernel, table (by simp)⟩
  · exact ⟨timesItalicAscii, by decide +kernel, by decide +kernel, table (by simp)⟩
  · exact ⟨timesBoldAscii, by decide +kernel, by decide +kernel, table (by simp)⟩
  · exact ⟨timesBoldItalicAscii, by decide +kernel, by decide +kernel, table (by simp)⟩
  all_goals
    refine ⟨List.replicate 95 600, by decide +kernel, by decide +kernel, fun c n v _ h => ?_⟩
    have : v = 600 := List.eq_of_mem_replicate (List.mem_of_getElem? h)
    subst this
    rfl

/-! ### C65 with the standard fonts -/

/-- C65 with the metrics of the standard fonts: nothing has to be assumed of them. -/
theorem C65_standard (compress : Bytes → Bytes) (w : World) (hb : w.builtin = standardMetrics) (hf : ∀ p, 0 ≤ (w.files p).metrics.charwidth '-' ∧
      ∀ c, 0 ≤ (w.files p).metrics.charwidth '-' + (w.files p).metrics.kerning (c, '-'))
    (hw : ∀ r, (w.env r).Ok) (s : StyleFull) (hs : s.Known) (alphabet : List Char)
    (hal : alphabet.length < 65534) (items : List DocItem) (hne : items ≠ []) (hk : ∀ it ∈ items, it.Known) (hp : ∀ it ∈ items, it.Plain s alphabet) (id : Bytes) :
    ∃ chunks, docWrite compress w.files (DocItem.render w s) id items = (chunks, true) := by
  refine C65_written compress w hw (fun r f => ?_) s hs alphabet hal items hne hk hp id
  show 0 ≤ (w.metrics r f).charwidth '-' ∧ ∀ c, 0 ≤ (w.metrics r f).charwidth '-' + (w.metrics r f).kerning (c, '-')
  cases f with
  | builtin g =>
    rw [World.metrics, hb]
    by_cases hg : ∃ t ∈ builtinTypefaces, ∃ b i, g.name = (t.font b i).name
    · obtain ⟨t, ht, b, i, e⟩ := hg
      have : standardMetrics g = standardMetrics (t.font b i) := by unfold standardMetrics; rw [e]
      rw [this]
      exact ⟨(C68_advance t ht b i '-' '-').1.le, fun c => (C68_advance t ht b i c '-').2.2⟩
    · have : standardMetrics g = ⟨fun _ => 600, fun _ => 0⟩ := by
        have hn : ∀ t ∈ builtinTypefaces, ∀ b i, g.name ≠ (t.font b i).name := fun t ht b i e => hg ⟨t, ht, b, i, e⟩
        have h1 := hn helvetica (by simp [builtinTypefaces])
        have h2 := hn timesRoman (by simp [builtinTypefaces])
        have h3 := hn symbol (by simp [builtinTypefaces]) false false
        have h4 := hn zapfDingbats (by simp [builtinTypefaces]) false false
        unfold standardMetrics
        split_ifs with a1 a2 a3 a4 a5 a6 a7 a8 a9
        · exact absurd a1 (h1 false false)
        · exact absurd a2 (h1 false true)
        · exact absurd a3 (h1 true false)
        · exact absurd a4 (h1 true true)
        · exact absurd a5 (h2 false false)
        · exact absurd a6 (h2 true false)
        · exact absurd a7 (h2 false true)
        · exact absurd a8 (h2 true true)
        · exact absurd a9 (not_or.2 ⟨h3, h4⟩)
        · rfl
      rw [this]
      norm_num
  | subset i =>
    rw [World.metrics]
    cases r.subsets[i]? with
    | none => simp
    | some e => exact hf _

/-- A world with the standard fonts (and the font files of the other examples) meets the hypotheses, and the document of the other examples can be written in it. -/
def standardWorld : World := ⟨standardMetrics, demoWorld.files, demoWorld.hyph, demoWorld.unicode⟩

example (id : Bytes) : ∃ chunks, docWrite (fun b => b) standardWorld.files (DocItem.render standardWorld demoStyle) id demoDocument = (chunks, true) :=
  C65_standard (fun b => b) standardWorld rfl (fun p => by simp [standardWorld, demoWorld, FontFile.metrics, demoEnv]) (fun _ => ⟨demoEnv_ok.cuts, demoEnv_ok.never⟩) demoStyle
    (by show _ ∈ _; decide +kernel) ['a', 'b', 'c', ' ', '\n'] (by decide) demoDocument (by simp [demoDocument]) demoDocument_known demoDocument_plain id

end Pdfje
