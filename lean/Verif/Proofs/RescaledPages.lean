import Verif.Proofs.RescaledShape
import Verif.Props.Moved
/-
A change of the unit of length and of colours, of operators and of pages.
-/

namespace Pdfje

variable (σ : Change)

/-- An operator of a page. -/
def PageOp.via : PageOp → PageOp
  | .moveTo x y => .moveTo (σ.factor * x) (σ.factor * y)
  | .lineTo x y => .lineTo (σ.factor * x) (σ.factor * y)
  | .curveTo x1 y1 x2 y2 x3 y3 => .curveTo (σ.factor * x1) (σ.factor * y1) (σ.factor * x2) (σ.factor * y2) (σ.factor * x3) (σ.factor * y3)
  | .rect x y w h => .rect (σ.factor * x) (σ.factor * y) (σ.factor * w) (σ.factor * h)
  | .fillColor c => .fillColor (σ.color c)
  | .strokeColor c => .strokeColor (σ.color c)
  | .paint p => .paint p
  | .text ops => .text (ops.map (TextOp.via σ))

/-! ### Bytes -/

theorem showItems_same (hσ : σ.font = id) (is : List ShowItem) : is.map (ShowItem.via σ) = is := by
  have : ShowItem.via σ = id := by
    funext i
    cases i <;> simp [ShowItem.via, hσ]
  rw [this, List.map_id]

theorem textOpBytes_via (hσ : σ.font = id) (op : TextOp) (r : Res) : ((op.via σ).bytes r).map (·.2) = (op.bytes r).map (·.2) := by
  cases op with
  | tf f z => simp only [TextOp.via, TextOp.bytes, hσ, id]; cases r.fontId f <;> rfl
  | tj is => rw [TextOp.via, showItems_same σ hσ]
  | _ => rfl

theorem textOpsBytes_via (hσ : σ.font = id) : ∀ (ops : List TextOp) (r : Res), (textOpsBytes (ops.map (TextOp.via σ)) r).map (·.2) = (textOpsBytes ops r).map (·.2)
  | [], _ => rfl
  | op :: ops, r => by
    have h1 := textOpBytes_via σ hσ op r
    rw [List.map_cons, textOpsBytes, textOpsBytes]
    cases hb : op.bytes r with
    | none => rw [hb] at h1; rw [Option.map_eq_none_iff.1 h1]
    | some x =>
      rw [hb] at h1
      obtain ⟨y, hy, hxy⟩ := Option.map_eq_some_iff.1 h1
      rw [hy]
      obtain ⟨y1, y2⟩ := y
      obtain ⟨x1, x2⟩ := x
      simp only at hxy
      subst hxy
      have h2 := textOpsBytes_via hσ ops y2
      simp only
      cases hc : textOpsBytes ops y2 with
      | none => rw [hc] at h2; rw [Option.map_eq_none_iff.1 h2]
      | some z =>
        rw [hc] at h2
        obtain ⟨u, hu, hzu⟩ := Option.map_eq_some_iff.1 h2
        rw [hu]
        simp only [Option.map_some, hzu]

theorem opBytes_via (hσ : σ.font = id) (op : PageOp) (r : Res) : ((op.via σ).bytes r).map (·.2) = (op.bytes r).map (·.2) := by
  cases op with
  | text ops =>
    have h := textOpsBytes_via σ hσ ops r
    simp only [PageOp.via, PageOp.bytes]
    cases hb : textOpsBytes ops r with
    | none => rw [hb] at h; rw [Option.map_eq_none_iff.1 h]
    | some x =>
      rw [hb] at h
      obtain ⟨y, hy, hxy⟩ := Option.map_eq_some_iff.1 h
      rw [hy]
      simp only [Option.map_some, hxy]
  | _ => rfl

theorem opsBytes_via (hσ : σ.font = id) : ∀ (ops : List PageOp) (r : Res), (opsBytes (ops.map (PageOp.via σ)) r).map (·.2) = (opsBytes ops r).map (·.2)
  | [], _ => rfl
  | op :: ops, r => by
    have h1 := opBytes_via σ hσ op r
    rw [List.map_cons, opsBytes, opsBytes]
    cases hb : op.bytes r with
    | none => rw [hb] at h1; rw [Option.map_eq_none_iff.1 h1]
    | some x =>
      rw [hb] at h1
      obtain ⟨y, hy, hxy⟩ := Option.map_eq_some_iff.1 h1
      rw [hy]
      obtain ⟨y1, y2⟩ := y
      obtain ⟨x1, x2⟩ := x
      simp only at hxy
      subst hxy
      have h2 := opsBytes_via hσ ops y2
      simp only
      cases hc : opsBytes ops y2 with
      | none => rw [hc] at h2; rw [Option.map_eq_none_iff.1 h2]
      | some z =>
        rw [hc] at h2
        obtain ⟨u, hu, hzu⟩ := Option.map_eq_some_iff.1 h2
        rw [hu]
        simp only [Option.map_some, hzu]

/-! ### Glyphs -/

/-- A glyph: with the new numbers of fonts, too. -/
def Glyph.viaC (g : Glyph) : Glyph := ⟨g.char, σ.font g.enc, g.font.map fun e => (σ.font e.1, σ.factor * e.2), σ.color g.color, σ.factor * g.x, σ.factor * g.y⟩

theorem viaC_change (τ : Rescale) : Glyph.viaC τ.change = Glyph.via τ := rfl

theorem viaC_same (hσ : σ.font = id) : Glyph.viaC σ = Glyph.via σ.toRescale := by
  funext g
  simp [Glyph.viaC, Glyph.via, hσ]

/-- The viewer. -/
def Viewer.via (v : Viewer) : Viewer :=
  ⟨v.font.map fun e => (σ.font e.1, σ.factor * e.2), σ.color v.color, σ.factor * v.lineX, σ.factor * v.lineY, σ.factor * v.x, σ.factor * v.leading⟩

/-- Widths by the old numbers. -/
abbrev oldW (W : FontRef → Char → ℚ) : FontRef → Char → ℚ := fun f => W (σ.font f)

theorem viewDist_via (v : Viewer) (a : ℚ) : (v.via σ).dist a = σ.factor * v.dist a := by
  unfold Viewer.dist Viewer.via
  cases v.font with
  | none => simp
  | some e => simp only [Option.map_some]; ring

theorem viewWidth_via (W : FontRef → Char → ℚ) (v : Viewer) (c : Char) : (v.via σ).charWidth W c = v.charWidth (oldW σ W) c := by
  unfold Viewer.charWidth Viewer.via
  cases v.font <;> rfl

theorem showText_via (W : FontRef → Char → ℚ) (f : FontRef) : ∀ (s : List Char) (v : Viewer),
    Viewer.showText W (σ.font f) s (v.via σ) = ((Viewer.showText (oldW σ W) f s v).1.map (Glyph.viaC σ), (Viewer.showText (oldW σ W) f s v).2.via σ)
  | [], _ => rfl
  | c :: s, v => by
    simp only [Viewer.showText, List.map_cons]
    have : ({ v.via σ with x := (v.via σ).x + (v.via σ).dist ((v.via σ).charWidth W c) } : Viewer) = ({ v with x := v.x + v.dist (v.charWidth (oldW σ W) c) } : Viewer).via σ := by
      rw [viewDist_via, viewWidth_via]
      simp only [Viewer.via, mul_add]
    rw [this, showText_via W f s]
    rfl

theorem show_via (W : FontRef → Char → ℚ) : ∀ (is : List ShowItem) (v : Viewer),
    Viewer.show W (is.map (ShowItem.via σ)) (v.via σ) = ((Viewer.show (oldW σ W) is v).1.map (Glyph.viaC σ), (Viewer.show (oldW σ W) is v).2.via σ)
  | [], _ => rfl
  | .adj a :: is, v => by
    simp only [List.map_cons, ShowItem.via, Viewer.show]
    have : ({ v.via σ with x := (v.via σ).x - (v.via σ).dist a } : Viewer) = ({ v with x := v.x - v.dist a } : Viewer).via σ := by
      rw [viewDist_via]
      simp only [Viewer.via, mul_sub]
    rw [this, show_via W is]
  | .txt f s :: is, v => by simp only [List.map_cons, ShowItem.via, Viewer.show, showText_via, show_via W is, List.map_append]

theorem viewStep_via (W : FontRef → Char → ℚ) (op : TextOp) (v : Viewer) : (v.via σ).step W (op.via σ) = ((v.step (oldW σ W) op).1.map (Glyph.viaC σ), (v.step (oldW σ W) op).2.via σ) := by
  cases op with
  | tj is => exact show_via σ W is v
  | _ => simp [TextOp.via, Viewer.step, Viewer.newLine, Viewer.via, mul_add]

theorem viewRun_via (W : FontRef → Char → ℚ) : ∀ (ops : List TextOp) (v : Viewer),
    Viewer.run W (ops.map (TextOp.via σ)) (v.via σ) = ((Viewer.run (oldW σ W) ops v).1.map (Glyph.viaC σ), (Viewer.run (oldW σ W) ops v).2.via σ)
  | [], _ => rfl
  | op :: ops, v => by simp only [List.map_cons, Viewer.run, viewStep_via, viewRun_via W ops, List.map_append]

theorem viewPage_via (W : FontRef → Char → ℚ) : ∀ (ops : List PageOp) (v : Viewer),
    Viewer.page W (ops.map (PageOp.via σ)) (v.via σ) = ((Viewer.page (oldW σ W) ops v).1.map (Glyph.viaC σ), (Viewer.page (oldW σ W) ops v).2.via σ)
  | [], _ => rfl
  | op :: ops, v => by
    cases op with
    | text l =>
      have : (v.via σ).beginText = v.beginText.via σ := by simp [Viewer.via, Viewer.beginText]
      simp only [List.map_cons, PageOp.via, Viewer.page, this, viewRun_via, viewPage_via W ops, List.map_append]
    | fillColor c => exact viewPage_via W ops { v with color := c }
    | _ => exact viewPage_via W ops v

/-! ### Shapes -/

/-- The graphics state. -/
def Gfx.via (g : Gfx) : Gfx := ⟨σ.color g.fill, σ.color g.stroke, g.path.map (Subpath.via σ)⟩

theorem segment_via (g : Gfx) (s : Seg) : (g.via σ).segment (s.via σ) = (g.segment s).map (Gfx.via σ) := by
  unfold Gfx.segment Gfx.via
  simp only [List.getLast?_map]
  cases g.path.getLast? with
  | none => rfl
  | some sp => simp [Subpath.via]

theorem closeLast_via (path : List Subpath) : closeLast (path.map (Subpath.via σ)) = (closeLast path).map (Subpath.via σ) := by
  unfold closeLast
  rw [List.getLast?_map]
  cases path.getLast? with
  | none => rfl
  | some sp => simp [Subpath.via]

theorem lastFill_via : ∀ (ops : List TextOp) (c : RGB), lastFill (σ.color c) (ops.map (TextOp.via σ)) = σ.color (lastFill c ops)
  | [], _ => rfl
  | op :: ops, c => by
    cases op with
    | rg c' => exact lastFill_via ops c'
    | _ => exact lastFill_via ops c

theorem gfxStep_via (op : PageOp) (g : Gfx) : (g.via σ).step (op.via σ) = (g.step op).map fun x => (x.1.map (Shape.via σ), x.2.via σ) := by
  cases op with
  | moveTo x y => simp [PageOp.via, Gfx.step, Gfx.via, Subpath.via, Rescale.pt]
  | lineTo x y =>
    have := segment_via σ g (.line (x, y))
    simp only [Seg.via, Rescale.pt] at this
    simp only [PageOp.via, Gfx.step, this, Option.map_map]
    rfl
  | curveTo x1 y1 x2 y2 x3 y3 =>
    have := segment_via σ g (.curve (x1, y1) (x2, y2) (x3, y3))
    simp only [Seg.via, Rescale.pt] at this
    simp only [PageOp.via, Gfx.step, this, Option.map_map]
    rfl
  | rect x y w h => simp [PageOp.via, Gfx.step, Gfx.via, Subpath.via, Seg.via, Rescale.pt, mul_add]
  | fillColor c => rfl
  | strokeColor c => rfl
  | paint p =>
    simp only [PageOp.via, Gfx.step, Gfx.via, List.map_eq_nil_iff]
    split
    · rfl
    · cases p <;> simp [Shape.via, closeLast_via]
  | text l =>
    simp only [PageOp.via, Gfx.step, Gfx.via, List.map_eq_nil_iff, lastFill_via]
    split <;> rfl

theorem gfxRun_via : ∀ (ops : List PageOp) (g : Gfx), Gfx.run (ops.map (PageOp.via σ)) (g.via σ) = (Gfx.run ops g).map fun x => (x.1.map (Shape.via σ), x.2.via σ)
  | [], _ => rfl
  | op :: ops, g => by
    simp only [List.map_cons, Gfx.run, gfxStep_via σ op g]
    cases g.step op with
    | none => rfl
    | some x =>
      simp only [Option.map_some, gfxRun_via ops]
      cases Gfx.run ops x.2 with
      | none => rfl
      | some y => simp

/-! ### Operators that set their colours before they use them -/

/-- What is shown does not depend on the colours at the beginning, and no path is left at the end. -/
structure SelfColored (ops : List PageOp) : Prop where
  glyphs : ∀ (W : FontRef → Char → ℚ) (v : Viewer) (c : RGB), ∃ c', Viewer.page W ops { v with color := c } = ((Viewer.page W ops v).1, { (Viewer.page W ops v).2 with color := c' })
  shapes : ∀ (g : Gfx) (c1 c2 : RGB), g.path = [] → ∃ s c3 c4 h, Gfx.run ops g = some (s, h) ∧ h.path = [] ∧
    Gfx.run ops { g with fill := c1, stroke := c2 } = some (s, { h with fill := c3, stroke := c4 })

theorem viewPage_append (W : FontRef → Char → ℚ) : ∀ (a b : List PageOp) (v : Viewer),
    Viewer.page W (a ++ b) v = ((Viewer.page W a v).1 ++ (Viewer.page W b (Viewer.page W a v).2).1, (Viewer.page W b (Viewer.page W a v).2).2)
  | [], _, _ => rfl
  | op :: a, b, v => by
    cases op with
    | text l => simp only [List.cons_append, Viewer.page, viewPage_append W a b, List.append_assoc]
    | fillColor c => exact viewPage_append W a b _
    | _ => exact viewPage_append W a b v

theorem gfxRun_append : ∀ (a b : List PageOp) (g : Gfx), Gfx.run (a ++ b) g =
    (Gfx.run a g).bind fun x => (Gfx.run b x.2).map fun y => (x.1 ++ y.1, y.2)
  | [], b, g => by simp [Gfx.run]
  | op :: a, b, g => by
    simp only [List.cons_append, Gfx.run]
    cases g.step op with
    | none => rfl
    | some x =>
      simp only [gfxRun_append a b]
      cases Gfx.run a x.2 with
      | none => rfl
      | some y =>
        simp only [Option.bind_some]
        cases Gfx.run b y.2 with
        | none => rfl
        | some z => simp

theorem SelfColored.nil : SelfColored [] := ⟨fun _ v c => ⟨c, rfl⟩, fun g c1 c2 h => ⟨[], c1, c2, g, rfl, h, rfl⟩⟩

theorem SelfColored.append {a b : List PageOp} (ha : SelfColored a) (hb : SelfColored b) : SelfColored (a ++ b) := by
  constructor
  · intro W v c
    obtain ⟨c1, h1⟩ := ha.glyphs W v c
    obtain ⟨c2, h2⟩ := hb.glyphs W (Viewer.page W a v).2 c1
    refine ⟨c2, ?_⟩
    rw [viewPage_append, h1, viewPage_append]
    simp only [h2]
  · intro g c1 c2 hg
    obtain ⟨s, c3, c4, h, e1, hp, e2⟩ := ha.shapes g c1 c2 hg
    obtain ⟨s', c5, c6, h', e3, hp', e4⟩ := hb.shapes h c3 c4 hp
    refine ⟨s ++ s', c5, c6, h', ?_, hp', ?_⟩
    · rw [gfxRun_append, e1]; simp [e3]
    · rw [gfxRun_append, e2]; simp [e4]

theorem SelfColored.flatMap {α : Type} (f : α → List PageOp) : ∀ l : List α, (∀ x ∈ l, SelfColored (f x)) → SelfColored (l.flatMap f)
  | [], _ => .nil
  | x :: l, h => by
    rw [List.flatMap_cons]
    exact (h x (by simp)).append (SelfColored.flatMap f l fun y hy => h y (by simp [hy]))

/-- A path that was made, and is then painted. -/
theorem SelfColored.path {a : List PageOp} (hg : ∀ W v, Viewer.page W a v = ([], v))
    (hs : ∃ p, p ≠ [] ∧ ∀ g : Gfx, g.path = [] → Gfx.run a g = some ([], { g with path := p })) (fill stroke : Option RGB) (close : Bool) :
    SelfColored (a ++ finish fill stroke close) := by
  constructor
  · intro W v c
    rw [viewPage_append, viewPage_append, hg, hg]
    cases fill with
    | none => cases stroke <;> exact ⟨c, rfl⟩
    | some f => cases stroke <;> exact ⟨f, rfl⟩
  · intro g c1 c2 hg0
    obtain ⟨p, hne, hs⟩ := hs
    have e := hs g hg0
    have e' := hs { g with fill := c1, stroke := c2 } hg0
    rw [gfxRun_append, gfxRun_append, e, e']
    simp only [Option.bind_some]
    cases fill with
    | none =>
      cases stroke with
      | none => exact ⟨[], c1, c2, { g with path := [] }, by simp [finish, Gfx.run, Gfx.step, hne], rfl, by simp [finish, Gfx.run, Gfx.step, hne]⟩
      | some s => cases close <;> exact ⟨_, c1, s, { g with stroke := s }, by simp [finish, Gfx.run, Gfx.step, hne, hg0]; rfl, hg0, by simp [finish, Gfx.run, Gfx.step, hne, hg0]⟩
    | some f =>
      cases stroke with
      | none => cases close <;> exact ⟨_, f, c2, { g with fill := f }, by simp [finish, Gfx.run, Gfx.step, hne, hg0]; rfl, hg0, by simp [finish, Gfx.run, Gfx.step, hne, hg0]⟩
      | some s => cases close <;> exact ⟨_, f, s, { g with fill := f, stroke := s }, by simp [finish, Gfx.run, Gfx.step, hne, hg0]; rfl, hg0, by simp [finish, Gfx.run, Gfx.step, hne, hg0]⟩

/-- Text that starts with a colour. -/
theorem SelfColored.text (x y : ℚ) (f : FontRef) (z : ℚ) (c : RGB) (rest : List TextOp) : SelfColored [.text (.td x y :: .tf f z :: .rg c :: rest)] := by
  constructor
  · intro W v c0
    exact ⟨(Viewer.page W [.text (.td x y :: .tf f z :: .rg c :: rest)] v).2.color, rfl⟩
  · intro g c1 c2 hg
    refine ⟨[], lastFill c rest, c2, { g with fill := lastFill c rest }, ?_, hg, ?_⟩ <;> simp [Gfx.run, Gfx.step, hg, lastFill]

/-- Text operators that show nothing. -/
def TextOp.quiet : TextOp → Bool
  | .tj is => is.isEmpty
  | .rg _ => false
  | _ => true

theorem quiet_run (W : FontRef → Char → ℚ) : ∀ (ops : List TextOp), ops.all TextOp.quiet = true → ∀ (v : Viewer) (c : RGB),
    (Viewer.run W ops v).1 = [] ∧ Viewer.run W ops { v with color := c } = ([], { (Viewer.run W ops v).2 with color := c })
  | [], _, _, _ => ⟨rfl, rfl⟩
  | op :: ops, h, v, c => by
    rw [List.all_cons, Bool.and_eq_true] at h
    cases op with
    | tj is =>
      cases is with
      | nil => exact quiet_run W ops h.2 _ c
      | cons i is => simp [TextOp.quiet] at h
    | rg c => simp [TextOp.quiet] at h
    | _ => exact quiet_run W ops h.2 _ c

theorem quiet_fill : ∀ (ops : List TextOp), ops.all TextOp.quiet = true → ∀ c, lastFill c ops = c
  | [], _, _ => rfl
  | op :: ops, h, c => by
    rw [List.all_cons, Bool.and_eq_true] at h
    cases op with
    | rg c => simp [TextOp.quiet] at h
    | _ => exact quiet_fill ops h.2 c

theorem SelfColored.quiet (ops : List TextOp) (h : ops.all TextOp.quiet = true) : SelfColored [.text ops] := by
  constructor
  · intro W v c
    obtain ⟨h1, -⟩ := quiet_run W ops h v.beginText c
    have h2 := (quiet_run W ops h v.beginText c).2
    refine ⟨c, ?_⟩
    simp only [Viewer.page, List.append_nil, h1]
    exact h2
  · intro g c1 c2 hg
    exact ⟨[], c1, c2, { g with path := [] }, by simp [Gfx.run, Gfx.step, hg, quiet_fill ops h], rfl, by simp [Gfx.run, Gfx.step, hg, quiet_fill ops h]⟩

/-- Pages whose operators set their colours. -/
theorem rescaled_ops {ops : List PageOp} (h : SelfColored (ops.map (PageOp.via σ))) :
    (∀ W, pageGlyphs W (ops.map (PageOp.via σ)) = (pageGlyphs (oldW σ W) ops).map (Glyph.viaC σ)) ∧
    pageShapes (ops.map (PageOp.via σ)) = (pageShapes ops).map fun l => l.map (Shape.via σ) := by
  constructor
  · intro W
    have h1 := viewPage_via σ W ops .initial
    obtain ⟨c, hc⟩ := h.glyphs W .initial (σ.color ⟨0, 0, 0⟩)
    have hi : Viewer.via σ .initial = { Viewer.initial with color := σ.color ⟨0, 0, 0⟩ } := by simp [Viewer.via, Viewer.initial]
    rw [hi, hc] at h1
    exact congrArg Prod.fst h1
  · have h1 := gfxRun_via σ ops .initial
    obtain ⟨s, c3, c4, g, e1, -, e2⟩ := h.shapes .initial (σ.color ⟨0, 0, 0⟩) (σ.color ⟨0, 0, 0⟩) rfl
    have hi : Gfx.via σ .initial = { Gfx.initial with fill := σ.color ⟨0, 0, 0⟩, stroke := σ.color ⟨0, 0, 0⟩ } := rfl
    rw [hi, e2] at h1
    unfold pageShapes
    rw [e1]
    cases hr : Gfx.run ops .initial with
    | none => rw [hr] at h1; simp at h1
    | some x =>
      rw [hr] at h1
      simp only [Option.map_some, Option.some.injEq, Prod.mk.injEq] at h1 ⊢
      exact h1.1

/-! ### Everything that is written sets its colours -/

theorem encodeWords_nil (ls : List RLine) (h : ∀ l ∈ ls, l.cmd = .noop ∧ l.words = []) : ∀ l ∈ ls, l.ops.all TextOp.quiet = true := by
  intro l hl
  obtain ⟨h1, h2⟩ := h l hl
  simp [RLine.ops, h1, h2, Command.ops, encodeWords, TextOp.quiet]

theorem renderLines_quiet (align : Align) (ls : List RLine) (lead prev : ℚ) (h : ∀ l ∈ ls, l.ops.all TextOp.quiet = true) : (renderLines align ls lead prev).all TextOp.quiet = true := by
  have hl : (renderLeft ls lead).all TextOp.quiet = true := by
    rw [renderLeft, List.all_cons, Bool.and_eq_true]
    refine ⟨rfl, ?_⟩
    rw [List.all_flatMap, List.all_eq_true]
    intro l hl
    rw [List.all_cons, h l hl]
    rfl
  have hc : ∀ (ls : List RLine) (prev : ℚ), (∀ l ∈ ls, l.ops.all TextOp.quiet = true) → (renderCentered lead ls prev).all TextOp.quiet = true := by
    intro ls
    induction ls with
    | nil => intro _ _; rfl
    | cons l ls ih =>
      intro prev h
      rw [renderCentered, List.cons_append, List.all_cons, List.all_append, h l (by simp), ih l.width fun x hx => h x (by simp [hx])]
      rfl
  have hr : ∀ (ls : List RLine) (prev : ℚ), (∀ l ∈ ls, l.ops.all TextOp.quiet = true) → (renderRight lead ls prev).all TextOp.quiet = true := by
    intro ls
    induction ls with
    | nil => intro _ _; rfl
    | cons l ls ih =>
      intro prev h
      rw [renderRight, List.cons_append, List.all_cons, List.all_append, h l (by simp), ih l.width fun x hx => h x (by simp [hx])]
      rfl
  cases align
  · exact hl
  · exact hc ls prev h
  · exact hr ls prev h
  · exact hl

theorem shapedText_self (t : ShapedText) (pos : ℚ × ℚ) (width : ℚ) : SelfColored [t.render pos width] := by
  unfold ShapedText.render renderText
  cases hp : t.preState with
  | some st => exact SelfColored.text _ _ _ _ _ _
  | none =>
    refine SelfColored.quiet _ ?_
    have hw : t.lines.flatMap (·.words) = [] := by
      unfold ShapedText.preState at hp
      cases hf : t.lines.flatMap (·.words) with
      | nil => rfl
      | cons w ws => rw [hf] at hp; simp at hp
    have : ∀ l ∈ t.lines.map TLine.toR, l.ops.all TextOp.quiet = true := by
      apply encodeWords_nil
      intro l hl
      obtain ⟨x, hx, rfl⟩ := List.mem_map.1 hl
      exact ⟨rfl, (List.flatMap_eq_nil_iff.1 hw) x hx⟩
    change (TextOp.td _ _ :: renderLines _ _ _ _).all TextOp.quiet = true
    rw [List.all_cons, renderLines_quiet _ _ _ _ this]
    rfl

theorem lines_self : ∀ (ps : List PointLike) (q : List Subpath), q ≠ [] → ∃ p, p ≠ [] ∧
    ∀ g : Gfx, g.path = q → Gfx.run (ps.map fun x => PageOp.lineTo x.val.1 x.val.2) g = some ([], { g with path := p })
  | [], q, hq => ⟨q, hq, fun g hg => by simp [Gfx.run, ← hg]⟩
  | x :: ps, q, hq => by
    obtain ⟨p, hp, h⟩ := lines_self ps (q.dropLast ++ [{ q.getLast hq with segs := (q.getLast hq).segs ++ [.line x.val] }]) (by simp)
    refine ⟨p, hp, fun g hg => ?_⟩
    subst hg
    have := h { g with path := g.path.dropLast ++ [{ g.path.getLast hq with segs := (g.path.getLast hq).segs ++ [.line x.val] }] } rfl
    simp only [List.map_cons, Gfx.run, Gfx.step, Gfx.segment, List.getLast?_eq_getLast_of_ne_nil hq, Option.map_some, this, List.nil_append]

theorem linesPage : ∀ (ps : List PointLike) (W : FontRef → Char → ℚ) (v : Viewer), Viewer.page W (ps.map fun x => PageOp.lineTo x.val.1 x.val.2) v = ([], v)
  | [], _, _ => rfl
  | _ :: ps, W, v => linesPage ps W v

theorem ellipse_self (c : ℚ × ℚ) (w h : ℚ) (fill stroke : Option RGB) : SelfColored (ellipseOps c w h fill stroke) := by
  unfold ellipseOps
  refine SelfColored.path (fun _ _ => rfl) ⟨_, ?_, fun g hg => by simp only [Gfx.run, Gfx.step, Gfx.segment, hg]; rfl⟩ _ _ _
  simp

theorem render_self (w : World) (s : StyleFull) (r : Res) (x : Drawing) (ops : List PageOp) (h : (x.render w s r).1 = some ops) : SelfColored ops := by
  cases x with
  | line a b stroke =>
    cases h
    exact SelfColored.path (a := [.moveTo a.1 a.2, .lineTo b.1 b.2]) (fun _ _ => rfl) ⟨[⟨a, [.line b], false⟩], by simp, fun g hg => by simp [Gfx.run, Gfx.step, Gfx.segment, hg]⟩ none stroke false
  | rect o wd ht fill stroke =>
    cases h
    exact SelfColored.path (a := [.rect o.1 o.2 wd ht]) (fun _ _ => rfl) ⟨[⟨o, [.line (o.1 + wd, o.2), .line (o.1 + wd, o.2 + ht), .line (o.1, o.2 + ht)], true⟩], by simp, fun g hg => by simp [Gfx.run, Gfx.step, hg]⟩ fill stroke false
  | ellipse c wd ht fill stroke => cases h; exact ellipse_self _ _ _ _ _
  | circle c rad fill stroke => cases h; exact ellipse_self _ _ _ _ _
  | polyline ps close fill stroke =>
    cases ps with
    | nil => cases h; exact .nil
    | cons p ps =>
      cases p with
      | xy p => simp [Drawing.render, polylineOps] at h
      | tuple p =>
        cases h
        obtain ⟨q, hq, hl⟩ := lines_self ps [⟨p, [], false⟩] (by simp)
        refine SelfColored.path (a := .moveTo p.1 p.2 :: ps.map fun (x : PointLike) => PageOp.lineTo x.val.1 x.val.2) (fun W v => linesPage ps W v) ⟨q, hq, fun g hg => ?_⟩ fill stroke close
        have := hl { g with path := [⟨p, [], false⟩] } rfl
        simp only [Gfx.run, Gfx.step, hg, List.nil_append, this]
  | text loc content style align =>
    simp only [Drawing.render, textOps, Option.map_eq_some_iff] at h
    obtain ⟨ls, -, rfl⟩ := h
    exact SelfColored.text _ _ _ _ _ _

theorem column_self (c : ColumnFill) : SelfColored c.ops := by
  unfold ColumnFill.ops
  refine SelfColored.flatMap _ _ fun e _ => ?_
  cases e.2 with
  | text t => exact shapedText_self t _ _
  | rule a b col ht =>
    exact SelfColored.path (a := [.moveTo a.1 a.2, .lineTo b.1 b.2]) (fun _ _ => rfl) ⟨[⟨a, [.line b], false⟩], by simp, fun g hg => by simp [Gfx.run, Gfx.step, Gfx.segment, hg]⟩ none (some col) false

theorem drawings_self (w : World) (s : StyleFull) : ∀ (ds : List Drawing) (r : Res) (x : List PageOp × Bytes), (drawingsRun w s ds r).1 = some x → SelfColored x.1
  | [], r, x, h => by cases h; exact .nil
  | d :: ds, r, x, h => by
    rw [drawingsRun] at h
    obtain ⟨o, ho⟩ : ∃ o, d.render w s r = o := ⟨_, rfl⟩
    rw [ho] at h
    obtain ⟨a, r1⟩ := o
    cases a with
    | none => simp at h
    | some ops =>
      simp only at h
      cases hb : opsBytes ops r1 with
      | none => rw [hb] at h; simp at h
      | some y =>
        rw [hb] at h
        obtain ⟨b, r2⟩ := y
        simp only at h
        obtain ⟨q, hq⟩ : ∃ o, drawingsRun w s ds r2 = o := ⟨_, rfl⟩
        rw [hq] at h
        obtain ⟨z, r3⟩ := q
        cases z with
        | none => simp at h
        | some z =>
          simp only [Option.some.injEq] at h
          subst h
          exact (render_self w s r d ops (by rw [ho])).append (drawings_self w s ds r2 z (by rw [hq]))

theorem filled_self (w : World) (s : StyleFull) (p : Filled) (r : Res) (x : List PageOp × Bytes) (h : (p.run w s r).1 = some x) : SelfColored x.1 := by
  rw [Filled.run] at h
  obtain ⟨o, ho⟩ : ∃ o, drawingsRun w s p.base.content r = o := ⟨_, rfl⟩
  rw [ho] at h
  obtain ⟨a, r1⟩ := o
  cases a with
  | none => simp at h
  | some z =>
    obtain ⟨ops, b⟩ := z
    simp only at h
    cases hb : opsBytes (p.cols.flatMap ColumnFill.ops) r1 with
    | none => rw [hb] at h; simp at h
    | some y =>
      rw [hb] at h
      simp only [Option.some.injEq] at h
      subst h
      exact (drawings_self w s _ r _ (by rw [ho])).append (SelfColored.flatMap _ _ fun c _ => column_self c)

/-! ### Text -/

theorem rlineOps_via (cmd : Command) (ws : List WordLike) (wd : ℚ) (wd' : ℚ) : (⟨cmd.via σ, ws.map (WordLike.via σ), wd'⟩ : RLine).ops = (⟨cmd, ws, wd⟩ : RLine).ops.map (TextOp.via σ) := by
  have h := encodeWords_via σ ws []
  rw [List.map_nil] at h
  simp [RLine.ops, commandOps_via, h]

/-- A line. -/
def RLine.via (l : RLine) : RLine := ⟨l.cmd.via σ, l.words.map (WordLike.via σ), σ.factor * l.width⟩

theorem lineOps_via (l : RLine) : (l.via σ).ops = l.ops.map (TextOp.via σ) := rlineOps_via σ l.cmd l.words l.width _

theorem renderLines_via (align : Align) (ls : List RLine) (lead prev : ℚ) :
    renderLines align (ls.map (RLine.via σ)) (σ.factor * lead) (σ.factor * prev) = (renderLines align ls lead prev).map (TextOp.via σ) := by
  have hl : renderLeft (ls.map (RLine.via σ)) (σ.factor * lead) = (renderLeft ls lead).map (TextOp.via σ) := by
    simp only [renderLeft, List.map_cons, TextOp.via, List.flatMap_map, List.map_flatMap, lineOps_via]
  have hc : ∀ (ls : List RLine) (prev : ℚ), renderCentered (σ.factor * lead) (ls.map (RLine.via σ)) (σ.factor * prev) = (renderCentered lead ls prev).map (TextOp.via σ) := by
    intro ls
    induction ls with
    | nil => intro _; rfl
    | cons l ls ih =>
      intro prev
      rw [List.map_cons, renderCentered, renderCentered, show (l.via σ).width = σ.factor * l.width from rfl, ih, lineOps_via]
      simp only [List.cons_append, List.map_cons, List.map_append, TextOp.via, List.cons.injEq, and_true, TextOp.tdl.injEq]
      exact ⟨by ring, by ring⟩
  have hr : ∀ (ls : List RLine) (prev : ℚ), renderRight (σ.factor * lead) (ls.map (RLine.via σ)) (σ.factor * prev) = (renderRight lead ls prev).map (TextOp.via σ) := by
    intro ls
    induction ls with
    | nil => intro _; rfl
    | cons l ls ih =>
      intro prev
      rw [List.map_cons, renderRight, renderRight, show (l.via σ).width = σ.factor * l.width from rfl, ih, lineOps_via]
      simp only [List.cons_append, List.map_cons, List.map_append, TextOp.via, List.cons.injEq, and_true, TextOp.tdl.injEq]
      exact ⟨by ring, by ring⟩
  cases align
  · exact hl
  · exact hc ls prev
  · exact hr ls prev
  · exact hl

theorem renderText_via (pos : ℚ × ℚ) (st : Option State) (prev : ℚ) (ls : List RLine) (lead : ℚ) (align : Align) :
    renderText (σ.pt pos) (st.map (State.via σ)) (σ.factor * prev) (ls.map (RLine.via σ)) (σ.factor * lead) align = (renderText pos st prev ls lead align).via σ := by
  simp only [renderText, PageOp.via, renderLines_via, List.map_cons, List.map_append, TextOp.via, Rescale.pt]
  cases st with
  | none => rfl
  | some s => simp only [Option.map_some, stateOps_via]

theorem preState_via (t : ShapedText) : (t.via σ).preState = t.preState.map (State.via σ) := by
  unfold ShapedText.preState
  have : (t.via σ).lines.flatMap (·.words) = (t.lines.flatMap (·.words)).map (WordLike.via σ) := by
    simp only [ShapedText.via, List.flatMap_map, List.map_flatMap, TLine.via]
  rw [this, List.head?_map, Option.map_map, Option.map_map]
  congr 1
  funext w
  exact wlState_via σ w

theorem endState_via (t : ShapedText) : (t.via σ).endState = t.endState.map (State.via σ) := by
  unfold ShapedText.endState
  have : (t.via σ).lines.flatMap (·.words) = (t.lines.flatMap (·.words)).map (WordLike.via σ) := by
    simp only [ShapedText.via, List.flatMap_map, List.map_flatMap, TLine.via]
  rw [this, List.getLast?_map, Option.map_map, Option.map_map]
  congr 1
  funext w
  exact wlState_via σ w

theorem shapedRender_via (t : ShapedText) (pos : ℚ × ℚ) (width : ℚ) : (t.via σ).render (σ.pt pos) (σ.factor * width) = (t.render pos width).via σ := by
  unfold ShapedText.render
  rw [preState_via, ← renderText_via]
  congr 1
  simp [ShapedText.via, TLine.toR, TLine.via, RLine.via, Command.via]

theorem intoTextLines_via (env : Env) : ∀ (ps : List (List Passage)) (st : State),
    intoTextLines (env.via σ) (ps.map fun g => g.map (Passage.via σ)) (st.via σ) = (intoTextLines env ps st).map fun l => l.map (RLine.via σ)
  | [], _ => rfl
  | g :: ps, st => by
    rw [List.map_cons, intoTextLines, intoTextLines, intoWords_via]
    rcases intoWords env g st with _ | ⟨cmd, ws⟩
    · rfl
    · simp only [Option.map_some, List.getLast?_map]
      have hsum : ((ws.map (WordLike.via σ)).map WordLike.width).sum = σ.factor * (ws.map WordLike.width).sum := by
        induction ws with
        | nil => simp
        | cons w ws ih => simp only [List.map_cons, List.sum_cons, wlWidth_via, mul_add, ih]
      rw [hsum]
      cases ws.getLast? with
      | none =>
        simp only [Option.map_none, intoTextLines_via env ps, Option.map_map]
        rfl
      | some w =>
        simp only [Option.map_some, wlState_via, intoTextLines_via env ps, Option.map_map]
        rfl

theorem Env.via_id (hσ : σ.font = id) (env : Env) : env.via σ = env := by
  have : (env.via σ).metrics = env.metrics := by
    funext f
    have h := metrics_via σ env f
    rwa [hσ] at h
  cases env
  simp only [Env.via] at this ⊢
  simp only [this]

theorem intoTextLines_same (hσ : σ.font = id) (env : Env) (ps : List (List Passage)) (st : State) :
    intoTextLines env (ps.map fun g => g.map (Passage.via σ)) (st.via σ) = (intoTextLines env ps st).map fun l => l.map (RLine.via σ) := by
  rw [← intoTextLines_via, Env.via_id σ hσ]

theorem textOps_via (hσ : σ.font = id) (w : World) (loc : ℚ × ℚ) (content : List Item) (style : Style) (align : Align) (s : StyleFull) (r : Res) :
    textOps w (σ.pt loc) (itemsVia σ content) (style.via σ) align (s.via σ) r =
      ((textOps w loc content style align s r).1.map fun l => l.map (PageOp.via σ), (textOps w loc content style align s r).2) := by
  unfold textOps
  have h := flattenSpan_via σ hσ style s [] content (s.asState r).2
  simp only [List.map_nil] at h
  simp only [asState_via σ hσ, h, splitlines_via, intoTextLines_same σ hσ, maxLead_via, Prod.mk.injEq, and_true, Option.map_map]
  congr 1
  funext ls
  simp only [Function.comp, List.map_cons, List.map_nil, ← renderText_via, Option.map_some, mul_zero]

theorem finish_via (fill stroke : Option RGB) (close : Bool) : finish (fill.map σ.color) (stroke.map σ.color) close = (finish fill stroke close).map (PageOp.via σ) := by
  cases fill <;> cases stroke <;> rfl

theorem ellipseOps_via (c : ℚ × ℚ) (w h : ℚ) (fill stroke : Option RGB) :
    ellipseOps (σ.pt c) (σ.factor * w) (σ.factor * h) (fill.map σ.color) (stroke.map σ.color) = (ellipseOps c w h fill stroke).map (PageOp.via σ) := by
  simp only [ellipseOps, finish_via, List.map_append, List.map_cons, List.map_nil, PageOp.via, Rescale.pt, List.append_cancel_right_eq, List.cons.injEq, PageOp.moveTo.injEq,
    PageOp.curveTo.injEq, and_true]
  refine ⟨⟨?_, ?_⟩, ⟨?_, ?_, ?_, ?_, ?_, ?_⟩, ⟨?_, ?_, ?_, ?_, ?_, ?_⟩, ⟨?_, ?_, ?_, ?_, ?_, ?_⟩, ⟨?_, ?_, ?_, ?_, ?_, ?_⟩⟩ <;> ring

theorem render_via (hσ : σ.font = id) (w : World) (s : StyleFull) (r : Res) (x : Drawing) :
    (x.via σ).render w (s.via σ) r = ((x.render w s r).1.map fun l => l.map (PageOp.via σ), (x.render w s r).2) := by
  cases x with
  | line a b stroke =>
    simp only [Drawing.via, Drawing.render]
    have := finish_via σ none stroke false
    simp only [Option.map_none] at this
    simp [this, PageOp.via, Rescale.pt]
  | rect o wd ht fill stroke => simp [Drawing.via, Drawing.render, finish_via, PageOp.via, Rescale.pt]
  | ellipse c wd ht fill stroke => simp only [Drawing.via, Drawing.render, ellipseOps_via, Option.map_some]
  | circle c rad fill stroke => simp only [Drawing.via, Drawing.render, mul_assoc, ellipseOps_via, Option.map_some]
  | polyline ps close fill stroke =>
    cases ps with
    | nil => rfl
    | cons p ps =>
      cases p with
      | xy p => rfl
      | tuple p =>
        simp only [Drawing.via, Drawing.render, polylineOps, PointLike.via, finish_via, List.map_cons, List.map_append, PageOp.via, Rescale.pt, Option.map_some, List.map_map,
          List.cons_append, Prod.mk.injEq, and_true, Option.some.injEq, List.cons.injEq, true_and, List.append_cancel_right_eq]
        apply List.map_congr_left
        intro q _
        cases q <;> rfl
  | text loc content style align => exact textOps_via σ hσ w loc content style align s r

/-! ### Columns -/

/-- What is placed in columns. -/
def Shaped.via : Shaped → Shaped
  | .text t => .text (t.via σ)
  | .rule a b c h => .rule (σ.pt a) (σ.pt b) (σ.color c) (σ.factor * h)

@[inherit_doc Shaped.via] def ColumnFill.via (c : ColumnFill) : ColumnFill := ⟨c.box.via σ, c.blocks.map fun e => (σ.pt e.1, e.2.via σ), σ.factor * c.heightFree⟩

theorem cursor_via (c : ColumnFill) : (c.via σ).cursor = σ.pt c.cursor := by
  simp [ColumnFill.cursor, ColumnFill.via, Column.via, Rescale.pt, mul_add]

theorem shapedHeight_via (s : Shaped) : (s.via σ).height = σ.factor * s.height := by cases s <;> rfl

theorem columnAdd_via (c : ColumnFill) (s : Shaped) : (c.via σ).add (s.via σ) = (c.add s).via σ := by
  rw [ColumnFill.add, cursor_via, shapedHeight_via]
  simp [ColumnFill.add, ColumnFill.via, mul_sub]

theorem columnOps_via (c : ColumnFill) : (c.via σ).ops = c.ops.map (PageOp.via σ) := by
  unfold ColumnFill.ops
  simp only [ColumnFill.via, List.flatMap_map, List.map_flatMap]
  congr 1
  funext e
  cases e.2 with
  | text t =>
    have := shapedRender_via σ t e.1 c.box.width
    simp [Shaped.via, Shaped.render, Column.via, this]
  | rule a b col h => rfl

theorem addChunks_via : ∀ (ts : List ShapedText) (cs : Nat → ColumnFill), addChunks (ts.map (ShapedText.via σ)) (fun i => (cs i).via σ) = (addChunks ts cs).map (ColumnFill.via σ)
  | [], _ => rfl
  | t :: ts, cs => by
    rw [List.map_cons, addChunks, addChunks, List.map_cons, addChunks_via ts fun n => cs (n + 1)]
    congr 1
    exact columnAdd_via σ (cs 0) (.text t)

theorem chunksState_via : ∀ (ts : List ShapedText) (st : State), chunksState (ts.map (ShapedText.via σ)) (st.via σ) = (chunksState ts st).via σ
  | [], _ => rfl
  | t :: ts, st => by
    rw [List.map_cons, chunksState, chunksState, endState_via]
    cases t.endState <;> exact chunksState_via ts _

theorem shape_via (p : Paragraph) (env : Env) (cols : Cols) (lead : ℚ) (ws : List WordLike) (ae : Bool) :
    (p.via σ).shape (env.via σ) (colsVia σ cols) (σ.factor * lead) (ws.map (WordLike.via σ)) ae = (p.shape env cols lead ws ae).map fun l => l.map (ShapedText.via σ) := by
  unfold Paragraph.shape
  rw [show (p.via σ).optimal = p.optimal from rfl, show (p.via σ).avoidOrphans = p.avoidOrphans from rfl, show (p.via σ).align = p.align from rfl]
  cases p.optimal with
  | some o => exact optimumShape_via σ env cols lead _ _ o ws ae
  | none => exact firstfitShape_via σ env cols lead _ _ ws ae

theorem fillParagraph_via (p : Paragraph) (env : Env) (txt : List Passage) (cs : Nat → ColumnFill) (st : State) (lead : ℚ) :
    fillParagraph (p.via σ) (env.via σ) (txt.map (Passage.via σ)) (fun i => (cs i).via σ) (st.via σ) (σ.factor * lead) =
      (fillParagraph p env txt cs st lead).map fun x => (x.1.map (ColumnFill.via σ), x.2.via σ) := by
  unfold fillParagraph
  rw [intoWords_via]
  rcases intoWords env txt st with _ | ⟨cmd, ws⟩
  · rfl
  · have he : ((cs 0).via σ).blocks.isEmpty = (cs 0).blocks.isEmpty := by simp [ColumnFill.via]
    have hc : (fun i => (((cs i).via σ).box.width, ((cs i).via σ).heightFree)) = colsVia σ fun i => ((cs i).box.width, (cs i).heightFree) := rfl
    simp only [Option.map_some, he, hc, show (p.via σ).indent = σ.factor * p.indent from rfl, indentFirst_via, shape_via, Option.map_map, apply_via]
    congr 1
    funext chunks
    simp only [Function.comp, addChunks_via, chunksState_via]

theorem consStream_via (c : ColumnFill) (cs : Nat → ColumnFill) : consStream (c.via σ) (fun n => (cs n).via σ) = fun n => (consStream c cs n).via σ := by
  funext n
  cases n <;> rfl

theorem paragraphLoop_via (p : Paragraph) (env : Env) (lead : ℚ) : ∀ (txts : List (List Passage)) (cs : Nat → ColumnFill) (st : State),
    paragraphLoop (p.via σ) (env.via σ) (σ.factor * lead) (txts.map fun g => g.map (Passage.via σ)) (fun i => (cs i).via σ) (st.via σ) =
      (paragraphLoop p env lead txts cs st).map fun x => x.map (ColumnFill.via σ)
  | [], _, _ => rfl
  | txt :: txts, cs, st => by
    rw [List.map_cons, paragraphLoop, paragraphLoop, fillParagraph_via]
    cases fillParagraph p env txt cs st lead with
    | none => rfl
    | some x =>
      obtain ⟨done, st'⟩ := x
      simp only [Option.map_some, List.getLast?_map, List.length_map]
      cases done.getLast? with
      | none => rfl
      | some col =>
        simp only [Option.map_some, consStream_via σ col fun n => cs (n + done.length)]
        rw [paragraphLoop_via p env lead txts, Option.map_map, Option.map_map]
        congr 1
        funext l
        simp

theorem block_via (hσ : σ.font = id) (b : Block) (w : World) (r : Res) (style : StyleFull) (cs : Nat → ColumnFill) :
    (b.via σ).intoColumns w r (style.via σ) (fun i => (cs i).via σ) = ((b.intoColumns w r style cs).1.map fun x => x.map (ColumnFill.via σ), (b.intoColumns w r style cs).2) := by
  cases b with
  | paragraph p =>
    simp only [Block.via, Block.intoColumns, Paragraph.intoColumns]
    have h := flattenSpan_via σ hσ p.style (style.or p.style) [] p.content ((style.or p.style).asState r).2
    simp only [List.map_nil] at h
    rw [show (p.via σ).style = p.style.via σ from rfl, show (p.via σ).content = itemsVia σ p.content from rfl, or_via]
    have hp : ∀ env lead txts cs st, paragraphLoop (p.via σ) env (σ.factor * lead) (txts.map fun g => g.map (Passage.via σ)) (fun i => (cs i).via σ) (st.via σ) =
        (paragraphLoop p env lead txts cs st).map fun x => x.map (ColumnFill.via σ) := by
      intro env lead txts cs st
      rw [← paragraphLoop_via, Env.via_id σ hσ]
    simp only [asState_via σ hσ, h, splitlines_via, maxLead_via, hp]
  | rule x =>
    have hs : ∀ c : ColumnFill, Rule.shaped ⟨σ.color x.color, x.margin.via σ⟩ (c.via σ) = (x.shaped c).via σ := by
      intro c
      simp [Rule.shaped, Shaped.via, ColumnFill.via, Column.via, Sides.via, Rescale.pt, mul_add, mul_sub]
    simp only [Block.via, Block.intoColumns, Rule.intoColumns, hs, columnAdd_via, Option.map_some]
    have hc : ((x.margin.via σ).top + (x.margin.via σ).bottom > ((cs 0).via σ).heightFree) = (x.margin.top + x.margin.bottom > (cs 0).heightFree) := by
      simp only [Sides.via, ColumnFill.via, ← mul_add, gt_iff_lt, lt_via]
    simp only [hc]
    split <;> rfl

/-! ### Pages -/

/-- A page that is being filled. -/
def PageFill.via (p : PageFill) : PageFill := ⟨p.base.via σ, p.todo.map (ColumnFill.via σ), p.done.map (ColumnFill.via σ)⟩

theorem pageNew_via (p : Page) : PageFill.new (p.via σ) = (PageFill.new p).via σ := by
  simp [PageFill.new, PageFill.via, Page.via, ColumnFill.new, ColumnFill.via, Column.via]

theorem columnsLeft_via (doc : Nat → PageFill) (h : ∀ n, (doc n).todo ≠ []) (i : Nat) : columnsLeft (fun n => (doc n).via σ) i = (columnsLeft doc i).via σ := by
  obtain ⟨a, ha⟩ := flatNth_some (i + 1) i (fun n => (doc n).todo) (by omega) h
  unfold columnsLeft
  simp only [PageFill.via]
  rw [flatNth_map, ha]
  rfl

theorem fillLoop_via : ∀ (fuel : Nat) (filled : List ColumnFill) (doc : Nat → PageFill),
    fillLoop fuel (filled.map (ColumnFill.via σ)) (fun n => (doc n).via σ) = ((fillLoop fuel filled doc).1.map (PageFill.via σ), fun n => ((fillLoop fuel filled doc).2 n).via σ) := by
  intro fuel
  induction fuel with
  | zero => intro filled doc; rfl
  | succ fuel ih =>
    intro filled doc
    rw [fillLoop, fillLoop]
    simp only [PageFill.via, List.length_map, ← List.map_drop, ← List.map_take]
    cases hd : List.drop (doc 0).todo.length filled with
    | nil => simp [PageFill.via]
    | cons c cs =>
      simp only [List.map_cons]
      have := ih (c :: cs) fun n => doc (n + 1)
      rw [List.map_cons] at this
      simp only [PageFill.via] at this
      rw [this]
      simp [PageFill.via]

theorem reopen_via (p : PageFill) : (p.via σ).reopen = p.reopen.map (PageFill.via σ) := by
  unfold PageFill.reopen PageFill.via
  simp only [List.getLast?_map]
  cases p.done.getLast? with
  | none => rfl
  | some c => simp

theorem fillInto_via (filled : List ColumnFill) (doc : Nat → PageFill) :
    fillInto (filled.map (ColumnFill.via σ)) (fun n => (doc n).via σ) = (fillInto filled doc).map fun x => (fun n => (x.1 n).via σ, x.2.map (PageFill.via σ)) := by
  unfold fillInto
  simp only [List.map_eq_nil_iff, List.length_map, fillLoop_via, List.getLast?_map]
  split
  · rfl
  · cases (fillLoop filled.length filled doc).1.getLast? with
    | none => rfl
    | some p =>
      simp only [Option.map_some, reopen_via, Option.map_map]
      congr 1
      funext q
      simp only [Function.comp_apply, List.map_dropLast, Prod.mk.injEq, and_true]
      funext n
      cases n <;> rfl

theorem drawingsRun_via (hσ : σ.font = id) (w : World) (s : StyleFull) : ∀ (ds : List Drawing) (r : Res),
    (drawingsRun w (s.via σ) (ds.map (Drawing.via σ)) r).2 = (drawingsRun w s ds r).2 ∧
    (drawingsRun w (s.via σ) (ds.map (Drawing.via σ)) r).1.map (·.1) = (drawingsRun w s ds r).1.map fun x => x.1.map (PageOp.via σ)
  | [], r => ⟨rfl, rfl⟩
  | d :: ds, r => by
    rw [List.map_cons, drawingsRun, drawingsRun, render_via σ hσ]
    rcases d.render w s r with ⟨_ | ops, r1⟩
    · exact ⟨rfl, rfl⟩
    · simp only [Option.map_some]
      have hb := opsBytes_via σ hσ ops r1
      cases hc : opsBytes ops r1 with
      | none => rw [hc] at hb; rw [Option.map_eq_none_iff.1 hb]; exact ⟨rfl, rfl⟩
      | some y =>
        rw [hc] at hb
        obtain ⟨y', hy', hyy⟩ := Option.map_eq_some_iff.1 hb
        rw [hy']
        obtain ⟨b, r2⟩ := y
        obtain ⟨b', r2'⟩ := y'
        simp only at hyy
        subst hyy
        obtain ⟨i1, i2⟩ := drawingsRun_via hσ w s ds r2'
        simp only
        obtain ⟨q, hq⟩ : ∃ o, drawingsRun w s ds r2' = o := ⟨_, rfl⟩
        obtain ⟨q', hq'⟩ : ∃ o, drawingsRun w (s.via σ) (ds.map (Drawing.via σ)) r2' = o := ⟨_, rfl⟩
        rw [hq, hq'] at i1 i2
        rw [hq, hq']
        obtain ⟨z, r3⟩ := q
        obtain ⟨z', r3'⟩ := q'
        simp only at i1 i2
        subst i1
        cases z with
        | none => cases z' with
          | none => exact ⟨rfl, rfl⟩
          | some z' => simp at i2
        | some z => cases z' with
          | none => simp at i2
          | some z' => exact ⟨rfl, by simp only [Option.map_some, Option.some.injEq, List.map_append] at i2 ⊢; rw [i2]⟩

/-- A page with its columns. -/
def Filled.via (p : Filled) : Filled := ⟨p.base.via σ, p.cols.map (ColumnFill.via σ)⟩

theorem filledRun_via (hσ : σ.font = id) (w : World) (s : StyleFull) (p : Filled) (r : Res) :
    ((p.via σ).run w (s.via σ) r).2 = (p.run w s r).2 ∧ ((p.via σ).run w (s.via σ) r).1.map (·.1) = (p.run w s r).1.map fun x => x.1.map (PageOp.via σ) := by
  have hcols : (p.cols.map (ColumnFill.via σ)).flatMap ColumnFill.ops = (p.cols.flatMap ColumnFill.ops).map (PageOp.via σ) := by
    simp only [List.flatMap_map, List.map_flatMap, columnOps_via]
  obtain ⟨i1, i2⟩ := drawingsRun_via σ hσ w s p.base.content r
  rw [Filled.run, Filled.run, show (p.via σ).base.content = p.base.content.map (Drawing.via σ) from rfl, show (p.via σ).cols = p.cols.map (ColumnFill.via σ) from rfl, hcols]
  obtain ⟨q, hq⟩ : ∃ o, drawingsRun w s p.base.content r = o := ⟨_, rfl⟩
  obtain ⟨q', hq'⟩ : ∃ o, drawingsRun w (s.via σ) (p.base.content.map (Drawing.via σ)) r = o := ⟨_, rfl⟩
  rw [hq, hq'] at i1 i2
  rw [hq, hq']
  obtain ⟨z, r3⟩ := q
  obtain ⟨z', r3'⟩ := q'
  simp only at i1 i2
  subst i1
  cases z with
  | none => cases z' with
    | none => exact ⟨rfl, rfl⟩
    | some z' => simp at i2
  | some z => cases z' with
    | none => simp at i2
    | some z' =>
      obtain ⟨ops, b⟩ := z
      obtain ⟨ops', b'⟩ := z'
      simp only [Option.map_some, Option.some.injEq] at i2
      subst i2
      simp only
      have hb := opsBytes_via σ hσ (p.cols.flatMap ColumnFill.ops) r3'
      cases hc : opsBytes (p.cols.flatMap ColumnFill.ops) r3' with
      | none => rw [hc] at hb; rw [Option.map_eq_none_iff.1 hb]; exact ⟨rfl, rfl⟩
      | some y =>
        rw [hc] at hb
        obtain ⟨y', hy', hyy⟩ := Option.map_eq_some_iff.1 hb
        rw [hy']
        exact ⟨hyy, by simp⟩

/-- The second run makes the pages of the first, after the change. -/
structure RunVia (a b : PagesRun) : Prop where
  res : b.res = a.res
  err : b.err.isSome = a.err.isSome
  pages : List.Forall₂ (Written.Rescaled σ) a.pages b.pages

theorem writePages_via (hσ : σ.font = id) (w : World) (s : StyleFull) : ∀ (ps : List Filled) (r : Res), RunVia σ (writePages w s ps r) (writePages w (s.via σ) (ps.map (Filled.via σ)) r)
  | [], r => ⟨rfl, rfl, .nil⟩
  | p :: ps, r => by
    obtain ⟨h1, h2⟩ := filledRun_via σ hσ w s p r
    have hself := filled_self w (s.via σ) (p.via σ) r
    rw [List.map_cons, writePages, writePages]
    obtain ⟨o, ho⟩ : ∃ o, p.run w s r = o := ⟨_, rfl⟩
    obtain ⟨o', ho'⟩ : ∃ o, (p.via σ).run w (s.via σ) r = o := ⟨_, rfl⟩
    rw [ho, ho'] at h1 h2
    rw [ho'] at hself
    rw [ho, ho']
    obtain ⟨a, r1⟩ := o
    obtain ⟨a', r1'⟩ := o'
    simp only at h1 h2
    subst h1
    cases a with
    | none => cases a' with
      | none => exact ⟨rfl, rfl, .nil⟩
      | some z' => simp at h2
    | some z => cases a' with
      | none => simp at h2
      | some z' =>
        obtain ⟨ops, b⟩ := z
        obtain ⟨ops', b'⟩ := z'
        simp only [Option.map_some, Option.some.injEq] at h2
        subst h2
        obtain ⟨g1, g2⟩ := rescaled_ops σ (hself _ rfl)
        obtain ⟨i1, i2, i3⟩ := writePages_via hσ w s ps r1'
        have g1' : ∀ W, pageGlyphs W (ops.map (PageOp.via σ)) = (pageGlyphs W ops).map (Glyph.via σ.toRescale) := by
          intro W
          have hW : oldW σ W = W := by funext f; show W (σ.font f) = W f; rw [hσ]; rfl
          rw [g1 W, viaC_same σ hσ, hW]
        exact ⟨i1, i2, .cons ⟨rfl, rfl, g1', g2⟩ i3⟩

theorem RunVia.andThen {a b : PagesRun} {f g : Res → PagesRun} (h : RunVia σ a b) (hf : ∀ r, RunVia σ (f r) (g r)) : RunVia σ (a.andThen f) (b.andThen g) := by
  unfold PagesRun.andThen
  have he := h.err
  cases ha : a.err with
  | some e =>
    cases hb : b.err with
    | none => rw [ha, hb] at he; simp at he
    | some e' => exact ⟨h.res, rfl, h.pages⟩
  | none =>
    cases hb : b.err with
    | some e' => rw [ha, hb] at he; simp at he
    | none =>
      simp only
      rw [h.res]
      exact ⟨(hf _).res, (hf _).err, List.rel_append h.pages (hf _).pages⟩

theorem autoLoop_via (hσ : σ.font = id) (w : World) (s : StyleFull) : ∀ (bs : List Block) (doc : Nat → PageFill) (r : Res), (∀ n, (doc n).todo ≠ []) →
    RunVia σ (autoLoop w s bs doc r) (autoLoop w (s.via σ) (bs.map (Block.via σ)) (fun n => (doc n).via σ) r)
  | [], doc, r, h => by
    rw [List.map_nil, autoLoop, autoLoop]
    have := writePages_via σ hσ w s [⟨(doc 0).base, (doc 0).done ++ (doc 0).todo⟩] r
    simpa [Filled.via, PageFill.via] using this
  | b :: bs, doc, r, h => by
    rw [List.map_cons, autoLoop, autoLoop]
    have hc : columnsLeft (fun n => (doc n).via σ) = fun i => (columnsLeft doc i).via σ := by
      funext i; exact columnsLeft_via σ doc h i
    rw [hc, block_via σ hσ]
    rcases b.intoColumns w r s (columnsLeft doc) with ⟨_ | filled, r1⟩
    · exact ⟨rfl, rfl, .nil⟩
    · simp only [Option.map_some, fillInto_via]
      cases hf : fillInto filled doc with
      | none => exact ⟨rfl, rfl, .nil⟩
      | some x =>
        obtain ⟨doc', completed⟩ := x
        simp only [Option.map_some]
        refine RunVia.andThen σ ?_ fun r' => autoLoop_via hσ w s bs doc' r' (fillInto_todo h hf)
        have := writePages_via σ hσ w s (completed.map fun p => ⟨p.base, p.done⟩) r1
        rw [List.map_map] at this ⊢
        exact this

theorem docRun_via (hσ : σ.font = id) (w : World) (s : StyleFull) : ∀ (items : List DocItem) (done : Nat) (r : Res), (∀ it ∈ items, it.HasColumns) →
    RunVia σ (docRun w s items done r) (docRun w (s.via σ) (items.map (DocItem.via σ)) done r)
  | [], _, _, _ => ⟨rfl, rfl, .nil⟩
  | it :: items, done, r, h => by
    have hit : RunVia σ (it.run w s (done + 1) r) ((it.via σ).run w (s.via σ) (done + 1) r) := by
      cases it with
      | page p => exact writePages_via σ hσ w s [⟨p, []⟩] r
      | auto a =>
        have hc : ∀ n, (a.template n).columns ≠ [] := h (.auto a) (by simp)
        have := autoLoop_via σ hσ w s a.content (fun n => PageFill.new (a.template (done + 1 + n))) r (by intro n; simpa [PageFill.new] using hc _)
        simp only [← pageNew_via] at this
        exact this
    rw [List.map_cons, docRun, docRun]
    simp only [hit.pages.length_eq.symm]
    exact hit.andThen σ fun r' => docRun_via hσ w s items _ r' fun x hx => h x (by simp [hx])

end Pdfje
