import Verif.Spec.Rescaled
import Verif.Proofs.Style
/-
Styles, commands and words commute with a change of the unit of length and of colours.
-/

namespace Pdfje

/-- A change of the unit of length and of colours, and of the numbers by which fonts are known: a number has another one; fonts that have no number before the change have metrics, too. -/
structure Change extends Rescale where
  font : FontRef → FontRef
  font_inj : Function.Injective font
  other : FontRef → Metrics

instance : Coe Change Rescale := ⟨Change.toRescale⟩

/-- Fonts are known by the same numbers. -/
def Rescale.change (σ : Rescale) : Change := ⟨σ, id, Function.injective_id, fun _ => ⟨fun _ => 0, fun _ => 0⟩⟩

theorem Rescale.ne (σ : Rescale) : σ.factor ≠ 0 := ne_of_gt σ.pos

variable (σ : Change)

open Classical in
/-- Fonts by their new numbers. -/
noncomputable def Env.via (env : Env) : Env :=
  { env with metrics := fun g => if h : ∃ f, σ.font f = g then env.metrics h.choose else σ.other g }

theorem metrics_via (env : Env) (f : FontRef) : (env.via σ).metrics (σ.font f) = env.metrics f := by
  have h : ∃ g, σ.font g = σ.font f := ⟨f, rfl⟩
  simp only [Env.via, dif_pos h]
  rw [σ.font_inj h.choose_spec]

theorem unicode_via (env : Env) : (env.via σ).unicode = env.unicode := rfl
theorem hyph_via (env : Env) : (env.via σ).hyph = env.hyph := rfl

theorem Env.via_same (τ : Rescale) (env : Env) : env.via τ.change = env := by
  have : (env.via τ.change).metrics = env.metrics := by
    funext f
    exact metrics_via τ.change env f
  cases env
  simp only [Env.via] at this ⊢
  simp only [this]

/-- Fonts by their new numbers, if these are the fonts of another environment. -/
theorem Env.via_of {env env' : Env} (h1 : ∀ f, env'.metrics (σ.font f) = env.metrics f) (h2 : σ.other = env'.metrics) (h3 : env'.hyph = env.hyph) (h4 : env'.unicode = env.unicode) :
    env.via σ = env' := by
  have : (env.via σ).metrics = env'.metrics := by
    funext g
    by_cases h : ∃ f, σ.font f = g
    · obtain ⟨f, rfl⟩ := h
      rw [metrics_via, h1]
    · simp only [Env.via, dif_neg h, h2]
  cases env
  cases env'
  simp only [Env.via] at this ⊢
  simp only at h3 h4
  simp only [this, h3, h4]

/-- The text state. -/
def State.via (s : State) : State := { s with font := σ.font s.font, size := σ.factor * s.size, color := σ.color s.color }

mutual
/-- A command. -/
def Command.via : Command → Command
  | .noop => .noop
  | .setFont f z => .setFont (σ.font f) (σ.factor * z)
  | .setColor c => .setColor (σ.color c)
  | .setLineSpacing v => .setLineSpacing v
  | .setHyphens h => .setHyphens h
  | .chain l => .chain (commandsVia l)
/-- Commands. -/
def commandsVia : List Command → List Command
  | [] => []
  | c :: cs => c.via :: commandsVia cs
end

theorem commandsVia_eq : ∀ l : List Command, commandsVia σ l = l.map (Command.via σ)
  | [] => rfl
  | c :: cs => by rw [commandsVia, commandsVia_eq cs, List.map_cons]

theorem itemsVia_eq : ∀ l : List Item, itemsVia σ l = l.map (Item.via σ)
  | [] => rfl
  | c :: cs => by rw [itemsVia, itemsVia_eq cs, List.map_cons]

@[inherit_doc Command.via] def Passage.via (p : Passage) : Passage := ⟨p.cmd.via σ, p.txt⟩

@[inherit_doc Command.via] def Pending.via : Pending → Pending
  | .style s b => .style (s.via σ) (b.via σ)
  | .full s b => .full (s.via σ) (b.via σ)

mutual
theorem apply_via (c : Command) (s : State) : (c.via σ).apply (s.via σ) = (c.apply s).via σ := by
  cases c with
  | chain l => rw [Command.via, Command.apply, Command.apply, applyAll_via l s]
  | _ => rfl
theorem applyAll_via (l : List Command) (s : State) : applyAll (commandsVia σ l) (s.via σ) = (applyAll l s).via σ := by
  cases l with
  | nil => rfl
  | cons c cs => rw [commandsVia, applyAll, applyAll, apply_via c s, applyAll_via cs _]
end

theorem kind_via (c : Command) : (c.via σ).kind = c.kind := by cases c <;> rfl

theorem dictSet_via (k : Nat) (c : Command) : ∀ d : List (Nat × Command),
    dictSet (d.map fun e => (e.1, e.2.via σ)) k (c.via σ) = (dictSet d k c).map fun e => (e.1, e.2.via σ)
  | [] => rfl
  | (k', v') :: d => by
    rw [List.map_cons, dictSet, dictSet]
    split
    · rfl
    · rw [List.map_cons, dictSet_via k c d]

theorem byType_via (it : List Command) : byType (it.map (Command.via σ)) = (byType it).map fun e => (e.1, e.2.via σ) := by
  unfold byType
  have : ∀ (it : List Command) (d : List (Nat × Command)), (it.map (Command.via σ)).foldl (fun d c => dictSet d c.kind c) (d.map fun e => (e.1, e.2.via σ)) =
      (it.foldl (fun d c => dictSet d c.kind c) d).map fun e => (e.1, e.2.via σ) := by
    intro it
    induction it with
    | nil => intro d; rfl
    | cons c it ih => intro d; rw [List.map_cons, List.foldl_cons, List.foldl_cons, kind_via, dictSet_via, ih]
  exact this it []

theorem squash_via (it : List Command) : squash (it.map (Command.via σ)) = (squash it).via σ := by
  unfold squash
  rw [byType_via]
  match byType it with
  | [] => rfl
  | [e] => rfl
  | a :: b :: l => simp [Command.via, commandsVia_eq, List.map_map, Function.comp_def]

/-! ### Styles -/

theorem or_via (b : StyleFull) (s : Style) : (b.via σ).or (s.via σ) = (b.or s).via σ := by
  unfold StyleFull.or StyleFull.via Style.via fallback
  cases s.size <;> cases s.color <;> rfl

theorem asState_via (hσ : σ.font = id) (s : StyleFull) (r : Res) : (s.via σ).asState r = ((s.asState r).1.via σ, (s.asState r).2) := by
  simp only [StyleFull.asState, State.via, hσ]
  rfl

theorem differs_color (c : Option RGB) (b : RGB) : differs (c.map σ.color) (σ.color b) = differs c b := by
  cases c with
  | none => rfl
  | some c => simp [differs, σ.inj.eq_iff]

theorem differs_size (c : Option ℚ) (b : ℚ) : differs (c.map (σ.factor * ·)) (σ.factor * b) = differs c b := by
  cases c with
  | none => rfl
  | some c => simp [differs, σ.ne]

theorem diffRest_via (c : Option RGB) (sp : Option ℚ) (h : Option Nat) (b : StyleFull) :
    diffRest (c.map σ.color) sp h (b.via σ) = (diffRest c sp h b).map (Command.via σ) := by
  unfold diffRest
  rw [show (b.via σ).color = σ.color b.color from rfl, differs_color, List.map_append, List.map_append]
  congr 1
  · congr 1
    · split
      · cases c <;> rfl
      · rfl
    · rw [show (b.via σ).lineSpacing = b.lineSpacing from rfl]
      split
      · cases sp <;> rfl
      · rfl
  · rw [show (b.via σ).hyphens = b.hyphens from rfl]
    split
    · cases h <;> rfl
    · rfl

theorem styleDiff_via (hσ : σ.font = id) (s : Style) (b : StyleFull) (r : Res) : (s.via σ).diff (b.via σ) r = ((s.diff b r).1.map (Command.via σ), (s.diff b r).2) := by
  unfold Style.diff
  rw [show (s.via σ).size = s.size.map (σ.factor * ·) from rfl, show (b.via σ).size = σ.factor * b.size from rfl, differs_size]
  rw [show (s.via σ).color = s.color.map σ.color from rfl]
  simp only [diffRest_via]
  have hf : fallback (s.size.map (σ.factor * ·)) (σ.factor * b.size) = σ.factor * fallback s.size b.size := by cases s.size <;> rfl
  rw [hf]
  change (if (differs s.bold b.bold || differs s.italic b.italic || differs s.font b.font || differs s.size b.size) then _ else _) = _
  split
  · simp only [List.map_cons, Command.via, hσ]
    rfl
  · rfl

theorem fullDiff_via (hσ : σ.font = id) (s b : StyleFull) (r : Res) : (s.via σ).diff (b.via σ) r = ((s.diff b r).1.map (Command.via σ), (s.diff b r).2) := by
  unfold StyleFull.diff
  have h1 : (σ.factor * s.size = σ.factor * b.size) = (s.size = b.size) := by simp [σ.ne]
  have h2 : (σ.color s.color ≠ σ.color b.color) = (s.color ≠ b.color) := by simp [σ.inj.eq_iff]
  simp only [StyleFull.via, h1, h2]
  by_cases a : s.color = b.color <;> by_cases c : s.lineSpacing = b.lineSpacing <;> by_cases d : s.hyphens = b.hyphens <;>
    by_cases e : (s.bold = b.bold ∧ s.italic = b.italic ∧ s.font = b.font ∧ s.size = b.size) <;> simp [a, c, d, e, Command.via, hσ]

theorem runTodo_via (hσ : σ.font = id) : ∀ (ps : List Pending) (r : Res), runTodo (ps.map (Pending.via σ)) r = ((runTodo ps r).1.map (Command.via σ), (runTodo ps r).2)
  | [], r => rfl
  | p :: ps, r => by
    have hp : ∀ r, (p.via σ).run r = ((p.run r).1.map (Command.via σ), (p.run r).2) := by
      intro r
      cases p with
      | style s b => exact styleDiff_via σ hσ s b r
      | full s b => exact fullDiff_via σ hσ s b r
    rw [List.map_cons, runTodo, runTodo]
    simp only [hp, runTodo_via hσ ps, List.map_append]

mutual
theorem flattenSpan_via (hσ : σ.font = id) (style : Style) (base : StyleFull) (todo : List Pending) (content : List Item) (r : Res) :
    flattenSpan (style.via σ) (base.via σ) (todo.map (Pending.via σ)) (itemsVia σ content) r =
      ((flattenSpan style base todo content r).1.map (Passage.via σ), (flattenSpan style base todo content r).2.1.map (Pending.via σ), (flattenSpan style base todo content r).2.2) := by
  rw [flattenSpan, flattenSpan, or_via]
  have h := flattenItems_via hσ (base.or style) (todo ++ [.style style base]) content r
  rw [List.map_append] at h
  simp only [List.map_cons, List.map_nil, Pending.via] at h
  rw [h]
  simp [Pending.via]
termination_by (sizeOf content, 1)
theorem flattenItems_via (hσ : σ.font = id) (base : StyleFull) (todo : List Pending) (content : List Item) (r : Res) :
    flattenItems (base.via σ) (todo.map (Pending.via σ)) (itemsVia σ content) r =
      ((flattenItems base todo content r).1.map (Passage.via σ), (flattenItems base todo content r).2.1.map (Pending.via σ), (flattenItems base todo content r).2.2) := by
  match content with
  | [] => rw [itemsVia, flattenItems, flattenItems]; rfl
  | .str s :: rest =>
    rw [itemsVia, Item.via, flattenItems, flattenItems, runTodo_via σ hσ]
    have h := flattenItems_via hσ base [] rest (runTodo todo r).2
    rw [List.map_nil] at h
    simp only [h, squash_via]
    rfl
  | .span c style :: rest =>
    rw [itemsVia, Item.via, flattenItems, flattenItems]
    have h1 := flattenSpan_via hσ style base todo c r
    have h2 := flattenItems_via hσ base (flattenSpan style base todo c r).2.1 rest (flattenSpan style base todo c r).2.2
    simp only [h1, h2, List.map_append]
termination_by (sizeOf content, 0)
end

/-! ### Leading and lines -/

theorem lead_via (s : State) : (s.via σ).lead = σ.factor * s.lead := by
  simp only [State.lead, State.via]; ring

theorem maxLeadLoop_via : ∀ (ps : List Passage) (st : State) (l : ℚ), maxLeadLoop (ps.map (Passage.via σ)) (st.via σ) (σ.factor * l) =
    ((maxLeadLoop ps st l).1.via σ, σ.factor * (maxLeadLoop ps st l).2)
  | [], _, _ => rfl
  | p :: ps, st, l => by
    rw [List.map_cons, maxLeadLoop, maxLeadLoop]
    simp only [Passage.via, apply_via, lead_via]
    rw [← mul_max_of_nonneg _ _ σ.pos.le]
    have : (if p.txt ≠ [] then σ.factor * max l (p.cmd.apply st).lead else σ.factor * l) = σ.factor * (if p.txt ≠ [] then max l (p.cmd.apply st).lead else l) := by
      split <;> rfl
    rw [this]
    exact maxLeadLoop_via ps _ _

theorem maxLead_via (ps : List Passage) (st : State) : maxLead (ps.map (Passage.via σ)) (st.via σ) = σ.factor * maxLead ps st := by
  unfold maxLead
  have h := maxLeadLoop_via σ ps st 0
  rw [mul_zero] at h
  simp only [h, mul_eq_zero, σ.ne, false_or, lead_via]
  split <;> rfl

theorem noop_via (pos : Bool) (cmd : Command) : (if pos then Command.noop else cmd.via σ) = (if pos then Command.noop else cmd).via σ := by cases pos <;> rfl

theorem splitFrom_via (cmd : Command) (txt : List Char) (pos : Bool) (it : List Passage) :
    splitFrom (cmd.via σ) txt pos (it.map (Passage.via σ)) = (splitFrom cmd txt pos it).map fun g => g.map (Passage.via σ) := by
  induction cmd, txt, pos, it using splitFrom.induct with
  | case1 cmd txt pos it a b hn ih =>
    rw [splitFrom_some hn, splitFrom_some hn, ih]
    simp [Passage.via, noop_via]
  | case2 cmd txt pos hn =>
    rw [splitFrom_none hn, splitFrom_none hn]
    simp [Passage.via, noop_via]
  | case3 cmd txt pos hn p ps hs ih =>
    exact absurd hs (splitFrom_ne _ _ _ _)
  | case4 cmd txt pos hn p ps g gs hs ih =>
    rw [splitFrom_none hn, splitFrom_none hn]
    simp only [List.map_cons]
    rw [show (p.via σ).cmd = p.cmd.via σ from rfl, show (p.via σ).txt = p.txt from rfl, ih]
    rw [hs]
    simp [Passage.via, noop_via]

theorem splitlines_via (it : List Passage) : splitlines (it.map (Passage.via σ)) = (splitlines it).map fun g => g.map (Passage.via σ) := by
  cases it with
  | nil => rfl
  | cons p ps => exact splitFrom_via σ p.cmd p.txt false ps

/-! ### Operators -/

/-- A string, or an adjustment, which is relative to the font size. -/
def ShowItem.via : ShowItem → ShowItem
  | .adj x => .adj x
  | .txt f s => .txt (σ.font f) s

@[inherit_doc Command.via] def TextOp.via : TextOp → TextOp
  | .tf f z => .tf (σ.font f) (σ.factor * z)
  | .rg c => .rg (σ.color c)
  | .tj is => .tj (is.map (ShowItem.via σ))
  | .td x y => .td (σ.factor * x) (σ.factor * y)
  | .tdl x y => .tdl (σ.factor * x) (σ.factor * y)
  | .tl l => .tl (σ.factor * l)
  | .tstar => .tstar

mutual
theorem commandOps_via (c : Command) : (c.via σ).ops = c.ops.map (TextOp.via σ) := by
  cases c with
  | chain l => rw [Command.via, Command.ops, Command.ops, opsAll_via l]
  | _ => rfl
theorem opsAll_via (l : List Command) : opsAll (commandsVia σ l) = (opsAll l).map (TextOp.via σ) := by
  cases l with
  | nil => rfl
  | cons c cs => rw [commandsVia, opsAll, opsAll, commandOps_via c, opsAll_via cs, List.map_append]
end

theorem stateOps_via (s : State) : (s.via σ).ops = s.ops.map (TextOp.via σ) := rfl

end Pdfje
