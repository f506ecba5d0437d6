import Verif.Spec.Styled
import Verif.Spec.Viewer
import Verif.Proofs.Registry
/-
Lemmas about style commands, flattening of spans and splitting at newlines.
-/

namespace Pdfje

/-! ### squash -/

theorem Command.kind_flat {c : Command} (h : c.Flat) : c.kind < 5 := by cases c <;> simp_all [Command.Flat, Command.kind]

/-- What makes merging right: an action of commands in which different kinds commute and a later command of the
same kind makes an earlier one irrelevant. -/
structure ActOk {σ : Type} (act : Command → σ → σ) : Prop where
  comm : ∀ a b s, a.Flat → b.Flat → a.kind ≠ b.kind → act a (act b s) = act b (act a s)
  over : ∀ a b s, a.Flat → b.Flat → a.kind = b.kind → act a (act b s) = act a s
  noop : ∀ s, act .noop s = s

variable {σ : Type} {act : Command → σ → σ}

/-- Run commands in order. -/
def actAll (act : Command → σ → σ) (l : List Command) (s : σ) : σ := l.foldl (fun s c => act c s) s

theorem actAll_comm (hact : ActOk act) (l : List Command) : ∀ (c : Command) (s : σ), c.Flat → (∀ x ∈ l, x.Flat) →
    (∀ x ∈ l, x.kind ≠ c.kind) → act c (actAll act l s) = actAll act l (act c s) := by
  induction l with
  | nil => intro c s _ _ _; rfl
  | cons a l ih =>
    intro c s hc hl hk
    simp only [actAll, List.foldl_cons]
    have := ih c (act a s) hc (fun x hx => hl x (List.mem_cons_of_mem _ hx)) (fun x hx => hk x (List.mem_cons_of_mem _ hx))
    simp only [actAll] at this
    rw [this, hact.comm c a s hc (hl a List.mem_cons_self) (fun h => hk a List.mem_cons_self h.symm)]

/-- Well-formed dictionaries from kinds to flat commands. -/
def DictOk (d : List (Nat × Command)) : Prop := (∀ e ∈ d, e.1 = e.2.kind ∧ e.2.Flat) ∧ (d.map (·.1)).Nodup

theorem dictSet_mem (d : List (Nat × Command)) : ∀ (k : Nat) (c : Command) (e), e ∈ dictSet d k c → e = (k, c) ∨ e ∈ d := by
  induction d with
  | nil => intro k c e h; simpa [dictSet] using h
  | cons a d ih =>
    intro k c e h
    simp only [dictSet] at h
    split at h
    · rename_i hk
      simp only [beq_iff_eq] at hk
      rcases List.mem_cons.mp h with h | h
      · left; rw [h, hk]
      · right; exact List.mem_cons_of_mem _ h
    · rcases List.mem_cons.mp h with h | h
      · right; rw [h]; exact List.mem_cons_self
      · rcases ih k c e h with h | h
        · left; exact h
        · right; exact List.mem_cons_of_mem _ h

theorem dictSet_ok {d : List (Nat × Command)} (hd : DictOk d) {c : Command} (hc : c.Flat) : DictOk (dictSet d c.kind c) := by
  refine ⟨fun e he => ?_, ?_⟩
  · rcases dictSet_mem d _ _ e he with rfl | h
    · exact ⟨rfl, hc⟩
    · exact hd.1 e h
  · have hn := hd.2
    clear hd
    induction d with
    | nil => simp [dictSet]
    | cons a d ih =>
      simp only [dictSet]
      simp only [List.map_cons, List.nodup_cons] at hn
      split
      · simpa using hn
      · rename_i hk
        simp only [List.map_cons, List.nodup_cons]
        refine ⟨fun hm => ?_, ih hn.2⟩
        obtain ⟨e, he, h1⟩ := List.mem_map.mp hm
        rcases dictSet_mem d _ _ e he with rfl | h
        · simp only at h1; simp [h1] at hk
        · exact hn.1 (List.mem_map.mpr ⟨e, h, h1⟩)

theorem dictSet_act (hact : ActOk act) (d : List (Nat × Command)) : ∀ (c : Command) (s : σ), DictOk d → c.Flat →
    actAll act ((dictSet d c.kind c).map (·.2)) s = act c (actAll act (d.map (·.2)) s) := by
  induction d with
  | nil => intro c s _ _; rfl
  | cons a d ih =>
    intro c s hd hc
    have hd' : DictOk d := ⟨fun e he => hd.1 e (List.mem_cons_of_mem _ he), (List.nodup_cons.mp hd.2).2⟩
    have ha := hd.1 a List.mem_cons_self
    simp only [dictSet]
    split
    · rename_i hk
      simp only [beq_iff_eq] at hk
      simp only [List.map_cons, actAll, List.foldl_cons]
      have := actAll_comm hact (d.map (·.2)) c (act a.2 s) hc (fun x hx => ?_) (fun x hx => ?_)
      · simp only [actAll] at this
        rw [this, hact.over c a.2 s hc ha.2 (by rw [← ha.1, hk])]
      · obtain ⟨e, he, rfl⟩ := List.mem_map.mp hx
        exact (hd'.1 e he).2
      · obtain ⟨e, he, rfl⟩ := List.mem_map.mp hx
        rw [← (hd'.1 e he).1, ← hk]
        intro h
        exact (List.nodup_cons.mp hd.2).1 (List.mem_map.mpr ⟨e, he, h⟩)
    · have := ih c (act a.2 s) hd' hc
      simp only [List.map_cons, actAll, List.foldl_cons] at this ⊢
      exact this

theorem byType_act (hact : ActOk act) (l : List Command) : ∀ (d : List (Nat × Command)) (s : σ), DictOk d → (∀ c ∈ l, c.Flat) →
    DictOk (l.foldl (fun d c => dictSet d c.kind c) d) ∧
    actAll act ((l.foldl (fun d c => dictSet d c.kind c) d).map (·.2)) s = actAll act l (actAll act (d.map (·.2)) s) := by
  induction l with
  | nil => intro d s hd _; exact ⟨hd, rfl⟩
  | cons c l ih =>
    intro d s hd hl
    have hc := hl c List.mem_cons_self
    obtain ⟨h1, h2⟩ := ih (dictSet d c.kind c) s (dictSet_ok hd hc) (fun x hx => hl x (List.mem_cons_of_mem _ hx))
    simp only [List.foldl_cons]
    refine ⟨h1, ?_⟩
    rw [h2, dictSet_act hact d c s hd hc]
    rfl

theorem squash_act (hact : ActOk act) (hch : ∀ l s, act (.chain l) s = actAll act l s) (l : List Command)
    (hl : ∀ c ∈ l, c.Flat) (s : σ) : act (squash l) s = actAll act l s := by
  have h := (byType_act hact l [] s ⟨by simp, by simp⟩ hl).2
  simp only [List.map_nil] at h
  rw [show actAll act [] s = s from rfl] at h
  rw [← h]
  simp only [squash]
  have : byType l = l.foldl (fun d c => dictSet d c.kind c) [] := rfl
  rw [← this]
  split
  · rename_i e he; rw [he]; rfl
  · rename_i he; rw [he]; simp [actAll, hact.noop]
  · rw [hch]

theorem applyAll_eq (l : List Command) : ∀ s, applyAll l s = actAll Command.apply l s := by
  induction l with
  | nil => intro s; rw [applyAll]; rfl
  | cons c l ih => intro s; rw [applyAll, ih]; rfl

theorem applyAll_append (a b : List Command) (s : State) : applyAll (a ++ b) s = applyAll b (applyAll a s) := by
  simp [applyAll_eq, actAll]

theorem apply_actOk : ActOk Command.apply where
  comm := by intro a b s ha hb hk; cases a <;> cases b <;> simp_all [Command.apply, Command.Flat, Command.kind]
  over := by intro a b s ha hb hk; cases a <;> cases b <;> simp_all [Command.apply, Command.Flat, Command.kind]
  noop := by intro s; rw [Command.apply]

theorem squash_apply (l : List Command) (hl : ∀ c ∈ l, c.Flat) (s : State) : (squash l).apply s = applyAll l s := by
  rw [applyAll_eq]
  exact squash_act apply_actOk (fun l s => by rw [Command.apply, applyAll_eq]) l hl s

/-- The viewer after a command's operators. -/
def Command.viewed (W : FontRef → Char → ℚ) (c : Command) (v : Viewer) : List Glyph × Viewer := Viewer.run W c.ops v

theorem Viewer.run_append (W : FontRef → Char → ℚ) (a b : List TextOp) : ∀ v, Viewer.run W (a ++ b) v =
    ((Viewer.run W a v).1 ++ (Viewer.run W b (Viewer.run W a v).2).1, (Viewer.run W b (Viewer.run W a v).2).2) := by
  induction a with
  | nil => intro v; simp [Viewer.run]
  | cons x a ih => intro v; simp [Viewer.run, ih]

mutual
theorem ops_noglyph (W : FontRef → Char → ℚ) : ∀ (c : Command) v, (Viewer.run W c.ops v).1 = []
  | .noop, v => by rw [Command.ops]; rfl
  | .setFont .., v => by rw [Command.ops]; rfl
  | .setColor _, v => by rw [Command.ops]; rfl
  | .setLineSpacing _, v => by rw [Command.ops]; rfl
  | .setHyphens _, v => by rw [Command.ops]; rfl
  | .chain l, v => by rw [Command.ops]; exact opsAll_noglyph W l v
theorem opsAll_noglyph (W : FontRef → Char → ℚ) : ∀ (l : List Command) v, (Viewer.run W (opsAll l) v).1 = []
  | [], v => by rw [opsAll]; rfl
  | c :: cs, v => by
    rw [opsAll, Viewer.run_append]
    simp [ops_noglyph W c v, opsAll_noglyph W cs]
end

theorem opsAll_eq (W : FontRef → Char → ℚ) (l : List Command) : ∀ v,
    (Viewer.run W (opsAll l) v).2 = actAll (fun c v => (Viewer.run W c.ops v).2) l v := by
  induction l with
  | nil => intro v; rw [opsAll]; rfl
  | cons c l ih => intro v; rw [opsAll, Viewer.run_append]; simp only [ih]; rfl

theorem view_actOk (W : FontRef → Char → ℚ) : ActOk (fun (c : Command) v => (Viewer.run W c.ops v).2) where
  comm := by
    intro a b s ha hb hk
    cases a <;> cases b <;> simp_all [Command.ops, Viewer.run, Viewer.step, Command.Flat, Command.kind]
  over := by
    intro a b s ha hb hk
    cases a <;> cases b <;> simp_all [Command.ops, Viewer.run, Viewer.step, Command.Flat, Command.kind]
  noop := by intro s; rw [Command.ops]; rfl

theorem squash_view (W : FontRef → Char → ℚ) (l : List Command) (hl : ∀ c ∈ l, c.Flat) (v : Viewer) :
    Viewer.run W (squash l).ops v = Viewer.run W (opsAll l) v := by
  apply Prod.ext
  · rw [ops_noglyph, opsAll_noglyph]
  · rw [opsAll_eq]
    exact squash_act (view_actOk W) (fun l s => by rw [Command.ops, opsAll_eq]) l hl v

theorem squash_single (c : Command) : squash [c] = c := rfl

/-! ### Font registry without well-formedness -/

theorem Res.font_has (r : Res) (f : Typeface) (bold italic : Bool) :
    (r.font f bold italic).2.has f bold italic (r.font f bold italic).1 ∧ r.Le (r.font f bold italic).2 := by
  cases f with
  | builtin b =>
    simp only [Res.font]
    split
    · rename_i e he
      exact ⟨⟨e, he, rfl⟩, Res.Le.refl _⟩
    · rename_i hn
      refine ⟨⟨((b.regular.name, bold, italic), b.font bold italic), ?_, rfl⟩, ⟨List.prefix_append _ _, fun i e h =>
        ⟨e, h, rfl, rfl, rfl, fun h => ⟨h, List.prefix_rfl⟩⟩⟩⟩
      rw [List.find?_append, hn]; simp
  | trueType t =>
    simp only [Res.font]
    split
    · rename_i e he
      exact ⟨⟨e, he, rfl⟩, Res.Le.refl _⟩
    · rename_i hn
      refine ⟨⟨r.subsets.length, ?_, rfl⟩, ⟨List.prefix_rfl, fun i e h =>
        ⟨e, ?_, rfl, rfl, rfl, fun h => ⟨h, List.prefix_rfl⟩⟩⟩⟩
      · rw [List.findIdx?_append, hn]; simp
      · obtain ⟨hi, h⟩ := List.getElem?_eq_some_iff.mp h
        simp only
        rw [List.getElem?_append_left hi, List.getElem?_eq_getElem hi, h]

theorem Res.font_of_has {r : Res} {f bold italic x} (h : r.has f bold italic x) : r.font f bold italic = (x, r) := by
  cases f with
  | builtin b => obtain ⟨e, h, rfl⟩ := h; simp only [Res.font, h]
  | trueType t => obtain ⟨e, h, rfl⟩ := h; simp only [Res.font, h]

/-! ### flatten -/

/-- The state is the one of the full style, in this registry. -/
structure Match (r : Res) (st : State) (full : StyleFull) : Prop where
  font : r.has full.font full.bold full.italic st.font
  size : st.size = full.size
  color : st.color = full.color
  spacing : st.lineSpacing = full.lineSpacing
  hyphens : st.hyphens = full.hyphens

theorem Match.mono {r r' : Res} {st full} (h : Match r st full) (hle : r.Le r') : Match r' st full :=
  ⟨Res.has_mono hle h.font, h.size, h.color, h.spacing, h.hyphens⟩

theorem match_asState (r : Res) (full : StyleFull) : Match (full.asState r).2 (full.asState r).1 full :=
  ⟨(Res.font_has r _ _ _).1, rfl, rfl, rfl, rfl⟩

theorem Match.eq_asState {r st full} (h : Match r st full) : full.asState r = (st, r) := by
  simp only [StyleFull.asState, Res.font_of_has h.font]
  rw [← h.size, ← h.color, ← h.spacing, ← h.hyphens]

theorem differs_false {α} [DecidableEq α] {a : Option α} {b : α} (h : differs a b = false) : fallback a b = b := by
  cases a <;> simp_all [differs, fallback]

theorem applyAll_rest (c : Option RGB) (l : Option ℚ) (h : Option Nat) (base : StyleFull) (st : State)
    (h1 : st.color = base.color) (h2 : st.lineSpacing = base.lineSpacing) (h3 : st.hyphens = base.hyphens) :
    applyAll (diffRest c l h base) st =
      ⟨st.font, st.size, fallback c base.color, fallback l base.lineSpacing, fallback h base.hyphens⟩ := by
  obtain ⟨f, z, c0, l0, h0⟩ := st
  simp only at h1 h2 h3
  subst h1 h2 h3
  have e1 : ∀ s : State, s.color = base.color →
      applyAll (if differs c base.color then (c.map Command.setColor).toList else []) s = { s with color := fallback c base.color } := by
    rintro ⟨_, _, _, _, _⟩ rfl
    cases c with
    | none => rfl
    | some x => by_cases hx : x = base.color <;> simp [differs, fallback, hx, applyAll, Command.apply]
  have e2 : ∀ s : State, s.lineSpacing = base.lineSpacing →
      applyAll (if differs l base.lineSpacing then (l.map Command.setLineSpacing).toList else []) s = { s with lineSpacing := fallback l base.lineSpacing } := by
    rintro ⟨_, _, _, _, _⟩ rfl
    cases l with
    | none => rfl
    | some x => by_cases hx : x = base.lineSpacing <;> simp [differs, fallback, hx, applyAll, Command.apply]
  have e3 : ∀ s : State, s.hyphens = base.hyphens →
      applyAll (if differs h base.hyphens then (h.map Command.setHyphens).toList else []) s = { s with hyphens := fallback h base.hyphens } := by
    rintro ⟨_, _, _, _, _⟩ rfl
    cases h with
    | none => rfl
    | some x => by_cases hx : x = base.hyphens <;> simp [differs, fallback, hx, applyAll, Command.apply]
  rw [diffRest, applyAll_append, applyAll_append, e1 _ rfl, e2 _ rfl, e3 _ rfl]

theorem diffRest_flat (c : Option RGB) (l : Option ℚ) (h : Option Nat) (base : StyleFull) :
    ∀ x ∈ diffRest c l h base, x.Flat := by
  intro x hx
  simp only [diffRest, List.mem_append] at hx
  rcases hx with (hx | hx) | hx <;> split at hx <;> simp at hx <;> obtain ⟨_, _, rfl⟩ := hx <;> trivial

theorem Style.diff_spec (s : Style) (base : StyleFull) (r : Res) (st : State) (hm : Match r st base) :
    Match (s.diff base r).2 (applyAll (s.diff base r).1 st) (base.or s) ∧ r.Le (s.diff base r).2 ∧
    ∀ c ∈ (s.diff base r).1, c.Flat := by
  simp only [Style.diff]
  split
  · obtain ⟨h1, h2⟩ := Res.font_has r (fallback s.font base.font) (fallback s.bold base.bold) (fallback s.italic base.italic)
    refine ⟨?_, h2, ?_⟩
    · rw [applyAll]
      rw [applyAll_rest]
      · exact ⟨h1, rfl, rfl, rfl, rfl⟩
      · rw [Command.apply]; exact hm.color
      · rw [Command.apply]; exact hm.spacing
      · rw [Command.apply]; exact hm.hyphens
    · intro c hc
      rcases List.mem_cons.mp hc with rfl | hc
      · trivial
      · exact diffRest_flat _ _ _ _ c hc
  · rename_i hd
    simp only [Bool.or_eq_true, not_or, Bool.not_eq_true] at hd
    obtain ⟨⟨⟨hb, hi⟩, hf⟩, hs⟩ := hd
    refine ⟨?_, Res.Le.refl _, diffRest_flat _ _ _ _⟩
    rw [applyAll_rest _ _ _ _ _ hm.color hm.spacing hm.hyphens]
    refine ⟨?_, ?_, rfl, rfl, rfl⟩
    · simp only [StyleFull.or, differs_false hb, differs_false hi, differs_false hf]; exact hm.font
    · simp only [StyleFull.or, differs_false hs]; exact hm.size

theorem StyleFull.diff_spec (s : StyleFull) (base : StyleFull) (r : Res) (st : State) (hm : Match r st base) :
    Match (s.diff base r).2 (applyAll (s.diff base r).1 st) s ∧ r.Le (s.diff base r).2 ∧
    ∀ c ∈ (s.diff base r).1, c.Flat := by
  have hrest : ∀ st : State, st.color = base.color → st.lineSpacing = base.lineSpacing → st.hyphens = base.hyphens →
      applyAll ((if s.color ≠ base.color then [.setColor s.color] else [])
    ++ (if s.lineSpacing ≠ base.lineSpacing then [.setLineSpacing s.lineSpacing] else [])
    ++ (if s.hyphens ≠ base.hyphens then [.setHyphens s.hyphens] else [])) st =
      ⟨st.font, st.size, s.color, s.lineSpacing, s.hyphens⟩ := by
    intro st h1 h2 h3
    cases st
    subst h1 h2 h3
    split_ifs <;> simp_all [applyAll, Command.apply]
  have hflat : ∀ c ∈ (if s.color ≠ base.color then [Command.setColor s.color] else [])
    ++ (if s.lineSpacing ≠ base.lineSpacing then [.setLineSpacing s.lineSpacing] else [])
    ++ (if s.hyphens ≠ base.hyphens then [.setHyphens s.hyphens] else []), c.Flat := by
    intro c hc
    simp only [List.mem_append] at hc
    rcases hc with (hc | hc) | hc <;> split at hc <;> simp at hc <;> subst hc <;> trivial
  simp only [StyleFull.diff]
  split
  · obtain ⟨h1, h2⟩ := Res.font_has r s.font s.bold s.italic
    refine ⟨?_, h2, ?_⟩
    · rw [applyAll, hrest]
      · exact ⟨h1, rfl, rfl, rfl, rfl⟩
      · rw [Command.apply]; exact hm.color
      · rw [Command.apply]; exact hm.spacing
      · rw [Command.apply]; exact hm.hyphens
    · intro c hc
      rcases List.mem_cons.mp hc with rfl | hc
      · trivial
      · exact hflat c hc
  · rename_i hd
    simp only [not_not] at hd
    obtain ⟨hb, hi, hf, hs⟩ := hd
    refine ⟨?_, Res.Le.refl _, hflat⟩
    rw [hrest _ hm.color hm.spacing hm.hyphens]
    exact ⟨by rw [hb, hi, hf]; exact hm.font, by rw [hs]; exact hm.size, rfl, rfl, rfl⟩

/-- Pending differences leading from one full style to another. -/
def Leads : List Pending → StyleFull → StyleFull → Prop
  | [], a, b => a = b
  | .style s base :: ps, a, b => base = a ∧ Leads ps (a.or s) b
  | .full s base :: ps, a, b => base = a ∧ Leads ps s b

theorem Leads.append : ∀ (ps qs : List Pending) (a b c : StyleFull), Leads ps a b → Leads qs b c → Leads (ps ++ qs) a c
  | [], _, _, _, _, h1, h2 => by cases h1; exact h2
  | .style _ _ :: ps, qs, _, b, c, h1, h2 => ⟨h1.1, Leads.append ps qs _ b c h1.2 h2⟩
  | .full _ _ :: ps, qs, _, b, c, h1, h2 => ⟨h1.1, Leads.append ps qs _ b c h1.2 h2⟩

theorem runTodo_spec : ∀ (todo : List Pending) (a b : StyleFull) (r : Res) (st : State), Leads todo a b → Match r st a →
    Match (runTodo todo r).2 (applyAll (runTodo todo r).1 st) b ∧ r.Le (runTodo todo r).2 ∧
    ∀ c ∈ (runTodo todo r).1, c.Flat
  | [], a, b, r, st, hp, hm => by cases hp; simp only [runTodo, applyAll]; exact ⟨hm, Res.Le.refl _, by simp⟩
  | p :: ps, a, b, r, st, hp, hm => by
    have key : ∃ a', Leads ps a' b ∧ Match (p.run r).2 (applyAll (p.run r).1 st) a' ∧ r.Le (p.run r).2 ∧
        ∀ c ∈ (p.run r).1, c.Flat := by
      cases p with
      | style s base =>
        obtain ⟨rfl, hp⟩ := hp
        exact ⟨_, hp, Style.diff_spec s base r st hm⟩
      | full s base =>
        obtain ⟨rfl, hp⟩ := hp
        exact ⟨_, hp, StyleFull.diff_spec s base r st hm⟩
    obtain ⟨a', hp', h1, h2, h3⟩ := key
    obtain ⟨g1, g2, g3⟩ := runTodo_spec ps a' b _ _ hp' h1
    simp only [runTodo, applyAll_append]
    refine ⟨g1, h2.trans g2, fun c hc => ?_⟩
    rcases List.mem_append.mp hc with hc | hc
    · exact h3 c hc
    · exact g3 c hc

theorem stateAt_append (a b : List Passage) : ∀ st, stateAt (a ++ b) st = stateAt a st ++ stateAt b (endState a st) := by
  induction a with
  | nil => intro st; rfl
  | cons p a ih => intro st; simp [stateAt, endState, ih]

theorem endState_append (a b : List Passage) : ∀ st, endState (a ++ b) st = endState b (endState a st) := by
  induction a with
  | nil => intro st; rfl
  | cons p a ih => intro st; simp [endState, ih]

/-- Overlaying styles one after the other. -/
def StyleFull.ors (base : StyleFull) (ss : List Style) : StyleFull := ss.foldl StyleFull.or base

theorem getD_getLast?_snoc {α β} (f : α → Option β) (ss : List α) (s : α) (d : β) :
    (((ss ++ [s]).filterMap f).getLast?).getD d = fallback (f s) (((ss.filterMap f).getLast?).getD d) := by
  rw [List.filterMap_append]
  cases h : f s <;> simp [h, fallback]

theorem overlay_snoc (base : StyleFull) (ss : List Style) (s : Style) :
    base.overlay (ss ++ [s]) = (base.overlay ss).or s := by
  simp only [StyleFull.overlay, StyleFull.or, getD_getLast?_snoc]

theorem overlay_nil (base : StyleFull) : base.overlay [] = base := by
  simp [StyleFull.overlay]

mutual
theorem flattenSpan_spec (full : StyleFull) (outer : List Style) (style : Style) (todo : List Pending)
    (content : List Item) (r : Res) (a : StyleFull) (st : State) (hp : Leads todo a (full.overlay outer)) (hm : Match r st a) :
    let out := flattenSpan style (full.overlay outer) todo content r
    (∃ b, Leads out.2.1 b (full.overlay outer) ∧ Match out.2.2 (endState out.1 st) b) ∧ r.Le out.2.2 ∧
    (∀ r', out.2.2.Le r' → List.Forall₂ (fun s (e : List Char × List Style) => Match r' s (full.overlay e.2)) (stateAt out.1 st)
        (itemsStrings (outer ++ [style]) content)) ∧
    out.1.map (·.txt) = (itemsStrings (outer ++ [style]) content).map (·.1) ∧
    (∀ p ∈ out.1, ∃ l, (∀ c ∈ l, c.Flat) ∧ p.cmd = squash l) := by
  rw [flattenSpan]
  have hp' : Leads (todo ++ [.style style (full.overlay outer)]) a (full.overlay (outer ++ [style])) := by
    rw [overlay_snoc]
    exact Leads.append _ _ _ _ _ hp ⟨rfl, rfl⟩
  have h := flattenItems_spec full (outer ++ [style]) _ content r a st hp' hm
  rw [overlay_snoc] at h
  obtain ⟨⟨b, h1, h2⟩, h3, h4, h5, h6⟩ := h
  refine ⟨⟨b, Leads.append _ _ _ _ _ h1 ⟨rfl, rfl⟩, h2⟩, h3, h4, h5, h6⟩
termination_by (sizeOf content, 1)
theorem flattenItems_spec (full : StyleFull) (outer : List Style) (todo : List Pending)
    (content : List Item) (r : Res) (a : StyleFull) (st : State) (hp : Leads todo a (full.overlay outer)) (hm : Match r st a) :
    let out := flattenItems (full.overlay outer) todo content r
    (∃ b, Leads out.2.1 b (full.overlay outer) ∧ Match out.2.2 (endState out.1 st) b) ∧ r.Le out.2.2 ∧
    (∀ r', out.2.2.Le r' → List.Forall₂ (fun s (e : List Char × List Style) => Match r' s (full.overlay e.2)) (stateAt out.1 st)
        (itemsStrings outer content)) ∧
    out.1.map (·.txt) = (itemsStrings outer content).map (·.1) ∧
    (∀ p ∈ out.1, ∃ l, (∀ c ∈ l, c.Flat) ∧ p.cmd = squash l) := by
  match content with
  | [] =>
    rw [flattenItems]
    simp only [itemsStrings, stateAt, endState, List.map_nil]
    exact ⟨⟨a, hp, hm⟩, Res.Le.refl _, fun _ _ => List.Forall₂.nil, trivial, by simp⟩
  | .str s :: rest =>
    rw [flattenItems]
    obtain ⟨h1, h2, h3⟩ := runTodo_spec todo a _ r st hp hm
    have hsq : (squash (runTodo todo r).1).apply st = applyAll (runTodo todo r).1 st := squash_apply _ h3 st
    obtain ⟨⟨b, g1, g2⟩, g3, g4, g5, g6⟩ := flattenItems_spec full outer [] rest (runTodo todo r).2 _ _ rfl h1
    simp only [itemsStrings, Item.strings, stateAt, endState, hsq]
    refine ⟨⟨b, g1, g2⟩, h2.trans g3, fun r' hr' => ?_, ?_, ?_⟩
    · exact List.Forall₂.cons (h1.mono (g3.trans hr')) (g4 r' hr')
    · simp [g5]
    · intro p hp
      rcases List.mem_cons.mp hp with rfl | hp
      · exact ⟨_, h3, rfl⟩
      · exact g6 p hp
  | .span c style :: rest =>
    rw [flattenItems]
    obtain ⟨⟨b, h1, h2⟩, h3, h4, h5, h6⟩ := flattenSpan_spec full outer style todo c r a st hp hm
    obtain ⟨⟨b', g1, g2⟩, g3, g4, g5, g6⟩ := flattenItems_spec full outer _ rest _ b _ h1 h2
    simp only [itemsStrings, Item.strings, stateAt_append, endState_append]
    refine ⟨⟨b', g1, g2⟩, h3.trans g3, fun r' hr' => ?_, ?_, ?_⟩
    · exact List.rel_append (h4 r' (g3.trans hr')) (g4 r' hr')
    · simp [g5, h5]
    · intro p hp
      rcases List.mem_append.mp hp with hp | hp
      · exact h6 p hp
      · exact g6 p hp
termination_by (sizeOf content, 0)
end

/-! ### splitlines -/

theorem textLines_ne (s : List Char) : textLines s ≠ [] := by
  unfold textLines
  split <;> try simp
  split <;> simp

theorem textLines_newline (txt a b : List Char) (h : nextNewline txt = some (a, b)) : textLines txt = a :: textLines b := by
  induction txt using nextNewline.induct generalizing a b with
  | case1 => simp [nextNewline] at h
  | case2 rest =>
    simp only [nextNewline, Option.some.injEq, Prod.mk.injEq] at h
    obtain ⟨rfl, rfl⟩ := h
    simp [textLines]
  | case3 rest =>
    simp only [nextNewline, Option.some.injEq, Prod.mk.injEq] at h
    obtain ⟨rfl, rfl⟩ := h
    simp [textLines]
  | case4 c rest h1 h2 ih =>
    rw [nextNewline] at h
    · simp only [Option.map_eq_some_iff, Prod.mk.injEq, Prod.exists] at h
      obtain ⟨a', b', h, rfl, rfl⟩ := h
      rw [textLines, ih a' b' h]
      · exact h1
      · exact h2
    · exact h1
    · exact h2

theorem textLines_none (txt : List Char) (h : nextNewline txt = none) : textLines txt = [txt] := by
  induction txt using nextNewline.induct with
  | case1 => rfl
  | case2 rest => simp [nextNewline] at h
  | case3 rest => simp [nextNewline] at h
  | case4 c rest h1 h2 ih =>
    rw [nextNewline] at h
    · simp only [Option.map_eq_none_iff] at h
      rw [textLines, ih h]
      · exact h1
      · exact h2
    · exact h1
    · exact h2

theorem joinLines_cons {α} (l : List α) (ls b : List (List α)) (h : ls ≠ []) : joinLines (l :: ls) b = l :: joinLines ls b := by
  cases ls with
  | nil => exact absurd rfl h
  | cons a ls => rw [joinLines] <;> simp

theorem splitFrom_some {cmd : Command} {txt : List Char} {pos : Bool} {it : List Passage} {a b : List Char}
    (h : nextNewline txt = some (a, b)) :
    splitFrom cmd txt pos it = [⟨if pos then .noop else cmd, a⟩] :: splitFrom cmd b true it := by
  rw [splitFrom.eq_def]
  generalize (if pos then Command.noop else cmd) = cmd'
  dsimp only
  split
  · rename_i a' b' h'
    rw [h] at h'; cases h'; rfl
  · rename_i h'; rw [h] at h'; cases h'

theorem splitFrom_none {cmd : Command} {txt : List Char} {pos : Bool} {it : List Passage}
    (h : nextNewline txt = none) :
    splitFrom cmd txt pos it = match it with
    | [] => [[⟨if pos then .noop else cmd, txt⟩]]
    | p :: ps =>
      match splitFrom p.cmd p.txt false ps with
      | [] => [[⟨if pos then .noop else cmd, txt⟩]]
      | g :: gs => (⟨if pos then .noop else cmd, txt⟩ :: g) :: gs := by
  rw [splitFrom.eq_def]
  generalize (if pos then Command.noop else cmd) = cmd'
  dsimp only
  split
  · rename_i h'; rw [h] at h'; cases h'
  · rfl

theorem splitFrom_ne (cmd : Command) (txt : List Char) (pos : Bool) (it : List Passage) : splitFrom cmd txt pos it ≠ [] := by
  cases h : nextNewline txt with
  | some x => rw [splitFrom_some h]; simp
  | none =>
    rw [splitFrom_none h]
    split
    · simp
    · split <;> simp

theorem splitFrom_spec (cmd : Command) (txt : List Char) (pos : Bool) (it : List Passage) (st : State) :
    groupsStyled (splitFrom cmd txt pos it) st =
      styledLines (⟨if pos then .noop else cmd, txt⟩ :: it) st := by
  induction cmd, txt, pos, it using splitFrom.induct generalizing st with
  | case1 cmd txt pos it a b hn ih =>
    rw [splitFrom_some hn]
    simp only [groupsStyled, styled, endState, List.append_nil]
    rw [ih]
    simp only [styledLines, textLines_newline _ _ _ hn, List.map_cons]
    rw [joinLines_cons _ _ _ (by simp [textLines_ne])]
    simp only [↓reduceIte, Command.apply]
  | case2 cmd txt pos hn =>
    rw [splitFrom_none hn]
    simp [groupsStyled, styled, styledLines, textLines_none _ hn, joinLines]
  | case3 cmd txt pos hn p ps he ih => exact absurd he (splitFrom_ne _ _ _ _)
  | case4 cmd txt pos hn p ps g gs he ih =>
    rw [splitFrom_none hn]
    simp only [he]
    simp only [groupsStyled, styled, endState]
    have := ih ((if pos then Command.noop else cmd).apply st)
    rw [he] at this
    simp only [groupsStyled] at this
    simp only [Bool.false_eq_true, ↓reduceIte] at this
    have h2 : styledLines (⟨if pos then .noop else cmd, txt⟩ :: p :: ps) st =
        joinLines [txt.map fun c => (c, (if pos then Command.noop else cmd).apply st)]
          (styledLines (p :: ps) ((if pos then Command.noop else cmd).apply st)) := by
      conv_lhs => rw [styledLines]
      simp [textLines_none _ hn]
    rw [h2, ← this, joinLines]

theorem textLines_length (s : List Char) : (textLines s).length = s.count '\n' + 1 := by
  induction s using textLines.induct with
  | case1 => rfl
  | case2 rest ih => simp [textLines, ih]
  | case3 rest ih => simp [textLines, ih]
  | case4 c rest h1 h2 l ls hl ih =>
    rw [textLines]
    · rw [hl]
      rw [hl] at ih
      rw [List.count_cons_of_ne (by intro h; subst h; exact h2 rfl)]
      simpa using ih
    · exact h1
    · exact h2
  | case5 c rest h1 h2 hl ih => exact absurd hl (textLines_ne _)

theorem joinLines_length {α} : ∀ (a b : List (List α)), a ≠ [] → b ≠ [] → (joinLines a b).length + 1 = a.length + b.length
  | [], _, h, _ => absurd rfl h
  | [l], [], _, h => absurd rfl h
  | [l], l' :: b, _, _ => by simp [joinLines]; omega
  | l :: l2 :: ls, b, _, h => by
    rw [joinLines_cons _ _ _ (by simp)]
    have := joinLines_length (l2 :: ls) b (by simp) h
    simp only [List.length_cons] at this ⊢
    omega

theorem styledLines_ne (ps : List Passage) (st : State) : styledLines ps st ≠ [] := by
  cases ps with
  | nil => simp [styledLines]
  | cons p ps =>
    rw [styledLines]
    have := textLines_ne p.txt
    cases h : textLines p.txt with
    | nil => exact absurd h this
    | cons a b =>
      cases b with
      | nil =>
        simp only [List.map_cons, List.map_nil]
        cases styledLines ps (p.cmd.apply st) <;> simp [joinLines]
      | cons b c => simp only [List.map_cons]; rw [joinLines_cons _ _ _ (by simp)]; simp

theorem styledLines_length (ps : List Passage) : ∀ st, (styledLines ps st).length =
    (ps.flatMap (·.txt)).count '\n' + 1 := by
  induction ps with
  | nil => intro st; rfl
  | cons p ps ih =>
    intro st
    rw [styledLines]
    have := joinLines_length ((textLines p.txt).map fun l => l.map fun c => (c, p.cmd.apply st)) (styledLines ps (p.cmd.apply st))
      (by simp [textLines_ne]) (styledLines_ne _ _)
    rw [ih, List.length_map, textLines_length] at this
    simp only [List.flatMap_cons, List.count_append]
    omega

theorem groupsStyled_length (gs : List (List Passage)) : ∀ st, (groupsStyled gs st).length = gs.length := by
  induction gs with
  | nil => intro st; rfl
  | cons g gs ih => intro st; simp [groupsStyled, ih]

end Pdfje
