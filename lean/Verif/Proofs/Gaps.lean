import Verif.Proofs.Display
import Verif.Proofs.Words
/-
The gaps before the characters of words, and where glyphs are because of them.
-/

namespace Pdfje

/-- A character with its style, and the kerning before it. -/
abbrev Gap := ℚ × Char × State

/-- The kerning at a position. -/
def kernAt (k : List (Nat × ℚ)) (i : Nat) : ℚ := ((k.filter (·.1 = i)).map (·.2)).sum

/-- The gaps of a text with kerning `k`, of which the first character has number `i`. -/
def gapsFrom (k : List (Nat × ℚ)) (st : State) : Nat → List Char → List Gap
  | _, [] => []
  | i, c :: cs => (kernAt k i, c, st) :: gapsFrom k st (i + 1) cs

def Slug.gaps (s : Slug) : List Gap := gapsFrom s.kern s.state 0 s.txt

def Box.gaps : Box → List Gap
  | .slug s => s.gaps
  | .mixed segs _ => segs.flatMap fun e => e.1.gaps

def tailGaps (t : Option TrailingSpace) (st : State) : List Gap := match t with | some t => [(t.kern, ' ', st)] | none => []

def WordLike.gaps : WordLike → List Gap
  | .box b => b.gaps
  | .word w => w.boxes.flatMap Box.gaps ++ tailGaps w.tail w.state
  | .withCmd w _ => w.gaps

/-- There is text, and kerning is before its characters, once each. -/
structure Slug.Strict (s : Slug) : Prop where
  ne : s.txt ≠ []
  sorted : (s.kern.map (·.1)).Pairwise (· < ·)
  lt : ∀ e ∈ s.kern, e.1 < s.txt.length

@[inherit_doc Slug.Strict] def Box.Strict : Box → Prop
  | .slug s => s.Strict
  | .mixed segs _ => segs ≠ [] ∧ ∀ e ∈ segs, e.1.Strict

@[inherit_doc Slug.Strict] def WordLike.Strict (w : WordLike) : Prop := ∀ b ∈ w.boxes, b.Strict

/-- Glyphs at the places that the gaps give, from `x` to `x'`. -/
inductive Spaced (W : FontRef → Char → ℚ) : ℚ → List Gap → List Glyph → ℚ → Prop
  | nil (x) : Spaced W x [] [] x
  | cons (x k c st l g gs x') : g.char = c → g.font = some (st.font, st.size) → g.x = x + k / 1000 * st.size →
      Spaced W (g.x + W st.font c / 1000 * st.size) l gs x' → Spaced W x ((k, c, st) :: l) (g :: gs) x'

variable {W : FontRef → Char → ℚ}

theorem Spaced.trans {x y z : ℚ} {a b : List Gap} {g h : List Glyph} (h1 : Spaced W x a g y) (h2 : Spaced W y b h z) : Spaced W x (a ++ b) (g ++ h) z := by
  induction h1 with
  | nil x => exact h2
  | cons x k c st l g gs x' e1 e2 e3 _ ih => exact .cons _ _ _ _ _ _ _ _ e1 e2 e3 (ih h2)

/-- Moving the kerning of the first character into the start. -/
theorem Spaced.shift {x k d : ℚ} {c : Char} {st : State} {l : List Gap} {g : List Glyph} {y : ℚ} (h : Spaced W (x + d / 1000 * st.size) ((k, c, st) :: l) g y) :
    Spaced W x ((d + k, c, st) :: l) g y := by
  cases h with
  | cons _ _ _ _ _ g gs _ e1 e2 e3 e4 => exact .cons _ _ _ _ _ _ _ _ e1 e2 (by rw [e3]; ring) e4

theorem showText_spaced (f : FontRef) (st : State) : ∀ (s : List Char) (v : Viewer), v.font = some (st.font, st.size) →
    Spaced W v.x (s.map fun c => ((0 : ℚ), c, st)) (Viewer.showText W f s v).1 (Viewer.showText W f s v).2.x
  | [], v, _ => .nil _
  | c :: s, v, h => by
    have e : ({ v with x := v.x + v.dist (v.charWidth W c) } : Viewer) = v.move (v.dist (W st.font c)) := by
      simp [Viewer.move, Viewer.charWidth, h]
    simp only [Viewer.showText, e, List.map_cons]
    refine .cons _ _ _ _ _ _ _ _ rfl h (by simp [Viewer.glyph]) ?_
    have := showText_spaced f st s (v.move (v.dist (W st.font c))) h
    simpa [Viewer.glyph, Viewer.dist_of h] using this

theorem gapsFrom_append (k : List (Nat × ℚ)) (st : State) : ∀ (a b : List Char) (i : Nat), gapsFrom k st i (a ++ b) = gapsFrom k st i a ++ gapsFrom k st (i + a.length) b
  | [], b, i => by simp [gapsFrom]
  | c :: a, b, i => by
    simp only [List.cons_append, gapsFrom, gapsFrom_append k st a b (i + 1), List.length_cons]
    congr 3; omega

theorem kernAt_zero {k : List (Nat × ℚ)} {i : Nat} (h : ∀ e ∈ k, e.1 ≠ i) : kernAt k i = 0 := by
  have : k.filter (·.1 = i) = [] := List.filter_eq_nil_iff.2 fun e he => by simpa using h e he
  simp [kernAt, this]

theorem gapsFrom_zero {k : List (Nat × ℚ)} (st : State) : ∀ (a : List Char) (i : Nat), (∀ e ∈ k, i + a.length ≤ e.1) →
    gapsFrom k st i a = a.map fun c => ((0 : ℚ), c, st)
  | [], i, _ => rfl
  | c :: a, i, h => by
    simp only [List.length_cons] at h
    rw [gapsFrom, kernAt_zero (fun e he => by have := h e he; omega), gapsFrom_zero st a (i + 1) (fun e he => by have := h e he; omega)]
    rfl

theorem gapsFrom_congr {k k' : List (Nat × ℚ)} (st : State) : ∀ (a : List Char) (i : Nat), (∀ j, i ≤ j → j < i + a.length → kernAt k j = kernAt k' j) →
    gapsFrom k st i a = gapsFrom k' st i a
  | [], i, _ => rfl
  | c :: a, i, h => by
    simp only [List.length_cons] at h
    rw [gapsFrom, gapsFrom, h i le_rfl (by omega), gapsFrom_congr st a (i + 1) (fun j h1 h2 => h j (by omega) (by omega))]

theorem kernAt_cons_ne {i j : Nat} {x : ℚ} {k : List (Nat × ℚ)} (h : j ≠ i) : kernAt ((j, x) :: k) i = kernAt k i := by
  simp [kernAt, h]

theorem kernAt_cons_eq {i : Nat} {x : ℚ} {k : List (Nat × ℚ)} : kernAt ((i, x) :: k) i = x + kernAt k i := by
  simp [kernAt]

theorem encodeLoop_spaced (f : FontRef) (st : State) (s : List Char) : ∀ (k : List (Nat × ℚ)) (prev : Nat) (v : Viewer),
    (k.map (·.1)).Pairwise (· ≤ ·) → (∀ e ∈ k, prev ≤ e.1 ∧ e.1 < s.length) → v.font = some (st.font, st.size) →
    Spaced W v.x (gapsFrom k st prev (s.drop prev)) (Viewer.show W ((encodeKerningLoop s 1 prev k).map (Piece.item f)) v).1
      (Viewer.show W ((encodeKerningLoop s 1 prev k).map (Piece.item f)) v).2.x := by
  intro k
  induction k with
  | nil =>
    intro prev v _ _ h
    simp only [encodeKerningLoop, List.map_cons, List.map_nil, Piece.item, Viewer.show, List.append_nil]
    rw [gapsFrom_zero st _ _ (by simp)]
    exact showText_spaced f st _ v h
  | cons e k ih =>
    intro prev v hk hp h
    obtain ⟨i, a⟩ := e
    obtain ⟨hi, hil⟩ := hp (i, a) List.mem_cons_self
    have hpi : ∀ e ∈ k, i ≤ e.1 := fun e he => (List.pairwise_cons.mp hk).1 e.1 (List.mem_map_of_mem he)
    simp only [encodeKerningLoop, List.map_cons, Piece.item, Nat.mul_one]
    rw [Viewer.show]
    simp only [show_adj_cons]
    obtain ⟨h1, -⟩ := showText_spec (W := W) f ((s.take i).drop prev) v _ _ h
    have s1 := showText_spaced (W := W) f st ((s.take i).drop prev) v h
    have hlen : ((s.take i).drop prev).length = i - prev := by simp; omega
    have s2 := ih i (v.move (v.dist (((s.take i).drop prev).map (W st.font)).sum + v.dist a)) (List.pairwise_cons.mp hk).2
      (fun e he => ⟨hpi e he, (hp e (List.mem_cons_of_mem _ he)).2⟩) h
    rw [← drop_take_append_drop s prev i hi, gapsFrom_append, hlen, show prev + (i - prev) = i by omega]
    obtain ⟨c, cs, hc⟩ : ∃ c cs, s.drop i = c :: cs := List.exists_cons_of_ne_nil (by simp; omega)
    rw [gapsFrom_zero st _ _ (by
      intro e he
      rw [hlen]
      rcases List.mem_cons.1 he with rfl | he
      · show _ ≤ i
        omega
      · have := hpi e he; omega)]
    refine s1.trans ?_
    rw [h1]
    simp only [Viewer.dist_move, neg_neg, Viewer.move_move]
    rw [hc] at s2 ⊢
    simp only [gapsFrom] at s2 ⊢
    rw [kernAt_cons_eq, gapsFrom_congr (k := (i, a) :: k) (k' := k) st cs (i + 1) (fun j h1 _ => kernAt_cons_ne (by omega))]
    apply Spaced.shift
    simpa [Viewer.dist_of h, add_assoc] using s2

theorem Slug.spaced {env : Env} {s : Slug} (hs : s.WF env) (ht : s.Strict) (v : Viewer) (hv : v.In s.state) :
    Spaced W v.x s.gaps (Viewer.show W s.toItems v).1 (Viewer.show W s.toItems v).2.x := by
  have hk := hs.kern.1
  obtain ⟨txt, k, w, st⟩ := s
  simp only [Slug.toItems, Slug.gaps]
  have hne : txt ≠ [] := hs.ne
  replace ht := ht.lt
  simp only at ht hk hv
  unfold encodeKerning
  split
  · have := encodeLoop_spaced (W := W) st.font st txt [] 0 v (by simp) (by simp) hv.1
    simpa [encodeKerningLoop] using this
  · rename_i a rest
    simp only [List.map_cons, Piece.item, show_adj_cons, neg_neg]
    have := encodeLoop_spaced (W := W) st.font st txt rest 0 (v.move (v.dist a)) (List.pairwise_cons.mp hk).2
      (fun e he => ⟨Nat.zero_le _, ht e (List.mem_cons_of_mem _ he)⟩) hv.1
    obtain ⟨c, cs, rfl⟩ := List.exists_cons_of_ne_nil hne
    simp only [List.drop_zero, gapsFrom] at this ⊢
    rw [kernAt_cons_eq, gapsFrom_congr (k := (0, a) :: rest) (k' := rest) st cs (0 + 1) (fun j h1 _ => kernAt_cons_ne (by omega))]
    apply Spaced.shift
    simpa [Viewer.dist_of hv.1] using this
  · have := encodeLoop_spaced (W := W) st.font st txt k 0 v hk (fun e he => ⟨Nat.zero_le _, ht e he⟩) hv.1
    simpa using this

end Pdfje
