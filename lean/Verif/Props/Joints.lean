import Verif.Proofs.Joints
import Verif.Proofs.Alike
import Verif.Props.Newlines
/-
C98: the way a text is cut into strings does not matter.
-/

namespace Pdfje
open PdfSpec

theorem intoTextLines_cut {env : Env} (hcut : ∀ n, Cuts (env.hyph n)) {gs gs' : List (List Passage)} (h : List.Forall₂ (Alike env) gs gs') :
    ∀ st, intoTextLines env gs st = intoTextLines env gs' st := by
  induction h with
  | nil => exact fun _ => rfl
  | @cons g g' _ _ hg _ ih =>
    intro st
    have hw : intoWords env g st = intoWords env g' st := intoWords_alike hcut hg st
    simp only [intoTextLines, hw, ih]

theorem text_cut (w : World) (hcut : ∀ r n, Cuts ((w.env r).hyph n)) (s : StyleFull) (loc : ℚ × ℚ) (style : Style) (align : Align) {a b : List Item} (h : CutInTwo w a b) (r : Res) :
    Drawing.render w s r (.text loc a style align) = Drawing.render w s r (.text loc b style align) := by
  simp only [Drawing.render, textOps, flattenSpan]
  obtain ⟨h1, h2⟩ := flattenItems_cut h (s.or style) ([] ++ [.style style s]) (s.asState r).2
  refine Prod.ext ?_ (by simp only [h2])
  have hj := h1.joined (flattenItems (s.or style) ([] ++ [.style style s]) b (s.asState r).2).2.2
  simp only [h2]
  rw [maxLead_cut hj, intoTextLines_cut (hcut _) (splitlines_cut hj)]

/-- C98. In a document, the strings of paragraphs and texts, and of the spans in them, may be cut into several strings after a newline, and where a line may end (if no font kerns the characters there): the file is the
same, byte by byte, and so are errors. The hyphenators must cut words into pieces. -/
theorem C98_cuts (compress : Bytes → Bytes) (w : World) (hcut : ∀ r n, Cuts ((w.env r).hyph n)) (s : StyleFull) (items items' : List DocItem)
    (h : List.Forall₂ (DocItem.With s fun _ => Relation.ReflTransGen (CutInTwo w)) items items') (id : Bytes) :
    docWrite compress w.files (DocItem.render w s) id items = docWrite compress w.files (DocItem.render w s) id items' := by
  refine docWrite_with compress ?_ ?_ h id
  · intro p a b h r cs
    induction h with
    | refl => rfl
    | tail _ h ih => rw [ih]; exact (intoColumns_cut w hcut p h r s cs).symm
  · intro loc style align a b h r
    induction h with
    | refl => rfl
    | tail _ h ih => rw [ih]; exact text_cut w hcut s loc style align h r

/-! ### The paragraph "a b" on two pages (Props/Flow), and its strings "a " and "b" -/

theorem demo_kerning (p : Char × Char) (hp : p ≠ ('A', 'V')) (r : Res) (f : FontRef) : ((demoWorld.env r).metrics f).kerning p = 0 := by
  cases f with
  | builtin f => simp [World.env, World.metrics, demoWorld, demoEnv, hp]
  | subset i =>
    simp only [World.env, World.metrics]
    cases r.subsets[i]? with
    | none => rfl
    | some e => rfl

theorem demo_mayCut : MayCut demoWorld ['a', ' '] ['b'] where
  brk := ⟨' ', rfl, by decide⟩
  space := by decide
  kern := by
    intro c d hc hd r f
    refine demo_kerning _ ?_ r f
    simp only [List.getLast?_cons_cons, List.getLast?_singleton, Option.some.injEq, List.head?_cons] at hc hd
    subst hc hd
    decide

/-- The strings may be in a list, or cut within a span; and in a text on the page. -/
example (id : Bytes) :
    docWrite (fun b => b) demoWorld.files (DocItem.render demoWorld faceStyle) id [.auto flowPages] =
      docWrite (fun b => b) demoWorld.files (DocItem.render demoWorld faceStyle) id [.auto ⟨[.paragraph { shortLeft with content := [.str ['a', ' '], .str ['b']] }], flowPages.template⟩] ∧
    docWrite (fun b => b) demoWorld.files (DocItem.render demoWorld faceStyle) id
        [.page ⟨[.text (5, 5) [.str ['x'], .span [.str ['a', ' ', 'b']] Style.empty] Style.empty .left], (100, 100), 0, []⟩] =
      docWrite (fun b => b) demoWorld.files (DocItem.render demoWorld faceStyle) id
        [.page ⟨[.text (5, 5) [.str ['x'], .span [.str ['a', ' '], .str ['b']] Style.empty] Style.empty .left], (100, 100), 0, []⟩] :=
  ⟨C98_cuts (fun b => b) demoWorld (fun _ => demoEnv_ok.cuts) faceStyle _ _
      (.cons (.auto (.cons (.paragraph shortLeft (.single (.here (s := ['a', ' ']) (t := ['b']) (by simp) demo_mayCut []))) .nil) fun n => ⟨.nil, rfl, rfl, rfl⟩) .nil) id,
    C98_cuts (fun b => b) demoWorld (fun _ => demoEnv_ok.cuts) faceStyle _ _
      (.cons (.page (p := ⟨_, _, _, _⟩) (q := ⟨_, _, _, _⟩) ⟨.cons (Drawing.With.text (5, 5) Style.empty .left (.single (.later _ (.inSpan (.here (s := ['a', ' ']) (t := ['b']) (by simp) demo_mayCut []) _ _)))) .nil, rfl, rfl, rfl⟩) .nil) id⟩

/-- After a newline, nothing is asked of the strings. -/
example (id : Bytes) (t : List Char) :
    docWrite (fun b => b) demoWorld.files (DocItem.render demoWorld faceStyle) id [.auto ⟨[.paragraph { shortLeft with content := [.str ('a' :: '\n' :: t)] }], flowPages.template⟩] =
      docWrite (fun b => b) demoWorld.files (DocItem.render demoWorld faceStyle) id [.auto ⟨[.paragraph { shortLeft with content := [.str ['a', '\n'], .str t] }], flowPages.template⟩] :=
  C98_cuts (fun b => b) demoWorld (fun _ => demoEnv_ok.cuts) faceStyle _ _
    (.cons (.auto (.cons (.paragraph shortLeft (.single (.newline ['a'] t []))) .nil) fun n => ⟨.nil, rfl, rfl, rfl⟩) .nil) id

end Pdfje
