import Verif.Proofs.Nesting2
import Verif.Props.Selector
/-!
# C94: nested rules and specificity
-/
namespace Flair.Props
open Flair.Tree Flair.Selector Flair.Nesting Flair.Spec Flair.Sheet Flair.Loader Flair.Proofs.Nesting
variable {E M C N T V X Y : Type} [DecidableEq E]

/-! ## Specificity -/

/-- The number stored with a parsed selector is its specificity, if it has less than 1024 of each. -/
theorem C94_specificity (s : Sel) (h : (selWeight .zero s).Small) : (compiled s).spec = (selWeight .zero s).number :=
  (spec_good s).2.1 h

/-- These numbers are ordered like the specificities. -/
theorem C94_specificity_order (a b : Weight) (ha : a.Small) (hb : b.Small) :
    (a.number < b.number ↔ a.Less b) ∧ (a.number = b.number ↔ a = b) := by
  obtain ⟨a1, a2, a3⟩ := a
  obtain ⟨b1, b2, b3⟩ := b
  unfold Weight.Small at ha hb
  unfold Weight.number Weight.Less
  simp only [Weight.mk.injEq] at *
  omega

/-- With more than that, a selector is still not put above one that is at least as specific. -/
theorem C94_specificity_large (s t : Sel) (h : (selWeight .zero t).Small) (hl : ¬ (selWeight .zero t).Less (selWeight .zero s)) :
    (compiled s).spec ≤ (compiled t).spec := by
  rw [C94_specificity t h]
  exact le_of_below (spec_good s).2.2 (below_trans' (spec_good s).1 hl) h

/-- `#a .b:hover > :is(.c, #d) label` -/
private def long : Sel :=
  .link (.link (.link (.subject (.cons (.id "a") .nil)) .desc (.cons (.cls "b") (.cons (.state .hovered) .nil))) .child
    (.cons (.is (.cons (.subject (.cons (.cls "c") .nil)) (.cons (.subject (.cons (.id "d") .nil)) .nil))) .nil)) .desc
    (.cons (.localName "label") .nil)

example : selWeight .zero long = ⟨2, 2, 1⟩ ∧ (compiled long).spec = 2 * 1048576 + 2 * 1024 + 1 := by decide

/-! ## `&` -/

/-- A selector that begins with a combinator is seen from the elements of the outer rule; one without any `&` is for their
descendants; any other one is as written. -/
theorem C94_relative (w : SWorld E) (counts : E → Bool) (P : E → Prop) (s : Sel) (e : E) :
    (∀ k, SelMeans w counts P none (nestedSel (some k) s) e ↔ RelMeans w counts P k s e) ∧
    (selParent s = false → (SelMeans w counts P none (nestedSel none s) e ↔ RelMeans w counts P .desc s e)) ∧
    (selParent s = true → nestedSel none s = s) := by
  have key : ∀ k (s : Sel) (e : E), SelMeans w counts P none (putFront k s) e ↔ RelMeans w counts P k s e := by
    intro k s
    fun_induction putFront k s with
    | case1 c => intro e; simp [SelMeans, RelMeans, CompoundMeans, SimpleMeans, NamesPseudo]
    | case2 l k' c ih => intro e; simp [SelMeans, RelMeans, ih]
  refine ⟨fun k => key k s e, fun h => ?_, fun h => ?_⟩
  · simp only [nestedSel, h, Bool.false_eq_true, if_false]
    exact key _ s e
  · simp only [nestedSel, h, if_true]

/-- For any nesting: the rule with `&` replaced by the outer selectors is for the elements, and with the specificity, that
CSS says: `&` is for the elements of all outer selectors and counts as the most specific of them. -/
theorem C94_nested (w : SWorld E) (ok : ElementsOk w) (outer : List Compiled) (s : Compiled)
    (ho : ∀ c ∈ outer, SelectorOk false c) (hs : SelectorOk true s) (e : E) (he : e ∈ w.styled) :
    matchesSelector w (replaceAmp s outer).sel e ≠ none ∧
    (matchesSelector w (replaceAmp s outer).sel e = some true ↔
      SelMeans w everyOne (fun x => ∃ c ∈ outer, SelMeans w everyOne noParent none c.sel x) none s.sel e) ∧
    ((selWeight (heaviest (outer.map fun c => selWeight .zero c.sel)) s.sel).Small →
      (replaceAmp s outer).spec = (selWeight (heaviest (outer.map fun c => selWeight .zero c.sel)) s.sel).number) := by
  obtain ⟨h1, h2, h3, h4⟩ := hs
  have hok : SelOk false (replaceAmp s outer).sel := by
    rw [replaced_sel]
    exact sel_ok_fill (ok_listOf _ fun c hc => (ho c hc).2.1) _ h2
  have hany : ∀ a x, AnyMeans w everyOne noParent a (listOf outer) x ↔
      ∃ c ∈ outer, SelMeans w everyOne noParent none c.sel x := by
    intro a x
    rw [any_listOf]
    exact exists_congr fun c => and_congr_right fun hc => sel_free a none c.sel x (ho c hc).2.2.2
  have hm := sel_fill hany none s.sel e
  rw [← replaced_sel] at hm
  have hg : GoodN (greatest outer) (heaviest (outer.map fun c => selWeight .zero c.sel)) := by
    clear hany hok hm
    induction outer with
    | nil => exact goodN_zero
    | cons c cs ih =>
      have e1 : c.spec = selSpec c.sel := by rw [(ho c (by simp)).1]; rfl
      simp only [greatest, List.map_cons, heaviest, e1]
      exact good_max (spec_good _) (ih fun x hx => ho x (by simp [hx]))
  refine ⟨(C90_every_partial w ok _ hok e he).1, (C90_every_partial w ok _ hok e he).2.trans hm, fun h => ?_⟩
  exact (replaced_good h1 h3 hg).2.1 h

/-- The whole source: the declarations come in the order in which they are written, and each is for the elements, with
the specificity, the layer and the conditions that CSS says (`docMeant`). -/
theorem C94_source_partial (w : SWorld E) (ok : ElementsOk w) (src : List (Src Compiled M C N T V X Y))
    (hs : SourceOk w everyOne src) :
    List.Forall₂ (AsMeant w) (docDecls replaceAmp ampSel [] [] src) (docMeant w everyOne [] [] src) :=
  doc_meant ok [] [] src hs

/-! ## Examples, and where CSS says something else -/

/-- A panel (0) with a label (1) in it, and a button `#b` (2) with a label (3) -/
private def shop : SWorld (Fin 4) :=
  fourWorld (fun x => if x = 0 then [1, 2] else if x = 2 then [3] else [])
    (fun x => if x = 0 then none else if x = 3 then some 2 else some 0) fun x =>
    if x = 0 then { isRoot := true, classes := ["a"] }
    else if x = 2 then { typeName := some "button", id := some "b", state := { hovered := true } }
    else { typeName := some "label" }

private theorem shop_ok : ElementsOk shop := fourWorld_ok (by decide) (by decide) (by decide) (by decide)

private def one (s : Simple) : Sel := .subject (.cons s .nil)

/-- `.a, #b { x: 1; label { x: 2 } &:hover { x: 3 } }` -/
private def rules : List (Src Compiled Unit Nat Nat Nat Nat Nat Nat) :=
  [.rule (some [compiled (one (.cls "a")), compiled (one (.id "b"))])
    [.decls [.transition 1],
     .rule (some [compiled (nestedSel none (one (.localName "label")))]) [.decls [.transition 2]],
     .rule (some [compiled (.subject (.cons .parent (.cons (.state .hovered) .nil)))]) [.decls [.transition 3]]]]

example : SourceOk shop everyOne rules := by
  simp [rules, SourceOk, BodyOk, SelectorOk, one, compiled, SelOk, CompoundOk, SimpleOk, FlatSel, FlatCompound, FlatSimple,
    FreeSel, FreeCompound, FreeSimple, aim, selWeight, compoundWeight, simpleWeight, Weight.Small, Weight.plus, Weight.zero,
    heaviest, Weight.most, Weight.Less, nestedSel, putFront, selParent, compoundParent, simpleParent]

/-- the specificities with which the rules match each of the four -/
private def found (src : List (Src Compiled Unit Nat Nat Nat Nat Nat Nat)) (e : Fin 4) : List (List Nat) :=
  (docDecls replaceAmp ampSel [] [] src).map fun r =>
    (r.selectors.filter fun s => matchesSelector shop s.selector.sel e = some true).map (·.selector.spec)

example : found rules 0 = [[1024], [], []] ∧ found rules 1 = [[], [1048577], []] ∧
    found rules 2 = [[1048576], [], [1049600]] ∧ found rules 3 = [[], [1048577], []] := by
  unfold found rules
  simp only [docDecls, bodyDecls, List.map_cons, List.map_nil, List.nil_append, List.append_nil, List.cons_append]
  decide +kernel

/-- A nested `@media` (or `@layer`) block changes the specificity: `.a, #b { @media … { x: 1 } }`.  For an element with
class `a` the declaration should be as specific as `.a`; it is as specific as `#b`. -/
theorem C94_media_false : ∃ (w : SWorld (Fin 4)) (src : List (Src Compiled Unit Nat Nat Nat Nat Nat Nat)) (e : Fin 4),
    ElementsOk w ∧ e ∈ w.styled ∧
    src = [.rule (some [compiled (.subject (.cons (.cls "a") .nil)), compiled (.subject (.cons (.id "b") .nil))])
      [.media [()] [.decls [.transition 1]]]] ∧
    (∃ r m, docDecls replaceAmp ampSel [] [] src = [r] ∧ docMeant w everyOne [] [] src = [m] ∧
      (∃ s ∈ r.selectors, matchesSelector w s.selector.sel e = some true ∧
        s.selector.spec = (⟨1, 0, 0⟩ : Weight).number) ∧
      (∃ q ∈ m.aims, q.picks e) ∧ ∀ q ∈ m.aims, q.picks e → q.weight = ⟨0, 1, 0⟩) := by
  refine ⟨shop, _, 0, shop_ok, by decide, rfl, _, _, by simp [docDecls, bodyDecls]; rfl, by simp [docMeant, bodyMeant]; rfl, ?_, ?_, ?_⟩
  · refine ⟨_, List.mem_singleton.mpr rfl, ?_, ?_⟩ <;> decide +kernel
  · exact ⟨_, List.mem_cons_self, by simp [aim, compiled, SelMeans, CompoundMeans, SimpleMeans, shop, fourWorld, everyOne]⟩
  · intro q hq hp
    simp only [List.map_cons, List.map_nil, List.mem_cons, List.not_mem_nil, or_false] at hq
    rcases hq with rfl | rfl
    · rfl
    · exfalso
      simp [aim, compiled, one, SelMeans, CompoundMeans, SimpleMeans, shop, fourWorld] at hp

end Flair.Props
