import Verif.Model.Page
import Verif.Spec.Page
import Verif.Props.Nesting
import Verif.Props.SheetTree
import Verif.Props.Tree
import Verif.Props.Inherit
/-!
# C95: from what is written to what is computed
-/
namespace Flair.Props
open Flair.Tree Flair.Selector Flair.Nesting Flair.Spec Flair.Sheet Flair.Loader Flair.Vars Flair.Values Flair.Media Flair.Page Flair.SheetTree
variable {E C N T V X Y : Type} [DecidableEq E] [DecidableEq N] [DecidableEq V]

/-- the views of the rules are views of what is meant -/
private theorem sees_of {K W : Type} {w : SWorld E} {p : Provider} {e : E} (he : e ∈ w.styled)
    {isMatch : CssSelector Compiled Media.Selector → Bool}
    (hm : ∀ s, isMatch s = true ↔ matchesSelector w s.selector.sel e = some true ∧ allMatch p s.media = true)
    {gives : SrcDecl C N T V X Y → List (K × W) → Prop} {rs : List (SrcRule Compiled Media.Selector C N T V X Y)}
    {ms : List (Meant E Media.Selector C N T V X Y)} (h : List.Forall₂ (AsMeant w) rs ms) :
    ∀ {vs : List (MRule K W)}, List.Forall₂ (SeenAs (·.spec) isMatch gives) rs vs →
      List.Forall₂ (SeesMeant p e gives) ms vs := by
  induction h with
  | nil => intro vs hv; cases hv; exact .nil
  | @cons r m rs ms h hs ih =>
    intro vs hv
    cases hv with
    | @cons _ v _ vs h1 h2 =>
      refine .cons ⟨?_, ?_⟩ (ih h2)
      · intro l n
        rw [h1.1 l n]
        refine and_congr_right fun _ => ?_
        constructor
        · rintro ⟨sel, hsel, hmat, hlay, hspec⟩
          obtain ⟨g1, g2⟩ := (hm sel).mp hmat
          obtain ⟨k1, k2⟩ := h.place sel hsel
          rw [k2, C13_conjunction] at g2
          exact ⟨by rw [← k1]; exact hlay, g2, (h.same e he n).mp ⟨sel, hsel, g1, hspec⟩⟩
        · rintro ⟨hlay, hmed, hq⟩
          obtain ⟨sel, hsel, g1, hspec⟩ := (h.same e he n).mpr hq
          obtain ⟨k1, k2⟩ := h.place sel hsel
          refine ⟨sel, hsel, (hm sel).mpr ⟨g1, ?_⟩, by rw [k1]; exact hlay, hspec⟩
          rw [k2, C13_conjunction]
          exact hmed
      · have hd := h1.2
        rw [h.decl] at hd
        cases v with
        | mk mat decls =>
          cases hd with
          | @cons _ l _ ls g1 g2 =>
            cases g2
            exact ⟨l, g1, rfl⟩

/-- what the files mean -/
private theorem tree_meant (w : SWorld E) (ok : ElementsOk w) {M : Type} (parts : List (Part Compiled M C N T V X Y)) :
    TreeSource w everyOne parts →
    List.Forall₂ (AsMeant w) (treeDecls replaceAmp ampSel parts) (treeMeant w everyOne parts) := by
  induction parts using treeDecls.induct with
  | case1 => intro _; rw [treeDecls, treeMeant]; exact .nil
  | case2 src rest ih =>
    intro h
    rw [TreeSource] at h
    rw [treeDecls, treeMeant]
    exact List.rel_append (C94_source_partial w ok src h.1) (ih h.2)
  | case3 layer mode parts rest ih1 ih2 =>
    intro h
    rw [TreeSource] at h
    rw [treeDecls, treeMeant]
    refine List.rel_append ?_ (ih2 h.2)
    rw [List.forall₂_map_left_iff, List.forall₂_map_right_iff]
    refine (ih1 h.1).imp fun r m a => ⟨a.decl, ?_, ?_, ?_⟩
    · intro s hs
      obtain ⟨t, ht, rfl⟩ := List.mem_map.mp hs
      exact ⟨by simp [(a.place t ht).1], (a.place t ht).2⟩
    · intro e he s hs
      obtain ⟨t, ht, rfl⟩ := List.mem_map.mp hs
      exact a.safe e he t ht
    · intro e he n
      rw [← a.same e he n]
      simp [inLayer]

/-- Every page: the sheets are loaded and built from their files and those they import, whatever else is wrong in them; no matching crashes;
and one recalculation of all the nodes gives every element exactly the variables and the declared values that CSS gives
for what is written.  After the frame the computed values are those inherited down the hierarchy. -/
theorem C95_page_partial (names : C → Option Nat) (typeOk : Nat → V → Bool) (ph : V → PropertyValue V) (hph : PhDone ph)
    (mode : ErrorMode) (hmode : mode ≠ .returnError) (w : SWorld E) (ok : ElementsOk w) (text : Text E C N T V X Y)
    (ht : TextOk names typeOk ph w text) :
    ∃ sheet : E → StyleSheet Compiled Media.Selector C N T V X Y,
      (∀ e, loadTree names typeOk (·.spec) ph replaceAmp ampSel mode (text.src e) = some (some (sheet e))) ∧
      ∀ (inline : E → Option (Ruleset (RProp C N T V) N T X Y)) (_ : ∀ e, InlineOf names (text.inl e) (inline e))
        (window : E → Provider) (unset : Nat → PropertyValue V),
        ∃ decl : E → Nat → PropertyValue V,
          (∀ e ∈ w.styled, (Page.mk w window sheet inline).vars e ≠ none ∧
            (Page.mk w window sheet inline).values names unset e = some (decl e)) ∧
          Styled names ph unset w window text (fun e n => ((Page.mk w window sheet inline).vars e).bind (· n))
            (Page.mk w window sheet inline).env decl ∧
          ∀ [DecidableEq (Nat → ComputedValue V)] (initial : Nat → V) (o : Inherit.Oracle E Nat) (roots : List E)
            (before : Inherit.World E Nat V), (∀ p, unset p ≠ .unset) → roots.Nodup →
            (∀ r ∈ roots, w.forest.parent r = none) → (∀ e, Under w.forest roots e → ∃ n, before e = some n) →
            ∀ e, Under w.forest roots e →
              ∃ n, Inherit.frame ⟨unset, initial⟩ o w.forest roots (fun e => some (decl e)) true before e = some n ∧
                ∀ p, Inherited unset initial w.forest (fun e => some (decl e)) p e (n.computed p) := by
  have hwf : w.forest.WF := ok.sound.wf
  have hmeant := fun e => tree_meant w ok (text.src e) (ht.source e)
  have hdecls : ∀ e, ∀ r ∈ treeDecls replaceAmp ampSel (text.src e), ∀ d ∈ r.decls,
      DeclOk names typeOk ph d ∧ RefsOk names d := by
    intro e r hr d hd
    have key : ∀ {rs : List (SrcRule Compiled Media.Selector C N T V X Y)} {ms : List (Meant E Media.Selector C N T V X Y)},
        List.Forall₂ (AsMeant w) rs ms → r ∈ rs → ∃ m ∈ ms, r.decls = [m.decl] := by
      intro rs ms h
      induction h with
      | nil => intro h; cases h
      | @cons r' m rs ms h hs ih =>
        intro hr
        rcases List.mem_cons.mp hr with rfl | hr
        · exact ⟨m, by simp, h.decl⟩
        · obtain ⟨m', h1, h2⟩ := ih hr
          exact ⟨m', by simp [h1], h2⟩
    obtain ⟨m, hm, e1⟩ := key (hmeant e) hr
    rw [e1, List.mem_singleton] at hd
    subst hd
    exact ht.decls e m hm
  have htree := fun e => C101_tree names typeOk (·.spec) ph replaceAmp ampSel hph mode (text.src e) (ht.proper e)
    (text.history e) (ht.history e)
  have hsheet : ∀ e, ∃ sh, loadTree names typeOk (·.spec) ph replaceAmp ampSel mode (text.src e) = some (some sh) := fun e =>
    (htree e).2.1.mpr ⟨fun h => absurd h hmode, ht.tolerated e, fun r hr d hd => (hdecls e r hr d hd).1⟩
  choose sheet hsh using hsheet
  have hgives := fun e => (htree e).2.2
  refine ⟨sheet, hsh, ?_⟩
  intro inline hinl window unset
  generalize hpage : Page.mk w window sheet inline = page
  have hw : page.world = w := by rw [← hpage]
  have hacc : ∀ e s, page.accepts e s = true ↔
      matchesSelector w s.selector.sel e = some true ∧ allMatch (window e) s.media = true := by
    intro e s; rw [← hpage]; simp [Page.accepts]
  have hviews := fun e env => C101_views_exist names (·.spec) ph replaceAmp ampSel (text.src e) (ht.proper e) (text.history e)
    (ht.history e) (page.accepts e) env fun r hr d hd => (hdecls e r hr d hd).2
  have hvars : ∀ e, ∃ vars, (sheet e).getVars (page.rules e) (inline e) = some vars ∧ ∃ ms,
      List.Forall₂ (SeenAs (·.spec) (page.accepts e) (fun d l => l = givesVars d)) (treeDecls replaceAmp ampSel (text.src e))
        ms ∧ ∀ n, Cascade (text.history e) ms ((text.inl e).map givesVars) n (vars.get? n) := by
    intro e
    obtain ⟨ms, hms⟩ := (hviews e (fun _ => none)).2
    obtain ⟨vars, h1, h2⟩ := (hgives e (sheet e) (hsh e) (page.accepts e) (text.inl e) (inline e) (hinl e)).2.1 ms hms
    refine ⟨vars, ?_, ms, hms, h2⟩
    rw [← hpage] at h1 ⊢
    exact h1
  have hvals : ∀ e, ∃ out, page.values names unset e = some out ∧ ∃ ms minl,
      List.Forall₂ (SeenAs (·.spec) (page.accepts e) (Gives names ph (page.env e)))
        (treeDecls replaceAmp ampSel (text.src e)) ms ∧
      List.Forall₂ (Gives names .value (page.env e)) (text.inl e) minl ∧
      ∀ p, ∃ v, Cascade (text.history e) ms minl p v ∧ out p = v.getD (unset p) := by
    intro e
    obtain ⟨ms, hms⟩ := (hviews e (page.env e)).1
    have hminl : ∃ minl, List.Forall₂ (Gives names .value (page.env e)) (text.inl e) minl :=
      exists_forall2 fun d hd => exists_gives .value (page.env e) (ht.inline e d hd)
    obtain ⟨minl, hminl⟩ := hminl
    obtain ⟨out, h1, h2⟩ := (hgives e (sheet e) (hsh e) (page.accepts e) (text.inl e) (inline e) (hinl e)).1 (page.env e)
      ms hms minl hminl unset
    refine ⟨out, ?_, ms, minl, hms, hminl, h2⟩
    unfold Page.values Page.rules
    have e1 : page.sheet = sheet := by rw [← hpage]
    have e2 : page.inline = inline := by rw [← hpage]
    rw [e1, e2]
    exact h1
  choose vars hv1 mv hv2 hv3 using hvars
  choose decl hd1 md minl hd2 hd3 hd4 using hvals
  have hpv : ∀ e, page.vars e = if e ∈ w.styled then some (fun n => (vars e).get? n) else none := by
    intro e
    unfold Page.vars
    have e1 : page.sheet = sheet := by rw [← hpage]
    have e2 : page.inline = inline := by rw [← hpage]
    rw [hw, e1, e2, hv1 e]
    rfl
  refine ⟨decl, ?_, ⟨?_, ?_, ?_⟩, ?_⟩
  · intro e he
    exact ⟨by rw [hpv, if_pos he]; simp, hd1 e⟩
  · intro e he
    refine ⟨mv e, sees_of he (hacc e) (hmeant e) (hv2 e), fun n => ?_⟩
    rw [hpv, if_pos he]
    exact hv3 e n
  · intro e he n
    have := C06_nearest_definition w.forest hwf page.vars e n
    have e1 : (fun x => if x ∈ w.styled then (page.vars x).bind (· n) else none) = fun x => (page.vars x).bind fun m => m n := by
      funext x
      rw [hpv]
      split <;> rfl
    rw [e1]
    unfold Page.env
    rw [hw]
    exact this
  · intro e he
    exact ⟨md e, minl e, sees_of he (hacc e) (hmeant e) (hd2 e), hd3 e, hd4 e⟩
  · intro _ initial o roots before hu hnd hr hbef
    exact C15_tree_inheritance ⟨unset, initial⟩ hu o w.forest hwf roots ⟨hnd, hr⟩ before decl hbef

/-! ## Example -/

/-- A panel (0) with a label (1) and a button (2) with a label (3) -/
private def shop2 : SWorld (Fin 4) :=
  fourWorld (fun x => if x = 0 then [1, 2] else if x = 2 then [3] else [])
    (fun x => if x = 0 then none else if x = 3 then some 2 else some 0) fun x =>
    if x = 0 then { isRoot := true, classes := ["a"] }
    else if x = 2 then { typeName := some "button", id := some "b" }
    else { typeName := some "label" }

private theorem shop2_ok : ElementsOk shop2 := fourWorld_ok (by decide) (by decide) (by decide) (by decide)

/-- A file that imports another one, `@layer z; .a { 0: 5 }`, in the layer `y`; then `@layer x { .a { --9: 7; 0: 1; @media (max-width: 100) { label { 0: var(--9) } } } }`, with one broken declaration -/
private def page : Text (Fin 4) Nat Nat Nat Nat Nat Nat where
  src _ := [.sheet (some ['y']) .ignore [.own [.layerStatement [['z']], .rule (some [compiled (.subject (.cons (.cls "a") .nil))])
    [.decls [.prop (.specific (.id 0) (.value 5))]]]], .own [.layerBlock [['x']] [.rule (some [compiled (.subject (.cons (.cls "a") .nil))])
    [.decls [.var 9 [.token 7], .prop (.specific (.id 0) (.value 1))], .error,
     .media [.viewportWidth (.lessOrEqual 100)]
      [.rule (some [compiled (nestedSel none (.subject (.cons (.localName "label") .nil)))])
        [.decls [.prop (.dynamic (fun ts => ts.head?.map fun t => [(.id 0, .value t)]) [.var 9])]]]]]]]
  history _ := [[['y']], [['x']]]
  inl e := if e = 3 then [.prop (.specific (.id 1) .inherit)] else []

example : TextOk (fun _ => none) (fun _ _ => true) .value shop2 page where
  proper e := by
    simp only [page, TreeProper, Proper, BodyProper, TreeHistory, treeLayers, docLayers, bodyLayers]
    refine ⟨by simp, ⟨[[['z']]], by decide⟩, by simp, by simp⟩
  history e := by
    simp only [TreeHistory, page, treeLayers, treeDecls, docDecls, bodyDecls, docLayers, bodyLayers, nestName, List.append_nil,
      List.nil_append]
    decide
  tolerated e := by simp [page, Tolerated]
  source e := by
    simp [page, TreeSource, SourceOk, BodyOk, SelectorOk, compiled, SelOk, CompoundOk, SimpleOk, FlatSel, FlatCompound, FlatSimple,
      FreeSel, FreeCompound, FreeSimple, aim, selWeight, compoundWeight, simpleWeight, Weight.Small, Weight.plus, Weight.zero,
      heaviest, Weight.most, Weight.Less, nestedSel, putFront, selParent, compoundParent, simpleParent, SameWeights]
  decls e m hm := by
    simp only [page, treeMeant, docMeant, bodyMeant, List.map_cons, List.map_nil, List.append_nil, List.cons_append, List.nil_append,
      List.mem_cons, List.not_mem_nil, or_false] at hm
    rcases hm with rfl | rfl | rfl | rfl <;> simp [DeclOk, RefsOk, resolveRef]
  inline e d hd := by
    simp only [page] at hd
    split at hd
    · simp at hd; subst hd; simp [RefsOk, resolveRef]
    · simp at hd

end Flair.Props
