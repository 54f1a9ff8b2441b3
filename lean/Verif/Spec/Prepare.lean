import Verif.Model.Prepare
/-!
# Specification of the preparation pass

From the model: the hierarchy (`Forest`) and the component types.
-/
namespace Flair.Spec
open Flair.Tree Flair.Prepare
variable {E A : Type}

/-- The sheet that applies to an entity (`none`: no sheet): its own if it names one, none if it is
blocked, else what applies to its parent, none at the root.  Entities without the component count as
inheriting. -/
inductive EffectiveIs (f : Forest E) (sheets : E → Option (NodeSheet A)) : E → Option A → Prop
  | sheet (e id) : sheets e = some (.sheet id) → EffectiveIs f sheets e (some id)
  | block (e) : sheets e = some .block → EffectiveIs f sheets e none
  | inherit (e p r) : sheets e = some .inherited ∨ sheets e = none → f.parent e = some p →
      EffectiveIs f sheets p r → EffectiveIs f sheets e r
  | root (e) : sheets e = some .inherited ∨ sheets e = none → f.parent e = none →
      EffectiveIs f sheets e none

/-- What the application controls. -/
structure World (E A : Type) where
  forest : Forest E
  sheets : E → Option (NodeSheet A)

/-- Change detection of bevy: when the world went from `w` to `w'` since the last pass, every entity
that now has a sheet component different from before (or had none) is reported as changed. -/
def SheetMarked (w w' : World E A) (changed : List E) : Prop :=
  ∀ e, w'.sheets e ≠ none → e ∉ changed → w.sheets e = w'.sheets e

/-- Moreover every entity with a sheet component that was given another parent is reported as changed;
an entity does not gain or lose the component while it has children (new children aside), and is not
moved when it has children but no component. -/
def MoveMarked (w w' : World E A) (changed : List E) : Prop :=
  (∀ e, w'.sheets e ≠ none → e ∉ changed → w.forest.parent e = w'.forest.parent e) ∧
  (∀ e c, w'.forest.parent c = some e → w.forest.parent c = some e →
    (w.sheets e = none ↔ w'.sheets e = none) ∧
    (w'.sheets e = none → w.forest.parent e = w'.forest.parent e))

/-- The states after a pass: any number of frames, the world being edited arbitrarily between them,
subject to `mark` (what is reported as changed).  Entities that get the component new may come with any
stored effective sheet. -/
inductive SheetRun [DecidableEq E] [DecidableEq A] (mark : World E A → World E A → List E → Prop) :
    World E A → (E → Option A) → Prop
  | start (w eff) : (∀ e, w.sheets e = none) → SheetRun mark w eff
  | frame {w eff} (w' eff' changed order) : SheetRun mark w eff → w'.forest.WF →
      SheetMarked w w' changed → mark w w' changed → (∀ l : List E, (order l).Perm l) →
      (∀ e, w.sheets e ≠ none → w'.sheets e ≠ none → eff' e = eff e) →
      SheetRun mark w' (calculateEffective w'.forest w'.sheets order changed eff')

/-- `s` tells the neighbours of `e` in the hierarchy: none at all when `e` has no parent, otherwise the
ones in the list of children of its parent. -/
def Neighbours (f : Forest E) (e : E) (s : Siblings E) : Prop :=
  (f.parent e = none → s.prev = none ∧ s.next = none) ∧
  ∀ p l1 l2, f.parent e = some p → f.children p = l1 ++ e :: l2 →
    s.prev = l1.getLast? ∧ s.next = l2.head?

/-- The states after a pass of the sibling system (`none` in second place: it crashed): any number of
frames, hierarchy and components edited arbitrarily between them.  Change detection: new components are
`added`, non-empty lists of children that differ from before are `changed`.  `keep` restricts the edits
of the hierarchy. -/
inductive SiblingRun [DecidableEq E]
    (keep : Forest E → Forest E → (E → Option (Siblings E)) → Prop) :
    Forest E → Option (E → Option (Siblings E)) → Prop
  | start (f) : f.WF → SiblingRun keep f (some fun _ => none)
  | frame {f sib} (f' sib' added changed nodes parents) : SiblingRun keep f (some sib) → f'.WF →
      keep f f' sib' →
      (∀ p, f'.children p ≠ [] → f'.children p ≠ f.children p → changed p = true) →
      (∀ e, sib' e ≠ none → e ∈ nodes) →
      (∀ e, added e = true → sib' e = some Siblings.default ∨ sib' e = none) →
      (∀ e, added e = false → sib' e = sib e ∨ sib' e = none) →
      SiblingRun keep f' (syncSiblings f' added changed nodes parents sib')

/-- No entity with the component loses its parent (it may get another one). -/
def NoOrphan (f f' : Forest E) (sib : E → Option (Siblings E)) : Prop :=
  ∀ e, sib e ≠ none → f.parent e ≠ none → f'.parent e ≠ none

/-- No restriction. -/
def AnyEdit (_ _ : Forest E) (_ : E → Option (Siblings E)) : Prop := True

end Flair.Spec
