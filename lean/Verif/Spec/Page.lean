import Verif.Spec.Nesting
import Verif.Spec.SheetTree
import Verif.Spec.Media
import Verif.Spec.Inherit
import Verif.Spec.Hierarchy
/-!
# The style of the elements of a page

From the files of the sheets (`treeMeant`: what each declaration is for), the inline styles, the hierarchy and what the
windows report, the style of every element, after CSS: the cascade of the variables, their inheritance, and the cascade
of the properties with the variables in place.  From the model: the syntax of sources and the data of the elements.
-/
namespace Flair.Spec
open Flair.Tree Flair.Selector Flair.Nesting Flair.Sheet Flair.Loader Flair.Vars Flair.Values Flair.Media Flair.SheetTree
variable {E C N T V X Y : Type} [DecidableEq E]

/-- What the declarations of a file and of the files it imports are for, as if each `@import` were replaced by the contents
of the file, in its layer. -/
def treeMeant {M : Type} (w : SWorld E) (counts : E → Bool) :
    List (Part Compiled M C N T V X Y) → List (Meant E M C N T V X Y)
  | [] => []
  | .own src :: rest => docMeant w counts [] [] src ++ treeMeant w counts rest
  | .sheet layer _ parts :: rest =>
    (treeMeant w counts parts).map (fun m => { m with layer := nestName (layer.getD []) m.layer }) ++
      treeMeant w counts rest

/-- The selectors in all the files are as in `SourceOk`. -/
def TreeSource {M : Type} (w : SWorld E) (counts : E → Bool) : List (Part Compiled M C N T V X Y) → Prop
  | [] => True
  | .own src :: rest => SourceOk w counts src ∧ TreeSource w counts rest
  | .sheet _ _ parts :: rest => TreeSource w counts parts ∧ TreeSource w counts rest

/-- A declaration as the element `e` sees it, in a window reporting `p`: through those selectors that select it, if all the
conditions hold. -/
def SeesMeant {K W : Type} (p : Provider) (e : E) (gives : SrcDecl C N T V X Y → List (K × W) → Prop)
    (m : Meant E Media.Selector C N T V X Y) (r : MRule K W) : Prop :=
  (∀ l n, (l, n) ∈ r.matching ↔ (l = [] ∨ l.WF) ∧ m.layer = l.dotted ∧ (∀ c ∈ m.media, Holds p c) ∧
    ∃ q ∈ m.aims, q.picks e ∧ q.weight.number = n) ∧
  ∃ l, gives m.decl l ∧ r.decls = [l]

/-- What is written: for each element the file of its sheet (and those it imports), the layers in their order, and the inline style. -/
structure Text (E C N T V X Y : Type) where
  src : E → List (Part Compiled Media.Selector C N T V X Y)
  history : E → List Path
  inl : E → List (SrcDecl C N T V X Y)

/-- The variables the elements define, those they see, and their declared values (`unset p`: when nothing declares `p`)
are as CSS says. -/
structure Styled (names : C → Option Nat) (ph : V → PropertyValue V) (unset : Nat → PropertyValue V) (w : SWorld E)
    (window : E → Provider) (text : Text E C N T V X Y) (vars env : E → N → Option (VarTokens N T))
    (decl : E → Nat → PropertyValue V) : Prop where
  own : ∀ e ∈ w.styled, ∃ ms, List.Forall₂ (SeesMeant (window e) e fun d l => l = givesVars d)
      (treeMeant w everyOne (text.src e)) ms ∧
    ∀ n, Cascade (text.history e) ms ((text.inl e).map givesVars) n (vars e n)
  seen : ∀ e ∈ w.styled, ∀ n, NearestDef w.forest (fun x => if x ∈ w.styled then vars x n else none) e (env e n)
  declared : ∀ e ∈ w.styled, ∃ ms minl, List.Forall₂ (SeesMeant (window e) e (Gives names ph (env e)))
      (treeMeant w everyOne (text.src e)) ms ∧
    List.Forall₂ (Gives names .value (env e)) (text.inl e) minl ∧
    ∀ p, ∃ v, Cascade (text.history e) ms minl p v ∧ decl e p = v.getD (unset p)

/-- What is expected of what is written: the layers are proper, no imported file is refused, the selectors are as in
`SourceOk`, the names of the properties exist, and the values are of their types. -/
structure TextOk (names : C → Option Nat) (typeOk : Nat → V → Bool) (ph : V → PropertyValue V) (w : SWorld E)
    (text : Text E C N T V X Y) : Prop where
  proper : ∀ e, TreeProper replaceAmp ampSel (text.src e)
  history : ∀ e, TreeHistory replaceAmp ampSel (text.src e) (text.history e)
  tolerated : ∀ e, Tolerated (text.src e)
  source : ∀ e, TreeSource w everyOne (text.src e)
  decls : ∀ e, ∀ m ∈ treeMeant w everyOne (text.src e), DeclOk names typeOk ph m.decl ∧ RefsOk names m.decl
  inline : ∀ e, ∀ d ∈ text.inl e, RefsOk names d

end Flair.Spec
