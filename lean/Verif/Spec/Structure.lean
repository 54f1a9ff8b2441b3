import Verif.Model.Structure
import Verif.Spec.Invalidation
import Verif.Spec.Prepare
/-!
# What selectors with structural pseudo classes mean, and what may happen to the hierarchy

`SelMatches` is the CSS meaning of a selector; it does not mention how the matching is done.
-/
namespace Flair.Spec
open Flair.Tree Flair.Structure
open Flair.Invalidation (Comb Dir)
variable {E D A : Type}

/-- The world of elements. -/
abbrev EWorld (E D : Type) := Flair.Invalidation.World E D

/-- `x` is the styled sibling immediately after `e`. -/
def NextOf (w : EWorld E D) (e x : E) : Prop := w.next e = some x ∧ x ∈ w.styled

/-- The element `e` matches the simple selector. -/
def SimpleMatches (w : EWorld E D) (e : E) : Simple D → Prop
  | .test c => c (w.data e) = true
  | .empty => w.forest.children e = []
  | .first => ∀ x, ¬ PrevOf w e x
  | .last => ∀ x, ¬ NextOf w e x

/-- The element `e` matches the selector. -/
def SelMatches (w : EWorld E D) : SSel D → E → Prop
  | .subject c, e => ∀ s ∈ c, SimpleMatches w e s
  | .comb l cb c, e => (∀ s ∈ c, SimpleMatches w e s) ∧ ∃ x, Reached w cb e x ∧ SelMatches w l x

/-- Only child and descendant combinators. -/
def Upwards : SSel D → Prop
  | .subject _ => True
  | .comb l cb _ => (cb = .child ∨ cb = .desc) ∧ Upwards l

/-- Sibling combinators only on the right of the last child or descendant combinator: `A B > C + D`, but not
`A + B C`. -/
def SidewaysLast : SSel D → Prop
  | .subject _ => True
  | .comb l cb _ => if cb = .nextSib ∨ cb = .laterSib then SidewaysLast l else Upwards l

/-- Neither `:first-child` nor `:last-child`. -/
def NoEdge : SSel D → Prop
  | .subject c => ∀ s ∈ c, s ≠ .first ∧ s ≠ .last
  | .comb l _ c => (∀ s ∈ c, s ≠ .first ∧ s ≠ .last) ∧ NoEdge l

/-- The first selector of the sheet starts with `:first-child` or `:last-child`, so that it is tried on every element. -/
def EdgeFirst : List (SSel D × Nat) → Prop
  | (.subject (.first :: _), _) :: _ => True
  | (.subject (.last :: _), _) :: _ => True
  | (.comb _ _ (.first :: _), _) :: _ => True
  | (.comb _ _ (.last :: _), _) :: _ => True
  | _ => False

/-- The hierarchy is one: a forest (bevy's relationship), the `Siblings` tell the neighbours (C20). -/
structure SoundWorld (w : EWorld E D) : Prop where
  wf : w.forest.WF
  neighbours : ∀ x, Neighbours w.forest x ⟨w.next x, w.prev x⟩

/-- The entity is alone in the hierarchy (not spawned yet, or despawned). -/
def Alone (f : Forest E) (x : E) : Prop := f.parent x = none ∧ f.children x = []

/-- What a frame may bring, the world having been `w` and the loaded sheets `rules`: change detection reports every
entity whose data, parent or children differ; entities get and lose their style components only when they are spawned
and despawned; the loop visits every styled entity; the flags of a tree are reset together; and a loaded sheet is
replaced only with a reset of the elements that use it. -/
structure FrameOk (w : EWorld E D) (rules : D → Option (SProg D A)) (i : SInput E D A) : Prop where
  world : SoundWorld i.world
  detected : ∀ x ∈ w.styled, x ∈ i.world.styled → i.world.data x ≠ w.data x → (i.change x).data = true
  moved : ∀ x, i.world.forest.parent x ≠ w.forest.parent x → i.moved x = true
  kids : ∀ x, i.world.forest.children x ≠ w.forest.children x → i.kids x = true
  spawned : ∀ x ∈ i.world.styled, x ∉ w.styled → Alone w.forest x
  despawned : ∀ x ∈ w.styled, x ∉ i.world.styled → Alone i.world.forest x
  visited : ∀ x ∈ i.world.styled, x ∈ i.order
  tree : ∀ x p, i.world.forest.parent x = some p → i.reset x = i.reset p
  sheets : ∀ x ∈ w.styled, ∀ p, rules (w.data x) = some p → i.rules (w.data x) ≠ some p → i.reset x = true

/-- The frames of a history are allowed, one after the other. -/
def FramesOk (w : EWorld E D) (rules : D → Option (SProg D A)) : List (SInput E D A) → Prop
  | [] => True
  | i :: is => FrameOk w rules i ∧ FramesOk i.world i.rules is

/-- At the start every styled entity is marked. -/
def AllMarked (w : EWorld E D) (st : SSt E A) : Prop := ∀ e ∈ w.styled, st.base.marker e = true

/-- All parents are styled, and their sheets loaded. -/
def ParentsLoaded (w : EWorld E D) (rules : D → Option (SProg D A)) : Prop :=
  ∀ x p, w.forest.parent x = some p → p ∈ w.styled ∧ rules (w.data p) ≠ none

/-- Sheets given by their selectors: what each asset id in the data of an element stands for. -/
def sheetsOf (n : Nat) (sheet : D → Option (List (SSel D × Nat))) (d : D) : Option (SProg D (List Nat)) :=
  (sheet d).map fun sels => Structure.sheetProg n sels [] 1

end Flair.Spec
