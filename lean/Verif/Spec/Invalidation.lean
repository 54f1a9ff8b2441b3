import Verif.Model.Invalidation
import Verif.Tactics
/-!
# What selectors mean, and which selectors look only where changes are noticed

`Matches` is the CSS meaning of a selector with combinators on the tree of styled elements; it does not mention how
the matching is done.
-/
namespace Flair.Spec
open Flair.Tree Flair.Invalidation
variable {E D A : Type}

/-- One or more steps of a relation. -/
inductive Steps (r : E → E → Prop) : E → E → Prop
  | one {a b} : r a b → Steps r a b
  | more {a b c} : r a b → Steps r b c → Steps r a c

/-- `x` is the styled parent of `e`. -/
def ParentOf (w : World E D) (e x : E) : Prop := w.forest.parent e = some x ∧ x ∈ w.styled

/-- `x` is the styled sibling immediately before `e`. -/
def PrevOf (w : World E D) (e x : E) : Prop := w.prev e = some x ∧ x ∈ w.styled

/-- `x` is where the combinator on the left of `e` looks. -/
def Reached (w : World E D) : Comb → E → E → Prop
  | .child => ParentOf w
  | .desc => Steps (ParentOf w)
  | .nextSib => PrevOf w
  | .laterSib => Steps (PrevOf w)

/-- The element `e` matches the selector. -/
def Matches (w : World E D) : Sel D → E → Prop
  | .subject c, e => c (w.data e) = true
  | .comb l cb c, e => c (w.data e) = true ∧ ∃ x, Reached w cb e x ∧ Matches w l x

/-- Only child and descendant combinators. -/
def OnlyUp : Sel D → Prop
  | .subject _ => True
  | .comb l cb _ => (cb = .child ∨ cb = .desc) ∧ OnlyUp l

/-- Sibling combinators only between the last compounds: `A B > C + D ~ E`, but not `A + B C`. -/
def Tame : Sel D → Prop
  | .subject _ => True
  | .comb l cb _ => if cb = .nextSib ∨ cb = .laterSib then Tame l else OnlyUp l

/-- Where a handle is, seen from the element to be matched. -/
inductive Kind where
  /-- the element itself -/
  | self
  /-- reached by sibling steps -/
  | side
  /-- reached by sibling steps and then parent steps -/
  | above
  /-- reached by first-child steps -/
  | below
deriving DecidableEq

/-- Where a move leads; `none`: to a place whose changes are not noticed. -/
def Kind.go : Dir → Kind → Option Kind
  | .parent, .self => some .above
  | .parent, .side => some .above
  | .parent, .above => some .above
  | .parent, .below => none
  | .prev, .self => some .side
  | .prev, .side => some .side
  | .prev, _ => none
  | .next, .self => some .side
  | .next, .side => some .side
  | .next, _ => none
  | .child, .self => some .below
  | .child, .below => some .below
  | .child, _ => none

/-- The program moves only to places whose changes are noticed; `ks`: where its handles are. -/
def Noticed : List Kind → Prog D A → Prop
  | _, .ret _ => True
  | ks, .read _ k => ∀ d, Noticed ks (k d)
  | ks, .isEmpty _ k => ∀ b, Noticed ks (k b)
  | ks, .move d i k => Noticed ks (k false) ∧
      ∀ kd, ks[i]? = some kd → ∃ kd', kd.go d = some kd' ∧ Noticed (ks ++ [kd']) (k true)

/-- The hierarchy is consistent: a forest (bevy's relationship), whose `Siblings` are children of the same parent. -/
structure Consistent (w : World E D) : Prop where
  wf : w.forest.WF
  prev : ∀ x y, w.prev x = some y → ∃ p, w.forest.parent x = some p ∧ w.forest.parent y = some p
  next : ∀ x y, w.next x = some y → ∃ p, w.forest.parent x = some p ∧ w.forest.parent y = some p

/-- What a frame may bring, the world having been `w` and the loaded sheets `rules`: change detection reports every
entity whose data differ; the loop visits every styled entity; the flags of a tree are reset together; and a loaded
sheet is replaced only with a reset of the elements that use it. -/
structure Allowed (w : World E D) (rules : D → Option (Prog D A)) (i : Input E D A) : Prop where
  detected : ∀ x ∈ w.styled, i.data x ≠ w.data x → (i.change x).data = true
  visited : ∀ x ∈ w.styled, x ∈ i.order
  tree : ∀ x p, w.forest.parent x = some p → i.reset x = i.reset p
  sheets : ∀ x ∈ w.styled, ∀ p, rules (w.data x) = some p → i.rules (w.data x) ≠ some p → i.reset x = true

/-- The frames of a history are allowed, one after the other. -/
def AllowedFrom (w : World E D) (rules : D → Option (Prog D A)) : List (Input E D A) → Prop
  | [] => True
  | i :: is => Allowed w rules i ∧ AllowedFrom (w.after i) i.rules is

/-- The loaded sheets after a history. -/
def lastRules (rules : D → Option (Prog D A)) : List (Input E D A) → D → Option (Prog D A)
  | [] => rules
  | i :: is => lastRules i.rules is

/-- Every chain of styled parents, and every chain of styled previous siblings, is shorter than `n`. -/
def Bounded [DecidableEq E] (w : World E D) (n : Nat) : Prop :=
  ∀ d x l, (d = Dir.parent ∨ d = Dir.prev) → List.IsChain (fun a b => w.step d a = some b) (x :: l) → l.length < n

end Flair.Spec
