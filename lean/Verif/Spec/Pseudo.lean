import Verif.Model.Pseudo
/-!
# Specification of pseudo element support

From the model: the operations of the application (`Op`) and the fields of the world.
-/
namespace Flair.Spec
open Flair.Pseudo
variable {E : Type}

/-- What the engine guarantees of ids: new entities have new ids, operations are on entities that exist. -/
def OpPossible (w : PWorld E) : Op E → Prop
  | .spawn x _ _ p => x ∉ w.known ∧ ∀ q ∈ p, q ∈ w.known
  | .components e _ _ => e ∈ w.known
  | .support e b a => e ∈ w.known ∧ b ∉ w.known ∧ a ∉ w.known ∧ b ≠ a
  | .unsupport e => e ∈ w.known
  | .append p x => p ∈ w.known ∧ x ∈ w.known
  | .insertAt p _ x => p ∈ w.known ∧ x ∈ w.known
  | .remove x => x ∈ w.known
  | .removeAll p => p ∈ w.known
  | .frame => True

/-- The application leaves the pseudo elements alone: it does not move or remove them; it gives support to `e` only once,
and when it is a node or a text; it does not remove all children of `e` once it has support; it inserts children at a
place only at the front, once `e` has support. -/
def OpPolite [DecidableEq E] (w : PWorld E) (e : E) : Op E → Prop
  | .spawn _ _ _ _ | .components _ _ _ | .unsupport _ | .frame => True
  | .support e' _ _ => e' = e → ((w.el e).text ∨ (w.el e).block) ∧ ∀ c ∈ (w.el e).children, w.pseudo c = none
  | .append _ x | .remove x => w.pseudo x = none
  | .insertAt p i x => w.pseudo x = none ∧ (p = e → (∃ c ∈ (w.el e).children, w.pseudo c ≠ none) → i = 0)
  | .removeAll p => p = e → ∀ c ∈ (w.el e).children, w.pseudo c = none

/-- A history all of whose steps satisfy a condition on the step and the world before it. -/
def Throughout [DecidableEq E] (P : PWorld E → Op E → Prop) : PWorld E → List (Op E) → Prop
  | _, [] => True
  | w, o :: os => P w o ∧ Throughout P (step w o) os

/-- The same history of an application that gives support to no element. -/
def withoutSupport (ops : List (Op E)) : List (Op E) :=
  ops.filter fun | .support _ _ _ => false | _ => true

/-- The children of `e` are one `::before`, the given ones, and one `::after`. -/
def Framed (w : PWorld E) (e : E) (mid : List E) : Prop :=
  ∃ b a, (w.el e).children = b :: mid ++ [a] ∧ w.pseudo b = some .before ∧ w.pseudo a = some .after ∧
    (∀ c ∈ mid, w.pseudo c = none)

end Flair.Spec
