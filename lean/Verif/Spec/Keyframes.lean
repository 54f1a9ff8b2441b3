import Verif.Model.Keyframes
/-! # Specification of `@keyframes` -/
namespace Flair.Spec
open Flair.Keyframes
variable {D E V : Type}

/-- Times less than 0.1% apart are the same keyframe. -/
def SameTime (a b : ℚ) : Prop := |a - b| ≤ 1 / 1000

/-- The last timing function that is given. -/
def lastGiven (l : List (Option E)) : Option E := (l.filterMap id).getLast?

/-- The times that exist: 0%, 100% and the declared ones. -/
def IsTime (calls : List (Call D E)) (t : ℚ) : Prop := t = 0 ∨ t = 1 ∨ ∃ c ∈ calls, c.time = t

/-- Different times are at least 0.1% apart. -/
def Separated (calls : List (Call D E)) : Prop :=
  ∀ a b, IsTime calls a → IsTime calls b → SameTime a b → a = b

/-- The declarations of an item. -/
def itemProps : Item D E → List D
  | .props ds => ds
  | .easing _ => []

/-- The easing an item of a keyframe rule gives, if it does. -/
def itemEasing : Item D E → Option E
  | .props _ => none
  | .easing e => some e

/-- What the declarations `ds` of a keyframe specify for `p`: nothing (`none`), or what the last one of them that
has a value for `p` gives (`some none` is a value that cannot be computed). -/
inductive Specifies {P : Type} (ev : D → List (P × Option V)) (ds : List D) (p : P) : Cell V → Prop
  | no : (∀ x ∈ ds.flatMap ev, x.1 ≠ p) → Specifies ev ds p none
  | yes (before after : List (P × Option V)) (v : Option V) : ds.flatMap ev = before ++ (p, v) :: after →
      (∀ x ∈ after, x.1 ≠ p) → Specifies ev ds p (some v)

/-- A keyframe with a value of its own: the first, the last, or one that specifies the property. -/
def Anchor (l : List (ℚ × Cell V)) (i : Nat) : Prop :=
  i = 0 ∨ i + 1 = l.length ∨ ∃ t v, l[i]? = some (t, some v)

/-- `out` are the values of a property at the keyframes `l`: what a keyframe specifies; the element's own
value `cur` at the ends; and in between what lies between the nearest keyframes with values of their own. -/
def Filled (interp : Option (V → V → ℚ → V)) (cur : Option V) (l : List (ℚ × Cell V))
    (out : List (ℚ × V)) : Prop :=
  out.map (·.1) = l.map (·.1) ∧
  ∀ (i : Nat) (t : ℚ) (c : Cell V) (t' : ℚ) (v : V), l[i]? = some (t, c) → out[i]? = some (t', v) →
    match c with
    | some w => w = some v
    | none =>
      if i = 0 ∨ i + 1 = l.length then cur = some v
      else ∃ p q a b f, p < i ∧ i < q ∧ Anchor l p ∧ Anchor l q ∧ (∀ j, p < j → j < q → ¬ Anchor l j) ∧
        out[p]? = some a ∧ out[q]? = some b ∧ interp = some f ∧
        v = f a.2 b.2 ((t - a.1) / (b.1 - a.1))

/-- Interpolating on from an interpolated value stays on the way. -/
def Straight (f : V → V → ℚ → V) : Prop :=
  ∀ a b s u, 0 ≤ s → s < 1 → 0 ≤ u → u ≤ 1 → f (f a b s) b u = f a b (s + (1 - s) * u)

end Flair.Spec
