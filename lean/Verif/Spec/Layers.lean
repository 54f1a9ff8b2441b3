/-!
# Specification of CSS cascade layer order

A layer is named by a path of components.  Nothing here refers to the code.
-/
namespace Flair.Spec

/-- A layer path, outermost component first; `@layer a.b` is `["a","b"]`. -/
abbrev Path := List (List Char)

/-- A usable layer path: at least one component, no component is empty or contains a dot. -/
def Path.WF (p : Path) : Prop := p ≠ [] ∧ ∀ c ∈ p, c ≠ [] ∧ '.' ∉ c

instance (p : Path) : Decidable p.WF := by unfold Path.WF; infer_instance

/-- The text of a path: components joined by dots. -/
def Path.dotted : Path → List Char
  | [] => []
  | [c] => c
  | c :: cs => c ++ '.' :: Path.dotted cs

/-- Layer `x` exists after the declarations `ds`: some declaration names it or something in it. -/
def Declared (ds : List Path) (x : Path) : Prop := x ≠ [] ∧ ∃ d ∈ ds, x <+: d

/-- `a` was seen at a time when `b` had not been seen yet. -/
def SeenBefore (ds : List Path) (a b : Path) : Prop :=
  ∃ pre, pre <+: ds ∧ (∃ d ∈ pre, a <+: d) ∧ ∀ d ∈ pre, ¬ b <+: d

/-- CSS layer order: `x` has lower priority than `y`. -/
def Below (ds : List Path) (x y : Path) : Prop :=
  -- a layer beats every layer nested in it
  (y <+: x ∧ y ≠ x) ∨
  -- otherwise the first differing component decides: the sibling seen later wins
  ∃ p a b xs ys, x = p ++ a :: xs ∧ y = p ++ b :: ys ∧ a ≠ b ∧
    SeenBefore ds (p ++ [a]) (p ++ [b])

end Flair.Spec
