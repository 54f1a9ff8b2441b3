import Mathlib.Data.Rat.Floor
import Mathlib.Order.Bounds.Basic
/-!
# What `linear()` and `steps()` mean (CSS Easing Functions Level 2)

Independent of the model: control points are lists of (position or nothing, value), completed ones of (position, value).
-/
namespace Flair.Spec

/-- The position a control point gives: what is written, else 0 for the first one, else 1 for the last one. -/
def givenPosition (l : List (Option ℚ × ℚ)) (i : ℕ) : Option ℚ :=
  match l[i]? with
  | none => none
  | some (some p, _) => some p
  | some (none, _) => if i = 0 then some 0 else if i + 1 = l.length then some 1 else none

/-- `out` completes the control points `l` as CSS says. -/
structure LinearCompleted (l : List (Option ℚ × ℚ)) (out : List (ℚ × ℚ)) : Prop where
  /-- the values are those written -/
  values : out.map Prod.snd = l.map Prod.snd
  /-- positions do not decrease -/
  sorted : (out.map Prod.fst).Pairwise (· ≤ ·)
  /-- a given position becomes the largest one given so far -/
  given : ∀ i g, givenPosition l i = some g → ∃ p v, out[i]? = some (p, v) ∧
    IsGreatest {q | ∃ j ≤ i, givenPosition l j = some q} p
  /-- points without position are evenly spaced between their nearest neighbours with one -/
  missing : ∀ a i b pa va pi vi pb vb, a < i → i < b →
    (givenPosition l a).isSome → (givenPosition l b).isSome → (∀ j, a < j → j < b → givenPosition l j = none) →
    out[a]? = some (pa, va) → out[i]? = some (pi, vi) → out[b]? = some (pb, vb) →
    pi = pa + ((i : ℚ) - a) / ((b : ℚ) - a) * (pb - pa)

/-- Where `steps()` jumps: at the start of every interval, at its end, ... -/
inductive StepsKind where
  | jumpStart | jumpEnd | jumpNone | jumpBoth
  deriving DecidableEq

/-- The least number of intervals -/
def StepsKind.least : StepsKind → ℕ
  | .jumpNone => 2
  | _ => 1

/-- What the `k`-th interval (from 0) shows, of `n` intervals -/
def StepsKind.value : StepsKind → ℕ → ℕ → ℚ
  | .jumpStart, n, k => (k + 1) / n
  | .jumpEnd, n, k => k / n
  | .jumpNone, n, k => k / (n - 1)
  | .jumpBoth, n, k => (k + 1) / (n + 1)

/-- The names of CSS -/
def stepsKinds : List (String × StepsKind) :=
  [("jump-start", .jumpStart), ("start", .jumpStart), ("jump-end", .jumpEnd), ("end", .jumpEnd),
    ("jump-none", .jumpNone), ("jump-both", .jumpBoth)]

/-- `f` is the step function of kind `k` with `n` intervals: constant on each interval `[k/n, (k+1)/n)`, 1 at the end. -/
def IsSteps (kind : StepsKind) (n : ℕ) (f : ℚ → Option ℚ) : Prop :=
  (∀ k < n, ∀ t : ℚ, (k : ℚ) / n ≤ t → t < ((k : ℚ) + 1) / n → f t = some (kind.value n k)) ∧ f 1 = some 1

/-- `f` joins the points by straight lines. -/
def IsPolyline (points : List (ℚ × ℚ)) (f : ℚ → Option ℚ) : Prop :=
  (∀ p ∈ points, f p.1 = some p.2) ∧
  ∀ pre a b post, points = pre ++ a :: b :: post → ∀ t, a.1 < t → t < b.1 →
    f t = some (a.2 + (t - a.1) / (b.1 - a.1) * (b.2 - a.2))

end Flair.Spec
