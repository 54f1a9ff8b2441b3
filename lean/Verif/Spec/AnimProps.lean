import Verif.Model.AnimProps
/-!
# What the `animation` and `transition` properties mean

Independent of how the code computes it: the list a longhand ends with is the one given by the last
declaration that has an effect on it, and the i-th animation reads the i-th entry of each list.
-/
namespace Flair.Spec
open Flair.AnimProps Flair.Animation
variable {N E P I : Type}

/-- The value a shorthand component list gives for a longhand: the last one written, or the default. -/
def component [DecidableEq P] (a : List (P × Val N E)) (p : P) : Val N E :=
  ((a.filter fun e => e.1 = p).getLast?.map Prod.snd).getD .default

/-- What a declaration does to longhand `p`: nothing (`none`), reset it (`some none`), or set its list.
A longhand whose value is invalid does nothing; a shorthand that is invalid because of a variable resets
its longhands (CSS: invalid at computed-value time). -/
def effect [DecidableEq P] (p : P) : Decl P N E → Option (Option (List (Val N E)))
  | .shorthand none => some none
  | .shorthand (some []) => some none
  | .shorthand (some (a :: as)) => some (some ((a :: as).map fun x => component x p))
  | .single _ none => none
  | .single q (some vs) => if p = q then some (some vs) else none

/-- The list longhand `p` has after the declarations: that of the last declaration with an effect on it. -/
def finalList [DecidableEq P] (ds : List (Decl P N E)) (p : P) : Option (List (Val N E)) :=
  ((ds.filterMap (effect p)).getLast?).getD none

/-- The assignments a declaration makes, one for each longhand it has an effect on. -/
def assigns [DecidableEq P] (longhands : List P) (d : Decl P N E) : List (P × Option (List (Val N E))) :=
  longhands.filterMap fun p => (effect p d).map fun l => (p, l)

/-- The entry the i-th item reads in a list: the i-th, or the last one when the list is shorter. -/
def entryAt (vs : Option (List (Val N E))) (i : Nat) : Option (Val N E) :=
  match vs with
  | none => none
  | some vs => if h : i < vs.length then some vs[i] else vs.getLast?

/-- A duration (or a delay) in an entry, zero if there is none. -/
def durationIn : Option (Val N E) → Nat
  | some (.duration d) => d
  | _ => 0
/-- An easing in an entry, the initial one if there is none. -/
def timingIn (e0 : E) : Option (Val N E) → E
  | some (.timing e) => e
  | _ => e0
/-- A direction in an entry, `normal` if there is none. -/
def directionIn : Option (Val N E) → Direction
  | some (.direction d) => d
  | _ => .normal
/-- An iteration count in an entry (`none`: infinite), one if there is none. -/
def countIn : Option (Val N E) → Option Nat
  | some (.iterationCount c) => c
  | _ => some 1
/-- A fill mode in an entry, `none` if there is none. -/
def fillIn : Option (Val N E) → Fill
  | some (.fillMode f) => f
  | _ => .none
/-- Whether an entry says `paused`. -/
def pausedIn : Option (Val N E) → Bool
  | some (.playState p) => p
  | _ => false

/-- The configuration of the animation `n` listed at index `i`. -/
def animationAt (e0 : E) (o : AId → Option (List (Val N E))) (i : Nat) (n : N) : AConfig N E where
  name := n
  timing := timingIn e0 (entryAt (o .timing) i)
  options :=
    { delay := durationIn (entryAt (o .delay) i)
      duration := durationIn (entryAt (o .duration) i)
      direction := directionIn (entryAt (o .direction) i)
      count := countIn (entryAt (o .iterationCount) i)
      fill := fillIn (entryAt (o .fillMode) i)
      paused := pausedIn (entryAt (o .playState) i) }

/-- The options of the transition listed at index `i`. -/
def transitionAt (e0 : E) (o : TId → Option (List (Val N E))) (i : Nat) : TOptions E where
  delay := durationIn (entryAt (o .delay) i)
  duration := durationIn (entryAt (o .duration) i)
  timing := timingIn e0 (entryAt (o .timing) i)

/-- Whether a list entry is a name. -/
def isName : Val N E → Bool
  | .name _ => true
  | _ => false

/-- Whether a name given to `transition-property` covers property `i`. -/
def covers (resolve : N → Resolved I) (n : N) (i : I) : Prop :=
  match resolve n with
  | .property j => i = j
  | .shorthand js => i ∈ js
  | .error => False

end Flair.Spec
