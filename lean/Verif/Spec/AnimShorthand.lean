import Verif.Model.AnimShorthand
/-!
# How an `animation` or `transition` is written

The components may come in any order; each is given by a token of its own kind; the first time is the
duration and the second one the delay; the name is not a keyword.
-/
namespace Flair.Spec
open Flair.AnimShorthand Flair.AnimProps Flair.Animation

/-- The keywords with a meaning in `animation`. -/
def animationKeywords : List String :=
  ["normal", "reverse", "alternate", "alternate-reverse", "none", "forwards", "backwards", "both", "infinite",
   "running", "paused", "linear", "ease", "ease-in", "ease-out", "ease-in-out", "step-start", "step-end"]

/-- Token `t` writes the component. -/
inductive Writes : AId × Value → Tok → Prop
  | duration (d) : Writes (.duration, .duration d) (.time d)
  | delay (d) : Writes (.delay, .duration d) (.time d)
  | normal : Writes (.direction, .direction .normal) (.ident "normal")
  | reverse : Writes (.direction, .direction .reverse) (.ident "reverse")
  | alternate : Writes (.direction, .direction .alternate) (.ident "alternate")
  | alternateReverse : Writes (.direction, .direction .alternateReverse) (.ident "alternate-reverse")
  | none : Writes (.fillMode, .fillMode .none) (.ident "none")
  | forwards : Writes (.fillMode, .fillMode .forwards) (.ident "forwards")
  | backwards : Writes (.fillMode, .fillMode .backwards) (.ident "backwards")
  | both : Writes (.fillMode, .fillMode .both) (.ident "both")
  | infinite : Writes (.iterationCount, .iterationCount Option.none) (.ident "infinite")
  | count (n) : Writes (.iterationCount, .iterationCount (some n)) (.number n)
  | running : Writes (.playState, .playState false) (.ident "running")
  | paused : Writes (.playState, .playState true) (.ident "paused")
  | easing (s) (h : s ∈ ["linear", "ease", "ease-in", "ease-out", "ease-in-out", "step-start", "step-end"]) :
      Writes (.timing, .timing (.keyword s)) (.ident s)
  | function (i) : Writes (.timing, .timing (.function i)) (.easing i)
  | name (s) (h : s ∉ animationKeywords) : Writes (.name, .name s) (.ident s)
  | quoted (s) : Writes (.name, .name s) (.quoted s)

/-- Token `t` writes the component of a transition. -/
inductive TWrites : TId × Value → Tok → Prop
  | duration (d) : TWrites (.duration, .duration d) (.time d)
  | delay (d) : TWrites (.delay, .duration d) (.time d)
  | easing (s) (h : s ∈ ["linear", "ease", "ease-in", "ease-out", "ease-in-out", "step-start", "step-end"]) :
      TWrites (.timing, .timing (.keyword s)) (.ident s)
  | function (i) : TWrites (.timing, .timing (.function i)) (.easing i)
  | property (s) (h : s ∉ ["linear", "ease", "ease-in", "ease-out", "ease-in-out", "step-start", "step-end"]) :
      TWrites (.property, .name s) (.ident s)

/-- Token `t` writes the component, where a name may also look like a keyword (whose component has been given
before). -/
def WritesLate (c : AId × Value) (t : Tok) : Prop :=
  Writes c t ∨ ∃ s, c = (.name, .name s) ∧ t = .ident s

/-- The same for a transition. -/
def TWritesLate (c : TId × Value) (t : Tok) : Prop :=
  TWrites c t ∨ ∃ s, c = (.property, .name s) ∧ t = .ident s

/-- A well formed single animation or transition: every component at most once, and a delay only after a
duration. -/
def WellFormed {P V : Type} (duration delay : P) (cs : List (P × V)) : Prop :=
  (cs.map Prod.fst).Nodup ∧
    ∀ before v after, cs = before ++ (delay, v) :: after → duration ∈ before.map Prod.fst

/-- What the code needs in addition: right after a play state comes a timing function, a name, or the end. -/
def PlayStateOk {V : Type} (cs : List (AId × V)) : Prop :=
  ∀ before v c after, cs = before ++ (.playState, v) :: c :: after → c.1 = .timing ∨ c.1 = .name

end Flair.Spec
