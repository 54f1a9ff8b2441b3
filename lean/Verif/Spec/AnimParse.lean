import Verif.Model.AnimParse
import Verif.Spec.AnimShorthand
import Verif.Spec.Easing
import Verif.Spec.Longhand
/-!
# What the text of `animation-*` and `transition-*` declarations says

In tokens of css; words are told apart without regard to case (ASCII).
-/
namespace Flair.Spec
open Flair.Shorthand Flair.AnimParse Flair.AnimProps Flair.Animation
open Flair.Easing (StepPosition)

/-- `s` is the word `w` (given in lower case), in any case. -/
def Caseless (s w : String) : Prop := s.toList.map Char.toLower = w.toList

instance {s w : String} : Decidable (Caseless s w) := inferInstanceAs (Decidable (_ = _))

/-- A number that is an integer, as an `i32` (larger ones are cut). -/
inductive IntegerOf : ℚ → ℤ → Prop
  | fits {n : ℤ} : -2 ^ 31 ≤ n → n < 2 ^ 31 → IntegerOf n n
  | high {n : ℤ} : 2 ^ 31 ≤ n → IntegerOf n (2 ^ 31 - 1)
  | low {n : ℤ} : n < -2 ^ 31 → IntegerOf n (-2 ^ 31)

/-- A time, rounded to nanoseconds. -/
inductive TimeOf : Tok → ℕ → Prop
  | seconds {q : ℚ} {u : String} {d : ℕ} : Caseless u "s" → 0 ≤ q → q < 2 ^ 64 →
      (d : ℚ) - 1 / 2 ≤ q * 10 ^ 9 → q * 10 ^ 9 < d + 1 / 2 → TimeOf (.dimension q u) d
  | millis {q : ℚ} {u : String} {n : ℕ} : Caseless u "ms" → IntegerOf q n → TimeOf (.dimension q u) (n * 10 ^ 6)

/-- A time in seconds that is too long. -/
def HugeTime (t : Tok) : Prop := ∃ q u, t = .dimension q u ∧ Caseless u "s" ∧ 2 ^ 64 ≤ q

/-- A number of iterations; `none` is infinite. -/
inductive CountOf : Tok → Option ℕ → Prop
  | infinite {s : String} : Caseless s "infinite" → CountOf (.ident s) none
  | count {q : ℚ} {n : ℕ} : IntegerOf q n → CountOf (.number q) (some n)

/-- One of the words of a list. -/
inductive WordOf {β : Type} (l : List (String × β)) : Tok → β → Prop
  | word {s w v} : (w, v) ∈ l → Caseless s w → WordOf l (.ident s) v

/-- Directions -/
def directionWords : List (String × Animation.Direction) :=
  [("normal", .normal), ("reverse", .reverse), ("alternate", .alternate), ("alternate-reverse", .alternateReverse)]

/-- Fill modes -/
def fillWords : List (String × Fill) :=
  [("none", .none), ("forwards", .forwards), ("backwards", .backwards), ("both", .both)]

/-- Play states: whether paused -/
def playWords : List (String × Bool) := [("running", false), ("paused", true)]

/-- Timing functions -/
def timingWords : List (String × Timing) :=
  [("linear", .linear), ("ease", .ease), ("ease-in", .easeIn), ("ease-out", .easeOut), ("ease-in-out", .easeInOut),
    ("step-start", .steps 1 .jumpStart), ("step-end", .steps 1 .jumpEnd)]

/-- Where `steps()` jumps -/
def stepWords : List (String × StepPosition) :=
  [("jump-start", .jumpStart), ("jump-end", .jumpEnd), ("jump-none", .jumpNone), ("jump-both", .jumpBoth),
    ("start", .start), ("end", .end)]

/-- A control point of `linear()`: a value, and maybe its position. -/
inductive PointText : List Tok → Option ℚ × ℚ → Prop
  | value {v} : PointText [.number v] (none, v)
  | placed {v p} : PointText [.number v, .percentage p] (some (p / 100), v)

/-- A timing function.  What control points mean is C51. -/
inductive TimingOf : Tok → Timing → Prop
  | keyword {t f} : WordOf timingWords t f → TimingOf t f
  | linearNone {f} : Caseless f "linear" → TimingOf (.func f []) (.linearPoints [])
  | linear {f args ps out} : Caseless f "linear" → CommaSep PointText args ps → LinearCompleted ps out →
      TimingOf (.func f args) (.linearPoints out)
  | steps {f q n} : Caseless f "steps" → IntegerOf q n → TimingOf (.func f [.number q]) (.steps n .end)
  | stepsAt {f q n s pos} : Caseless f "steps" → IntegerOf q n → WordOf stepWords (.ident s) pos →
      TimingOf (.func f [.number q, .comma, .ident s]) (.steps n pos)
  | bezier {f x1 y1 x2 y2} : Caseless f "cubic-bezier" →
      TimingOf (.func f [.number x1, .comma, .number y1, .comma, .number x2, .comma, .number y2]) (.cubicBezier x1 y1 x2 y2)

/-- What a token can say about a component of an animation. -/
inductive AValue : AId → Value → Tok → Prop
  | duration {t d} : TimeOf t d → AValue .duration (.duration d) t
  | delay {t d} : TimeOf t d → AValue .delay (.duration d) t
  | direction {t d} : WordOf directionWords t d → AValue .direction (.direction d) t
  | fillMode {t d} : WordOf fillWords t d → AValue .fillMode (.fillMode d) t
  | count {t d} : CountOf t d → AValue .iterationCount (.iterationCount d) t
  | playState {t d} : WordOf playWords t d → AValue .playState (.playState d) t
  | timing {t d} : TimingOf t d → AValue .timing (.timing d) t
  | name {s} : AValue .name (.name s) (.ident s)
  | quoted {s} : AValue .name (.name s) (.quoted s)

/-- What a token can say about a component of a transition. -/
inductive TValue : TId → Value → Tok → Prop
  | duration {t d} : TimeOf t d → TValue .duration (.duration d) t
  | delay {t d} : TimeOf t d → TValue .delay (.duration d) t
  | timing {t d} : TimingOf t d → TValue .timing (.timing d) t
  | property {s} : TValue .property (.name s) (.ident s)

/-- The token is one of the words. -/
def IsOneOf (words : List String) (t : Tok) : Prop := ∃ s, t = .ident s ∧ ∃ w ∈ words, Caseless s w

/-- The token says it, and cannot be taken for another component: a name is no keyword. -/
def APlain (c : AId × Value) (t : Tok) : Prop := AValue c.1 c.2 t ∧ (c.1 = .name → ¬ IsOneOf animationKeywords t)

/-- The same for transitions. -/
def TPlain (c : TId × Value) (t : Tok) : Prop :=
  TValue c.1 c.2 t ∧ (c.1 = .property → ¬ IsOneOf (timingWords.map Prod.fst) t)

/-- The names of the longhands. -/
def animationLonghands : List (String × AId) :=
  [("animation-name", .name), ("animation-duration", .duration), ("animation-delay", .delay),
    ("animation-direction", .direction), ("animation-fill-mode", .fillMode),
    ("animation-iteration-count", .iterationCount), ("animation-play-state", .playState),
    ("animation-timing-function", .timing)]
@[inherit_doc animationLonghands] def transitionLonghands : List (String × TId) :=
  [("transition-property", .property), ("transition-duration", .duration), ("transition-delay", .delay),
    ("transition-timing-function", .timing)]

/-- The text of a longhand that takes a list: values with commas between them, maybe `!important` (which is
dropped). -/
def ListText {V : Type} (Says : V → Tok → Prop) (ts : List Tok) (vs : List V) : Prop :=
  ∃ imp us, ts = us ++ declEnd imp ∧ CommaSep (fun us v => ∃ t, us = [t] ∧ Says v t) us vs

/-- The text begins with `none`. -/
def BeginsNone (ts : List Tok) : Prop := ∃ s rest, ts = .ident s :: rest ∧ Caseless s "none"

/-- The text of a longhand of names: `none` alone, or a list that does not begin with `none`. -/
def NamesText (Says : Value → Tok → Prop) (ts : List Tok) (vs : List Value) : Prop :=
  (ListText Says ts vs ∧ ¬ BeginsNone ts) ∨ (vs = [] ∧ ∃ imp s, ts = .ident s :: declEnd imp ∧ Caseless s "none")

/-- A token uses a variable: it is `var()` or `env()`, or has one inside. -/
inductive UsesVar : Tok → Prop
  | var {f args} : Caseless f "var" → UsesVar (.func f args)
  | env {f args} : Caseless f "env" → UsesVar (.func f args)
  | inFunction {f args t} : t ∈ args → UsesVar t → UsesVar (.func f args)
  | inParens {ts t} : t ∈ ts → UsesVar t → UsesVar (.paren ts)

/-- One animation: tokens that give each component at most once, the delay after the duration.  `Says` tells what a
token says about a component. -/
def OneText {P : Type} (du de : P) (Says : P × Value → Tok → Prop) (us : List Tok) (cs : List (P × Value)) : Prop :=
  List.Forall₂ Says cs us ∧ WellFormed du de cs

/-- The text of `animation`: animations with commas between them, maybe `!important` (which is dropped). -/
def AnimationText (Says : AId × Value → Tok → Prop) (ts : List Tok) (as : List (List (AId × Value))) : Prop :=
  ∃ imp us, ts = us ++ declEnd imp ∧ CommaSep (OneText .duration .delay Says) us as

/-- The text of `transition`. -/
def TransitionText (Says : TId × Value → Tok → Prop) (ts : List Tok) (as : List (List (TId × Value))) : Prop :=
  ∃ imp us, ts = us ++ declEnd imp ∧ CommaSep (OneText .duration .delay Says) us as

end Flair.Spec
