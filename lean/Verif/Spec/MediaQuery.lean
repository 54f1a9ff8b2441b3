import Verif.Model.MediaQuery
/-!
# Specification: the grammar of `@media`
-/
namespace Flair.Spec
open Flair.Shorthand Flair.Media Flair.MediaQuery

/-- A size: a whole number of pixels, with or without the unit, not negative; kept up to 2147483647. -/
inductive SizeWord : Tok → Nat → Prop
  | plain (n : Nat) : SizeWord (.number n) (min n 2147483647)
  | px (n : Nat) : SizeWord (.dimension n "px") (min n 2147483647)

/-- A resolution, in dots per pixel. -/
inductive ResolutionWord : Tok → ℚ → Prop
  | dppx (q : ℚ) : ResolutionWord (.dimension q "dppx") q
  | x (q : ℚ) : ResolutionWord (.dimension q "x") q

/-- A ratio: a number, or a quotient. -/
inductive RatioWords : List Tok → Bound → Prop
  | number (q : ℚ) : RatioWords [.number q] (.fin q)
  | quotient (n d : ℚ) (h : d ≠ 0) : RatioWords [.number n, .delim '/', .number d] (.fin (n / d))
  | infinite (n : ℚ) (h : 0 < n) : RatioWords [.number n, .delim '/', .number 0] .posInf
  | minus (n : ℚ) (h : n < 0) : RatioWords [.number n, .delim '/', .number 0] .negInf
  | undefined : RatioWords [.number 0, .delim '/', .number 0] .nan

/-- The bounds a feature sets: itself, from below with `min-`, from above with `max-`. -/
inductive BoundName {α : Type} (feature : String) (a : α) : String → Range α → Prop
  | exact : BoundName feature a feature (.exact a)
  | min : BoundName feature a ("min-" ++ feature) (.greaterOrEqual a)
  | max : BoundName feature a ("max-" ++ feature) (.lessOrEqual a)

/-- What is between the parentheses. -/
inductive MediaFeature : List Tok → Parsed → Prop
  | light : MediaFeature [.ident "prefers-color-scheme", .delim ':', .ident "light"] (.colorScheme .light)
  | dark : MediaFeature [.ident "prefers-color-scheme", .delim ':', .ident "dark"] (.colorScheme .dark)
  | width {name t n r} : SizeWord t n → BoundName "width" n name r →
      MediaFeature [.ident name, .delim ':', t] (.viewportWidth r)
  | height {name t n r} : SizeWord t n → BoundName "height" n name r →
      MediaFeature [.ident name, .delim ':', t] (.viewportHeight r)
  | resolution {name t n r} : ResolutionWord t n → BoundName "resolution" n name r →
      MediaFeature [.ident name, .delim ':', t] (.resolution r)
  | aspectRatio {name ts n r} : RatioWords ts n → BoundName "aspect-ratio" n name r →
      MediaFeature (.ident name :: .delim ':' :: ts) (.aspectRatio r)

/-- Conditions in parentheses, joined by `and`. -/
inductive MediaCondition : List Tok → List Parsed → Prop
  | one {ts s} : MediaFeature ts s → MediaCondition [.paren ts] [s]
  | and {ts s rest ss} : MediaFeature ts s → MediaCondition rest ss →
      MediaCondition (.paren ts :: .ident "and" :: rest) (s :: ss)

end Flair.Spec
