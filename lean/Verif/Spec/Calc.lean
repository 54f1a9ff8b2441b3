import Verif.Model.Calc
import Mathlib.Algebra.Module.Basic
import Mathlib.Algebra.Module.Rat
import Mathlib.Algebra.Module.Pi
import Mathlib.Algebra.BigOperators.Group.List.Basic
/-!
# calc() expressions: how they are written and what they are worth

An expression is a sum of products; a product is an item times or divided by numbers; an item is a literal or
a parenthesised (or `calc(...)`) expression.
-/
namespace Flair.Spec
open Flair.Calc
variable {A : Type}

mutual
/-- A literal, or a group `( ... )` / `calc( ... )`. -/
inductive CalcItem (A : Type) where
  | literal (t : Tok A)
  | group (fn : Bool) (e : CalcSum A)

/-- `item * 2 / 3`, alone or followed by `+` (or, with `true`, by `-`) and the rest of the sum.  The factors come with `true`
for a division. -/
inductive CalcSum (A : Type) where
  | last (i : CalcItem A) (fs : List (Bool × ℚ))
  | more (i : CalcItem A) (fs : List (Bool × ℚ)) (minus : Bool) (rest : CalcSum A)
end

/-- The text of the factors. -/
def factorsText : List (Bool × ℚ) → List (Tok A)
  | [] => []
  | (divide, q) :: fs => .delim (if divide then '/' else '*') :: .number q :: factorsText fs

mutual
/-- The token of an item. -/
def CalcItem.text : CalcItem A → Tok A
  | .literal t => t
  | .group fn e => if fn then .func e.text else .paren e.text

/-- The tokens of a sum. -/
def CalcSum.text : CalcSum A → List (Tok A)
  | .last i fs => i.text :: factorsText fs
  | .more i fs minus rest => i.text :: (factorsText fs ++ .delim (if minus then '-' else '+') :: rest.text)
end

/-- The number the factors amount to. -/
def factorsValue (fs : List (Bool × ℚ)) : ℚ := (fs.map fun f => if f.1 then f.2⁻¹ else f.2).prod

section
variable {W : Type} [AddCommGroup W] [Module ℚ W] (lit : Tok A → W)

mutual
/-- What an item is worth. -/
def CalcItem.value : CalcItem A → W
  | .literal t => lit t
  | .group _ e => e.value false

/-- What a sum is worth; `minus` tells whether there is a minus sign in front of its first product (only). -/
def CalcSum.value (minus : Bool) : CalcSum A → W
  | .last i fs => (if minus then -1 else 1 : ℚ) • factorsValue fs • i.value
  | .more i fs m rest => (if minus then -1 else 1 : ℚ) • factorsValue fs • i.value + rest.value m
end
end

mutual
/-- All the literals are as `l` says, all the lists of factors as `f` says and all the signs as `s` says. -/
def CalcItem.Only (l : Tok A → Prop) (f : List (Bool × ℚ) → Prop) (s : Bool → Prop) : CalcItem A → Prop
  | .literal t => l t
  | .group _ e => e.Only l f s

/-- Likewise. -/
def CalcSum.Only (l : Tok A → Prop) (f : List (Bool × ℚ) → Prop) (s : Bool → Prop) : CalcSum A → Prop
  | .last i fs => i.Only l f s ∧ f fs
  | .more i fs m rest => i.Only l f s ∧ f fs ∧ s m ∧ rest.Only l f s
end

/-- A token the value parser accepts. -/
def Literal {T : Type} (value : Tok A → Option T) (t : Tok A) : Prop :=
  (value t).isSome ∧ (∀ ts, t ≠ .paren ts) ∧ ∀ ts, t ≠ .func ts

/-- No division by zero. -/
def NoZeroDiv (fs : List (Bool × ℚ)) : Prop := ∀ f ∈ fs, f.1 = true → f.2 ≠ 0

/-- The length a value stands for, as a combination of the units; `auto` is not a length. -/
def Val.length : Val → LUnit → ℚ
  | .auto => 0
  | .len u q => fun v => if v = u then q else 0

/-- The token is a length of `q` times the unit `u`: a number alone is in pixels. -/
inductive LengthOf : Tok (Option Val) → LUnit → ℚ → Prop
  | number (q) : LengthOf (.number q) .px q
  | other (u q) : LengthOf (.other (some (.len u q))) u q

/-- The length of a literal token. -/
def litLength : Tok (Option Val) → LUnit → ℚ
  | .number q => Val.length (.len .px q)
  | .other (some v) => Val.length v
  | _ => 0

/-- The literal is a length (not `auto`). -/
def IsLength (t : Tok (Option Val)) : Prop := ∃ u q, LengthOf t u q

/-- The literal is a length of the given unit, or zero. -/
def InUnit (u : LUnit) (t : Tok (Option Val)) : Prop := ∃ v q, LengthOf t v q ∧ (v = u ∨ q = 0)

/-- The literal is a number (`other`: with the unit px). -/
inductive IsNumberLit : Tok (Option ℚ) → Prop
  | number (q) : IsNumberLit (.number q)
  | other (q) : IsNumberLit (.other (some q))

/-- The number of a literal token. -/
def litNumber : Tok (Option ℚ) → ℚ
  | .number q => q
  | .other (some q) => q
  | _ => 0

/-- The literal is an angle: with a unit, or zero. -/
inductive IsAngleLit : Tok (Option ℚ) → Prop
  | zero : IsAngleLit (.number 0)
  | other (q) : IsAngleLit (.other (some q))

/-- The angle written in a literal token, in turns (720deg is 2 turns). -/
def litAngle : Tok (Option ℚ) → ℚ
  | .other (some a) => a
  | _ => 0

/-- Angles that differ by full turns. -/
def SameAngle (a b : ℚ) : Prop := ∃ n : ℤ, a = b + n

/-- A delimiter token. -/
def _root_.Flair.Calc.Tok.isDelim : Tok A → Bool
  | .delim _ => true
  | _ => false

/-- One of `+ - * /`. -/
def _root_.Flair.Calc.Tok.isOp : Tok A → Bool
  | .delim c => c == '+' || c == '-' || c == '*' || c == '/'
  | _ => false

mutual
/-- In all the blocks of a token, a value is followed by an operator or the end. -/
def tokSeparated : Tok A → Prop
  | .paren ts => separatedList false ts
  | .func ts => separatedList false ts
  | .number _ => True
  | .delim _ => True
  | .other _ => True

/-- The same for the contents of a block; `afterValue` tells whether it follows a value. -/
def separatedList (afterValue : Bool) : List (Tok A) → Prop
  | [] => True
  | t :: ts => (afterValue = true → t.isOp = true) ∧ tokSeparated t ∧ separatedList (!t.isDelim) ts
end

end Flair.Spec
