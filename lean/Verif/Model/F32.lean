import Mathlib.Data.Rat.Floor
import Mathlib.Algebra.Order.Field.Rat
/-!
# Idealised `f32` and `Duration`

`f32` is modelled by the rational numbers together with the special values (so that divisions by zero
behave as in the code); rounding of finite results is not modelled.  `Duration` is a natural number of
nanoseconds, as in `std`.
-/
namespace Flair

/-- Idealised `f32`. -/
inductive F32 where
  | num (q : ℚ)
  | pinf
  | ninf
  | nan
deriving DecidableEq

namespace F32

/-- `a / b` of finite numbers; `b` is a non-negative zero when it is zero. -/
def div (a b : ℚ) : F32 :=
  if b = 0 then (if a = 0 then .nan else if a < 0 then .ninf else .pinf) else .num (a / b)

/-- `x < 0.0` -/
def isNeg : F32 → Bool
  | num q => q < 0
  | ninf => true
  | _ => false

/-- `f32::clamp(0.0, 1.0)` of a finite number. -/
def clampQ (q : ℚ) : ℚ := if q < 0 then 0 else if 1 < q then 1 else q

/-- `f32::clamp(0.0, 1.0)`: NaN stays NaN. -/
def clamp : F32 → F32
  | num q => num (clampQ q)
  | pinf => num 1
  | ninf => num 0
  | nan => nan

/-- `x * q + r` -/
def mulAdd (x : F32) (q r : ℚ) : F32 :=
  match x with
  | num p => num (p * q + r)
  | nan => nan
  | pinf => if q = 0 then nan else if q < 0 then ninf else pinf
  | ninf => if q = 0 then nan else if q < 0 then pinf else ninf

/-- `f32::abs` -/
def abs : F32 → F32
  | num q => num |q|
  | pinf => pinf
  | ninf => pinf
  | nan => nan

end F32

/-- `Duration::as_secs_f32` -/
def secs (n : Nat) : ℚ := n / 1000000000

/-- `Duration::from_secs_f32`: to the nearest nanosecond (halves up, where `std` rounds ties to even);
`none`: the panic on values that are negative or not finite.  Overflow of `Duration` is not modelled. -/
def fromSecs : F32 → Option Nat
  | .num q => if q < 0 then none else some ⌊q * 1000000000 + 1 / 2⌋.toNat
  | _ => none

end Flair
