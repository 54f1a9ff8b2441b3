import Mathlib.Algebra.Order.Field.Rat
import Mathlib.Data.Rat.Floor
/-!
# Model of `crates/bevy_flair_css_parser/src/calc.rs`

Tokens are the token trees of the crate `cssparser`: a block or function is one tree with its contents.
Numbers are rationals; dividing by zero (which gives an infinite or not-a-number `f32` in the code) is given
the value 0 here, and the theorems exclude it.  The value parsers of the library (`parse_val`, `parse_f32`,
`parse_angle`) read exactly one token; a value parser is a function of that token.
-/
namespace Flair.Calc

/-- The outcome of a parser: a value, a reported `CssError`, or a panic (`todo!`). -/
inductive Res (α : Type) where
  | ok (a : α)
  | err
  | panic
deriving DecidableEq

/-- `?`. -/
def Res.bind {α β : Type} : Res α → (α → Res β) → Res β
  | .ok a, f => f a
  | .err, _ => .err
  | .panic, _ => .panic

/-- The tokens `calc.rs` distinguishes: `paren` is a parenthesised block, `func` is `calc(...)`; `other` are all the other ones (dimensions, identifiers, ...). -/
inductive Tok (A : Type) where
  | number (q : ℚ)
  | delim (c : Char)
  | paren (ts : List (Tok A))
  | func (ts : List (Tok A))
  | other (a : A)

/-- `CalcOrValue` and `Calc` (calc.rs:29-59); a summand comes with `true` for `SumOperand::Minus`. -/
inductive Expr (T : Type) where
  | value (v : T)
  | sum (es : List (Bool × Expr T))
  | mul (e : Expr T) (q : ℚ)

variable {A T : Type}

/-- The `while !parser.is_exhausted()` loop of `parse_calc_product` (calc.rs:237-254): the product of the
factors, and the tokens it leaves.  `expect_number` fails at the end of the block and on any other token. -/
def factors {B : Type} : List (Tok A × B) → ℚ → Res (ℚ × List (Tok A × B))
  | [], q => .ok (q, [])
  | (.delim '*', _) :: (.number x, _) :: ts, q => factors ts (q * x)
  | (.delim '/', _) :: (.number x, _) :: ts, q => factors ts (q / x)
  | (.delim '*', _) :: _, _ => .err
  | (.delim '/', _) :: _, _ => .err
  | ts, q => .ok (q, ts)

/-- The loop does not add tokens (for the termination of `sumLoop`). -/
theorem factors_length {B : Type} (ts : List (Tok A × B)) (q : ℚ) (r : ℚ × List (Tok A × B))
    (h : factors ts q = .ok r) : r.2.length ≤ ts.length := by
  fun_induction factors ts q with
  | case1 q => cases h; simp
  | case2 _ q x _ ts ih => have := ih h; simp; omega
  | case3 _ q x _ ts ih => have := ih h; simp; omega
  | case4 => cases h
  | case5 => cases h
  | case6 => cases h; simp

/-- `parse_calc_product` (calc.rs:228-257).  The second component of a token is what `parse_calc_item` gives
when it is called on that token. -/
def product : List (Tok A × Res (Expr T)) → Res (Expr T × List (Tok A × Res (Expr T)))
  | [] => .err
  | (_, item) :: ts =>
    item.bind fun left =>
      if ts.isEmpty then .ok (left, [])
      else (factors ts 1).bind fun r => .ok (.mul left r.1, r.2)

/-- `parse_calc_product` consumes the item. -/
theorem product_length (ts : List (Tok A × Res (Expr T))) (r : Expr T × List (Tok A × Res (Expr T)))
    (h : product ts = .ok r) : r.2.length < ts.length := by
  match ts with
  | [] => cases h
  | (t, item) :: ts =>
    rcases item with e | _ | _
    · simp only [product, Res.bind] at h
      split at h
      · cases h; simp
      · cases hf : factors ts (1 : ℚ) with
        | ok q =>
          rw [hf] at h
          cases h
          have := factors_length ts 1 q hf
          simp
          omega
        | err => rw [hf] at h; cases h
        | panic => rw [hf] at h; cases h
    · cases h
    · cases h

/-- The loop of `parse_calc_sum` (calc.rs:266-281): the operator is read first, then the operand is parsed,
then the operator is looked at; any other token there is the `todo!`. -/
def sumLoop (ops : List (Bool × Expr T)) : List (Tok A × Res (Expr T)) → Res (Expr T)
  | [] => .ok (.sum ops)
  | (t, _) :: ts =>
    match _h : product ts with
    | .err => .err
    | .panic => .panic
    | .ok r =>
      match t with
      | .delim '+' => sumLoop (ops ++ [(false, r.1)]) r.2
      | .delim '-' => sumLoop (ops ++ [(true, r.1)]) r.2
      | _ => .panic
termination_by ts => ts.length
decreasing_by
  all_goals
    have := product_length ts r ‹_›
    simp
    omega

/-- `parse_calc_sum` and `parse_calc_inner` (calc.rs:258-289).  `parse_nested_block` also demands that the
block is used up, which the loop ensures. -/
def sum (ts : List (Tok A × Res (Expr T))) : Res (Expr T) :=
  (product ts).bind fun r => sumLoop [(false, r.1)] r.2

/-- `value_parser(parser).map(CalcOrValue::Value)`. -/
def ofValue : Option T → Res (Expr T)
  | some v => .ok (.value v)
  | none => .err

mutual
/-- `parse_calc_item` (calc.rs:210-226). -/
def item (value : Tok A → Option T) : Tok A → Res (Expr T)
  | .paren ts => sum (annotate value ts)
  | .func ts => sum (annotate value ts)
  | .number q => ofValue (value (.number q))
  | .delim c => ofValue (value (.delim c))
  | .other a => ofValue (value (.other a))

/-- The contents of a block, each token with what `parse_calc_item` gives on it (the loops above only use
this at the places where the code calls it). -/
def annotate (value : Tok A → Option T) : List (Tok A) → List (Tok A × Res (Expr T))
  | [] => []
  | t :: ts => (t, item value t) :: annotate value ts
end

/-- `parse_calc_or_value` (calc.rs:301-314), on the token it starts with. -/
def parseCalcOrValue (value : Tok A → Option T) : Tok A → Res (Expr T)
  | .func ts => sum (annotate value ts)
  | t => ofValue (value t)

/-- `CalcAdd` and `CalcMul` (calc.rs:77-134); `none` is their error. -/
structure Ops (T : Type) where
  zero : T
  add : T → T → Option T
  sub : T → T → Option T
  mul : T → ℚ → Option T

mutual
/-- `CalcOrValue::calc_value` and `Calc::calc_value` (calc.rs:43-48, 199-207). -/
def eval (o : Ops T) : Expr T → Option T
  | .value v => some v
  | .mul e q => (eval o e).bind fun v => o.mul v q
  | .sum es => evalSum o o.zero es

/-- The `try_fold` of `Calc::calc_value` (calc.rs:193-196). -/
def evalSum (o : Ops T) (acc : T) : List (Bool × Expr T) → Option T
  | [] => some acc
  | (minus, e) :: es =>
    (eval o e).bind fun v => (if minus then o.sub acc v else o.add acc v).bind fun acc => evalSum o acc es
end

/-- `parse_calc_value` (calc.rs:329-344). -/
def parseCalcValue (value : Tok A → Option T) (o : Ops T) (t : Tok A) : Res T :=
  (parseCalcOrValue value t).bind fun e => match eval o e with
    | some v => .ok v
    | none => .err

/-! ## The types -/

/-- The units of `bevy_ui::Val`. -/
inductive LUnit where
  | px | percent | vw | vh | vmin | vmax
deriving DecidableEq

/-- `bevy_ui::Val`. -/
inductive Val where
  | auto
  | len (u : LUnit) (q : ℚ)
deriving DecidableEq

/-- `Val::ZERO`. -/
def Val.zero : Val := .len .px 0

/-- `a == Val::ZERO` (bevy's `PartialEq`: all the zero values are equal, whatever their unit). -/
def Val.isZero : Val → Bool
  | .auto => false
  | .len _ q => q = 0

/-- `Neg for Val` (bevy): `Auto` stays. -/
def Val.neg : Val → Val
  | .auto => .auto
  | .len u q => .len u (-q)

/-- `CalcAdd::try_add` for `Val` (calc.rs:161-181). -/
def Val.tryAdd (a b : Val) : Option Val :=
  if a.isZero then some b
  else if b.isZero then some a
  else match a, b with
    | .len u x, .len v y => if u = v then some (.len u (x + y)) else none
    | _, _ => none

/-- `Mul<f32> for Val` (bevy): `Auto` stays. -/
def Val.mul : Val → ℚ → Val
  | .auto, _ => .auto
  | .len u x, q => .len u (x * q)

/-- The operations of `Val` (calc.rs:98-113, 156-186). -/
def valOps : Ops Val where
  zero := .zero
  add := Val.tryAdd
  sub a b := Val.tryAdd a b.neg
  mul a q := some (a.mul q)

/-- The operations of `f32` (calc.rs:98-113, 129-143): subtraction adds. -/
def f32Ops : Ops ℚ where
  zero := 0
  add a b := some (a + b)
  sub a b := some (a + b)
  mul a q := some (a * q)

/-- `Rot2::radians(x).as_radians()`, in turns: an angle is kept only up to full turns, in `(-1/2, 1/2]`. -/
def wrap (x : ℚ) : ℚ := x - (⌈x - 1 / 2⌉ : ℤ)

/-- The operations of `Rot2` (calc.rs:90-96, 145-154), with angles in turns. -/
def rotOps : Ops ℚ where
  zero := 0
  add a b := some (wrap (a + b))
  sub a b := some (wrap (a - b))
  mul a q := some (wrap (a * q))

/-- `parse_val` (reflect/ui.rs:85-116): `other` carries what it gives on the other tokens (`auto`,
dimensions, percentages). -/
def parseVal : Tok (Option Val) → Option Val
  | .number q => some (.len .px q)
  | .other a => a
  | _ => none

/-- `parse_f32` (reflect/ui.rs:16-29). -/
def parseF32 : Tok (Option ℚ) → Option ℚ
  | .number q => some q
  | .other a => a
  | _ => none

/-- `parse_angle` (reflect/ui.rs:132-166), in turns: `Rot2` is only known up to full turns. -/
def parseAngle : Tok (Option ℚ) → Option ℚ
  | .number q => if q = 0 then some 0 else none
  | .other a => a.map wrap
  | _ => none

end Flair.Calc
