import Verif.Model.Shorthand
/-!
# Specification for the shorthand properties
-/
namespace Flair.Spec
open Flair.Calc Flair.Values Flair.Shorthand

variable {α X : Type}

/-- The parser `p`, called again and again on `ts`, reads the values `vs` and leaves `rest`. -/
inductive ReadsAll (p : P α) : List Tok → List α → List Tok → Prop
  | done (rest : List Tok) : ReadsAll p rest [] rest
  | more {ts ts' rest : List Tok} {v : α} {vs : List α} (h : p ts = .ok (v, ts')) (hs : ReadsAll p ts' vs rest) :
      ReadsAll p ts (v :: vs) rest

/-- CSS: which of the one to four values of a box shorthand goes to which side. -/
def cssTop (vs : List α) : Option α := vs[0]?
@[inherit_doc cssTop] def cssRight (vs : List α) : Option α := vs[1]?.or (cssTop vs)
@[inherit_doc cssTop] def cssBottom (vs : List α) : Option α := vs[2]?.or (cssTop vs)
@[inherit_doc cssTop] def cssLeft (vs : List α) : Option α := vs[3]?.or (cssRight vs)

/-- The declarations `r` set the longhand `name` once, to `v`. -/
def SetsOnce (r : Assign X) (name : String) (v : Option (PropertyValue (RV X))) : Prop :=
  ∃ x, v = some x ∧ r.filter (fun d => d.1 = name) = [(name, x)]

/-- The declarations `r` set exactly the four sides, with the values of `vs` that CSS gives to them. -/
def BoxSides (r : Assign X) (top right bottom left : String) (vs : List (PropertyValue (RV X))) : Prop :=
  r.length = 4 ∧ SetsOnce r top (cssTop vs) ∧ SetsOnce r right (cssRight vs) ∧ SetsOnce r bottom (cssBottom vs) ∧
    SetsOnce r left (cssLeft vs)

/-- The box shorthands: name, how one value is read, and the longhands of the top, right, bottom and left side
(for the radii: top left, top right, bottom right and bottom left corner). -/
def boxShorthands (env : Env X) : List (String × P (RV X) × String × String × String × String) :=
  let length : P (RV X) := do let v ← calcVal; pure (.val v)
  [("margin", length, "margin-top", "margin-right", "margin-bottom", "margin-left"),
   ("padding", length, "padding-top", "padding-right", "padding-bottom", "padding-left"),
   ("border-width", length, "border-top-width", "border-right-width", "border-bottom-width", "border-left-width"),
   ("border-color", env.color, "border-top-color", "border-right-color", "border-bottom-color", "border-left-color"),
   ("border-radius", length, "border-top-left-radius", "border-top-right-radius", "border-bottom-right-radius",
      "border-bottom-left-radius")]

/-- The end of a declaration: nothing, or `!important`. -/
def declEnd : Bool → List Tok
  | false => []
  | true => [.delim '!', .ident "important"]

/-- The global keywords. -/
def globals : List (String × PropertyValue (RV X)) :=
  [("unset", .unset), ("inherit", .inherit), ("initial", .initial)]

/-- What is expected of a parser of a value: there is no value at the end of the text or at `!important`, and a
global keyword is none. -/
structure ValueParser (p : P α) : Prop where
  empty : p [] = .err
  bang : ∀ ts, p (.delim '!' :: ts) = .err
  global : ∀ k ∈ ["unset", "inherit", "initial"], ∀ ts, p (.ident k :: ts) = .err

/-- The value parsers of an environment are value parsers. -/
structure Sane (env : Env X) : Prop where
  color : ValueParser env.color
  gradient : ValueParser env.gradient
  asset : ValueParser env.asset
  tracks : ValueParser env.tracks
  repeated : ValueParser env.repeated
  enums : ∀ k ∈ ["unset", "inherit", "initial"], env.overflowAxis k = none ∧ env.alignItems k = none ∧
    env.justifyItems k = none

/-- A delimiter. -/
def isDelimTok : Tok → Bool
  | .delim _ => true
  | _ => false

/-- One of `+ - * /`. -/
def isOperatorTok : Tok → Bool
  | .delim c => c == '+' || c == '-' || c == '*' || c == '/'
  | _ => false

/-- In the list, a value is followed by an operator or the end; `afterValue` tells whether it follows a value. -/
def valuesApart (afterValue : Bool) : List Tok → Bool
  | [] => true
  | t :: ts => (!afterValue || isOperatorTok t) && valuesApart (!isDelimTok t) ts

mutual
/-- In every `calc()` and every block in parentheses of the text, at any depth, a value is followed by an operator or
the end.  In particular all texts without `calc()` and parentheses. -/
def calcTidy : Tok → Bool
  | .func name ts => (name ≠ "calc" || valuesApart false ts) && calcsTidy ts
  | .paren ts => valuesApart false ts && calcsTidy ts
  | _ => true

@[inherit_doc calcTidy] def calcsTidy : List Tok → Bool
  | [] => true
  | t :: ts => calcTidy t && calcsTidy ts
end

/-- A parser that does not crash on texts whose `calc()`s have operators between the values, and leaves a part of the text. -/
def Harmless (p : P α) : Prop :=
  ∀ ts, calcsTidy ts = true → p ts ≠ .panic ∧ ∀ a rest, p ts = .ok (a, rest) → calcsTidy rest = true

/-- The parsers of the environment do not crash on texts whose `calc()`s have operators between the values. -/
structure HarmlessEnv (env : Env X) : Prop where
  color : Harmless env.color
  gradient : Harmless env.gradient
  asset : Harmless env.asset
  tracks : Harmless env.tracks
  repeated : Harmless env.repeated

/-- The default shorthands that apply a keyword that comes through a variable to all their longhands. -/
def keywordThroughVar : List String :=
  ["overflow", "border-color", "border-radius", "margin", "padding", "border-width", "gap"]

/-- The default shorthands that set all their longhands whenever they are accepted. -/
def completeShorthands : List String :=
  ["overflow", "border-color", "border-radius", "margin", "padding", "border-width", "flex", "gap", "grid-template"]

/-- The text is `k` followed by the end of the declaration, for a global keyword `k`. -/
def IsGlobal (ts : List Tok) (imp : Bool) (v : PropertyValue (RV X)) : Prop :=
  ∃ k, (k, v) ∈ globals ∧ ts = .ident k :: declEnd imp

/-- The token is a length, possibly a `calc()` (property C44). -/
def IsLengthTok (t : Tok) (v : Val) : Prop := calcVal [t] = .ok (v, [])

/-- The token is a number, possibly a `calc()`. -/
def IsNumberTok (t : Tok) (q : ℚ) : Prop := calcF32 [t] = .ok (q, [])

/-- The token is an angle (in turns), possibly a `calc()`. -/
def IsAngleTok (t : Tok) (q : ℚ) : Prop := calcAngle [t] = .ok (q, [])

/-- The functions of `transform`, and the value each gives to the longhand of its kind. -/
inductive Translates : Tok → RV X → Prop
  | both {a b x y} : IsLengthTok a x → IsLengthTok b y → Translates (.func "translate" [a, .comma, b]) (.val2 x y)
  | one {a x} : IsLengthTok a x → Translates (.func "translate" [a]) (.val2 x (.len .px 0))
  | x {a x} : IsLengthTok a x → Translates (.func "translatex" [a]) (.val2 x (.len .px 0))
  | y {a y} : IsLengthTok a y → Translates (.func "translatey" [a]) (.val2 (.len .px 0) y)

@[inherit_doc Translates]
inductive Scales : Tok → RV X → Prop
  | both {a b x y} : IsNumberTok a x → IsNumberTok b y → Scales (.func "scale" [a, .comma, b]) (.vec2 x y)
  | one {a x} : IsNumberTok a x → Scales (.func "scale" [a]) (.vec2 x x)
  | x {a x} : IsNumberTok a x → Scales (.func "scalex" [a]) (.vec2 x 1)
  | y {a y} : IsNumberTok a y → Scales (.func "scaley" [a]) (.vec2 1 y)

@[inherit_doc Translates]
inductive Rotates : Tok → RV X → Prop
  | z {a q} : IsAngleTok a q → Rotates (.func "rotatez" [a]) (.rot q)
  | plain {a q} : IsAngleTok a q → Rotates (.func "rotate" [a]) (.rot q)

/-- An optional function of a kind, as tokens and as the longhand it sets. -/
inductive Optional (kind : Tok → RV X → Prop) (name : String) : List Tok → Assign X → Prop
  | absent : Optional kind name [] []
  | present {t v} : kind t v → Optional kind name [t] [(name, .value v)]

/-- What is a length: `auto`, a number of logical pixels, a percentage, or a number with one of five units. -/
inductive PlainLength : Tok → Val → Prop
  | auto : PlainLength (.ident "auto") .auto
  | number (q : ℚ) : PlainLength (.number q) (.len .px q)
  | percent (q : ℚ) : PlainLength (.percentage q) (.len .percent q)
  | px (q : ℚ) : PlainLength (.dimension q "px") (.len .px q)
  | vw (q : ℚ) : PlainLength (.dimension q "vw") (.len .vw q)
  | vh (q : ℚ) : PlainLength (.dimension q "vh") (.len .vh q)
  | vmin (q : ℚ) : PlainLength (.dimension q "vmin") (.len .vmin q)
  | vmax (q : ℚ) : PlainLength (.dimension q "vmax") (.len .vmax q)

/-- The token is a length that is not a bare number. -/
def IsBasis (t : Tok) (b : Val) : Prop := PlainLength t b ∧ ∀ q, t ≠ .number q

/-- The forms of `flex` and what they mean: grow, shrink, basis. -/
inductive FlexForm : List Tok → ℚ → ℚ → Val → Prop
  | none : FlexForm [.ident "none"] 0 0 .auto
  | grow (g : ℚ) : FlexForm [.number g] g 1 (.len .percent 0)
  | growShrink (g s : ℚ) : FlexForm [.number g, .number s] g s (.len .percent 0)
  | growBasis (g : ℚ) {t b} : IsBasis t b → FlexForm [.number g, t] g 1 b
  | all (g s : ℚ) {t b} : PlainLength t b → FlexForm [.number g, .number s, t] g s b
  | basis {t b} : IsBasis t b → FlexForm [t] 1 1 b

end Flair.Spec
