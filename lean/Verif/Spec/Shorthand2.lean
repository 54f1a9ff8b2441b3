import Verif.Spec.Shorthand
/-!
# Specification for single values and for the shorthands of borders, outlines, backgrounds and grids
-/
namespace Flair.Spec
open Flair.Calc Flair.Values Flair.Shorthand

variable {α X : Type}

/-- What is a number: a number, or one with the unit `px`. -/
inductive PlainNumber : Tok → ℚ → Prop
  | number (q : ℚ) : PlainNumber (.number q) q
  | px (q : ℚ) : PlainNumber (.dimension q "px") q

/-- The part `a` of a turn, in `(-1/2, 1/2]`, is the same direction as `x` turns. -/
def Direction (x a : ℚ) : Prop := -(1/2) < a ∧ a ≤ 1/2 ∧ ∃ n : ℤ, a = x + n

/-- What is an angle (in turns): `none`, zero, or a number with one of three units. -/
inductive PlainAngle : Tok → ℚ → Prop
  | none : PlainAngle (.ident "none") 0
  | zero : PlainAngle (.number 0) 0
  | deg {q a : ℚ} : Direction (q / 360) a → PlainAngle (.dimension q "deg") a
  | grad {q a : ℚ} : Direction (q / 400) a → PlainAngle (.dimension q "grad") a
  | turn {q a : ℚ} : Direction q a → PlainAngle (.dimension q "turn") a

/-- The token is no `calc()` and no block. -/
def Plain1 (t : Tok) : Prop := (∀ ts, t ≠ .func "calc" ts) ∧ ∀ ts, t ≠ .paren ts

/-! ## Borders and outlines -/

/-- The border styles that are understood. -/
def knownStyles : List String := ["dotted", "dashed", "solid", "double", "groove", "ridge", "inset", "outset"]

/-- The width of a border. -/
inductive BorderWidthIs : Tok → Val → Prop
  | none : BorderWidthIs (.ident "none") (.len .px 0)
  | length {t : Tok} {v : Val} : IsLengthTok t v → BorderWidthIs t v

/-- An optional style. -/
inductive StyleIs : List Tok → Prop
  | absent : StyleIs []
  | present {s : String} : s ∈ knownStyles → StyleIs [.ident s]

/-- An optional value that is read by `p` or a global keyword, and the end of the declaration. -/
inductive LastValue (p : P (RV X)) (imp : Bool) : List Tok → Option (PropertyValue (RV X)) → Prop
  | absent : LastValue p imp (declEnd imp) none
  | keyword {k v} : (k, v) ∈ globals → LastValue p imp (.ident k :: declEnd imp) (some v)
  | value {ts v} : p ts = .ok (v, declEnd imp) → LastValue p imp ts (some (.value v))

/-- The border shorthands, with the longhands of the width and of the color. -/
def borderShorthands : List (String × List String × List String) :=
  [("border", ["border-top-width", "border-right-width", "border-bottom-width", "border-left-width"],
      ["border-top-color", "border-right-color", "border-bottom-color", "border-left-color"]),
   ("border-top", ["border-top-width"], ["border-top-color"]),
   ("border-right", ["border-right-width"], ["border-right-color"]),
   ("border-bottom", ["border-bottom-width"], ["border-bottom-color"]),
   ("border-left", ["border-left-width"], ["border-left-color"])]

/-- All of `names` are set to the value if there is one, and otherwise none of them. -/
def SetsAll (r : Assign X) (names : List String) : Option (PropertyValue (RV X)) → Prop
  | some v => ∀ n ∈ names, SetsOnce r n (some v)
  | none => ∀ n ∈ names, ∀ v, (n, v) ∉ r

/-- The names of widths. -/
inductive WidthName : String → Val → Prop
  | none : WidthName "none" (.len .px 0)
  | thin : WidthName "thin" (.len .px 1)
  | medium : WidthName "medium" (.len .px 2)
  | thick : WidthName "thick" (.len .px 5)

/-- The width of an outline (those with names inside a `calc()` are left out). -/
inductive OutlineWidthIs : Tok → Val → Prop
  | name {s v} : WidthName s v → OutlineWidthIs (.ident s) v
  | length {t v} : Plain1 t → PlainLength t v → OutlineWidthIs t v

/-! ## Backgrounds -/

/-- What one layer of a background can be. -/
inductive Layer (X : Type) where
  | image (v : RV X)
  | gradient (v : RV X)
  | empty

/-- The text of a layer. -/
inductive ReadsLayer (env : Env X) : List Tok → Layer X → List Tok → Prop
  | image {ts v rest} : env.asset ts = .ok (v, rest) → ReadsLayer env ts (.image v) rest
  | gradient {ts v rest} : env.asset ts = .err → env.gradient ts = .ok (v, rest) → ReadsLayer env ts (.gradient v) rest
  | empty {ts} : env.asset ts = .err → env.gradient ts = .err → ReadsLayer env ts .empty ts

/-- Layers with commas between them, up to something else than a comma. -/
inductive ReadsLayers (env : Env X) : List Tok → List (Layer X) → List Tok → Prop
  | last {ts l rest} : ReadsLayer env ts l rest → rest.head? ≠ some .comma → ReadsLayers env ts [l] rest
  | more {ts l ts' ls rest} : ReadsLayer env ts l (.comma :: ts') → ReadsLayers env ts' ls rest →
      ReadsLayers env ts (l :: ls) rest

/-- The images and the gradients among layers, in their order. -/
def imagesOf : List (Layer X) → List (RV X)
  | [] => []
  | .image v :: ls => v :: imagesOf ls
  | _ :: ls => imagesOf ls

@[inherit_doc imagesOf] def gradientsOf : List (Layer X) → List (RV X)
  | [] => []
  | .gradient v :: ls => v :: gradientsOf ls
  | _ :: ls => gradientsOf ls

/-- The declarations `r` set the image to the last image of the layers and the gradients to all of their gradients. -/
def SetsLayers (env : Env X) (r : Assign X) (ls : List (Layer X)) : Prop :=
  SetsAll r ["-bevy-image"] ((imagesOf ls).getLast?.map .value) ∧
  SetsAll r ["-bevy-background-gradient"]
    (if gradientsOf ls = [] then none else some (.value (env.gradients (gradientsOf ls))))

/-- A parser that never leaves more than it got. -/
def Shrinks (p : P α) : Prop := ∀ ts a rest, p ts = .ok (a, rest) → rest.length ≤ ts.length

/-- A color or, when there is none, nothing. -/
inductive ReadsColor (env : Env X) : List Tok → Option (PropertyValue (RV X)) → List Tok → Prop
  | some {ts v rest} : env.color ts = .ok (v, rest) → ReadsColor env ts (some (.value v)) rest
  | none {ts} : env.color ts = .err → ReadsColor env ts none ts

/-! ## Grids -/

/-- The parser reads a value here, or there is a global keyword. -/
inductive ReadsValue (p : P (RV X)) : List Tok → PropertyValue (RV X) → List Tok → Prop
  | keyword {k v rest} : (k, v) ∈ globals → ReadsValue p (.ident k :: rest) v rest
  | value {ts v rest} : p ts = .ok (v, rest) → ReadsValue p ts (.value v) rest

/-- `dense` or not. -/
inductive ReadsDense : List Tok → Bool → List Tok → Prop
  | dense {rest} : ReadsDense (.ident "dense" :: rest) true rest
  | not {rest} : rest.head? ≠ some (.ident "dense") → ReadsDense rest false rest

/-- Tracks or, when there are none, `auto`. -/
inductive ReadsTracks (env : Env X) : List Tok → PropertyValue (RV X) → List Tok → Prop
  | some {ts v rest} : ReadsValue env.tracks ts v rest → ReadsTracks env ts v rest
  | none {ts} : (∀ k ∈ ["unset", "inherit", "initial"], ts.head? ≠ some (.ident k)) → env.tracks ts = .err →
      ReadsTracks env ts (.value env.autoTracks) ts

/-- The forms of `grid-template`: rows and columns. -/
inductive TemplateForm (env : Env X) : List Tok → PropertyValue (RV X) → PropertyValue (RV X) → List Tok → Prop
  | none {rest} : TemplateForm env (.ident "none" :: rest) (.value env.noTracks) (.value env.noTracks) rest
  | both {ts rows ts' cols rest} : ts.head? ≠ some (.ident "none") → ReadsValue env.repeated ts rows (.delim '/' :: ts') →
      ReadsValue env.repeated ts' cols rest → TemplateForm env ts rows cols rest

/-- What `grid` sets besides the template: flow, rows and columns; `none` is nothing. -/
structure GridParts (X : Type) where
  flow : Option (PropertyValue (RV X))
  rows : Option (PropertyValue (RV X))
  cols : Option (PropertyValue (RV X))

/-- The forms of `grid`: the template, and the rest. -/
inductive GridForm (env : Env X) : List Tok → PropertyValue (RV X) → PropertyValue (RV X) → GridParts X → List Tok → Prop
  | template {ts rows cols rest} : TemplateForm env ts rows cols rest → GridForm env ts rows cols ⟨none, none, none⟩ rest
  | columns {ts rows ts' dense ts'' auto rest} : ts.head? ≠ some (.ident "none") →
      ReadsValue env.repeated ts rows (.delim '/' :: .ident "auto-flow" :: ts') →
      ReadsDense ts' dense ts'' → ReadsTracks env ts'' auto rest →
      GridForm env ts rows (.value env.noTracks)
        ⟨some (.value (env.flow true dense)), some (.value env.autoTracks), some auto⟩ rest
  | rows {ts' dense ts'' auto ts''' cols rest} : ReadsDense ts' dense ts'' →
      ReadsTracks env ts'' auto (.delim '/' :: ts''') → ReadsValue env.repeated ts''' cols rest →
      GridForm env (.ident "auto-flow" :: ts') (.value env.noTracks) cols
        ⟨some (.value (env.flow false dense)), some auto, some (.value env.autoTracks)⟩ rest

/-- The declarations `r` set the template and the rest to these values, and what has no value is not set. -/
def SetsGrid (r : Assign X) (rows cols : PropertyValue (RV X)) (g : GridParts X) : Prop :=
  SetsAll r ["grid-template-rows"] (some rows) ∧ SetsAll r ["grid-template-columns"] (some cols) ∧
  SetsAll r ["grid-auto-flow"] g.flow ∧ SetsAll r ["grid-auto-rows"] g.rows ∧ SetsAll r ["grid-auto-columns"] g.cols

end Flair.Spec
