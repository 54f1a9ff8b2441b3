import Verif.Model.VarDecl
import Verif.Spec.AnimParse
import Verif.Spec.Shorthand
/-!
# What a declaration with variables means
-/
namespace Flair.Spec
open Flair.Shorthand

/-- A token that is neither a function nor a block, and can be kept in a variable. -/
inductive KeptToken (carried : Nat → Bool) : Tok → Prop
  | ident {s} : KeptToken carried (.ident s)
  | number {q} : KeptToken carried (.number q)
  | percentage {q} : KeptToken carried (.percentage q)
  | dimension {q u} : KeptToken carried (.dimension q u)
  | delim {c} : KeptToken carried (.delim c)
  | comma : KeptToken carried .comma
  | quoted {s} : KeptToken carried (.quoted s)
  | other {n} : carried n = true → KeptToken carried (.other n)

/-- The text begins with `!important`. -/
def BeginsImportant (ts : List Tok) : Prop := ∃ rest, ts = .delim '!' :: .ident "important" :: rest

/-- The text `ts` with every `var(--x)` replaced by the text of the variable, in which variables are replaced too, up to
`depth` levels down. -/
inductive Replaced (carried : Nat → Bool) (texts : String → Option (List Tok)) : Nat → List Tok → List Tok → Prop
  | nil {depth} : Replaced carried texts depth [] []
  | token {depth t ts us} : KeptToken carried t → ¬ BeginsImportant (t :: ts) → Replaced carried texts depth ts us →
      Replaced carried texts depth (t :: ts) (t :: us)
  | func {depth f args args' ts us} : ¬ Caseless f "var" → Replaced carried texts depth args args' →
      Replaced carried texts depth ts us → Replaced carried texts depth (.func f args :: ts) (.func f args' :: us)
  | var {depth f s n vs vs' ts us} : Caseless f "var" → s.toList = '-' :: '-' :: n.toList → n.toList ≠ [] →
      texts n = some vs → Replaced carried texts depth vs vs' → Replaced carried texts (depth + 1) ts us →
      Replaced carried texts (depth + 1) (.func f [.ident s] :: ts) (vs' ++ us)

/-- The parser never takes a text with variables in it. -/
def TakesNoVariable {α : Type} (p : P α) : Prop :=
  ∀ ts a rest, p ts = .ok (a, rest) → ∃ us, ts = us ++ rest ∧ ∀ t ∈ us, ¬ UsesVar t

/-- The same for the parsers of colors, gradients, assets and tracks. -/
structure EnvTakesNoVariable {X : Type} (env : Env X) : Prop where
  color : TakesNoVariable env.color
  gradient : TakesNoVariable env.gradient
  asset : TakesNoVariable env.asset
  tracks : TakesNoVariable env.tracks
  repeated : TakesNoVariable env.repeated

/-- The parsers of the longhands of the library (lengths, enums, colors, `reflect/ui.rs`, `reflect/text.rs`,
`reflect/image.rs`, `reflect/grid.rs`). -/
inductive LonghandParser {K : Type} (color : Tok → Option K) : P (RV (Flair.Longhand.LV K)) → Prop
  | length : LonghandParser color (do let v ← calcVal; pure (.val v))
  | float : LonghandParser color (do let v ← calcF32; pure (.float v))
  | enum (names : String → Option (RV (Flair.Longhand.LV K))) : LonghandParser color (tok1 (enumTok names))
  | color : LonghandParser color (do let k ← tok1 color; pure (.other (.color k)))
  | vec2 : LonghandParser color Flair.Longhand.vec2P
  | val2 : LonghandParser color Flair.Longhand.val2P
  | rect : LonghandParser color Flair.Longhand.rectP
  | clip (boxes : String → Option String) : LonghandParser color (Flair.Longhand.clipMarginP boxes)
  | ratio : LonghandParser color Flair.Longhand.aspectRatioP
  | zIndex : LonghandParser color Flair.Longhand.zIndexP
  | boxShadow : LonghandParser color (Flair.Longhand.boxShadowP color)
  | lineHeight : LonghandParser color Flair.Longhand.lineHeightP
  | textShadow : LonghandParser color (Flair.Longhand.textShadowP color)
  | imageMode : LonghandParser color Flair.Longhand.imageModeP
  | tracks : LonghandParser color Flair.Longhand.tracksP
  | repeated : LonghandParser color Flair.Longhand.repeatedP
  | placement : LonghandParser color Flair.Longhand.placementP

end Flair.Spec
