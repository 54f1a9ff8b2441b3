import Verif.Model.Sheet
import Verif.Model.Inherit
/-!
# Model of `crates/bevy_flair_style/src/placeholder.rs` and of its two users

`StyleSheetBuilder::{register_font_face, embed_style_sheet, build, resolve_placeholders}`
(crates/bevy_flair_style/src/builder.rs) resolve the values written directly in a rule when the sheet is built;
the system `resolve_placeholders` (crates/bevy_flair_style/src/systems.rs:1128-1176) resolves the values that
came out of `var()` right before they are applied.

Simplifications: `AssetPath::try_parse` followed by `load_asset` is one function of the path (`none`: the path
does not parse); loading the same path twice gives the same handle, as `AssetServer::load` does while a handle
is alive.  The two placeholder types registered by `PlaceholderResolvePlugin` are the only ones.
-/
namespace Flair.Placeholder
open Flair.Sheet Flair.Layers Flair.Vars Flair.Values Flair.Inherit Flair.Tree

/-- The values of the properties: `FontTypePlaceholder` (placeholder.rs:225-236), `AssetPathPlaceholder<Image>`
(placeholder.rs:167-173), a loaded `Handle`, or any other value. -/
inductive AssetValue (V H : Type) where
  | plain (v : V)
  | fontName (family : String)
  | imagePath (path : String)
  | handle (h : H)
deriving DecidableEq, Repr

/-- What the asset loader answers for a path: `AssetPath::try_parse` and `load_asset` (placeholder.rs:79-95). -/
structure Assets (H : Type) where
  font : String → Option H
  image : String → Option H

variable {S M C N T V X Y H E P : Type}

/-- `try_resolve_placeholder` (placeholder.rs:267-281) with the resolvers of the two registered types
(placeholder.rs:209-222 and 246-260). -/
def tryResolve (a : Assets H) (faces : HMap String H) :
    AssetValue V H → Except Unit (Option (AssetValue V H))
  | .plain _ => .ok none
  | .handle _ => .ok none
  | .imagePath p =>
    match a.image p with
    | none => .error ()
    | some h => .ok (some (.handle h))
  | .fontName f =>
    match faces.get? f with
    | none => .error ()
    | some h => .ok (some (.handle h))

/-- The body of the loop of `StyleSheetBuilder::resolve_placeholders` (builder.rs:610-624) on one
`PropertyValue::Value`. -/
def resolveDirect (a : Assets H) (faces : HMap String H) (v : AssetValue V H) : PropertyValue (AssetValue V H) :=
  match tryResolve a faces v with
  | .ok (some r) => .value r
  | .error _ => .none
  | .ok none => .value v

section
variable (S M C N T V X Y H : Type)

/-- `StyleSheetBuilder` (builder.rs:388-394) with its font faces (`StyleFontFace`, family and path). -/
structure FBuilder where
  base : Builder S M C N T (AssetValue V H) X Y
  fontFaces : List (String × String)

/-- `StyleSheet` (style_sheet.rs:162-169) with its font faces. -/
structure FSheet where
  base : StyleSheet S M C N T (AssetValue V H) X Y
  fontFaces : List (String × String)
  resolved : HMap String H
end

variable [DecidableEq N]

/-- `StyleSheetBuilder::register_font_face` (builder.rs:403-408). -/
def FBuilder.registerFontFace (b : FBuilder S M C N T V X Y H) (family path : String) :
    FBuilder S M C N T V X Y H :=
  { b with fontFaces := b.fontFaces ++ [(family, path)] }

/-- `StyleSheetBuilder::embed_style_sheet` (builder.rs:418-440) with the last line, the font faces. -/
def FBuilder.embed (b : FBuilder S M C N T V X Y H) (o : FSheet S M C N T V X Y H) (layer : Option Name) :
    Option (FBuilder S M C N T V X Y H) :=
  (b.base.embed o.base layer).map fun base => { base, fontFaces := b.fontFaces ++ o.fontFaces }

/-- The errors of `build`: `InvalidAssetPath` or one of the others. -/
inductive FBuildError where
  | invalidAssetPath (path : String)
  | other (e : BuildError)
deriving DecidableEq, Repr

/-- `.map(…).collect::<Result<FxHashMap<_, _>, _>>()` over the font faces (builder.rs:639-651): the first
path that does not parse ends it, a later face replaces an earlier one of the same family. -/
def resolveFaces (a : Assets H) (faces : List (String × String)) : Except FBuildError (HMap String H) :=
  faces.foldlM (init := []) fun m ff =>
    match a.font ff.2 with
    | none => .error (.invalidAssetPath ff.2)
    | some h => .ok (m.insert ff.1 h)

/-- `StyleSheetBuilder::build` (builder.rs:631-689). -/
def FBuilder.build (a : Assets H) (names : C → Option Nat) (typeOk : Nat → AssetValue V H → Bool) (spec : S → Nat)
    (b : FBuilder S M C N T V X Y H) : Option (Except FBuildError (FSheet S M C N T V X Y H)) :=
  match resolveFaces a b.fontFaces with
  | .error e => some (.error e)
  | .ok resolved =>
    (b.base.build names typeOk spec (resolveDirect a resolved)).map fun r =>
      match r with
      | .error e => .error (.other e)
      | .ok sh => .ok { base := sh, fontFaces := b.fontFaces, resolved }

/-! ## At run time -/

/-- The body of the loop of the system `resolve_placeholders` (systems.rs:1152-1172) on one computed value. -/
def resolveComputed (a : Assets H) (faces : HMap String H) :
    ComputedValue (AssetValue V H) → ComputedValue (AssetValue V H)
  | none => none
  | some v =>
    match tryResolve a faces v with
    | .ok (some r) => some r
    | .error _ => none
    | .ok none => some v

variable [DecidableEq (P → ComputedValue (AssetValue V H))] [DecidableEq (AssetValue V H)] [DecidableEq E]

/-- The system `resolve_placeholders` (systems.rs:1128-1176): the nodes marked for application (their pending
values are not the applied ones, or `other e`: something else, like an animation, marked them;
`set_needs_property_application`, systems.rs:929-937) whose sheet is loaded (`fonts e`, its font faces). -/
def resolvePass (a : Assets H) (fonts : E → Option (HMap String H)) (other : E → Bool)
    (w : World E P (AssetValue V H)) : World E P (AssetValue V H) :=
  fun e => (w e).map fun n =>
    if n.pendingComputed ≠ some n.computed ∨ other e = true then
      match fonts e with
      | none => n
      | some faces => { n with pendingComputed := n.pendingComputed.map fun m p => resolveComputed a faces (m p) }
    else n

/-- One frame, from `SetPropertyValues` to `ApplyComputedProperties` (lib.rs:355-445), as `Inherit.frame` with
`resolve_placeholders` right before the values are applied (lib.rs:436-443). -/
def frameP (a : Assets H) (fonts : E → Option (HMap String H)) (other : E → Bool)
    (s : Static P (AssetValue V H)) (o : Oracle E P) (f : Forest E) (roots : List E)
    (u : E → Option (P → PropertyValue (AssetValue V H))) (anyChanged : Bool) (w : World E P (AssetValue V H)) :
    World E P (AssetValue V H) :=
  let w := setPending u w
  applyComputed (resolvePass a fonts other (if anyChanged then computePass s o f roots w else passNoChange w))

end Flair.Placeholder
