import Verif.Spec.Cascade
import Verif.Model.Placeholder
/-!
# Specification of font families and images

`faces` are the `@font-face` blocks in order, as (family, path of the source).
-/
namespace Flair.Spec
open Flair.Sheet Flair.Values Flair.Placeholder
variable {V H C N T : Type}

/-- The last `@font-face` of the family `f` has the source `p`. -/
def LastFace (faces : List (String × String)) (f p : String) : Prop :=
  ∃ pre post, faces = pre ++ (f, p) :: post ∧ ∀ e ∈ post, e.1 ≠ f

/-- What a value written in a style sheet with these font faces stands for. -/
inductive Denotes (a : Assets H) (faces : List (String × String)) :
    AssetValue V H → PropertyValue (AssetValue V H) → Prop
  | plain (v) : Denotes a faces (.plain v) (.value (.plain v))
  | loaded (h) : Denotes a faces (.handle h) (.value (.handle h))
  | family (f p h) : LastFace faces f p → a.font p = some h →
      Denotes a faces (.fontName f) (.value (.handle h))
  | noFamily (f) : (∀ p, (f, p) ∉ faces) → Denotes a faces (.fontName f) .none
  | image (p h) : a.image p = some h → Denotes a faces (.imagePath p) (.value (.handle h))
  | noImage (p) : a.image p = none → Denotes a faces (.imagePath p) .none

/-- What becomes of one declaration of a rule when the sheet is built: a directly given value is replaced by
what it stands for, keywords and `var()` declarations are kept. -/
inductive BuiltAs (a : Assets H) (faces : List (String × String)) (names : C → Option Nat) :
    BProp C N T (AssetValue V H) → RProp C N T (AssetValue V H) → Prop
  | value (r id v w) : refersTo names r = some id → Denotes a faces v w →
      BuiltAs a faces names (.specific r (.value v)) (.specific id w)
  | keyword (r id v) : refersTo names r = some id → (∀ x, v ≠ .value x) →
      BuiltAs a faces names (.specific r v) (.specific id v)
  | dynamic (p t) : BuiltAs a faces names (.dynamic p t) (.dynamic p t)

/-- The value is a name or a path that still has to be looked up. -/
def Unresolved : AssetValue V H → Prop
  | .fontName _ => True
  | .imagePath _ => True
  | _ => False

/-- A declared value, its names looked up in one table of loaded fonts. -/
def lookedUp (a : Assets H) (fonts : String → Option H) : PropertyValue (AssetValue V H) → PropertyValue (AssetValue V H)
  | .value (.fontName f) => (fonts f).elim .none (fun h => .value (.handle h))
  | .value (.imagePath p) => (a.image p).elim .none (fun h => .value (.handle h))
  | v => v

end Flair.Spec
