import Verif.Model.Reflect
/-!
# Types of reflected values, and what it means that a style reaches a field
-/
namespace Flair.Spec
open Flair.Reflect
variable {V : Type}

/-- What is known of a type: opaque; the variants with the names and types of their fields (a struct has one
variant); a list of items of a type. -/
inductive RKind where
  | plain
  | variants (vs : List (String × List (String × Nat)))
  | list (item : Nat)

/-- The types: each name of a type says what it is. -/
abbrev RTypes := Nat → RKind

/-- No struct or variant has two fields with one name. -/
def GoodTypes (D : RTypes) : Prop :=
  ∀ t vs, D t = .variants vs → ∀ v ∈ vs, (v.2.map (·.1)).Nodup

mutual
/-- The value is of the type. -/
inductive OfType (D : RTypes) : Nat → RVal V → Prop
  | plain {t v} : D t = .plain → OfType D t (.plain t v)
  | node {t vs c ds fs} : D t = .variants vs → (c, ds) ∈ vs →
      (vs.map (·.1)).Nodup → FieldsOfType D ds fs → OfType D t (.node t c fs)
  | list {t u xs} : D t = .list u → ItemsOfType D u xs → OfType D t (.list t xs)

/-- The fields are those declared. -/
inductive FieldsOfType (D : RTypes) : List (String × Nat) → List (String × RVal V) → Prop
  | nil : FieldsOfType D [] []
  | cons {n t ds v fs} : OfType D t v → FieldsOfType D ds fs → FieldsOfType D ((n, t) :: ds) ((n, v) :: fs)

/-- All the items are of the type. -/
inductive ItemsOfType (D : RTypes) : Nat → List (RVal V) → Prop
  | nil {t} : ItemsOfType D t []
  | cons {t v xs} : OfType D t v → ItemsOfType D t xs → ItemsOfType D t (v :: xs)
end

mutual
/-- The declaration of the properties speaks of the fields that the type has; `@self` only stands for a whole
component. -/
inductive Describes (D : RTypes) : Layout → Nat → Prop
  | prop {t} : Describes D (.prop t) t
  | struct {t c ds fs} : D t = .variants [(c, ds)] → (fs.map (·.1)).Nodup → DescribesFields D ds fs →
      Describes D (.struct fs) t

/-- Each declared field is a field of the type. -/
inductive DescribesFields (D : RTypes) : List (String × Nat) → List (String × Layout) → Prop
  | nil {ds} : DescribesFields D ds []
  | cons {ds n l t fs} : (n, t) ∈ ds → Describes D l t → DescribesFields D ds fs →
      DescribesFields D ds ((n, l) :: fs)
end

/-- The declaration of a component of type `t`. -/
def DescribesComponent (D : RTypes) (l : Layout) (t : Nat) : Prop := Describes D l t ∨ l = .self t

/-- Neither path leads through the other one. -/
def Apart (p q : Path) : Prop := ¬ p <+: q ∧ ¬ q <+: p

mutual
/-- No list of the new value is shorter than the list that it is applied to. -/
inductive NoShorter : RVal V → RVal V → Prop
  | plain {t v a} : NoShorter (.plain t v) a
  | other {t c fs t' c' gs} : c' ≠ c → NoShorter (.node t c fs) (.node t' c' gs)
  | node {t c fs t' gs} : NoShorterFields fs gs → NoShorter (.node t c fs) (.node t' c gs)
  | list {t xs t' ys} : NoShorterItems xs ys → NoShorter (.list t xs) (.list t' ys)

/-- Field by field. -/
inductive NoShorterFields : List (String × RVal V) → List (String × RVal V) → Prop
  | nil : NoShorterFields [] []
  | cons {n v fs w gs} : NoShorter v w → NoShorterFields fs gs → NoShorterFields ((n, v) :: fs) ((n, w) :: gs)

/-- Item by item. -/
inductive NoShorterItems : List (RVal V) → List (RVal V) → Prop
  | nil {xs} : NoShorterItems xs []
  | cons {x xs y ys} : NoShorter x y → NoShorterItems xs ys → NoShorterItems (x :: xs) (y :: ys)
end

/-- The values given to the properties are of the types of the properties. -/
def ValuesTyped (D : RTypes) (l : Layout) (start : Nat) (values : Nat → Option (RVal V)) : Prop :=
  ∀ i p t v, l.properties[i]? = some (p, t) → values (start + i) = some v → OfType D t v

end Flair.Spec
