import Mathlib.Data.List.Basic
/-!
# Model of the access to component fields

`crates/bevy_flair_core/src/component_property.rs` (10-48, 336-372), the macros and the loop of
`crates/bevy_flair_core/src/component_properties.rs` (11-71, 124-144, 376-467) and the declarations and the
css names of `crates/bevy_flair_core/src/impls.rs` (13-181, 222-342).

Values are the trees that `bevy_reflect` shows.  `try_apply`, `reflect_element` and `ParsedPath::parse` belong
to `bevy_reflect`, whose source is not in `/repo`: `tryApply` and `element` are their documented behaviour.
Whether a list that is longer than the applied one keeps its tail is not something `/repo` settles, so it is
the parameter `keep`.
-/
namespace Flair.Reflect
variable {V : Type}

/-- A reflected value: an opaque value of a type, a struct, tuple struct or enum (a struct has one variant) or a
list. -/
inductive RVal (V : Type) where
  | plain (type : Nat) (v : V)
  | node (type : Nat) (variant : String) (fields : List (String × RVal V))
  | list (type : Nat) (items : List (RVal V))

/-- The field with a name. -/
def field (n : String) : List (String × RVal V) → Option (RVal V)
  | [] => none
  | f :: fs => if f.1 = n then some f.2 else field n fs

/-- Overwrite the field with a name. -/
def setField (n : String) (v : RVal V) : List (String × RVal V) → List (String × RVal V)
  | [] => []
  | f :: fs => if f.1 = n then (n, v) :: fs else f :: setField n v fs

/-- `try_apply` of an opaque value: same type or error -/
def onOpaque (t : Nat) (v : V) : RVal V → Option (RVal V)
  | .plain t' _ => if t' = t then some (.plain t v) else none
  | _ => none

/-- `try_apply` of a struct or an enum: fields of the same variant are applied with `k`, another variant of the
same type replaces the value -/
def onNode (t : Nat) (c : String) (fs : List (String × RVal V))
    (k : List (String × RVal V) → Option (List (String × RVal V))) : RVal V → Option (RVal V)
  | .node t' c' gs =>
    if c' = c then (k gs).map (.node t' c') else if t' = t then some (.node t c fs) else none
  | _ => none

/-- `try_apply` of a list: the items are applied with `k` -/
def onList (k : List (RVal V) → Option (List (RVal V))) : RVal V → Option (RVal V)
  | .list t' ys => (k ys).map (.list t')
  | _ => none

/-- Applying one more field: a field that is not there is ignored -/
def onField (n : String) (k : RVal V → Option (RVal V)) (gs : List (String × RVal V)) :
    Option (List (String × RVal V)) :=
  match field n gs with
  | none => some gs
  | some g => (k g).map fun g' => setField n g' gs

/-- Applying the first item and then the others: items past the end are appended -/
def onItem (x : RVal V) (xs : List (RVal V)) (k : RVal V → Option (RVal V))
    (ks : List (RVal V) → Option (List (RVal V))) : List (RVal V) → Option (List (RVal V))
  | [] => some (x :: xs)
  | y :: ys => (k y).bind fun y' => (ks ys).map fun ys' => y' :: ys'

mutual
/-- `PartialReflect::try_apply` of `bevy_reflect` (documented behaviour): the second value is applied to the
first one; `none` is an `ApplyError` -/
def tryApply (keep : Bool) : RVal V → RVal V → Option (RVal V)
  | .plain t v, a => onOpaque t v a
  | .node t c fs, a => onNode t c fs (applyFields keep fs) a
  | .list _ xs, a => onList (applyItems keep xs) a

/-- The fields of the applied value, in order. -/
def applyFields (keep : Bool) : List (String × RVal V) → List (String × RVal V) → Option (List (String × RVal V))
  | [], gs => some gs
  | f :: fs, gs => (onField f.1 (tryApply keep f.2) gs).bind (applyFields keep fs)

/-- The items of the applied value, in order; `keep`: the tail of a longer list stays. -/
def applyItems (keep : Bool) : List (RVal V) → List (RVal V) → Option (List (RVal V))
  | [], ys => some (if keep then ys else [])
  | x :: xs, ys => onItem x xs (tryApply keep x) (applyItems keep xs) ys
end

/-- A parsed path: the names of the fields, `.a.b` is `["a", "b"]` and the empty path is the component. -/
abbrev Path := List String

/-- The fields of a value. -/
def fieldsOf : RVal V → List (String × RVal V)
  | .node _ _ fs => fs
  | _ => []

/-- `ParsedPath::reflect_element`; `none` is an access error -/
def element : Path → RVal V → Option (RVal V)
  | [], a => some a
  | n :: p, a => (field n (fieldsOf a)).bind (element p)

/-- How an application can fail. -/
inductive Fail where
  | panic
  | error
deriving DecidableEq

/-- Overwrite the field of a value. -/
def withField (n : String) (v : RVal V) : RVal V → RVal V
  | .node t c fs => .node t c (setField n v fs)
  | a => a

/-- `get_value_using_reflect` (19-31): `none` is the panic -/
def getValue (p : Path) (c : RVal V) : Option (RVal V) := element p c

/-- `apply_value_using_reflect` (33-48): a path that does not resolve panics -/
def applyValue (keep : Bool) : Path → RVal V → RVal V → Except Fail (RVal V)
  | [], v, a =>
    match tryApply keep v a with
    | none => .error .error
    | some r => .ok r
  | n :: p, v, a =>
    match field n (fieldsOf a) with
    | none => .error .panic
    | some b => (applyValue keep p v b).map fun b' => withField n b' a

/-- State of the loop of `internal_apply_values` (124-144).  (An error leaves the values applied so far in the
component; that is not modelled, the error is the result.) -/
structure Loop (V : Type) where
  comp : RVal V
  values : Nat → Option (RVal V)
  any : Bool

/-- One iteration (133-141) for the property `id` with its path. -/
def Loop.step (keep : Bool) (l : Loop V) (x : Nat × Path) : Except Fail (Loop V) :=
  let values := fun j => if j = x.1 then none else l.values j
  match l.values x.1 with
  | none => .ok { l with values := values }
  | some v => (applyValue keep x.2 v l.comp).map fun c => ⟨c, values, true⟩

/-- `internal_apply_values` (124-144) for a component with the properties `props` (ids and paths) -/
def internalApply (keep : Bool) (props : List (Nat × Path)) (c : RVal V) (values : Nat → Option (RVal V)) :
    Except Fail (Loop V) :=
  props.foldlM (Loop.step keep) ⟨c, values, false⟩

/-! ## Declarations -/

/-- What `impl_extract_component_properties` and `impl_component_properties` are given: a field that is a
property of a type, a type declared with `@self`, or a struct with its fields. -/
inductive Layout where
  | prop (type : Nat)
  | self (type : Nat)
  | struct (fields : List (String × Layout))

mutual
/-- `extract_properties` (23-70 and 459-463): a property is the path of its field; `@self` ignores the parent -/
def Layout.extract (parent : Path) : Layout → List (Path × Nat)
  | .prop t => [(parent, t)]
  | .self t => [([], t)]
  | .struct fs => extractFields parent fs

/-- The fields of a struct: the path of the parent, a dot and the name of the field. -/
def extractFields (parent : Path) : List (String × Layout) → List (Path × Nat)
  | [] => []
  | f :: fs => f.2.extract (parent ++ [f.1]) ++ extractFields parent fs
end

/-- The properties that `register_component_properties` registers (404-424): paths and types of values -/
def Layout.properties (l : Layout) : List (Path × Nat) := l.extract []

/-- The properties with the ids that the registry gives them (266-289 of registry.rs): contiguous from `start` -/
def Layout.numbered (l : Layout) (start : Nat) : List (Nat × Path) :=
  ((l.properties.map (·.1)).zipIdx start).map fun x => (x.2, x.1)

end Flair.Reflect
