/-!
# Model of `crates/bevy_flair_core/src/property_value.rs` and `property_map.rs`
-/
namespace Flair.Values

/-- `PropertyValue` (property_value.rs:20-32). `ReflectValue` is an abstract type `V`. -/
inductive PropertyValue (V : Type) where
  | none | unset | inherit | initial
  | value (v : V)
deriving DecidableEq, Repr

/-- `ComputedValue` (property_value.rs:113-119): `None` or `Value(v)`. -/
abbrev ComputedValue (V : Type) := Option V

variable {V : Type}

/-- `PropertyValue::compute_internal` (property_value.rs:59-79) when it is called with
`unset_value = None` (the recursive call).  `Option.none` is the `unreachable!` panic. -/
def computeNoUnset : PropertyValue V → V → Option (ComputedValue V) → Option (ComputedValue V)
  | .none, _, _ => some none
  | .unset, _, _ => none
  | .inherit, _, some parent => some parent
  | .inherit, _, none => some none
  | .initial, init, _ => some (some init)
  | .value v, _, _ => some (some v)

/-- `PropertyValue::compute_internal` (property_value.rs:59-79) called with `Some(unset_value)`;
`compute_with_parent` (82-93) passes `Some(parent)`, `compute_as_root` (96-102) passes `None`.
The recursion of the Rust function is at most one level deep: it passes `None`. -/
def compute : PropertyValue V → PropertyValue V → V → Option (ComputedValue V) → Option (ComputedValue V)
  | .none, _, _, _ => some none
  | .unset, u, init, parent => computeNoUnset u init parent
  | .inherit, _, _, some parent => some parent
  | .inherit, _, _, none => some none
  | .initial, _, init, _ => some (some init)
  | .value v, _, _, _ => some (some v)

/-! ## `PropertyMap`: `Arc<[T]>` with copy on write

The heap of `Arc` allocations is explicit, so that aliasing between clones is part of the model. -/

/-- A heap of `Arc<[T]>` cells with their strong counts, and the live `PropertyMap` handles
(`none` = dropped).  A handle is the index in `handles`, an address the index in `cells`. -/
structure Heap (T : Type) where
  cells : List (Nat × List T)
  handles : List (Option Nat)

/-- The operations of a client. -/
inductive Op (T : Type) where
  /-- `PropertyMap(values.collect())`: a new map (registry.rs:229-246). -/
  | new (vals : List T)
  /-- `map.clone()` (derived `Clone`, property_map.rs:13): clones the `Arc`. -/
  | clone (h : Nat)
  /-- dropping a map -/
  | drop (h : Nat)
  /-- `map[id]` (property_map.rs:107-113) -/
  | get (h i : Nat)
  /-- `map[id] = v` (`index_mut`, property_map.rs:129-132) -/
  | set (h i : Nat) (v : T)
  /-- `map.set_if_neq(id, v)` (property_map.rs:76-88) and, through `iter_mut`/`values_mut`,
  `PropertyMut::set_if_neq` (property_map.rs:209-221), which acts on the same `Arc`. -/
  | setIfNeq (h i : Nat) (v : T)
  /-- `a.ptr_eq(&b)` (property_map.rs:68-73) -/
  | ptrEq (a b : Nat)
  /-- `a == b` (derived `PartialEq`, property_map.rs:13) -/
  | eq (a b : Nat)

/-- What a client sees of one operation. -/
inductive Out (T : Type) where
  | handle (h : Nat)
  | unit
  | val (v : T)
  | bool (b : Bool)
deriving DecidableEq, Repr

variable {T : Type}

/-- The address behind a live handle. -/
def Heap.addr? (s : Heap T) (h : Nat) : Option Nat := (s.handles[h]?).join

/-- The slice behind a live handle (`Deref` of `Arc`). -/
def Heap.deref? (s : Heap T) (h : Nat) : Option (List T) :=
  (s.addr? h).bind fun a => (s.cells[a]?).map (·.2)

/-- `Arc::make_mut` (std) followed by the slice assignment of `index_mut` (property_map.rs:129-132):
when the count is 1 the cell is mutated in place, otherwise a fresh cell is allocated, the handle is
redirected to it and the old count is decremented. `none` = out of bounds panic. -/
def Heap.write (s : Heap T) (h i : Nat) (v : T) : Option (Heap T) :=
  match s.addr? h with
  | none => none
  | some a =>
    match s.cells[a]? with
    | none => none
    | some (rc, vals) =>
      if i < vals.length then
        if rc = 1 then
          some { s with cells := s.cells.set a (1, vals.set i v) }
        else
          some { cells := s.cells.set a (rc - 1, vals) ++ [(1, vals.set i v)],
                 handles := s.handles.set h (some s.cells.length) }
      else none

/-- One operation; `none` = a panic or use of a handle that does not exist. -/
def Heap.step [DecidableEq T] (s : Heap T) : Op T → Option (Heap T × Out T)
  | .new vals =>
    some ({ cells := s.cells ++ [(1, vals)], handles := s.handles ++ [some s.cells.length] },
      .handle s.handles.length)
  | .clone h =>
    match s.addr? h with
    | none => none
    | some a =>
      match s.cells[a]? with
      | none => none
      | some (rc, vals) =>
        some ({ cells := s.cells.set a (rc + 1, vals), handles := s.handles ++ [some a] },
          .handle s.handles.length)
  | .drop h =>
    match s.addr? h with
    | none => none
    | some a =>
      match s.cells[a]? with
      | none => none
      | some (rc, vals) =>
        some ({ cells := s.cells.set a (rc - 1, vals), handles := s.handles.set h none }, .unit)
  | .get h i => ((s.deref? h).bind (·[i]?)).map fun v => (s, .val v)
  | .set h i v => (s.write h i v).map fun s' => (s', .unit)
  | .setIfNeq h i v =>
    match (s.deref? h).bind (·[i]?) with
    | none => none
    | some cur => if cur ≠ v then (s.write h i v).map fun s' => (s', .bool true) else some (s, .bool false)
  | .ptrEq a b =>
    match s.addr? a, s.addr? b with
    | some x, some y => some (s, .bool (x == y))
    | _, _ => none
  | .eq a b =>
    match s.deref? a, s.deref? b with
    | some x, some y => some (s, .bool (x == y))
    | _, _ => none

/-- A program run: the outputs of a list of operations, `none` if one of them panics. -/
def Heap.run [DecidableEq T] (s : Heap T) : List (Op T) → Option (Heap T × List (Out T))
  | [] => some (s, [])
  | op :: ops =>
    match s.step op with
    | none => none
    | some (s', o) => (s'.run ops).map fun (s'', os) => (s'', o :: os)

end Flair.Values
