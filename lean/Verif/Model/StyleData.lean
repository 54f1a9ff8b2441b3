/-!
# Model of the systems that fill `NodeStyleData`, of `ClassList` and of `NodeStyleMarker`

`crates/bevy_flair_style/src/systems.rs` (242-372), `components.rs` (86-140, 1356-1468).
-/
namespace Flair.StyleData
variable {E : Type}

/-! ## Input focus -/

/-- the two focus fields of `NodePseudoState` (lib.rs:59-72) -/
structure FocusState where
  focused : Bool
  visible : Bool
deriving DecidableEq

/-- `sync_input_focus` (systems.rs:302-338).  `focus`: the resource `InputFocus` (value, `is_changed`);
`visible`: the resource `InputFocusVisible` if present (value, `is_changed`); `data`: the query over
`NodeStyleData`; `prev`: the local `previous_focus`.  The resource `InputFocus` is taken to be present
(the system does nothing otherwise). -/
def syncInputFocus [DecidableEq E] (focus : Option E × Bool) (visible : Option (Bool × Bool))
    (data : E → Option FocusState) (prev : Option E) : (E → Option FocusState) × Option E :=
  let focusVisible := visible.any (·.1)
  if !focus.2 || focus.1 = prev then
    let visChanged := visible.any (·.2)
    if visChanged then
      (fun e => if prev = some e then (data e).map fun s => { s with visible := focusVisible } else data e,
        prev)
    else (data, prev)
  else
    let data1 := fun e => if prev = some e then (data e).map fun _ => ⟨false, false⟩ else data e
    let data2 := fun e => if focus.1 = some e then (data1 e).map fun _ => ⟨true, focusVisible⟩ else data1 e
    (data2, focus.1)

/-! ## Data copied from components

For one entity with `NodeStyleData` and one component with values in `V`. -/

/-- An edit of the component by the application between two passes: insert or mutate, or remove. -/
inductive Edit (V : Type) where
  | set (v : V)
  | remove

/-- The component after edits, and what bevy's change detection tells the next pass about it:
`changed` (`Changed<C>`: written to, and present), `added` (`Added<C>`), `removed` (an event of
`RemovedComponents<C>`). -/
structure Comp (V : Type) where
  value : Option V
  changed : Bool
  added : Bool
  removed : Bool

/-- Nothing happened since the last pass. -/
def Comp.quiet {V : Type} (v : Option V) : Comp V := ⟨v, false, false, false⟩

/-- One edit. -/
def Comp.edit {V : Type} (c : Comp V) : Edit V → Comp V
  | .set v => ⟨some v, true, c.added || c.value.isNone, c.removed⟩
  | .remove => ⟨none, false, false, c.removed || c.value.isSome⟩

/-- `sync_marker_component_system` (systems.rs:340-362): the flag of `NodePseudoState` for a marker
component (`Pressed`, `InteractionDisabled`, `Checked`). -/
def syncMarker {V : Type} (c : Comp V) (stored : Bool) : Bool :=
  if c.added || c.removed then c.value.isSome else stored

/-- `track_name_changes` (systems.rs:281-300): the id, from `Name`.  First the changed names (or newly
styled entities) are copied, then the ids of entities with a removal event are cleared. -/
def trackName {V : Type} (dataAdded : Bool) (c : Comp V) (stored : Option V) : Option V :=
  let id1 := match c.value with
    | some n => if c.changed || dataAdded then some n else stored
    | none => stored
  if c.removed then none else id1

/-- `apply_classes` (systems.rs:264-271) and `apply_attributes` (273-279): copy of a changed
component. -/
def applyChanged {V : Type} (c : Comp V) (stored : V) : V :=
  match c.value with
  | some v => if c.changed then v else stored
  | none => stored

/-! ## ClassList -/

/-- `ClassList` (components.rs:1362), class names being strings. -/
abbrev ClassList := List (List Char)

/-- `add` (1431-1436) -/
def add (l : ClassList) (c : List Char) : ClassList := if l.contains c then l else l ++ [c]

/-- `remove` (1448-1453): `position` and `Vec::remove`. -/
def remove (l : ClassList) (c : List Char) : ClassList :=
  match l.findIdx? (· == c) with
  | some i => l.eraseIdx i
  | none => l

/-- `toggle` (1421-1428) -/
def toggle (l : ClassList) (c : List Char) : ClassList :=
  match l.findIdx? (· == c) with
  | some i => l.eraseIdx i
  | none => l ++ [c]

/-- `contains` (1405-1408) -/
def contains (l : ClassList) (c : List Char) : Bool := List.contains l c

/-- `new_with_classes` (1392-1402) -/
def newWithClasses (cs : List (List Char)) : ClassList := cs.foldl add []

/-- `str::split_whitespace`: maximal runs of characters that are not white space.  `cur` is the word
being read. -/
def splitWs (ws : Char → Bool) : List Char → List Char → List (List Char)
  | [], cur => if cur = [] then [] else [cur]
  | c :: s, cur =>
    if ws c then (if cur = [] then splitWs ws s [] else cur :: splitWs ws s [])
    else splitWs ws s (cur ++ [c])

/-- `ClassList::new` (1381-1383), `from_str` (1459-1461). -/
def new (ws : Char → Bool) (s : List Char) : ClassList := newWithClasses (splitWs ws s [])

/-- `Display` (1464-1468): joined with spaces. -/
def display (l : ClassList) : List Char := List.intercalate [' '] l

/-! ## NodeStyleMarker -/

/-- `NodeStyleMarker` (components.rs:89-93), without the third flag (`needs_property_application`), which
is independent. -/
structure Marker where
  reset : Bool
  recalc : Bool

/-- `Default` (95-103) -/
def Marker.default : Marker := ⟨true, true⟩

/-- What happens to a marker. -/
inductive MOp where
  /-- `set_needs_reset` -/
  | requestReset
  /-- `set_needs_style_recalculation` -/
  | mark
  /-- the system `reset_properties` (systems.rs:39-51); the argument: the properties were just added -/
  | resetPass (added : Bool)
  /-- the system `set_property_values` (860-904); the argument: the sheet is loaded -/
  | stylePass (loaded : Bool)

/-- `NodeStyleMarker::needs_style_recalculation` (124-126) -/
def Marker.needsRecalc (m : Marker) : Bool := !m.reset && m.recalc

/-- One step; the result says whether the style was recalculated. -/
def Marker.step (m : Marker) : MOp → Marker × Bool
  | .requestReset => ({ m with reset := true }, false)
  | .mark => ({ m with recalc := true }, false)
  | .resetPass added => if m.reset || added then (⟨false, true⟩, false) else (m, false)
  | .stylePass loaded =>
    if !m.needsRecalc then (m, false)
    else if !loaded then (m, false)
    else ({ m with recalc := false }, true)

/-- A history of steps: final marker, and for each step whether it recalculated the style. -/
def Marker.run (m : Marker) : List MOp → Marker × List (MOp × Bool)
  | [] => (m, [])
  | op :: ops =>
    let (m1, r) := m.step op
    let (m2, rs) := m1.run ops
    (m2, (op, r) :: rs)

end Flair.StyleData
