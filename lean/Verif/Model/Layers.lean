/-!
# Model of `crates/bevy_flair_style/src/layers.rs`

Strings are lists of characters.  A Rust panic is the value `none`.
-/
namespace Flair.Layers

/-- Layer names are Rust `&str`/`String`; modelled as the list of their characters. -/
abbrev Name := List Char

/-- `ParsedLayer` (layers.rs:20-23). -/
structure ParsedLayer where
  parents : List Name
  name : Name
deriving Repr, DecidableEq

/-- The `while let Some(i) = full_name[consumed..].find('.')` loop of `ParsedLayer::parse`
(layers.rs:26-36).  `consumed` is the part of the name already scanned (in order), `cur` is the
part of the current component scanned so far; at each dot the whole text before it is pushed to
`parents`.  The `debug_assert!` of line 34 is not part of the function's value. -/
def parseGo : (consumed cur rest : Name) → List Name × Name
  | _, cur, [] => ([], cur)
  | consumed, cur, c :: rest =>
    if c = '.' then
      let r := parseGo (consumed ++ ['.']) [] rest
      (consumed :: r.1, r.2)
    else parseGo (consumed ++ [c]) (cur ++ [c]) rest

/-- `ParsedLayer::parse` (layers.rs:26-36). -/
def parse (full : Name) : ParsedLayer :=
  let r := parseGo [] [] full
  { parents := r.1, name := r.2 }

/-- every parent found by `parse` is strictly shorter than the name: used for termination. -/
theorem parseGo_parents_lt : ∀ (rest consumed cur : Name) (p : Name),
    p ∈ (parseGo consumed cur rest).1 → p.length < consumed.length + rest.length := by
  intro rest
  induction rest with
  | nil => intro c cur p h; simp [parseGo] at h
  | cons a rest ih =>
    intro c cur p h
    unfold parseGo at h
    split at h
    · simp only [List.mem_cons] at h
      rcases h with h | h
      · subst h; simp
      · have := ih _ _ _ h; simp at this ⊢; omega
    · have := ih _ _ _ h; simp at this ⊢; omega

/-- `LayersHierarchy::is_layer_defined` (layers.rs:81-83). -/
def isDefined (inner : List Name) (full : Name) : Bool := inner.contains full

/-- `Vec::insert` at an index, as used at layers.rs:75. -/
def insertAt (l : List Name) (i : Nat) (x : Name) : List Name := l.take i ++ x :: l.drop i

/-- `iter().position(|a| a == x)` (layers.rs:91-92, 107-110); `none` when absent. -/
def position (l : List Name) (x : Name) : Option Nat :=
  if l.contains x then some (l.idxOf x) else none

/-- `LayersHierarchy::find_insert_position` (layers.rs:103-113); `none` is the panic. -/
def findInsertPosition (inner : List Name) (layer : ParsedLayer) : Option Nat :=
  match layer.parents.getLast? with
  | none => none
  | some parent => position inner parent

/-- `LayersHierarchy::define_layer` (layers.rs:59-79).  The value is the new `inner` vector, `none`
when the code panics.  The loop over `parents` is a left fold of the recursive call. -/
def defineLayer (inner : List Name) (full : Name) : Option (List Name) :=
  if full = [] then some inner
  else if isDefined inner full then some inner
  else
    let layer := parse full
    if layer.parents = [] then some (inner ++ [layer.name])
    else
      match layer.parents.attach.foldlM (fun inner p => defineLayer inner p.1) inner with
      | none => none
      | some inner' =>
        match findInsertPosition inner' layer with
        | none => none
        | some i => some (insertAt inner' i full)
termination_by full.length
decreasing_by
  have h := parseGo_parents_lt full [] [] p.1 p.2
  simpa using h

/-- `LayersHierarchy::get_layer_priority` (layers.rs:86-97); `none` is the panic. -/
def priority (inner : List Name) (full : Name) : Option Nat :=
  if full = [] then some inner.length else position inner full

/-- A history of declarations, from the empty hierarchy (`LayersHierarchy::new`, layers.rs:55-57):
what `StyleSheetBuilder::define_layers` and `add_css_selector` do one after another
(builder.rs). -/
def defineAll (names : List Name) : Option (List Name) :=
  names.foldlM defineLayer []

end Flair.Layers
