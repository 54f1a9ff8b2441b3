import Verif.Model.Tree
/-!
# Model of style invalidation

`css_selector/element.rs` (the element the selector matcher walks on, which records who looked at whom) and
`systems.rs` (`mark_changed_nodes_for_recalculation`, `calculate_style_and_set_vars`, the end of `set_property_values`,
the flag resets of `calculate_effective_style_sheet` and `mark_as_changed_on_style_sheet_change`).

The matcher itself is the third-party crate `selectors`; it is modelled as an arbitrary program over the `Element`
interface (`Prog`).  `E`: entities, `D`: what a `NodeStyleData` holds, `A`: the outcome of matching all selectors of a
sheet (`active_rules`).  The hierarchy is fixed; changes of it are handled by other systems.
-/
namespace Flair.Invalidation
open Flair.Tree
variable {E D A : Type}

/-- What the queries of `ElementRefSystemParam` (element.rs:75-79) read: the hierarchy, the `Siblings` components, and
the entities that have `NodeStyleData` and `NodeStyleSelectorFlags`, with their data. -/
structure World (E D : Type) where
  forest : Forest E
  prev : E → Option E
  next : E → Option E
  styled : List E
  data : E → D

/-- `RecalculateOnChangeFlags` (components.rs:171-175) -/
structure Flags where
  sib : Bool
  desc : Bool
  asc : Bool
deriving DecidableEq

/-- no flag -/
def Flags.empty : Flags := ⟨false, false, false⟩

/-- `AtomicFlags::insert` (components.rs:230-232) -/
def Flags.union (a b : Flags) : Flags := ⟨a.sib || b.sib, a.desc || b.desc, a.asc || b.asc⟩

/-- The moves of the `Element` trait -/
inductive Dir where
  | parent | prev | next | child

/-- The flag each move leaves on the element it reaches: `parent_element` (143-150), `prev_sibling_element` (152-164),
`next_sibling_element` (166-178), `first_element_child` (180-191) -/
def Dir.flag : Dir → Flags
  | .parent => ⟨false, true, false⟩
  | .prev => ⟨true, false, false⟩
  | .next => ⟨true, false, false⟩
  | .child => ⟨false, false, true⟩

/-- The entity a move leads to, before looking at its components -/
def World.target (w : World E D) : Dir → E → Option E
  | .parent, x => w.forest.parent x
  | .prev, x => w.prev x
  | .next, x => w.next x
  | .child, x => (w.forest.children x).head?

/-- `related_new` (117-131), its result: `None` when the entity is not styled -/
def World.step [DecidableEq E] (w : World E D) (d : Dir) (x : E) : Option E :=
  (w.target d x).filter fun y => w.styled.contains y

/-- The flags of all entities -/
abbrev FlagMap (E : Type) := E → Flags

/-- `selector_flags.recalculate_on_change_flags.insert(flags)` on `x` (123) -/
def FlagMap.insert [DecidableEq E] (fl : FlagMap E) (x : E) (f : Flags) : FlagMap E :=
  fun y => if y = x then (fl y).union f else fl y

/-- A program of the matcher.  It holds handles (`ElementRef`), numbered in the order it got them, the element to be
matched being number 0; it can read the data of a handle (`has_class`, `has_id`, `attr_matches`,
`match_non_ts_pseudo_class`, `is_root`, ... 193-296), ask whether it has children (`is_empty` 253-259), or move, which
tells whether there is such an element and, if so, gives a new handle. -/
inductive Prog (D A : Type) where
  | ret (a : A)
  | read (i : Nat) (k : Option D → Prog D A)
  | isEmpty (i : Nat) (k : Bool → Prog D A)
  | move (d : Dir) (i : Nat) (k : Bool → Prog D A)

/-- The matcher running on the elements of the world: its outcome, and the flags after it. -/
def run [DecidableEq E] (w : World E D) : Prog D A → List E → FlagMap E → A × FlagMap E
  | .ret a, _, fl => (a, fl)
  | .read i k, hs, fl => run w (k (hs[i]?.map w.data)) hs fl
  | .isEmpty i k, hs, fl => run w (k ((hs[i]?.map fun x => (w.forest.children x).isEmpty).getD true)) hs fl
  | .move d i k, hs, fl =>
    match hs[i]?.bind (w.step d) with
    | none => run w (k false) hs fl
    | some y => run w (k true) (hs ++ [y]) (fl.insert y d.flag)

/-- `iter_ui_descendants` (custom_iterators.rs:52-55); this many calls of `next` reach the end (C17). -/
def descendants (f : Forest E) (x : E) : List E :=
  ((bfsCollect f (f.nodes.length + 1) (bfsNew f x)).getD []).map Prod.snd

/-- What change detection reports about an entity in this frame -/
structure Change where
  data : Bool
  inline : Bool
  marker : Bool

/-- The state of the systems: the flags, `needs_style_recalculation` of the markers, and the active rules. -/
structure St (E A : Type) where
  flags : FlagMap E
  marker : E → Bool
  active : E → Option A

/-- The body of the loop of `mark_changed_nodes_for_recalculation` (508-533) for one entity -/
def marksOf (w : World E D) (st : St E A) (ch : E → Change) (x : E) : List E :=
  if !(ch x).data && !st.marker x && !(ch x).inline then []
  else
    (if (ch x).data || (ch x).inline then [x] else []) ++
    (if (st.flags x).sib then uiSiblings w.forest x else []) ++
    (if (st.flags x).desc then descendants w.forest x else []) ++
    (if (st.flags x).asc then ancestors w.forest x else [])

/-- `mark_changed_nodes_for_recalculation` (486-540): the loop over the styled entities of the query
`Or<(Changed<NodeStyleData>, Changed<NodeStyleMarker>, Changed<RawInlineStyle>)>` and the loop over `to_be_marked`. -/
def markChanged [DecidableEq E] (w : World E D) (ch : E → Change) (st : St E A) : St E A :=
  let toBeMarked := (w.styled.filter fun x => (ch x).data || (ch x).inline || (ch x).marker).flatMap (marksOf w st ch)
  { st with marker := fun y => st.marker y || (w.styled.contains y && toBeMarked.contains y) }

/-- The body of the loop of `calculate_style_and_set_vars` (773-819) for one entity.  `rules d`: the matching of the
selectors of the sheet `d.effective_style_sheet_asset_id`, `none` when the sheet is not loaded. -/
def calcOne [DecidableEq E] (w : World E D) (rules : D → Option (Prog D A)) (st : St E A) (e : E) : St E A :=
  if st.marker e then
    match rules (w.data e) with
    | none => st
    | some p =>
      { st with
        flags := (run w p [e] st.flags).2
        active := fun y => if y = e then some (run w p [e] st.flags).1 else st.active y }
  else st

/-- `clear_style_recalculation` at the end of `set_property_values` (894-904), for the entities whose sheet is loaded;
`extra`: the descendants marked at the end of `calculate_style_and_set_vars` (822-834) because of variables. -/
def clearMarkers (w : World E D) (rules : D → Option (Prog D A)) (extra : E → Bool) (st : St E A) : St E A :=
  { st with marker := fun y => (st.marker y || extra y) && (rules (w.data y)).isNone }

/-- What happens in a frame: the new data of the entities, what change detection reports, the entities whose flags are
reset (`calculate_effective_style_sheet` 178-184, `mark_as_changed_on_style_sheet_change` 607-610), other entities that
get marked (`set_needs_style_recalculation` is public), the sheets that are loaded, the order in which the parallel
loop visits the entities, the entities marked because of variables. -/
structure Input (E D A : Type) where
  data : E → D
  change : E → Change
  reset : E → Bool
  mark : E → Bool
  rules : D → Option (Prog D A)
  order : List E
  extra : E → Bool

/-- The world after the changes of a frame -/
def World.after (w : World E D) (i : Input E D A) : World E D := { w with data := i.data }

/-- flag resets and markers set before the marking system runs -/
def prepare (i : Input E D A) (st : St E A) : St E A :=
  { st with
    flags := fun x => if i.reset x then Flags.empty else st.flags x
    marker := fun x => st.marker x || i.reset x || i.mark x }

/-- One frame -/
def frame [DecidableEq E] (w : World E D) (st : St E A) (i : Input E D A) : World E D × St E A :=
  let w' := w.after i
  let st1 := markChanged w' i.change (prepare i st)
  let st2 := i.order.foldl (calcOne w' i.rules) st1
  (w', clearMarkers w' i.rules i.extra st2)

/-- A history of frames -/
def frames [DecidableEq E] : World E D × St E A → List (Input E D A) → World E D × St E A
  | s, [] => s
  | s, i :: is => frames (frame s.1 s.2 i) is

/-! ## Compound selectors with combinators, as programs -/

/-- Combinators -/
inductive Comb where
  | child | desc | nextSib | laterSib
deriving DecidableEq

/-- A complex selector: the compound of the subject, and what stands to the left of it.  A compound is a test of the
data of one element (type, id, classes, attributes, states). -/
inductive Sel (D : Type) where
  | subject (c : D → Bool)
  | comb (left : Sel D) (cb : Comb) (c : D → Bool)

/-- The move of a combinator -/
def Comb.dir : Comb → Dir
  | .child => .parent
  | .desc => .parent
  | .nextSib => .prev
  | .laterSib => .prev

/-- Whether the combinator is tried again further away -/
def Comb.loops : Comb → Bool
  | .child => false
  | .desc => true
  | .nextSib => false
  | .laterSib => true

/-- Walk from handle `h` in direction `d`, at most `n` times, trying `test` on each element found (on its handle and
the number of handles; the last argument is what to do when it fails). -/
def walk (d : Dir) (loops : Bool) (test : Nat → Nat → (Nat → Prog D A) → Prog D A) (kf : Nat → Prog D A) :
    Nat → Nat → Nat → Prog D A
  | 0, _, len => kf len
  | n + 1, h, len => .move d h fun found =>
    if found then test len (len + 1) fun len' => if loops then walk d loops test kf n len len' else kf len'
    else kf len

/-- Right-to-left matching with backtracking: of the selector at handle `h`, `len` handles being known; continues with
`kt` or `kf`, given the number of handles then known.  `n` bounds the length of the walks. -/
def Sel.prog (n : Nat) : Sel D → Nat → Nat → (Nat → Prog D A) → (Nat → Prog D A) → Prog D A
  | .subject c, h, len, kt, kf => .read h fun d => if (d.map c).getD false then kt len else kf len
  | .comb l cb c, h, len, kt, kf => .read h fun d =>
    if (d.map c).getD false then
      walk cb.dir cb.loops (fun h' len' kf' => l.prog n h' len' kt kf') kf n h len
    else kf len

/-- Matching all the selectors of a sheet (`get_matching_ruleset_ids_for_element`, style_sheet.rs:294-320): the numbers
of those that match. -/
def sheetProg (n : Nat) : List (Sel D × Nat) → List Nat → Nat → Prog D (List Nat)
  | [], acc, _ => .ret acc
  | (s, id) :: rest, acc, len =>
    s.prog n 0 len (fun len' => sheetProg n rest (acc ++ [id]) len') (fun len' => sheetProg n rest acc len')

end Flair.Invalidation
