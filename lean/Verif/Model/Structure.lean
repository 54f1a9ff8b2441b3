import Verif.Model.Invalidation
/-!
# Model of style invalidation when the hierarchy changes

`set_related_nodes_for_style_recalculation` (systems.rs:445-484), `calculate_is_root` (systems.rs:238-262),
`apply_selector_flags` (css_selector/element.rs:265-272), on top of `Model/Invalidation`.

The matcher (crate `selectors`) is again an arbitrary program over the `Element` interface, which now may also call
`apply_selector_flags`.  When the crate does that is known from its documentation: on the element it tests, before
`is_empty`, before looking for siblings, and for sibling combinators; the flags that concern the children of the
parent are meant to be stored on the parent by the implementation of `apply_selector_flags`.
-/
namespace Flair.Structure
open Flair.Tree Flair.Invalidation
variable {E D A : Type}

/-- `ElementSelectorFlags` of the crate `selectors`, as far as systems.rs:460-472 uses them, and two that it does not
use (`slow`: `HAS_SLOW_SELECTOR`, `nthOf`: `HAS_SLOW_SELECTOR_NTH_OF`). -/
structure CssFlags where
  slow : Bool := false
  later : Bool := false
  nth : Bool := false
  nthOf : Bool := false
  edge : Bool := false
  empty : Bool := false
  anchors : Bool := false
  searchUp : Bool := false
deriving DecidableEq

/-- `AtomicFlags::insert` (components.rs:230-232) -/
def CssFlags.union (a b : CssFlags) : CssFlags :=
  { slow := a.slow || b.slow, later := a.later || b.later, nth := a.nth || b.nth, nthOf := a.nthOf || b.nthOf
    edge := a.edge || b.edge, empty := a.empty || b.empty, anchors := a.anchors || b.anchors
    searchUp := a.searchUp || b.searchUp }

/-- The flags after which the element itself is marked (systems.rs:460-466). -/
def CssFlags.self (f : CssFlags) : Bool := f.anchors || f.searchUp || f.empty
/-- The flags after which its descendants are marked (systems.rs:468-474). -/
def CssFlags.below (f : CssFlags) : Bool := f.nth || f.edge || f.later

/-- The `css_selector_flags` of all entities -/
abbrev CssMap (E : Type) := E → CssFlags

/-- `self.selector_flags.css_selector_flags.insert(flags)` (element.rs:271): on the element itself, whatever the flag. -/
def CssMap.insert [DecidableEq E] (c : CssMap E) (x : E) (f : CssFlags) : CssMap E :=
  fun y => if y = x then (c y).union f else c y

/-- A program of the matcher (see `Invalidation.Prog`), with calls of `apply_selector_flags`. -/
inductive SProg (D A : Type) where
  | ret (a : A)
  | read (i : Nat) (k : Option D → SProg D A)
  | isEmpty (i : Nat) (k : Bool → SProg D A)
  | move (d : Dir) (i : Nat) (k : Bool → SProg D A)
  | flag (i : Nat) (f : CssFlags) (k : SProg D A)

/-- `apply_selector_flags` on a handle. -/
def applyFlags [DecidableEq E] (c : CssMap E) (f : CssFlags) : Option E → CssMap E
  | none => c
  | some x => c.insert x f

/-- The matcher running on the elements of the world (element.rs:136-288): its outcome, and the flags after it. -/
def run [DecidableEq E] (w : World E D) : SProg D A → List E → FlagMap E → CssMap E → A × FlagMap E × CssMap E
  | .ret a, _, fl, c => (a, fl, c)
  | .read i k, hs, fl, c => run w (k (hs[i]?.map w.data)) hs fl c
  | .isEmpty i k, hs, fl, c => run w (k ((hs[i]?.map fun x => (w.forest.children x).isEmpty).getD true)) hs fl c
  | .move d i k, hs, fl, c =>
    match hs[i]?.bind (w.step d) with
    | none => run w (k false) hs fl c
    | some y => run w (k true) (hs ++ [y]) (fl.insert y d.flag) c
  | .flag i f k, hs, fl, c => run w k hs fl (applyFlags c f hs[i]?)

/-- The state of the systems: that of `Model/Invalidation`, and the `css_selector_flags`. -/
structure SSt (E A : Type) where
  base : St E A
  css : CssMap E

/-- What happens in a frame: the new world (hierarchy, siblings after `sync_siblings_system`, styled entities, data);
`moved`: the entities with added `NodeStyleData` or changed or removed `ChildOf` (calculate_is_root 241-244);
`kids`: those with changed or removed `Children` (446, 451); the rest as in `Invalidation.Input`. -/
structure SInput (E D A : Type) where
  world : World E D
  moved : E → Bool
  kids : E → Bool
  change : E → Change
  reset : E → Bool
  mark : E → Bool
  rules : D → Option (SProg D A)
  order : List E
  extra : E → Bool

/-- An entity that gets its style components in this frame. -/
def fresh [DecidableEq E] (w w' : World E D) (x : E) : Bool := w'.styled.contains x && !w.styled.contains x

/-- New entities get `NodeStyleSelectorFlags::default()` and `NodeStyleMarker::default()` (components.rs:95-103, 234-240);
flag resets (244-248) and marks set before the marking systems. -/
def prepare [DecidableEq E] (w : World E D) (i : SInput E D A) (st : SSt E A) : SSt E A :=
  { base :=
      { flags := fun x => if fresh w i.world x || i.reset x then Flags.empty else st.base.flags x
        marker := fun x => fresh w i.world x || st.base.marker x || i.reset x || i.mark x
        active := fun x => if fresh w i.world x then none else st.base.active x }
    css := fun x => if fresh w i.world x || i.reset x then {} else st.css x }

/-- The body of the loop of `set_related_nodes_for_style_recalculation` (455-474) for one entity. -/
def relatedOf (w : World E D) (c : CssMap E) (x : E) : List E :=
  (if (c x).self then [x] else []) ++ (if (c x).below then descendants w.forest x else [])

/-- `to_be_marked` of `set_related_nodes_for_style_recalculation` (445-475): entities without the component
`NodeStyleSelectorFlags` are skipped. -/
def related (w : World E D) (kids : E → Bool) (c : CssMap E) : List E :=
  (w.styled.filter kids).flatMap (relatedOf w c)

/-- `set_related_nodes_for_style_recalculation` (477-481). -/
def setRelated [DecidableEq E] (w : World E D) (kids : E → Bool) (st : SSt E A) : SSt E A :=
  { st with base := { st.base with
      marker := fun y => st.base.marker y || (w.styled.contains y && (related w kids st.css).contains y) } }

/-- What change detection reports to `mark_changed_nodes_for_recalculation`: `calculate_is_root` writes to the data of
all the entities it looks at (systems.rs:258-260), and the marks just set count as changes of the marker. -/
def changes [DecidableEq E] (i : SInput E D A) (c : CssMap E) (x : E) : Change :=
  { data := (i.change x).data || i.moved x
    inline := (i.change x).inline
    marker := (i.change x).marker || (related i.world i.kids c).contains x }

/-- The body of the loop of `calculate_style_and_set_vars` (773-819) for one entity (see `Invalidation.calcOne`). -/
def calcOne [DecidableEq E] (w : World E D) (rules : D → Option (SProg D A)) (st : SSt E A) (e : E) : SSt E A :=
  if st.base.marker e then
    match rules (w.data e) with
    | none => st
    | some p =>
      { base :=
          { st.base with
            flags := (run w p [e] st.base.flags st.css).2.1
            active := fun y => if y = e then some (run w p [e] st.base.flags st.css).1 else st.base.active y }
        css := (run w p [e] st.base.flags st.css).2.2 }
  else st

/-- `clear_style_recalculation` at the end of `set_property_values` (894-904; see `Invalidation.clearMarkers`). -/
def clearMarkers (w : World E D) (rules : D → Option (SProg D A)) (extra : E → Bool) (st : SSt E A) : SSt E A :=
  { st with base := { st.base with
      marker := fun y => (st.base.marker y || extra y) && (rules (w.data y)).isNone } }

/-- The marking systems, in their order (lib.rs:410-412). -/
def marking [DecidableEq E] (w : World E D) (i : SInput E D A) (st : SSt E A) : SSt E A :=
  let st0 := prepare w i st
  let st1 := setRelated i.world i.kids st0
  { st1 with base := markChanged i.world (changes i st0.css) st1.base }

/-- One frame -/
def frame [DecidableEq E] (w : World E D) (st : SSt E A) (i : SInput E D A) : World E D × SSt E A :=
  (i.world, clearMarkers i.world i.rules i.extra (i.order.foldl (calcOne i.world i.rules) (marking w i st)))

/-- A history of frames -/
def frames [DecidableEq E] : World E D × SSt E A → List (SInput E D A) → World E D × SSt E A
  | s, [] => s
  | s, i :: is => frames (frame s.1 s.2 i) is

/-! ## Selectors, as programs -/

/-- A simple selector: a test of the data of the element (type, id, class, attribute, state), or `:empty`,
`:first-child`, `:last-child`. -/
inductive Simple (D : Type) where
  | test (c : D → Bool)
  | empty
  | first
  | last

/-- A complex selector: compounds with combinators between them. -/
inductive SSel (D : Type) where
  | subject (c : List (Simple D))
  | comb (left : SSel D) (cb : Comb) (c : List (Simple D))

/-- The test of a compound on handle `h`, `len` handles being known, in the order of writing (crate `selectors`,
`matches_simple_selector`). -/
def compound : List (Simple D) → Nat → Nat → (Nat → SProg D A) → (Nat → SProg D A) → SProg D A
  | [], _, len, kt, _ => kt len
  | .test c :: cs, h, len, kt, kf => .read h fun d => if (d.map c).getD false then compound cs h len kt kf else kf len
  | .empty :: cs, h, len, kt, kf => .flag h { empty := true } (.isEmpty h fun b => if b then compound cs h len kt kf else kf len)
  | .first :: cs, h, len, kt, kf => .flag h { edge := true } (.move .prev h fun found =>
      if found then kf (len + 1) else compound cs h len kt kf)
  | .last :: cs, h, len, kt, kf => .flag h { edge := true } (.move .next h fun found =>
      if found then kf (len + 1) else compound cs h len kt kf)

/-- See `Invalidation.walk`. -/
def walk (d : Dir) (loops : Bool) (test : Nat → Nat → (Nat → SProg D A) → SProg D A) (kf : Nat → SProg D A) :
    Nat → Nat → Nat → SProg D A
  | 0, _, len => kf len
  | n + 1, h, len => .move d h fun found =>
    if found then test len (len + 1) fun len' => if loops then walk d loops test kf n len len' else kf len'
    else kf len

/-- A sibling combinator leaves a flag on the element it starts from. -/
def combFlag (cb : Comb) (h : Nat) (p : SProg D A) : SProg D A :=
  if cb = .nextSib ∨ cb = .laterSib then .flag h { later := true } p else p

/-- Right-to-left matching with backtracking (see `Invalidation.Sel.prog`). -/
def SSel.prog (n : Nat) : SSel D → Nat → Nat → (Nat → SProg D A) → (Nat → SProg D A) → SProg D A
  | .subject c, h, len, kt, kf => compound c h len kt kf
  | .comb l cb c, h, len, kt, kf => compound c h len
      (fun len1 => combFlag cb h (walk cb.dir cb.loops (fun h' len' kf' => l.prog n h' len' kt kf') kf n h len1)) kf

/-- Matching all the selectors of a sheet (style_sheet.rs:294-320): the numbers of those that match. -/
def sheetProg (n : Nat) : List (SSel D × Nat) → List Nat → Nat → SProg D (List Nat)
  | [], acc, _ => .ret acc
  | (s, id) :: rest, acc, len =>
    s.prog n 0 len (fun len' => sheetProg n rest (acc ++ [id]) len') (fun len' => sheetProg n rest acc len')

end Flair.Structure
