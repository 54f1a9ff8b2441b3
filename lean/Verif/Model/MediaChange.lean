import Verif.Model.Media
import Mathlib.Data.Rat.Floor
/-!
# Model of how style reacts to the window and the render target

`systems.rs` (`compute_window_media_features`, the two systems that mark nodes, the provider of media features and its
use in `calculate_style_and_set_vars`) and `components.rs` (`WindowMediaFeatures`, `DependsOnMediaFeaturesFlags`).

`E`: nodes, `C`: cameras, `W`: windows, `I`: ruleset ids.  `f32` values are rationals.
-/
namespace Flair.MediaChange
open Flair.Media
variable {E C W I : Type}

/-- What is used of `ComputedUiRenderTargetInfo`: the scale factor and the logical size. -/
structure Info where
  scale : ℚ
  x : ℚ
  y : ℚ

/-- What the provider of a node can see (systems.rs:715-752). -/
structure Seen where
  scheme : Option Scheme
  info : Option Info

/-- `as_uvec2` (`as u32`, without the upper bound) -/
def toU32 (q : ℚ) : Nat := ⌊q⌋.toNat

/-- `viewport_size.x / viewport_size.y` (systems.rs:748-752) -/
def quotient (x y : ℚ) : Ratio :=
  if y = 0 then (if x = 0 then .nan else .inf) else .fin (x / y)

/-- `MediaSelector::matches` (media_selector.rs:75-87) with the provider of a node (systems.rs:715-752). -/
def selectorMatches (s : Seen) : Selector → Option Bool
  | .colorScheme c => s.scheme.map fun x => c == x
  | .viewportWidth r => s.info.map fun i => r.matches (toU32 i.x)
  | .viewportHeight r => s.info.map fun i => r.matches (toU32 i.y)
  | .aspectRatio r => s.info.map fun i => r.matchesRatio (quotient i.x i.y)
  | .resolution r => s.info.map fun i => r.matches i.scale

/-- `DependsOnMediaFeaturesFlags` (components.rs:180-183) -/
structure Flags where
  info : Bool
  window : Bool

/-- `AtomicFlags::insert` (components.rs:230-232) -/
def Flags.union (a b : Flags) : Flags := ⟨a.info || b.info, a.window || b.window⟩

/-- The flags the provider sets when a feature is read (systems.rs:717, 724, 729, 739, 749). -/
def flagOf : Selector → Flags
  | .colorScheme _ => ⟨false, true⟩
  | _ => ⟨true, false⟩

/-- `MediaSelectors::matches` (media_selector.rs:150-164): `all` stops at the first that fails.  The result and the flags
that were set. -/
def allHold (s : Seen) : List Selector → Bool × Flags
  | [] => (true, ⟨false, false⟩)
  | m :: ms =>
    if (selectorMatches s m).getD false then ((allHold s ms).1, (flagOf m).union (allHold s ms).2)
    else (false, flagOf m)

/-- `get_matching_ruleset_ids_for_element` (style_sheet.rs:289-306), on the rulesets whose selector matches the node. -/
def activeRules (s : Seen) : List (List Selector × I) → List I × Flags
  | [] => ([], ⟨false, false⟩)
  | (ms, i) :: rs =>
    (if (allHold s ms).1 then i :: (activeRules s rs).1 else (activeRules s rs).1, (allHold s ms).2.union (activeRules s rs).2)

/-- The state: `window_theme` and whether the `Window` was changed; `WindowMediaFeatures` (`none`: absent); the window a
camera renders to (`normalize`, `none`: something else); of the nodes, `ComputedUiTargetCamera` (`none`: absent),
`ComputedUiRenderTargetInfo` and whether it was changed, the flags, the marker, the rulesets whose selector matches (with
their media selectors), and the active rules. -/
structure St (E C W I : Type) where
  theme : W → Option Scheme
  windowChanged : W → Bool
  features : W → Option (Option Scheme)
  target : C → Option W
  camera : E → Option (Option C)
  info : E → Option Info
  infoChanged : E → Bool
  flags : E → Flags
  marked : E → Bool
  rules : E → List (List Selector × I)
  active : E → List I

/-- `get_color_scheme` (systems.rs:716-721) and `get_window_media_features` (673-683). -/
def St.scheme (st : St E C W I) (e : E) : Option Scheme :=
  (st.camera e).bind fun c => c.bind fun c => (st.target c).bind fun w => (st.features w).bind fun f => f

/-- What the provider of the node sees -/
def St.seen (st : St E C W I) (e : E) : Seen := ⟨st.scheme e, st.info e⟩

/-- `compute_window_media_features` (systems.rs:222-236), with `WindowMediaFeatures::from_window` (components.rs:163-166):
the components afterwards, and the windows that get a new one. -/
def newFeatures (st : St E C W I) (w : W) : Option (Option Scheme) :=
  if st.windowChanged w && some (st.theme w) ≠ st.features w then some (st.theme w) else st.features w

@[inherit_doc newFeatures] def featuresChanged (st : St E C W I) (w : W) : Bool :=
  st.windowChanged w && some (st.theme w) ≠ st.features w

/-- `set_nodes_for_style_recalculation_on_render_target_info_change` (systems.rs:429-443) and
`set_nodes_for_style_recalculation_on_window_media_features_change` (systems.rs:389-427): whether the node is marked. -/
def marksInfo (st : St E C W I) (e : E) : Bool := st.infoChanged e && (st.flags e).info

@[inherit_doc marksInfo] def marksWindow (st : St E C W I) (e : E) : Bool :=
  match st.camera e with
  | some (some c) => match st.target c with
    | some w => featuresChanged st w && (st.flags e).window
    | none => false
  | _ => false

/-- The systems before `calculate_style_and_set_vars` -/
def prepare (st : St E C W I) : St E C W I :=
  { st with
    features := newFeatures st
    marked := fun e => st.marked e || marksInfo st e || marksWindow st e
    windowChanged := fun _ => false
    infoChanged := fun _ => false }

/-- `calculate_style_and_set_vars` (systems.rs:784-829) and the clearing of the markers in `set_property_values`, for the
nodes whose sheet is loaded. -/
def calculate (loaded : E → Bool) (st : St E C W I) : St E C W I :=
  { st with
    flags := fun e => if st.marked e && loaded e then (st.flags e).union (activeRules (st.seen e) (st.rules e)).2 else st.flags e
    active := fun e => if st.marked e && loaded e then (activeRules (st.seen e) (st.rules e)).1 else st.active e
    marked := fun e => st.marked e && !loaded e }

/-- One frame -/
def frame (loaded : E → Bool) (st : St E C W I) : St E C W I := calculate loaded (prepare st)

/-- What happens between frames: the theme of a window is set, the render target info of a node is set, the rulesets that
match a node change (which marks it, see C43), a node is spawned (its marker starts as set), the sheet of a node changes (which resets its flags and marks it,
`calculate_effective_style_sheet` systems.rs:178-184), a node gets another camera, a camera another target. -/
inductive Event (E C W I : Type) where
  | theme (w : W) (s : Option Scheme)
  | info (e : E) (i : Info)
  | rules (e : E) (rs : List (List Selector × I))
  | sheet (e : E) (rs : List (List Selector × I))
  | spawn (e : E) (c : Option (Option C)) (i : Option Info) (rs : List (List Selector × I))
  | camera (e : E) (c : Option (Option C))
  | target (c : C) (w : Option W)
  | frame (loaded : E → Bool)

/-- The effect of an event -/
def apply [DecidableEq E] [DecidableEq C] [DecidableEq W] (st : St E C W I) : Event E C W I → St E C W I
  | .theme w s => { st with
      theme := fun v => if v = w then s else st.theme v, windowChanged := fun v => if v = w then true else st.windowChanged v }
  | .info e i => { st with
      info := fun x => if x = e then some i else st.info x, infoChanged := fun x => if x = e then true else st.infoChanged x }
  | .rules e rs => { st with
      rules := fun x => if x = e then rs else st.rules x, marked := fun x => if x = e then true else st.marked x }
  | .sheet e rs => { st with
      rules := fun x => if x = e then rs else st.rules x, marked := fun x => if x = e then true else st.marked x
      flags := fun x => if x = e then ⟨false, false⟩ else st.flags x }
  | .spawn e c i rs => { st with
      camera := fun x => if x = e then c else st.camera x
      info := fun x => if x = e then i else st.info x, infoChanged := fun x => if x = e then true else st.infoChanged x
      rules := fun x => if x = e then rs else st.rules x, marked := fun x => if x = e then true else st.marked x
      flags := fun x => if x = e then ⟨false, false⟩ else st.flags x, active := fun x => if x = e then [] else st.active x }
  | .camera e c => { st with camera := fun x => if x = e then c else st.camera x }
  | .target c w => { st with target := fun x => if x = c then w else st.target x }
  | .frame loaded => frame loaded st

/-- A history -/
def run [DecidableEq E] [DecidableEq C] [DecidableEq W] : St E C W I → List (Event E C W I) → St E C W I
  | st, [] => st
  | st, e :: es => run (apply st e) es

/-- The beginning: nothing was calculated, and change detection sees everything as new. -/
def start (theme : W → Option Scheme) (target : C → Option W) (camera : E → Option (Option C)) (info : E → Option Info)
    (rules : E → List (List Selector × I)) : St E C W I where
  theme := theme
  windowChanged _ := true
  features _ := none
  target := target
  camera := camera
  info := info
  infoChanged _ := true
  flags _ := ⟨false, false⟩
  marked _ := true
  rules := rules
  active _ := []

end Flair.MediaChange
