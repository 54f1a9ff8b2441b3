import Mathlib.Data.Rat.Defs
import Mathlib.Algebra.Order.Field.Rat
/-!
# Model of `crates/bevy_flair_style/src/media_selector.rs`

`f32` values are rationals; the aspect ratio of a window of height 0 is not a number and compares
false with everything (IEEE), which is modelled by `Ratio`.
-/
namespace Flair.Media

/-- `MediaRangeSelector` (media_selector.rs:9-16). -/
inductive Range (α : Type) where
  | exact (a : α)
  | lessOrEqual (a : α)
  | greaterOrEqual (a : α)

/-- `MediaRangeSelector::matches` (media_selector.rs:23-29). -/
def Range.matches {α : Type} [DecidableEq α] [LE α] [DecidableLE α] (r : Range α) (v : α) : Bool :=
  match r with
  | .exact e => v == e
  | .lessOrEqual x => decide (v ≤ x)
  | .greaterOrEqual x => decide (x ≤ v)

/-- A quotient of `f32`s as used by `get_aspect_ratio`: finite, `+∞` (positive / 0) or NaN (0 / 0). -/
inductive Ratio where
  | fin (q : ℚ)
  | inf
  | nan

/-- `as f32 / as f32` (media_selector.rs:50-52) on sizes. -/
def ratio (w h : Nat) : Ratio :=
  if h = 0 then (if w = 0 then .nan else .inf) else .fin ((w : ℚ) / (h : ℚ))

/-- `MediaRangeSelector<f32>::matches` (media_selector.rs:23-29) on a quotient; the bound in the
style sheet is finite. -/
def Range.matchesRatio (r : Range ℚ) : Ratio → Bool
  | .fin q => r.matches q
  | .inf => match r with
    | .greaterOrEqual _ => true
    | _ => false
  | .nan => false

/-- `ColorScheme`. -/
inductive Scheme where
  | light | dark
deriving DecidableEq

/-- `MediaSelector` (media_selector.rs:57-68). -/
inductive Selector where
  | colorScheme (s : Scheme)
  | viewportWidth (r : Range Nat)
  | viewportHeight (r : Range Nat)
  | aspectRatio (r : Range ℚ)
  | resolution (r : Range ℚ)

/-- `MediaFeaturesProvider` (media_selector.rs:36-53): what the window reports. -/
structure Provider where
  colorScheme : Option Scheme
  resolution : Option ℚ
  width : Option Nat
  height : Option Nat

/-- `get_aspect_ratio` (media_selector.rs:50-52).  (The override at systems.rs:748-752 divides the
unrounded logical sizes.) -/
def Provider.aspectRatio (p : Provider) : Option Ratio :=
  p.width.bind fun w => p.height.bind fun h => some (ratio w h)

/-- `MediaSelector::matches` (media_selector.rs:75-87). -/
def Selector.matches (p : Provider) : Selector → Option Bool
  | .colorScheme s => p.colorScheme.map fun c => s == c
  | .viewportWidth r => p.width.map r.matches
  | .viewportHeight r => p.height.map r.matches
  | .aspectRatio r => p.aspectRatio.map r.matchesRatio
  | .resolution r => p.resolution.map r.matches

/-- `MediaSelectors::merge_with` (media_selector.rs:141-147). -/
def mergeWith {M : Type} (self other : List M) : List M :=
  if self.isEmpty then other else self ++ other

/-- `MediaSelectors::matches` (media_selector.rs:150-164). -/
def allMatch (p : Provider) (ms : List Selector) : Bool :=
  if ms.isEmpty then true else ms.all fun m => (m.matches p).getD false

end Flair.Media
