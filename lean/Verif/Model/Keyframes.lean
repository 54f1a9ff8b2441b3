import Verif.Model.F32
/-!
# Model of `@keyframes`

`crates/bevy_flair_style/src/animations/keyframes.rs` (builder 356-515, resolver 186-354),
`curves.rs` (153-217), `reflect.rs` (141-171) and the loop of `css_parser/src/internal_loader.rs` (198-282)
that calls the builder.  Times are rational numbers (rounding and NaN of `f32` are not modelled).
`D`: a declaration (`StyleBuilderProperty`); `E`: a timing function; `P`: a property id; `V`: a value.
-/
namespace Flair.Keyframes
variable {D E P V S : Type}

/-! ## Builder -/

/-- `InnerAnimationKeyframeBuilder` and, after `build`, `AnimationKeyframe` (keyframes.rs:89-96, 356-365).
The resolution of canonical names in `build` is not modelled. -/
structure KB (D E : Type) where
  time : ℚ
  props : List D
  easing : Option E

/-- `AnimationKeyframesBuilder::new` (446-455) -/
def new : List (KB D E) := [⟨0, [], none⟩, ⟨1, [], none⟩]

/-- `is_time_equals` (462-465) -/
def timeEq (a b : ℚ) : Bool := a - 1 / 1000 ≤ b && b ≤ a + 1 / 1000

/-- What a caller adds to the keyframe that `add_keyframe(time)` gives it. -/
structure Call (D E : Type) where
  time : ℚ
  props : List D
  easing : Option E

/-- `add_keyframe` (458-484) followed by `add_properties` and `set_animation_timing_function` (387-428):
the first keyframe at this time is taken, or a new one pushed at the end. -/
def add : List (KB D E) → Call D E → List (KB D E)
  | [], c => [⟨c.time, [] ++ c.props, c.easing.or none⟩]
  | k :: ks, c =>
    if timeEq k.time c.time then { k with props := k.props ++ c.props, easing := c.easing.or k.easing } :: ks
    else k :: add ks c

/-- `build` (478-514): `retain`, then a stable sort. -/
def build (ks : List (KB D E)) : List (KB D E) :=
  (ks.filter fun k => 0 ≤ k.time ∧ k.time ≤ 1).mergeSort fun a b => a.time ≤ b.time

/-- The builder after a sequence of calls. -/
def keyframes (calls : List (Call D E)) : List (KB D E) := build (calls.foldl add new)

/-- An item of a keyframe rule: declarations, or an `animation-timing-function`. -/
inductive Item (D E : Type) where
  | props (ds : List D)
  | easing (e : E)

/-- The call for an item at a time (internal_loader.rs:206-268). -/
def callOf (it : Item D E) (t : ℚ) : Call D E :=
  match it with
  | .props ds => ⟨t, ds, none⟩
  | .easing e => ⟨t, [], some e⟩

/-- The calls of the loader (internal_loader.rs:201-275) for the rules of an `@keyframes` block: for each
item of a rule and each of its times, one. -/
def callsOf (rules : List (List ℚ × List (Item D E))) : List (Call D E) :=
  rules.flatMap fun r => r.2.flatMap fun it => r.1.map (callOf it)

/-! ## Resolver -/

/-- `interpolate_value` (142-172); `interp` is `none` when the type of the property is not animatable.
The curve is a `LinearCurve`, sampled on the unit interval only. -/
def interpolateValue (interp : Option (V → V → ℚ → V)) (ta : ℚ) (a : Option V) (tb : ℚ) (b : Option V)
    (v : ℚ) : Option V :=
  let t := (v - ta) / (tb - ta)
  a.bind fun a => b.bind fun b => interp.bind fun f => if 0 ≤ t ∧ t ≤ 1 then some (f a b t) else none

/-- A cell: no entry, or an entry with a computed value (which may be `None`). -/
abbrev Cell (V : Type) := Option (Option V)

/-- `if !contains_key { insert(current_value) }` for one keyframe (271-281) -/
def fillCell (cur : Option V) (x : ℚ × Cell V) : ℚ × Cell V := (x.1, some (x.2.getD cur))

/-- `for index in [0, keyframes_len - 1]` (270-282) -/
def fillEnds (cur : Option V) (l : List (ℚ × Cell V)) : List (ℚ × Cell V) :=
  (l.modify 0 (fillCell cur)).modify (l.length - 1) (fillCell cur)

/-- `position(|p| p.1.contains_key(property_id))` (295-299) -/
def nextEntry : List (ℚ × Cell V) → Option (ℚ × Option V)
  | [] => none
  | (t, some v) :: _ => some (t, v)
  | (_, none) :: l => nextEntry l

/-- `for index in 1..keyframes_len - 1` (285-323), after the keyframe `prev`; the last keyframe has an
entry already.  `none`: the `expect` of line 299 fails. -/
def fillMid (interp : Option (V → V → ℚ → V)) : ℚ × Option V → List (ℚ × Cell V) →
    Option (List (ℚ × Option V))
  | _, [] => some []
  | _, (t, some v) :: l => (fillMid interp (t, v) l).map ((t, v) :: ·)
  | prev, (t, none) :: l =>
    (nextEntry l).bind fun nx =>
      let v := interpolateValue interp prev.1 prev.2 nx.1 nx.2 t
      (fillMid interp (t, v) l).map ((t, v) :: ·)

/-- The filled column of a property (254-323). -/
def fillColumn (interp : Option (V → V → ℚ → V)) (cur : Option V) (l : List (ℚ × Cell V)) :
    Option (List (ℚ × Option V)) :=
  match fillEnds cur l with
  | (t, some v) :: r => (fillMid interp (t, v) r).map ((t, v) :: ·)
  | _ => none

/-- The property is kept if all its values are values (325-347). -/
def allValues : List (ℚ × Option V) → Option (List (ℚ × V))
  | [] => some []
  | (_, none) :: _ => none
  | (t, some v) :: l => (allValues l).map ((t, v) :: ·)

/-- What the resolver does with a property. -/
inductive Resolved (V : Type) where
  | panic
  /-- not in the result -/
  | ignored
  | ok (l : List (ℚ × V))

/-- `KeyframesResolver::resolve` (198-371), for the column of one property that occurs in some keyframe. -/
def resolveColumn (interp : Option (V → V → ℚ → V)) (cur : Option V) (l : List (ℚ × Cell V)) : Resolved V :=
  match fillColumn interp cur l with
  | none => .panic
  | some r =>
    match allValues r with
    | none => .ignored
    | some out => .ok out

/-- `resolve_properties` (99-112) and `compute_as_root` (222-230): the last declaration of the property in
the keyframe. `ev d`: the property ids and computed values a declaration resolves to. -/
def cellOf [DecidableEq P] (ev : D → List (P × Option V)) (props : List D) (p : P) : Cell V :=
  ((props.flatMap ev).filter (fun x => x.1 = p)).getLast?.map (·.2)

/-- The column of a property. -/
def columnOf [DecidableEq P] (ev : D → List (P × Option V)) (ks : List (KB D E)) (p : P) :
    List (ℚ × Cell V) :=
  ks.map fun k => (k.time, cellOf ev k.props p)

/-- `KeyframesResolver::resolve` (198-371): the keyframes of a property, with their timing functions
(resolved in 232-245; an invalid one is not modelled). -/
def resolve [DecidableEq P] (ev : D → List (P × Option V)) (interp : P → Option (V → V → ℚ → V))
    (cur : P → Option V) (dflt : E) (ks : List (KB D E)) (p : P) : Option (List (ℚ × V × E)) :=
  if (columnOf ev ks p).any (fun x => x.2.isSome) then
    match resolveColumn (interp p) (cur p) (columnOf ev ks p) with
    | .ok out => some ((out.zip ks).map fun x => (x.1.1, x.1.2, x.2.easing.getD dflt))
    | _ => none
  else none

/-! ## Curve -/

/-- `dedup_by_key` on the time: the first of neighbours with the same time is kept. -/
def dedup : List (ℚ × S) → List (ℚ × S)
  | [] => []
  | x :: l =>
    match dedup l with
    | [] => [x]
    | y :: r => if x.1 = y.1 then x :: r else x :: y :: r

/-- `UnevenCore::new` (bevy_math): stable sort, deduplicate, at least two samples. -/
def coreNew (l : List (ℚ × S)) : Option (List (ℚ × S)) :=
  let r := dedup (l.mergeSort fun a b => a.1 ≤ b.1)
  if r.length < 2 then none else some r

/-- `InterpolationDatum` (bevy_math) -/
inductive Datum (S : Type) where
  | single (x : S)
  | between (a b : S) (s : ℚ)

/-- `UnevenCore::sample_interp` (bevy_math): a binary search in the (sorted) times; `Exact`, `LeftTail` and
`RightTail` are `single`.  `none`: no samples. -/
def sampleInterp (l : List (ℚ × S)) (t : ℚ) : Option (Datum S) :=
  match l.dropWhile (fun x => x.1 < t) with
  | [] => ((l.takeWhile fun x => x.1 < t).getLast?).map fun a => .single a.2
  | b :: _ =>
    if b.1 = t then some (.single b.2)
    else
      match (l.takeWhile fun x => x.1 < t).getLast? with
      | none => some (.single b.2)
      | some a => some (.between a.2 b.2 ((t - a.1) / (b.1 - a.1)))

/-- `UnevenSampleEasedCurve::sample_unchecked` (curves.rs:203-213) -/
def sampleUnchecked (interp : V → V → ℚ → V) (l : List (ℚ × V × (ℚ → ℚ))) (t : ℚ) : Option V :=
  (sampleInterp l t).map fun d =>
    match d with
    | .single x => x.1
    | .between a b s => interp a.1 b.1 (a.2 s)

/-- `create_keyframe_animation_with` (reflect.rs:146-173) and `Curve::sample` on the unit interval
(curves.rs:198-201).  The outer `none`: the `expect` fails. -/
def keyframeCurve (interp : V → V → ℚ → V) (l : List (ℚ × V × (ℚ → ℚ))) : Option (ℚ → Option V) :=
  (coreNew l).map fun core => fun t => if 0 ≤ t ∧ t ≤ 1 then sampleUnchecked interp core t else none

end Flair.Keyframes
