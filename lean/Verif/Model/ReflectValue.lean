import Verif.Model.NodeProps
/-!
# Model of the equality of values, and of what a frame does with it

`crates/bevy_flair_core/src/reflect_value.rs`, `property_value.rs` (106-160), `property_map.rs` (13-86), and the places of
`crates/bevy_flair_style/src/components.rs` and `systems.rs` where values are compared.  The model `NodeProps` takes the
comparison of values to be that of Lean; here it is the one of the code, which need not be reflexive.

Not modelled: `Debug` and serialization of values; `downcast_value` (it goes through `FromReflect`).
-/
namespace Flair.ReflectValue
open Flair.Transition Flair.Animation Flair.NodeProps
variable {V : Type} {n : Nat}

/-! ## `ReflectValue` -/

/-- `TypeId`: those that `ReflectValue` treats specially, and the others. -/
inductive Ty where
  | f32
  | f64
  | usize
  | color
  | val
  | other (k : Nat)
deriving DecidableEq

/-- What is known of the types: their values, `PartialEq` of the specialised ones, `reflect_partial_eq` of the others
(`None` for types without), and the conversion `as f32`. -/
structure Types where
  U : Ty → Type
  eq : (t : Ty) → U t → U t → Bool
  partialEq : (t : Ty) → U t → U t → Option Bool
  narrow : U .f64 → U .f32

variable (T : Types)

/-- `enum ReflectValue` (reflect_value.rs:27-40) -/
inductive RV where
  | float (v : T.U .f32)
  | usize (v : T.U .usize)
  | color (v : T.U .color)
  | val (v : T.U .val)
  | arc (t : Ty) (v : T.U t)

variable {T}

/-- `ReflectValue::new` (reflect_value.rs:46-61) -/
def new : (t : Ty) → T.U t → RV T
  | .f32, v => .float v
  | .f64, v => .float (T.narrow v)
  | .usize, v => .usize v
  | .color, v => .color v
  | .val, v => .val v
  | .other k, v => .arc (.other k) v

/-- `ReflectValue::new_from_box` (reflect_value.rs:67-79) -/
def newFromBox : (t : Ty) → T.U t → RV T
  | .f32, v => .float v
  | .f64, v => .arc .f64 v
  | .usize, v => .usize v
  | .color, v => .color v
  | .val, v => .val v
  | .other k, v => .arc (.other k) v

/-- `value_type_info` (reflect_value.rs:136-144) -/
def RV.type : RV T → Ty
  | .float _ => .f32
  | .usize _ => .usize
  | .color _ => .color
  | .val _ => .val
  | .arc t _ => t

/-- `value_is` (reflect_value.rs:120-122) -/
def RV.is (t : Ty) (x : RV T) : Bool := t = x.type

/-- The value inside. -/
def RV.inner : (x : RV T) → T.U x.type
  | .float v => v
  | .usize v => v
  | .color v => v
  | .val v => v
  | .arc _ v => v

/-- `downcast_value_ref` (reflect_value.rs:103-116): `Any::downcast_ref` succeeds for the type of the value. -/
def RV.downcast (t : Ty) (x : RV T) : Option (T.U t) :=
  if h : x.type = t then some (h ▸ x.inner) else none

/-- `PartialEq for ReflectValue` (reflect_value.rs:147-165) -/
def RV.eq : RV T → RV T → Bool
  | .float a, .float b => T.eq .f32 a b
  | .usize a, .usize b => T.eq .usize a b
  | .color a, .color b => T.eq .color a b
  | .val a, .val b => T.eq .val a b
  | .arc s a, .arc t b => if h : s = t then (T.partialEq t (h ▸ a) b).getD false else false
  | _, _ => false

/-! ## The comparisons of a frame -/

/-- `PartialEq for ComputedValue` (derived, property_value.rs:109-116) -/
def same (eq : V → V → Bool) : Option V → Option V → Bool
  | none, none => true
  | some a, some b => eq a b
  | _, _ => false

/-- `PartialEq for PropertyMap` (derived, property_map.rs:13-14): the slices in the `Arc` are compared, also when they
are the same (`ComputedValue` is not `Eq`). -/
def sameMap (eq : V → V → Bool) (a b : Fin n → Option V) : Bool :=
  (List.finRange n).all fun p => same eq (a p) (b p)

/-- `from_possibly_reversed_transition` with `update_for_possibly_reversed_transition` (transition.rs:126-136, 152-211);
`none`: a panic. -/
def reversedE (eq : V → V → Bool) (interp : V → V → ℚ → V) (dflt : V) (src : Option V) (dst : V) (o : Transition.Options)
    (replaced : Tr V) : Option (Tr V) :=
  let this := Transition.new interp dflt src dst o
  if !eq replaced.radj this.dst then some this
  else
    let progress := (F32.div replaced.elapsedSecs (secs replaced.duration)).clamp
    let out := replaced.ease progress
    match (out.mulAdd replaced.factor (1 - replaced.factor)).abs.clamp with
    | .num factor =>
      match fromSecs (.num (secs this.duration * factor)) with
      | none => none
      | some d =>
        let start := (sampleCurve interp replaced.curveStart replaced.dst out).getD this.src
        some { this with
          radj := replaced.dst, factor := factor, duration := d, elapsed := 0, total := d + this.delay,
          src := start, curveStart := start }
    | _ => none

/-- The round of `create_transitions` (components.rs:599-681) for property `p`, with the comparison of the code. -/
def createAtE (eq : V → V → Bool) (env : Env n V) (s : NP n V) (pend : Fin n → Option V) (p : Fin n) : Option (Slot V) :=
  let keep : Slot V := ⟨s.computed p, s.lastAnim p, s.transitions p, false⟩
  match s.topts p with
  | none => some keep
  | some o =>
    if same eq (s.computed p) (pend p) then some keep
    else match s.computed p, pend p with
      | some src, some dst =>
        if !env.animatable p then some keep
        else match s.transitions p with
          | some prev =>
            (reversedE eq (env.interp p) (env.dflt p) (some src) dst o prev).map fun t =>
              ⟨some dst, s.lastAnim p, some t, true⟩
          | none =>
            let t := Transition.new (env.interp p) (env.dflt p) (some src) dst o
            some ⟨some dst, some t.src, some t, false⟩
      | _, _ => some keep

/-- `create_transitions` (components.rs:599-681) -/
def createE (eq : V → V → Bool) (env : Env n V) (s : NP n V) (pend : Fin n → Option V) : Option (NP n V) :=
  if h : ∀ p, (createAtE eq env s pend p).isSome then
    some { s with
      computed := fun p => ((createAtE eq env s pend p).get (h p)).computed
      lastAnim := fun p => ((createAtE eq env s pend p).get (h p)).lastAnim
      transitions := fun p => ((createAtE eq env s pend p).get (h p)).transition
      tevents := s.tevents ++
        ((List.finRange n).filter fun p => ((createAtE eq env s pend p).get (h p)).replaced).map
          fun p => (.replaced, p) }
  else none

/-- The round of `apply_computed_properties` (components.rs:766-815) for a property: `some v` is a call of
`apply_change_fn` or (`v = none`) of `invalid_property_value_fn`. -/
def applyAtE (eq : V → V → Bool) (pend comp panim last : Option V) : Option (Option V) :=
  let first := if same eq comp pend then none else some pend
 
  let comp' := if same eq comp pend then comp else pend
  if panim.isSome then
    if same eq panim (last.or comp) then none else some panim
  else if same eq panim last then first
  else if same eq comp' last then none else some comp'

/-- What a frame does to a node, as far as it is decided outside of the node. -/
structure Flags where
  /-- the program is compiled with debug assertions -/
  debug : Bool
  /-- the style of some node (this or another) is recalculated in the frame: then `compute_property_values` runs, and
  marks every node, since it compares an empty map with `last_computed_animation_values` (systems.rs:917-937,
  1053-1078) -/
  busy : Bool
  /-- `pending_computed_values` is not the object `computed_values` (components.rs:519, 563, 581) -/
  fresh : Bool
  /-- `pending_computed_animation_values` is not the object `last_computed_animation_values` -/
  freshAnim : Bool

/-- `set_if_neq` -/
def setIfNeq (eq : V → V → Bool) (cur new : Option V) : Option V := if same eq cur new then cur else new

/-- What comes out of the systems of a frame. -/
inductive Out (n : Nat) (V : Type) where
  /-- the node, the values that are written to (or missing in) its components, and its events -/
  | done (s : NP n V) (writes : List (Fin n × Option V)) (tevents : List (TEv × Fin n))
      (aevents : List (AEv × Nat × Fin n))
  /-- a panic -/
  | crash
  /-- more rounds than `fuel`, or a panic in the animations (see `NodeProps`) -/
  | stuck

/-- The system `apply_computed_properties` for a node (systems.rs:1212-1238, components.rs:725-815), and
`emit_pending_events` (components.rs:1047-1068). -/
def applyE (eq : V → V → Bool) (f : Flags) (pend panim : Fin n → Option V) (s : NP n V) : Out n V :=
  if f.busy || f.fresh || !sameMap eq panim s.lastAnim then
    if !f.fresh && !f.freshAnim then .done (drain { s with lastAnim := panim }) [] s.tevents s.aevents
    else
      .done (drain { s with computed := fun p => setIfNeq eq (s.computed p) (pend p), lastAnim := panim })
        ((List.finRange n).filterMap fun p =>
          (applyAtE eq (pend p) (s.computed p) (panim p) (s.lastAnim p)).map fun v => (p, v))
        s.tevents s.aevents
  else if f.debug && !(sameMap eq pend s.computed && sameMap eq panim s.lastAnim) then .crash
  else .done (drain s) [] s.tevents s.aevents

/-- The systems of a frame for one node (lib.rs:361-376), see `NodeProps.frame`; transitions are created by
`compute_property_values` only (systems.rs:1010-1083). -/
def frameE (eq : V → V → Bool) (fuel : Nat) (env : Env n V) (f : Flags) (i : Input n V) (s : NP n V) : Out n V :=
  match ((beforeCreate fuel i s).bind fun s => if f.busy then createE eq env s i.pend else some s).bind fun s =>
      match i.configs with
      | some c => setAnimations fuel env i.resolve s c
      | none => some s with
  | none => .stuck
  | some s => applyE eq f i.resolved (animValues env s) s

/-! ## Where a value that is not equal to itself comes from -/

/-- `a * b` of `f32`s, with their special values. -/
def mul : F32 → F32 → F32
  | .nan, _ => .nan
  | _, .nan => .nan
  | .num a, .num b => .num (a * b)
  | .num a, b => if a = 0 then .nan else if a < 0 then mulInf b true else mulInf b false
  | a, .num b => if b = 0 then .nan else if b < 0 then mulInf a true else mulInf a false
  | .pinf, .pinf => .pinf
  | .ninf, .ninf => .pinf
  | .pinf, .ninf => .ninf
  | .ninf, .pinf => .ninf
where
  /-- An infinite number, with the other sign if `flip`. -/
  mulInf (x : F32) (flip : Bool) : F32 :=
    match x, flip with
    | .pinf, true => .ninf
    | .ninf, true => .pinf
    | x, _ => x

/-- `a / b` for a finite `b` -/
def divBy (a : F32) (b : ℚ) : F32 :=
  match a with
  | .num q => F32.div q b
  | .nan => .nan
  | x => if b < 0 then mul.mulInf x true else x

/-- An operator of a product with its number. -/
inductive Factor where
  | times (q : ℚ)
  | over (q : ℚ)

/-- The factor that `parse_calc_product` (calc.rs:233-258) collects: `right_operand`. -/
def factor (fs : List Factor) : F32 :=
  fs.foldl (fun r f => match f with
    | .times q => mul r (.num q)
    | .over q => divBy r q) (.num 1)

/-- `calc(<x>px <factors>)` as a length in pixels: `Mul` (calc.rs:97-113, 205), then `try_add` to `Val::ZERO`, which
returns the other operand (calc.rs:163-167). -/
def calcPx (x : ℚ) (fs : List Factor) : F32 := mul (.num x) (factor fs)

/-- `==` of `f32` -/
def floatEq : F32 → F32 → Bool
  | .nan, _ => false
  | _, .nan => false
  | a, b => a = b

end Flair.ReflectValue
