import Verif.Spec.ReflectValue
import Verif.Tactics
/-! # Values and their equality, and frames in which nothing changes (C103) -/
namespace Flair.Props
open Flair.Spec Flair.Transition Flair.Animation Flair.NodeProps Flair.ReflectValue
variable {V : Type} {n : Nat}

/-! ## Values -/

/-- A value that is put into a `ReflectValue` comes out again, as a value of its own type and of no other; it does not
matter how it is put in.  All types but `f64`. -/
theorem C103_round_trip_partial (T : Types) (t : Ty) (ht : t ≠ .f64) (v : T.U t) :
    (ReflectValue.new t v).downcast t = some v ∧ (∀ u, (ReflectValue.new t v).is u = true ↔ u = t) ∧
    (∀ u, u ≠ t → (ReflectValue.new t v).downcast u = none) ∧ ReflectValue.new t v = newFromBox t v := by
  have h : ReflectValue.new t v = newFromBox t v := by cases t <;> first | rfl | exact absurd rfl ht
  have ht' : (newFromBox t v).type = t := by cases t <;> rfl
  rw [h]
  refine ⟨by cases t <;> first | rfl | simp [newFromBox, RV.downcast, RV.type, RV.inner], fun u => by simp [RV.is, ht'], fun u hu => ?_, rfl⟩
  simp only [RV.downcast]
  rw [dif_neg]
  rw [ht']
  exact fun e => hu e.symm

/-- Every boxed value comes out again. -/
theorem C103_boxed (T : Types) (t : Ty) (v : T.U t) :
    (newFromBox t v).downcast t = some v ∧ (∀ u, (newFromBox t v).is u = true ↔ u = t) := by
  have ht' : (newFromBox t v).type = t := by cases t <;> rfl
  exact ⟨by cases t <;> first | rfl | simp [newFromBox, RV.downcast, RV.type, RV.inner], fun u => by simp [RV.is, ht']⟩

/-- An `f64` does not: it is an `f32` afterwards, and not equal to the same number in a box. -/
theorem C103_f64 (T : Types) (v : T.U .f64) :
    (ReflectValue.new .f64 v).downcast .f64 = none ∧ (ReflectValue.new .f64 v).is .f64 = false ∧
    (ReflectValue.new .f64 v).downcast .f32 = some (T.narrow v) ∧
    RV.eq (ReflectValue.new .f64 v) (newFromBox .f64 v) = false := by
  simp [ReflectValue.new, newFromBox, RV.downcast, RV.is, RV.type, RV.inner, RV.eq]

/-- Two values are equal exactly when they have the same type and are equal by its equality. -/
theorem C103_equal_iff (T : Types) (s t : Ty) (a : T.U s) (b : T.U t) :
    RV.eq (newFromBox s a) (newFromBox t b) = true ↔ ∃ h : s = t, EqualAs T t (h ▸ a) b := by
  cases s <;> cases t <;> simp [newFromBox, RV.eq, EqualAs]
  case f64.f64 => cases T.partialEq .f64 a b <;> simp
  case other.other j k =>
    by_cases h : j = k
    · subst h; simp; cases T.partialEq (.other j) a b <;> simp
    · simp [h]

/-! ## Frames -/

private theorem same_self (eq : V → V → Bool) (c : Option V) (h : ∀ v, c = some v → eq v v = true) : same eq c c = true := by
  cases c with
  | none => rfl
  | some v => exact h v rfl

private theorem same_self_iff (eq : V → V → Bool) (c : Option V) : same eq c c = true ↔ ∀ v, c = some v → eq v v = true :=
  ⟨fun h v e => by subst e; exact h, same_self eq c⟩

private theorem setIfNeq_self (eq : V → V → Bool) (c : Option V) : setIfNeq eq c c = c := by simp [setIfNeq]

private theorem sameMap_iff (eq : V → V → Bool) (a b : Fin n → Option V) :
    sameMap eq a b = true ↔ ∀ p, same eq (a p) (b p) = true := by simp [sameMap]

private theorem rest_values {s : NP n V} (h : AtRest s) (env : Env n V) : animValues env s = s.lastAnim := by
  funext p
  simp [animValues, animationValue, h.animations, h.transitions p, h.values p]

private theorem rest_tick {s : NP n V} (h : AtRest s) (fuel δ : Nat) : tickSystem fuel s δ = some s := by
  rw [tickSystem, if_neg]
  rintro (⟨p, t, e, -⟩ | ⟨g, hg, -⟩)
  · rw [h.transitions p] at e; cases e
  · rw [h.animations] at hg; cases hg

private theorem rest_topts {s : NP n V} (h : AtRest s) : setTransitionOptions s s.topts = s := by
  have hc : ∀ p, cancels s s.topts p = false := by intro p; simp [cancels, h.transitions p]
  have : (List.finRange n).filter (cancels s s.topts) = [] := by simp [hc]
  simp only [setTransitionOptions, this, hc, List.map_nil, List.append_nil, Bool.false_eq_true, if_false]

private theorem rest_before {s : NP n V} (h : AtRest s) {i : Input n V} (hi : SameStyle i s) (fuel : Nat) :
    beforeCreate fuel i s = some s := by
  simp only [beforeCreate, hi.reset, Bool.false_eq_true, if_false, rest_tick h, Option.map_some]
  rcases hi.topts with e | e <;> simp [e, rest_topts h]

/-- `create_transitions` leaves a node alone whose values are the same, and equal to themselves. -/
private theorem create_same (eq : V → V → Bool) (env : Env n V) (s : NP n V) (h : EqualThemselves eq s) :
    createE eq env s s.computed = some s := by
  have hk : ∀ p, createAtE eq env s s.computed p = some ⟨s.computed p, s.lastAnim p, s.transitions p, false⟩ := by
    intro p
    simp only [createAtE]
    split
    · rfl
    · rw [if_pos (same_self eq _ (h p))]
  simp [createE, hk]

private theorem apply_rest (eq : V → V → Bool) (f : Flags) (s : NP n V) (h : AtRest s) (he : EqualThemselves eq s) :
    applyE eq f s.computed s.lastAnim s = .done s [] [] [] := by
  have hd : drain s = s := by
    obtain ⟨_, _, _, _, _, _, _⟩ := s
    obtain ⟨_, _, _, h4, h5⟩ := h
    simp only at h4 h5
    subst h4; subst h5; rfl
  have h1 : sameMap eq s.computed s.computed = true := (sameMap_iff ..).2 fun p => same_self eq _ (he p)
  have h2 : sameMap eq s.lastAnim s.lastAnim = true := (sameMap_iff ..).2 fun p => by rw [h.values p]; rfl
  have h3 : ∀ p, applyAtE eq (s.computed p) (s.computed p) (s.lastAnim p) (s.lastAnim p) = none := by
    intro p
    have := same_self eq _ (he p)
    simp only [applyAtE, h.values p, this, Option.isSome_none, Bool.false_eq_true, if_false, if_true]
    rfl
  simp only [applyE, h1, h2, h3, setIfNeq_self, hd, h.tevents, h.aevents, Bool.and_true, Bool.not_true, Bool.and_false,
    Bool.or_false, Bool.false_eq_true, if_false, Option.map_none, List.filterMap_none]
  split
  · split
    · rw [← hd]; rfl
    · rw [← hd]; rfl
  · rfl

/-- A frame after which the style of a node is what it was does nothing to it, whatever else happens: it writes to no
component, starts nothing, tells nothing, and does not crash -- if all values of the node are equal to themselves. -/
theorem C103_nothing_partial (eq : V → V → Bool) (env : Env n V) (s : NP n V) (hr : AtRest s) (he : EqualThemselves eq s)
    (i : Input n V) (hi : SameStyle i s) (fuel : Nat) (f : Flags) :
    frameE eq fuel env f i s = .done s [] [] [] := by
  have hb := rest_before hr hi fuel
  simp only [frameE, hb, hi.pend, hi.configs, hi.resolved, Option.bind_some, create_same eq env s he, ite_self,
    rest_values hr env]
  exact apply_rest eq f s hr he

/-- A frame in which no style is recalculated crashes a program with debug assertions exactly when some value of the node
is not equal to itself. -/
theorem C103_crash_iff (eq : V → V → Bool) (env : Env n V) (s : NP n V) (hr : AtRest s) (i : Input n V)
    (hi : SameStyle i s) (fuel : Nat) (f : Flags) (hd : f.debug = true) (hb : f.busy = false) (hf : f.fresh = false) :
    frameE eq fuel env f i s = .crash ↔ ¬ EqualThemselves eq s := by
  have h2 : sameMap eq s.lastAnim s.lastAnim = true := (sameMap_iff ..).2 fun p => by rw [hr.values p]; rfl
  have h1 : sameMap eq s.computed s.computed = true ↔ EqualThemselves eq s := by
    rw [sameMap_iff]
    exact forall_congr' fun p => same_self_iff eq _
  simp only [frameE, rest_before hr hi fuel, hb, hi.configs, hi.resolved, Option.bind_some, rest_values hr env, applyE, hf,
    h2, hd, Bool.false_eq_true, if_false, Bool.not_true, Bool.or_false, Bool.true_and, Bool.and_true]
  rw [← h1]
  cases sameMap eq s.computed s.computed <;> simp

/-- Without debug assertions no frame crashes here, whatever the values are. -/
theorem C103_release (eq : V → V → Bool) (env : Env n V) (s : NP n V) (i : Input n V) (fuel : Nat) (f : Flags)
    (hd : f.debug = false) : frameE eq fuel env f i s ≠ .crash := by
  simp only [frameE, applyE, hd, Bool.false_and, Bool.false_eq_true, if_false]
  split
  · simp
  · split
    · split <;> simp
    · simp

/-- When a style is recalculated, and gives the same values, exactly those that are not equal to themselves are written
to the components again. -/
theorem C103_written_iff (eq : V → V → Bool) (env : Env n V) (s : NP n V) (hr : AtRest s) (i : Input n V)
    (hi : SameStyle i s) (fuel : Nat) (f : Flags) (hb : f.busy = true) (hf : f.fresh = true)
    (ht : ∀ p, s.topts p = none) :
    ∃ s' w te ae, frameE eq fuel env f i s = .done s' w te ae ∧
      ∀ p x, (p, x) ∈ w ↔ ∃ v, x = some v ∧ s.computed p = some v ∧ eq v v = false := by
  have hk : ∀ p, createAtE eq env s s.computed p = some ⟨s.computed p, s.lastAnim p, s.transitions p, false⟩ := by
    intro p; simp only [createAtE, ht p]
  have hc : createE eq env s s.computed = some s := by simp [createE, hk]
  simp only [frameE, rest_before hr hi fuel, hb, hi.pend, hi.configs, hi.resolved, Option.bind_some, hc,
    rest_values hr env, applyE, hf, Bool.true_or, if_true, Bool.not_true, Bool.false_and, Bool.false_eq_true, if_false]
  refine ⟨_, _, _, _, rfl, fun p x => ?_⟩
  simp only [List.mem_filterMap, List.mem_finRange, true_and, Option.map_eq_some_iff, Prod.mk.injEq]
  constructor
  · rintro ⟨q, y, h, rfl, rfl⟩
    simp only [applyAtE, hr.values q, Option.isSome_none, Bool.false_eq_true, if_false, same, if_true] at h
    cases hq : s.computed q with
    | none => simp [hq, same] at h
    | some v =>
      simp only [hq, same] at h
      cases e : eq v v <;> simp [e] at h
      exact ⟨v, h.symm, rfl, e⟩
  · rintro ⟨v, rfl, h, e⟩
    exact ⟨p, some v, by simp [applyAtE, hr.values p, h, same, e], rfl, rfl⟩

/-- And when any style is recalculated -- be it that of another node -- a transition starts from such a value to itself. -/
theorem C103_restarts (eq : V → V → Bool) (env : Env n V) (s : NP n V) (hr : AtRest s) (i : Input n V)
    (hi : SameStyle i s) (fuel : Nat) (f : Flags) (hb : f.busy = true) (p : Fin n) (o : Transition.Options) (v : V)
    (hp : s.topts p = some o) (ha : env.animatable p = true) (hv : s.computed p = some v) (he : eq v v = false) :
    ∃ s' w te ae t, frameE eq fuel env f i s = .done s' w te ae ∧ s'.transitions p = some t ∧ t.dst = v := by
  have hk : ∀ q, (createAtE eq env s s.computed q).isSome := by
    intro q
    simp only [createAtE, hr.transitions q]
    split
    · rfl
    · split
      · rfl
      · split
        · split <;> rfl
        · rfl
  have hc : ∃ s₁, createE eq env s s.computed = some s₁ ∧
      s₁.transitions p = some (Transition.new (env.interp p) (env.dflt p) (some v) v o) := by
    refine ⟨_, by rw [createE, dif_pos hk], ?_⟩
    simp [createAtE, hp, hv, same, he, ha, hr.transitions p]
  obtain ⟨s₁, hc, ht⟩ := hc
  have hfr : frameE eq fuel env f i s = applyE eq f s.computed (animValues env s₁) s₁ := by
    simp only [frameE, rest_before hr hi fuel, hb, hi.pend, hi.configs, hi.resolved, Option.bind_some, hc, if_true]
  rw [hfr]
  simp only [applyE, hb, Bool.true_or, if_true]
  split
  · exact ⟨_, _, _, _, _, rfl, ht, rfl⟩
  · exact ⟨_, _, _, _, _, rfl, ht, rfl⟩

/-! ## Nodes on which something moves -/

private theorem tick_ends (t : Tr V) (δ : Nat) : (t.tick δ).src = t.src ∧ (t.tick δ).dst = t.dst := by
  simp only [Tr.tick]
  split
  · exact ⟨rfl, rfl⟩
  · split
    · exact ⟨rfl, rfl⟩
    · split <;> exact ⟨rfl, rfl⟩

private theorem tevs_no_replaced (δ : Nat) (o : Option (Tr V)) : TEv.replaced ∉ tevsAt δ o := by
  cases o with
  | none => simp [tevsAt]
  | some t =>
    simp only [tevsAt, tickTEvents, List.mem_append, not_or]
    constructor <;> (split <;> simp)

/-- What holds before transitions are created, when the style is the same. -/
private theorem before_same {fuel : Nat} {i : Input n V} {s m : NP n V} (hi : SameStyle i s) (ht : s.tevents = [])
    (h : beforeCreate fuel i s = some m) :
    m.computed = s.computed ∧ (∀ p, (TEv.replaced, p) ∉ m.tevents) ∧
    ∀ p t', m.transitions p = some t' → ∃ t, s.transitions p = some t ∧ t'.src = t.src ∧ t'.dst = t.dst := by
  simp only [beforeCreate, hi.reset, Bool.false_eq_true, if_false, Option.map_eq_some_iff] at h
  obtain ⟨u, hu, rfl⟩ := h
  have key : u.computed = s.computed ∧ (∀ p, (TEv.replaced, p) ∉ u.tevents) ∧
      ∀ p t', u.transitions p = some t' → ∃ t, s.transitions p = some t ∧ t'.src = t.src ∧ t'.dst = t.dst := by
    simp only [tickSystem] at hu
    split at hu
    · simp only [tickAnimations, Option.map_map, Option.map_eq_some_iff, Function.comp] at hu
      obtain ⟨r, -, rfl⟩ := hu
      refine ⟨rfl, fun p => ?_, fun p t' h' => ?_⟩
      · simp only [clearOver, ht, List.nil_append, List.mem_flatMap, List.mem_map, not_exists, not_and]
        rintro q - e he heq
        simp only [Prod.mk.injEq] at heq
        exact tevs_no_replaced _ _ (heq.1 ▸ he)
      · simp only [clearOver, Option.filter_eq_some_iff, Option.map_eq_some_iff] at h'
        obtain ⟨⟨t, ht, rfl⟩, -⟩ := h'
        exact ⟨t, ht, tick_ends t i.delta⟩
    · cases hu
      exact ⟨rfl, by simp [ht], fun p t' h' => ⟨t', h', rfl, rfl⟩⟩
  obtain ⟨h1, h2, h3⟩ := key
  rcases hi.topts with e | e <;> simp only [e]
  · exact ⟨h1, h2, h3⟩
  · refine ⟨h1, fun p => ?_, fun p t' h' => ?_⟩
    · simp only [setTransitionOptions, List.mem_append, not_or]
      exact ⟨h2 p, by simp⟩
    · simp only [setTransitionOptions] at h'
      split at h'
      · simp only [Option.map_eq_some_iff] at h'
        obtain ⟨t, ht, rfl⟩ := h'
        obtain ⟨t₀, h0, a, b⟩ := h3 p t ht
        refine ⟨t₀, h0, ?_⟩
        simp only [Tr.cancel]
        split <;> exact ⟨a, b⟩
      · exact h3 p t' h'

/-- Also on a node on which something moves, such a frame starts and replaces no transition. -/
theorem C103_moving_partial (eq : V → V → Bool) (env : Env n V) (s : NP n V) (ht : s.tevents = [])
    (he : EqualThemselves eq s) (i : Input n V) (hi : SameStyle i s) (fuel : Nat) (f : Flags) (s' : NP n V)
    (w : List (Fin n × Option V)) (te : List (TEv × Fin n)) (ae : List (AEv × Nat × Fin n))
    (h : frameE eq fuel env f i s = .done s' w te ae) :
    (∀ p, (TEv.replaced, p) ∉ te) ∧
    ∀ p t', s'.transitions p = some t' → ∃ t, s.transitions p = some t ∧ t'.src = t.src ∧ t'.dst = t.dst := by
  simp only [frameE, hi.configs] at h
  cases hb : beforeCreate fuel i s with
  | none => simp [hb] at h
  | some m =>
    obtain ⟨h1, h2, h3⟩ := before_same hi ht hb
    have hc : createE eq env m i.pend = some m := by
      rw [hi.pend, ← h1]
      exact create_same eq env m (by intro p v e; rw [h1] at e; exact he p v e)
    simp only [hb, hc, Option.bind_some, ite_self, applyE] at h
    split at h
    · split at h
      · cases h; exact ⟨h2, h3⟩
      · cases h; exact ⟨h2, h3⟩
    · split at h
      · cases h
      · cases h; exact ⟨h2, h3⟩

/-! ## The model without this comparison -/

section
variable [DecidableEq V]

private theorem same_dec (a b : Option V) : same (fun x y => decide (x = y)) a b = decide (a = b) := by
  cases a <;> cases b <;> simp [same]

private theorem reversed_dec (interp : V → V → ℚ → V) (dflt : V) (src : Option V) (dst : V) (o : Transition.Options)
    (t : Tr V) : reversedE (fun x y => decide (x = y)) interp dflt src dst o t =
      fromPossiblyReversed interp dflt src dst o t := by
  simp only [reversedE, fromPossiblyReversed, Tr.updateReversed, Bool.not_eq_true', decide_eq_false_iff_not, ne_eq]
  rfl

private theorem createAt_dec (env : Env n V) (s : NP n V) (pend : Fin n → Option V) (p : Fin n) :
    createAtE (fun x y => decide (x = y)) env s pend p = createAt env s pend p := by
  simp only [createAtE, createAt, same_dec, reversed_dec, decide_eq_true_eq]
  rfl

private theorem create_dec (env : Env n V) (s : NP n V) (pend : Fin n → Option V) :
    createE (fun x y => decide (x = y)) env s pend = createTransitions env s pend := by
  simp only [createE, createTransitions, createAt_dec]

private theorem applyAt_dec (pend comp panim last : Option V) :
    applyAtE (fun x y => decide (x = y)) pend comp panim last = applyAt pend comp panim last := by
  simp only [applyAtE, applyAt, same_dec, decide_eq_true_eq]
  by_cases h : comp = pend
  · subst h
    by_cases h1 : panim.isSome = true <;> by_cases h2 : panim = last <;> by_cases h3 : comp = last <;>
      by_cases h4 : panim = last.or comp <;> simp [h1, h2, h3, h4]
  · by_cases h1 : panim.isSome = true <;> by_cases h2 : panim = last <;> by_cases h3 : pend = last <;>
      by_cases h4 : panim = last.or comp <;> simp [h, h1, h2, h3, h4]

omit [DecidableEq V] in
private theorem find_write (g : Fin n → Option (Option V)) (p : Fin n) (l : List (Fin n)) (hl : p ∈ l) :
    (l.filterMap fun q => (g q).map fun v => (q, v)).find? (fun x => x.1 = p) = (g p).map fun v => (p, v) := by
  induction l with
  | nil => cases hl
  | cons q l ih =>
    by_cases hq : q = p
    · subst hq
      cases hg : g q with
      | some v => simp [hg]
      | none =>
        simp only [List.filterMap_cons, hg, Option.map_none, List.find?_eq_none, List.mem_filterMap,
          Option.map_eq_some_iff, decide_eq_true_eq, forall_exists_index, and_imp]
        rintro x y - v hv rfl rfl
        rw [hg] at hv; cases hv
    · have hm : p ∈ l := by
        rcases List.mem_cons.1 hl with rfl | h
        · exact absurd rfl hq
        · exact h
      cases hg : g q with
      | none => simp [hg, ih hm]
      | some v => simp [hg, hq, ih hm]

/-- When the equality of values is a real one, the frames are those of the model of C33, C100 and the others: the same
state, the same events, and the components show what is written; and no assertion fails. -/
theorem C103_agrees (env : Env n V) (f : Flags) (i : Input n V) (s : NP n V) (fuel : Nat) (shown : Shown n V)
    (hp : f.busy = false → ∀ m, beforeCreate fuel i s = some m → i.pend = m.computed)
    (hf : ∀ m, beforeApply fuel env i s = some m → Truthful f i.resolved (animValues env m) m) :
    frameE (fun x y => decide (x = y)) fuel env f i s ≠ .crash ∧
    ∀ s' w te ae, frameE (fun x y => decide (x = y)) fuel env f i s = .done s' w te ae →
      ∃ skip, NodeProps.frame fuel env { i with skip := skip } s shown = some (s', afterWrites shown w, te, ae) := by
  have hba : (((beforeCreate fuel i s).bind fun s => if f.busy then createE (fun x y => decide (x = y)) env s i.pend else some s).bind
      fun s => match i.configs with
      | some c => setAnimations fuel env i.resolve s c
      | none => some s) = beforeApply fuel env i s := by
    simp only [beforeApply, create_dec]
    cases hb : f.busy with
    | true => simp only [if_true]; rfl
    | false =>
      cases hm : beforeCreate fuel i s with
      | none => rfl
      | some m =>
        have := create_same (fun x y : V => decide (x = y)) env m (fun _ _ _ => by simp)
        rw [create_dec, ← hp hb m hm] at this
        simp only [Option.bind_some, this, Bool.false_eq_true, if_false]
        rfl
  have hfE : frameE (fun x y => decide (x = y)) fuel env f i s =
      match beforeApply fuel env i s with
      | none => .stuck
      | some s => applyE (fun x y => decide (x = y)) f i.resolved (animValues env s) s := by
    rw [← hba]; rfl
  have hfr : ∀ b, NodeProps.frame fuel env { i with skip := b } s shown = (beforeApply fuel env i s).map fun s =>
      (drain (applyComputed s i.resolved (animValues env s) b shown).1,
        (applyComputed s i.resolved (animValues env s) b shown).2, s.tevents, s.aevents) := fun b => rfl
  simp only [hfE, hfr]
  cases hm : beforeApply fuel env i s with
  | none => exact ⟨by simp, fun _ _ _ _ h => by cases h⟩
  | some m =>
    have ht := hf m hm
    simp only [Option.map_some, Option.some.injEq]
    have hsm : ∀ a b : Fin n → Option V, sameMap (fun x y : V => decide (x = y)) a b = true ↔ a = b := by
      intro a b
      rw [sameMap_iff]
      simp only [same_dec, decide_eq_true_eq]
      exact ⟨funext, fun h p => h ▸ rfl⟩
    simp only [applyE]
    split
    · rename_i hmark
      split
      · rename_i hold
        refine ⟨by simp, fun s' w te ae h => ⟨true, ?_⟩⟩
        cases h
        simp only [Bool.and_eq_true, Bool.not_eq_true'] at hold
        simp only [applyComputed, if_true, ht.freshAnim hold.2]
        rfl
      · refine ⟨by simp, fun s' w te ae h => ⟨false, ?_⟩⟩
        cases h
        have hset : (fun p => setIfNeq (fun x y : V => decide (x = y)) (m.computed p) (i.resolved p)) = i.resolved := by
          funext p
          simp only [setIfNeq, same_dec, decide_eq_true_eq]
          split
          · assumption
          · rfl
        have hw : afterWrites shown ((List.finRange n).filterMap fun p =>
            (applyAtE (fun x y : V => decide (x = y)) (i.resolved p) (m.computed p) (animValues env m p) (m.lastAnim p)).map
              fun v => (p, v)) =
            fun p => match applyAt (i.resolved p) (m.computed p) (animValues env m p) (m.lastAnim p) with
              | some (some v) => some v
              | _ => shown p := by
          funext p
          simp only [afterWrites, find_write _ p _ (List.mem_finRange p), applyAt_dec]
          rcases applyAt (i.resolved p) (m.computed p) (animValues env m p) (m.lastAnim p) with _ | _ | v <;> rfl
        simp only [applyComputed, Bool.false_eq_true, if_false, hset, hw, drain]
        rfl
    · rename_i hmark
      simp only [Bool.or_eq_true, Bool.not_eq_true', not_or, Bool.not_eq_true, Bool.not_eq_false] at hmark
      have h1 := ht.fresh hmark.1.2
      rw [if_neg (by simp [(hsm _ _).2 h1, hmark.2])]
      refine ⟨by simp, fun s' w te ae h => ⟨true, ?_⟩⟩
      cases h
      rfl

end

/-! ## Where such values come from -/

/-- A length divided by zero is not equal to itself when the length is zero: `calc(0px / 0)`, `calc(0px * 2 / 0)`, ... -/
theorem C103_nan (a : ℚ) : floatEq (calcPx 0 [.times a, .over 0]) (calcPx 0 [.times a, .over 0]) = false := by
  have : calcPx 0 [.times a, .over 0] = .nan := by
    have : factor [.times a, .over 0] = .nan ∨ factor [.times a, .over 0] = .pinf ∨ factor [.times a, .over 0] = .ninf := by
      have e : factor [.times a, .over 0] = F32.div (1 * a) 0 := rfl
      rw [e, F32.div, if_pos rfl]
      split
      · exact .inl rfl
      · split
        · exact .inr (.inr rfl)
        · exact .inr (.inl rfl)
    rcases this with e | e | e <;> simp [calcPx, e, mul]
  rw [this]; rfl

/-- All other lengths are. -/
theorem C103_number (q : ℚ) : floatEq (.num q) (.num q) = true := by simp [floatEq]

private def rvEnv : Env 1 F32 := { interp := fun _ a _ _ => a, dflt := fun _ => .num 0, animatable := fun _ => true }

private def rvIn (x : F32) : Input 1 F32 :=
  { reset := false, delta := 16000000, topts := some fun _ => none, configs := none, resolve := fun _ => none,
    pend := fun _ => some x, resolved := fun _ => some x, skip := false }

private def rvIdle (x : F32) : Input 1 F32 := { rvIn x with topts := none }

/-- `width: calc(0px / 0)` crashes a program with debug assertions in the first frame in which nothing happens. -/
theorem C103_crashes : ∃ (env : Env 1 F32) (i j : Input 1 F32) (s : NP 1 F32) (w : List (Fin 1 × Option F32)),
    i.pend = (fun _ => some (calcPx 0 [.over 0])) ∧
    frameE floatEq 0 env ⟨true, true, true, false⟩ i empty = .done s w [] [] ∧ w.length = 1 ∧
    SameStyle j s ∧ frameE floatEq 0 env ⟨true, false, false, false⟩ j s = .crash := by
  have hx : calcPx 0 [.over 0] = F32.nan := by decide +kernel
  have hr : AtRest (n := 1) { empty with computed := fun _ => some F32.nan, topts := fun _ => none } :=
    ⟨fun _ => rfl, rfl, fun _ => rfl, rfl, rfl⟩
  have hi : SameStyle (rvIdle F32.nan) { empty with computed := fun _ => some F32.nan, topts := fun _ => none } :=
    ⟨rfl, .inl rfl, rfl, rfl, rfl⟩
  refine ⟨rvEnv, rvIn F32.nan, rvIdle F32.nan, { empty with computed := fun _ => some F32.nan, topts := fun _ => none },
    [(0, some F32.nan)], by rw [hx]; rfl, ?_, rfl, hi, ?_⟩
  · have ht : tickSystem 0 (empty : NP 1 F32) 16000000 = some empty :=
      rest_tick ⟨fun _ => rfl, rfl, fun _ => rfl, rfl, rfl⟩ 0 _
    rfl
  · rw [C103_crash_iff floatEq rvEnv _ hr _ hi 0 _ rfl rfl rfl]
    intro h
    exact absurd (h 0 F32.nan rfl) (by decide)

/-- A node with a length, to which the theorems apply. -/
example : ∃ s : NP 1 F32, AtRest s ∧ EqualThemselves floatEq s ∧ s.computed 0 = some (.num 5) ∧
    frameE floatEq 0 rvEnv ⟨true, true, true, true⟩ (rvIn (.num 5)) s = .done s [] [] [] := by
  let s : NP 1 F32 := { empty with computed := fun _ => some (.num 5) }
  have hr : AtRest s := ⟨fun _ => rfl, rfl, fun _ => rfl, rfl, rfl⟩
  have he : EqualThemselves floatEq s := by
    intro p v e; cases e; decide +kernel
  exact ⟨s, hr, he, rfl, C103_nothing_partial floatEq rvEnv s hr he _ ⟨rfl, .inr rfl, rfl, rfl, rfl⟩ 0 _⟩

end Flair.Props
