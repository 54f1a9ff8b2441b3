import Verif.Proofs.Placeholder
import Verif.Props.Inherit
set_option linter.unusedSectionVars false
/-!
# Lemmas for C81 at run time: looking names up commutes with the computation of values
-/
namespace Flair.Proofs.Placeholder
open Flair.Sheet Flair.Values Flair.Placeholder Flair.Spec Flair.Inherit Flair.Tree Flair.Props

variable {V H E P : Type}
variable (a : Assets H) (faces : HMap String H)

/-- the declared values with their names looked up -/
def RV (v : PropertyValue (AssetValue V H)) : PropertyValue (AssetValue V H) := lookedUp a faces.get? v

/-- the computed values with their names looked up -/
abbrev RC (v : ComputedValue (AssetValue V H)) : ComputedValue (AssetValue V H) := resolveComputed a faces v

theorem RC_resolved {v : ComputedValue (AssetValue V H)} (h : ∀ x, v = some x → ¬ Unresolved x) : RC a faces v = v := by
  cases v with
  | none => rfl
  | some x => cases x <;> first | rfl | exact absurd trivial (h _ rfl)

theorem RC_not_unresolved (v : ComputedValue (AssetValue V H)) : ∀ x, RC a faces v = some x → ¬ Unresolved x := by
  intro x hx
  cases v with
  | none => cases hx
  | some y =>
    cases y with
    | plain v => simp only [RC, resolveComputed, tryResolve, Option.some.injEq] at hx; subst hx; exact id
    | handle v => simp only [RC, resolveComputed, tryResolve, Option.some.injEq] at hx; subst hx; exact id
    | imagePath p =>
      cases h : a.image p <;> simp only [RC, resolveComputed, tryResolve, h, Option.some.injEq, reduceCtorEq] at hx
      subst hx; exact id
    | fontName f =>
      cases h : faces.get? f <;> simp only [RC, resolveComputed, tryResolve, h, Option.some.injEq, reduceCtorEq] at hx
      subst hx; exact id

theorem RC_idem (v : ComputedValue (AssetValue V H)) : RC a faces (RC a faces v) = RC a faces v :=
  RC_resolved a faces (RC_not_unresolved a faces v)

theorem RV_inherit (v : PropertyValue (AssetValue V H)) : RV a faces v = .inherit ↔ v = .inherit := by
  cases v with
  | value x =>
    cases x with
    | imagePath p => cases h : a.image p <;> simp [RV, lookedUp, h]
    | fontName f => cases h : faces.get? f <;> simp [RV, lookedUp, h]
    | _ => simp [RV, lookedUp]
  | _ => simp [RV, lookedUp]

theorem RV_unset (v : PropertyValue (AssetValue V H)) : RV a faces v = .unset ↔ v = .unset := by
  cases v with
  | value x =>
    cases x with
    | imagePath p => cases h : a.image p <;> simp [RV, lookedUp, h]
    | fontName f => cases h : faces.get? f <;> simp [RV, lookedUp, h]
    | _ => simp [RV, lookedUp]
  | _ => simp [RV, lookedUp]

/-- the registered behaviours hold no names -/
structure CleanStatic (s : Static P (AssetValue V H)) : Prop where
  unset : ∀ p v, s.unset p = .value v → ¬ Unresolved v
  initial : ∀ p, ¬ Unresolved (s.initial p)

theorem compute_RV {s : Static P (AssetValue V H)} (hs : CleanStatic s) (p : P) (v : PropertyValue (AssetValue V H))
    (par : Option (ComputedValue (AssetValue V H))) :
    (compute (RV a faces v) (s.unset p) (s.initial p) (par.map (RC a faces))).getD none =
      RC a faces ((compute v (s.unset p) (s.initial p) par).getD none) := by
  have hi : RC a faces (some (s.initial p)) = some (s.initial p) :=
    RC_resolved a faces (fun x hx => by cases hx; exact hs.initial p)
  have hpar : RC a faces (par.getD none) = (par.map (RC a faces)).getD none := by cases par <;> rfl
  cases v with
  | none => rfl
  | inherit => cases par <;> rfl
  | initial => exact hi.symm
  | unset =>
    simp only [RV, lookedUp, compute]
    cases hu : s.unset p with
    | none => rfl
    | unset => rfl
    | inherit => cases par <;> rfl
    | initial => exact hi.symm
    | value x =>
      exact (RC_resolved a faces (fun y hy => by cases hy; exact hs.unset p x hu)).symm
  | value x =>
    cases x with
    | imagePath q => cases h : a.image q <;> simp [RV, lookedUp, h, compute, resolveComputed, tryResolve]
    | fontName f => cases h : faces.get? f <;> simp [RV, lookedUp, h, compute, resolveComputed, tryResolve]
    | _ => rfl

/-- a node with all its names looked up -/
def proj (n : Node P (AssetValue V H)) : Node P (AssetValue V H) :=
  { pending := n.pending.map fun m p => RV a faces (m p)
    propValues := n.propValues.map fun m p => RV a faces (m p)
    computed := fun p => RC a faces (n.computed p)
    pendingComputed := n.pendingComputed.map fun m p => RC a faces (m p)
    shared := n.shared }

variable [DecidableEq (P → ComputedValue (AssetValue V H))] [DecidableEq (AssetValue V H)] [DecidableEq E]

theorem proj_finish (o o' : Oracle E P) (e : E) (n : Node P (AssetValue V H)) (pc : P → ComputedValue (AssetValue V H))
    (ht : o'.transition = o.transition) (hsh : o'.sharing e = (finish o e n pc).shared) :
    proj a faces (finish o e n pc) = finish o' e (proj a faces n) (fun p => RC a faces (pc p)) := by
  unfold finish proj at *
  simp only [ht, Node.mk.injEq, true_and]
  refine ⟨?_, rfl, ?_⟩
  · funext p; split <;> rfl
  · rw [hsh]
    by_cases h : pc = n.computed
    · subst h; simp
    · simp [h]

theorem proj_root {s : Static P (AssetValue V H)} (hs : CleanStatic s) (o o' : Oracle E P) (e : E)
    (n : Node P (AssetValue V H)) (ht : o'.transition = o.transition)
    (hsh : o'.sharing e = (computeRoot s o e n).shared) :
    proj a faces (computeRoot s o e n) = computeRoot s o' e (proj a faces n) := by
  unfold computeRoot at *
  cases hp : n.pending with
  | none =>
    rw [hp] at hsh
    simp only at hsh ⊢
    rw [proj_finish a faces o o' e n _ ht hsh]
    simp [proj, hp]
  | some m =>
    rw [hp] at hsh
    simp only at hsh ⊢
    rw [proj_finish a faces o o' e _ _ ht hsh]
    have : (proj a faces n).pending = some fun p => RV a faces (m p) := by simp [proj, hp]
    rw [this]
    simp only
    have h2 : (fun p => RC a faces ((compute (m p) (s.unset p) (s.initial p) none).getD none)) =
        fun p => (compute (RV a faces (m p)) (s.unset p) (s.initial p) none).getD none := by
      funext p; exact (compute_RV a faces hs p (m p) none).symm
    rw [h2]
    rfl

theorem proj_child {s : Static P (AssetValue V H)} (hs : CleanStatic s) (o o' : Oracle E P) (e : E)
    (par n : Node P (AssetValue V H)) (ht : o'.transition = o.transition)
    (hsh : o'.sharing e = (computeWithParent s o e par n).shared) :
    proj a faces (computeWithParent s o e par n) = computeWithParent s o' e (proj a faces par) (proj a faces n) := by
  have hpp : (proj a faces par).pendingComputed.getD (fun _ => none) =
      fun p => RC a faces (par.pendingComputed.getD (fun _ => none) p) := by
    cases h : par.pendingComputed <;> simp [proj, h, resolveComputed]
  unfold computeWithParent at *
  rw [hpp]
  cases hp : n.pending with
  | none =>
    rw [hp] at hsh
    have : (proj a faces n).pending = none := by simp [proj, hp]
    rw [this]
    simp only at hsh ⊢
    rw [proj_finish a faces o o' e n _ ht hsh]
    congr 1
    have h3 : (proj a faces par).shared = par.shared := rfl
    rw [h3]
    split
    · rfl
    · cases hv : n.propValues with
      | none =>
        have : (proj a faces n).propValues = none := by simp [proj, hv]
        rw [this]; rfl
      | some m =>
        have : (proj a faces n).propValues = some fun p => RV a faces (m p) := by simp [proj, hv]
        rw [this]
        funext p
        simp only [RV_inherit]
        split <;> rfl
  | some m =>
    rw [hp] at hsh
    simp only at hsh ⊢
    rw [proj_finish a faces o o' e _ _ ht hsh]
    have : (proj a faces n).pending = some fun p => RV a faces (m p) := by simp [proj, hp]
    rw [this]
    simp only
    have h2 : (fun p => RC a faces ((compute (m p) (s.unset p) (s.initial p)
          (some (par.pendingComputed.getD (fun _ => none) p))).getD none)) =
        fun p => (compute (RV a faces (m p)) (s.unset p) (s.initial p)
          (some (RC a faces (par.pendingComputed.getD (fun _ => none) p)))).getD none := by
      funext p; exact (compute_RV a faces hs p (m p) (some _)).symm
    rw [h2]
    rfl

/-- the declarations with their names looked up -/
def RU (u : E → Option (P → PropertyValue (AssetValue V H))) : E → Option (P → PropertyValue (AssetValue V H)) :=
  fun e => (u e).map fun m p => RV a faces (m p)

/-- the world with all its names looked up -/
def projW (w : World E P (AssetValue V H)) : World E P (AssetValue V H) := fun e => (w e).map (proj a faces)

theorem setPending_proj (u : E → Option (P → PropertyValue (AssetValue V H))) (w : World E P (AssetValue V H)) :
    setPending (RU a faces u) (projW a faces w) = projW a faces (setPending u w) := by
  funext e
  cases h : w e with
  | none => simp [setPending, projW, h]
  | some n => cases hu : u e <;> simp [setPending, projW, h, RU, hu, proj]

theorem pass_proj {s : Static P (AssetValue V H)} (hs : CleanStatic s) (o : Oracle E P) (f : Forest E) (wf : f.WF)
    (roots : List E) (ok : RootsOK f roots) (w : World E P (AssetValue V H)) (hr : ∀ r ∈ roots, (w r).isSome) :
    ∃ o' : Oracle E P, computePass s o' f roots (projW a faces w) = projW a faces (computePass s o f roots w) := by
  rw [computePass_eq s o f roots w hr]
  have hnd := visit_nodup wf ok
  have hpf := visit_parent_first wf (roots := roots)
  obtain ⟨h1, h2⟩ := visitFold_final s o w (visit f roots) hnd hpf
  set W := (visit f roots).foldl (visitStep s o) w with hW
  let o' : Oracle E P := { sharing := fun e => ((W e).map (·.shared)).getD false, transition := o.transition }
  refine ⟨o', ?_⟩
  rw [computePass_eq s o' f roots _ (by intro r h; simpa [projW] using hr r h)]
  obtain ⟨h1', h2'⟩ := visitFold_final s o' (projW a faces w) (visit f roots) hnd hpf
  set W' := (visit f roots).foldl (visitStep s o') (projW a faces w) with hW'
  have hroot : ∀ r ∈ roots, W' r = projW a faces W r := by
    intro r hrr
    have hm := (visit_mem wf none r).mpr (Or.inl ⟨rfl, hrr⟩)
    rw [h1' none r hm]
    have hw := h1 none r hm
    obtain ⟨n, hn⟩ := Option.isSome_iff_exists.mp (hr r hrr)
    simp only [hn, Option.map_none, newVal] at hw
    simp only [projW, hn, Option.map_some, Option.map_none, newVal, hw, Option.some.injEq]
    exact (proj_root a faces hs o o' r n rfl (by simp [o', hw])).symm
  funext e
  by_cases he : e ∈ (visit f roots).map Prod.snd
  · obtain ⟨r, hrr, rfl | ha⟩ := (visit_entities wf e).mp he
    · exact hroot r hrr
    · have step : ∀ q e, f.parent e = some q → f.Anc r e → W' q = projW a faces W q → W' e = projW a faces W e := by
        intro q e hq hae hpq
        have hm := (visit_mem wf (some q) e).mpr (Or.inr ⟨q, rfl, hq, r, hrr, hae⟩)
        rw [h1' (some q) e hm]
        have hw := h1 (some q) e hm
        simp only [Option.map_some] at hw ⊢
        rw [hpq]
        cases hn : w e with
        | none =>
          rw [hn] at hw
          have : W e = none := by rw [hw]; cases W q <;> rfl
          simp only [projW, hn, this, Option.map_none]
          cases W q <;> rfl
        | some n =>
          cases hWq : W q with
          | none =>
            rw [hn, hWq] at hw
            have : W e = some n := by rw [hw]; rfl
            simp only [projW, hn, this, hWq, Option.map_none, Option.map_some]
            rfl
          | some par =>
            rw [hn, hWq] at hw
            simp only [newVal] at hw
            simp only [projW, hn, hw, hWq, Option.map_some, newVal, Option.some.injEq]
            exact (proj_child a faces hs o o' e par n rfl (by simp [o', hw])).symm
      clear he
      induction ha with
      | child e he => exact step r e he (.child e he) (hroot r hrr)
      | step p e hap he ih => exact step p e he (.step p e hap he) ih
  · rw [h2' e he]
    simp only [projW]
    rw [h2 e he]

theorem proj_apply (fonts : E → Option (HMap String H)) (hf : ∀ e, fonts e = some faces) (other : E → Bool)
    (w : World E P (AssetValue V H)) :
    projW a faces (applyComputed (resolvePass a fonts other w)) = applyComputed (projW a faces w) := by
  funext e
  cases h : w e with
  | none => simp [projW, applyComputed, resolvePass, h]
  | some n =>
    simp only [projW, applyComputed, resolvePass, h, Option.map_some, Option.some.injEq, hf]
    split
    · cases hp : n.pendingComputed with
      | none => simp [proj, hp]
      | some m => simp only [proj, hp, Option.map_some, Option.getD_some, Option.map_none, Node.mk.injEq, true_and, and_true]; funext p; exact RC_idem a faces _
    · cases hp : n.pendingComputed with
      | none => simp [proj, hp]
      | some m => simp [proj, hp]

theorem frame_proj {s : Static P (AssetValue V H)} (hs : CleanStatic s) (fonts : E → Option (HMap String H))
    (hf : ∀ e, fonts e = some faces) (other : E → Bool) (o : Oracle E P) (f : Forest E) (wf : f.WF) (roots : List E)
    (ok : RootsOK f roots) (u : E → Option (P → PropertyValue (AssetValue V H))) (any : Bool)
    (w : World E P (AssetValue V H)) (hr : ∀ r ∈ roots, (w r).isSome) :
    ∃ o' : Oracle E P, projW a faces (frameP a fonts other s o f roots u any w) =
      frame s o' f roots (RU a faces u) any (projW a faces w) := by
  unfold frameP frame
  simp only [proj_apply a faces fonts hf]
  cases any with
  | true =>
    obtain ⟨o', ho⟩ := pass_proj a faces hs o f wf roots ok (setPending u w) (by
      intro r h; simpa [setPending] using hr r h)
    refine ⟨o', ?_⟩
    simp only [if_true]
    rw [setPending_proj, ho]
  | false =>
    refine ⟨o, ?_⟩
    simp only [Bool.false_eq_true, if_false]
    rw [setPending_proj]
    congr 1
    funext e
    cases h : setPending u w e <;> simp [projW, passNoChange, h, proj]

end Flair.Proofs.Placeholder

namespace Flair.Proofs.Placeholder
open Flair.Sheet Flair.Values Flair.Placeholder Flair.Spec Flair.Inherit Flair.Tree Flair.Props
variable {V H E P : Type}
variable [DecidableEq (P → ComputedValue (AssetValue V H))] [DecidableEq (AssetValue V H)] [DecidableEq E]

/-- no name is left in a computed value -/
def Clean (c : ComputedValue (AssetValue V H)) : Prop := ∀ x, c = some x → ¬ Unresolved x

theorem compute_clean {s : Static P (AssetValue V H)} (hs : CleanStatic s) (p : P)
    {v : PropertyValue (AssetValue V H)} {par : Option (ComputedValue (AssetValue V H))}
    (hv : ∀ x, v = .value x → ¬ Unresolved x) (hp : ∀ c, par = some c → Clean c) :
    Clean ((compute v (s.unset p) (s.initial p) par).getD none) := by
  have hi : Clean (some (s.initial p)) := fun x hx => by cases hx; exact hs.initial p
  have hn : Clean (none : ComputedValue (AssetValue V H)) := fun x hx => by cases hx
  cases v with
  | none => exact hn
  | inherit => cases par with
    | none => exact hn
    | some c => exact hp c rfl
  | initial => exact hi
  | value x => exact fun y hy => by cases hy; exact hv x rfl
  | unset =>
    simp only [compute]
    cases hu : s.unset p with
    | none => exact hn
    | unset => exact hn
    | inherit => cases par with
      | none => exact hn
      | some c => exact hp c rfl
    | initial => exact hi
    | value x => exact fun y hy => by cases hy; exact hs.unset p x hu

theorem pass_clean {s : Static P (AssetValue V H)} (hs : CleanStatic s) (o : Oracle E P) (f : Forest E) (wf : f.WF)
    (roots : List E) (ok : RootsOK f roots) (w : World E P (AssetValue V H))
    (hw : ∀ e, Under f roots e → (w e).isSome) (p : P)
    (hc : ∀ e n, Under f roots e → w e = some n → Clean (n.computed p) ∧
      ∀ m x, n.pending = some m → m p = .value x → ¬ Unresolved x) :
    ∀ e, Under f roots e → ∃ n n' pc, w e = some n ∧ computePass s o f roots w e = some n' ∧
      n'.pendingComputed = some pc ∧ Clean (pc p) ∧
      n'.computed = fun q => if o.transition e q then pc q else n.computed q := by
  rw [computePass_eq s o f roots w (fun r h => hw r ⟨r, h, Or.inl rfl⟩)]
  obtain ⟨h1, _⟩ := visitFold_final s o w (visit f roots) (visit_nodup wf ok) (visit_parent_first wf)
  set W := (visit f roots).foldl (visitStep s o) w with hW
  have hroot : ∀ r ∈ roots, ∃ n n' pc, w r = some n ∧ W r = some n' ∧ n'.pendingComputed = some pc ∧ Clean (pc p) ∧
      n'.computed = fun q => if o.transition r q then pc q else n.computed q := by
    intro r hr
    have hu : Under f roots r := ⟨r, hr, Or.inl rfl⟩
    obtain ⟨n, hn⟩ := Option.isSome_iff_exists.mp (hw r hu)
    obtain ⟨c1, c2⟩ := hc r n hu hn
    have := h1 none r ((visit_mem wf none r).mpr (Or.inl ⟨rfl, hr⟩))
    simp only [hn, Option.map_none, newVal] at this
    suffices hx : ∃ pc, (computeRoot s o r n).pendingComputed = some pc ∧ Clean (pc p) ∧
        (computeRoot s o r n).computed = fun q => if o.transition r q then pc q else n.computed q by
      obtain ⟨pc, hx⟩ := hx; exact ⟨n, _, pc, hn, this, hx⟩
    unfold computeRoot
    cases hp : n.pending with
    | none => exact ⟨_, rfl, c1, rfl⟩
    | some m => exact ⟨_, rfl, compute_clean hs p (fun x hx => c2 m x hp hx) (fun c hc => by cases hc), rfl⟩
  have step : ∀ q e r, r ∈ roots → f.parent e = some q → f.Anc r e →
      (∃ n n' pc, w q = some n ∧ W q = some n' ∧ n'.pendingComputed = some pc ∧ Clean (pc p) ∧
        n'.computed = fun x => if o.transition q x then pc x else n.computed x) →
      ∃ n n' pc, w e = some n ∧ W e = some n' ∧ n'.pendingComputed = some pc ∧ Clean (pc p) ∧
        n'.computed = fun x => if o.transition e x then pc x else n.computed x := by
    rintro q e r hr hq hae ⟨nq, nq', pcq, _, hWq, hpcq, hclean, _⟩
    have hu : Under f roots e := ⟨r, hr, Or.inr hae⟩
    obtain ⟨n, hn⟩ := Option.isSome_iff_exists.mp (hw e hu)
    obtain ⟨c1, c2⟩ := hc e n hu hn
    have := h1 (some q) e ((visit_mem wf (some q) e).mpr (Or.inr ⟨q, rfl, hq, r, hr, hae⟩))
    simp only [hn, hWq, Option.map_some, newVal] at this
    suffices hx : ∃ pc, (computeWithParent s o e nq' n).pendingComputed = some pc ∧ Clean (pc p) ∧
        (computeWithParent s o e nq' n).computed = fun q => if o.transition e q then pc q else n.computed q by
      obtain ⟨pc, hx⟩ := hx; exact ⟨n, _, pc, hn, this, hx⟩
    unfold computeWithParent
    rw [hpcq]
    cases hp : n.pending with
    | none =>
      refine ⟨_, rfl, ?_, rfl⟩
      split
      · exact c1
      · cases n.propValues with
        | none => exact c1
        | some m =>
          simp only
          split
          · exact hclean
          · exact c1
    | some m =>
      exact ⟨_, rfl, compute_clean hs p (fun x hx => c2 m x hp hx)
        (fun c hc => by cases hc; exact hclean), rfl⟩
  rintro e ⟨r, hr, rfl | ha⟩
  · exact hroot r hr
  · induction ha with
    | child e he => exact step r e r hr he (.child e he) (hroot r hr)
    | step p' e hap he ih => exact step p' e r hr he (.step p' e hap he) ih

end Flair.Proofs.Placeholder
