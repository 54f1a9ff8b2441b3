import Verif.Proofs.Inherit
import Mathlib.Data.Fintype.Pi
import Mathlib.Data.Fintype.BigOperators
/-!
# C15 : inheritance over the whole tree, C16 : inherited values follow the parent

Specification: `Flair.Spec.Inherited` (top down definition of the computed value).
-/
namespace Flair.Props
open Flair.Values Flair.Tree Flair.Spec Flair.Inherit

variable {E P V : Type} [DecidableEq E] [DecidableEq (P → ComputedValue V)] [DecidableEq V]

/-- C15.  Whatever the previous contents of the nodes, after a frame in which every node below the
roots got declarations, every property of every such node has exactly the computed value of the top
down definition (for every hierarchy, every starting world, whatever transitions start and whatever maps
share storage). -/
theorem C15_tree_inheritance (s : Static P V) (hs : ∀ p, s.unset p ≠ .unset) (o : Oracle E P)
    (f : Forest E) (wf : f.WF) (roots : List E) (ok : RootsOK f roots) (w : World E P V)
    (decl : E → P → PropertyValue V) (hw : ∀ e, Under f roots e → ∃ n, w e = some n) :
    ∀ e, Under f roots e → ∃ n, frame s o f roots (fun e => some (decl e)) true w e = some n ∧
      ∀ p, Inherited s.unset s.initial f (fun e => some (decl e)) p e (n.computed p) := by
  intro e he
  obtain ⟨n, h1, _, _, h4⟩ := frame_changed_settled s hs o f wf roots ok w (fun e => some (decl e))
    (by intro x hx; obtain ⟨n, hn⟩ := hw x hx; exact ⟨n, hn, Or.inl (by simp)⟩) e he
  exact ⟨n, h1, by simpa using h4⟩

/-- A newly inserted `NodeProperties`. -/
def freshNode : Node P V :=
  { pending := none, propValues := none, computed := fun _ => none, pendingComputed := none, shared := false }

/-- Histories of frames.  Between two frames the application may change the hierarchy and add or replace
nodes arbitrarily; in each frame style recalculation gives new declarations `u e` to some nodes.  A node
that is not given new declarations must be new, or untouched since the last frame (same parent, own and
parent's component kept).  (`calculate_is_root`, systems.rs:270-293, marks a re-parented node for
recalculation.)  All declarations satisfy `Q`.  The last index records the declarations in force: the
last ones given to the node. -/
inductive Reach (s : Static P V) (Q : (P → PropertyValue V) → Prop) :
    World E P V → Forest E → List E → (E → Option (P → PropertyValue V)) → Prop
  | start (w f roots) : RootsOK f roots → (∀ e, Under f roots e → w e = some freshNode) →
      Reach s Q w f roots (fun _ => none)
  | frame (w f roots decl) (w' : World E P V) (f' : Forest E) (roots' : List E)
      (u : E → Option (P → PropertyValue V)) (any : Bool) (o : Oracle E P)
      (decl' : E → Option (P → PropertyValue V)) :
      Reach s Q w f roots decl → f'.WF → RootsOK f' roots' →
      (∀ e, Under f' roots' e → ∃ n, w' e = some n ∧ (
        (u e ≠ none ∧ decl' e = u e) ∨
        (u e = none ∧ n = freshNode ∧ decl' e = none) ∨
        (u e = none ∧ decl' e = decl e ∧
          Under f roots e ∧ f'.parent e = f.parent e ∧ w' e = w e ∧ ∀ q, f.parent e = some q → w' q = w q))) →
      (any = false → ∀ e, u e = none) → (∀ e m, u e = some m → Q m) →
      Reach s Q (frame s o f' roots' u any w') f' roots' decl'

private theorem reach_good (s : Static P V) (hs : ∀ p, s.unset p ≠ .unset)
    (w : World E P V) (f : Forest E) (roots : List E) (decl : E → Option (P → PropertyValue V))
    (h : Reach s (fun m => ∀ p, m p = .unset → s.unset p ≠ .inherit) w f roots decl) :
    RootsOK f roots ∧ ∀ e, Under f roots e → ∃ n, w e = some n ∧ n.pending = none ∧ n.propValues = decl e ∧
      (∀ m, n.propValues = some m → ∀ p, m p = .unset → s.unset p ≠ .inherit) ∧
      ∀ p, Inherited s.unset s.initial f (declOf w) p e (n.computed p) := by
  induction h with
  | start w f roots ok hw =>
    refine ⟨ok, fun e he => ⟨freshNode, hw e he, rfl, rfl, by simp [freshNode], ?_⟩⟩
    intro p
    exact .unstyled e (by simp [declOf, hw e he, freshNode])
  | frame w f roots decl w' f' roots' u any o decl' _ wf' ok' hw' hany hQ ih =>
    obtain ⟨ok, good⟩ := ih
    have hcase : ∀ e, Under f' roots' e → ∃ n, w' e = some n ∧ decl' e = (u e).or n.propValues ∧
        (∀ m, n.propValues = some m → u e = none → ∀ p, m p = .unset → s.unset p ≠ .inherit) ∧
        (u e ≠ none ∨ (u e = none ∧ (Unstyled n ∨ Kept s f' w' e n))) := by
      intro e he
      obtain ⟨n, hn, hc⟩ := hw' e he
      by_cases hu : u e = none
      · rcases hc with hc | ⟨_, rfl, hd⟩ | ⟨_, hd, hun, hpar, hself, hq⟩
        · exact absurd hu hc.1
        · exact ⟨_, hn, by simp [hd, hu, freshNode], by simp [freshNode], Or.inr ⟨hu, Or.inl ⟨rfl, rfl, fun _ => rfl⟩⟩⟩
        · obtain ⟨n0, hn0, hpend, hpd, hm0, hinh⟩ := good e hun
          rw [← hself, hn] at hn0; cases hn0
          refine ⟨n, hn, by simp [hd, hu, hpd], fun m hm _ => hm0 m hm, Or.inr ⟨hu, ?_⟩⟩
          have hdecl : declOf w e = n.propValues := by simp [declOf, ← hself, hn]
          cases hpv : n.propValues with
          | none =>
            left
            refine ⟨hpend, hpv, fun p => ?_⟩
            have := hinh p
            generalize n.computed p = c at this ⊢
            cases this with
            | unstyled _ _ => rfl
            | root _ m _ _ hm => rw [hdecl, hpv] at hm; cases hm
            | child _ _ m _ _ _ hm => rw [hdecl, hpv] at hm; cases hm
          | some m =>
            right
            refine ⟨hpend, m, hpv, hm0 m hpv, ?_, ?_⟩
            · intro hroot p
              rw [hpar] at hroot
              have hip := hinh p
              generalize n.computed p = c at hip ⊢
              cases hip with
              | unstyled _ h => rw [hdecl, hpv] at h; cases h
              | root _ m' _ _ hm hc =>
                rw [hdecl, hpv] at hm; cases hm; exact hc
              | child _ q m' _ _ hp => rw [hroot] at hp; cases hp
            · intro q hfq
              rw [hpar] at hfq
              obtain ⟨nq, hnq, _, _, _, hinhq⟩ := good q (Under_parent ok hun hfq)
              refine ⟨nq, by rw [hq q hfq, hnq], fun p => ?_⟩
              have hip := hinh p
              generalize n.computed p = c at hip ⊢
              cases hip with
              | unstyled _ h => rw [hdecl, hpv] at h; cases h
              | root _ m' _ hp => rw [hfq] at hp; cases hp
              | child _ q' m' cq _ hp hm hiq hc =>
                rw [hfq] at hp; cases hp
                rw [hdecl, hpv] at hm; cases hm
                have := Inherited_unique hs hiq (hinhq p)
                rw [← this]; exact hc
      · refine ⟨n, hn, ?_, fun m _ h => absurd h hu, Or.inl hu⟩
        rcases hc with hc | hc | hc
        · rw [hc.2]; obtain ⟨m, hm⟩ := Option.ne_none_iff_exists'.mp hu; simp [hm]
        · exact absurd hc.1 hu
        · exact absurd hc.1 hu
    refine ⟨ok', ?_⟩
    cases any with
    | true =>
      intro e he
      have hfr := frame_changed_settled s hs o f' wf' roots' ok' w' u
        (fun e he => by obtain ⟨n, hn, _, _, hc⟩ := hcase e he; exact ⟨n, hn, hc⟩)
      obtain ⟨n, h1, h2, h3, h4⟩ := hfr e he
      refine ⟨n, h1, h2, ?_, ?_, ?_⟩
      · obtain ⟨n0, hn0, hd0, _⟩ := hcase e he
        rw [h3, hd0]; simp [declOf, hn0]
      · intro m hm
        rw [h3] at hm
        cases hu : u e with
        | some m' => rw [hu] at hm; simp at hm; rw [← hm]; exact hQ e m' hu
        | none =>
          rw [hu] at hm
          simp only [Option.none_or] at hm
          obtain ⟨n0, hn0, _, hq0, _⟩ := hcase e he
          exact hq0 m (by simpa [declOf, hn0] using hm) hu
      · intro p
        refine Inherited_congr (h4 p) ?_
        intro x hx
        have hux : Under f' roots' x := by
          rcases hx with rfl | hx
          · exact he
          · exact Under_anc ok' he hx
        obtain ⟨nx, hx1, _, hx3, _⟩ := hfr x hux
        simp [declOf, hx1]
        simpa [declOf] using hx3
    | false =>
      have hu : ∀ e, u e = none := hany rfl
      have hframe : ∀ e n, w' e = some n → frame s o f' roots' u false w' e
          = some { n with pendingComputed := none } := by
        intro e n hn
        simp [frame, applyComputed, passNoChange, setPending, hn, hu e]
      have hdecl : ∀ e, Under f' roots' e → declOf (frame s o f' roots' u false w') e = declOf w' e := by
        intro e he
        obtain ⟨n, hn, _⟩ := hcase e he
        simp [declOf, hframe e n hn, hn]
      -- every node below the roots agrees with the specification already before the frame
      have hstep : ∀ e n, Under f' roots' e → w' e = some n → (Unstyled n ∨ Kept s f' w' e n) →
          (∀ q, f'.parent e = some q → ∃ nq, w' q = some nq ∧
            ∀ p, Inherited s.unset s.initial f' (declOf w') p q (nq.computed p)) →
          ∀ p, Inherited s.unset s.initial f' (declOf w') p e (n.computed p) := by
        intro e n he hn hk hq p
        rcases hk with ⟨_, hpv, hc⟩ | ⟨_, m, hpv, _, hr, hch⟩
        · rw [hc p]; exact .unstyled e (by simp [declOf, hn, hpv])
        · cases hp : f'.parent e with
          | none => exact .root e m _ hp (by simp [declOf, hn, hpv]) (hr hp p)
          | some q =>
            obtain ⟨nq, hnq, hcm⟩ := hch q hp
            obtain ⟨nq', hnq', hi⟩ := hq q hp
            rw [hnq] at hnq'; cases hnq'
            exact .child e q m _ _ hp (by simp [declOf, hn, hpv]) (hi p) (hcm p)
      have hall : ∀ e, Under f' roots' e → ∃ n, w' e = some n ∧
          ∀ p, Inherited s.unset s.initial f' (declOf w') p e (n.computed p) := by
        rintro e ⟨r, hr, rfl | ha⟩
        · obtain ⟨n, hn, _, _, hc⟩ := hcase r ⟨r, hr, Or.inl rfl⟩
          rcases hc with hc | ⟨_, hk⟩
          · exact absurd (hu r) hc
          · exact ⟨n, hn, hstep r n ⟨r, hr, Or.inl rfl⟩ hn hk (by
              intro q hq; rw [ok'.noParent r hr] at hq; cases hq)⟩
        · have hroot : ∃ n, w' r = some n ∧ ∀ p, Inherited s.unset s.initial f' (declOf w') p r (n.computed p) := by
            obtain ⟨n, hn, _, _, hc⟩ := hcase r ⟨r, hr, Or.inl rfl⟩
            rcases hc with hc | ⟨_, hk⟩
            · exact absurd (hu r) hc
            · exact ⟨n, hn, hstep r n ⟨r, hr, Or.inl rfl⟩ hn hk (by
                intro q hq; rw [ok'.noParent r hr] at hq; cases hq)⟩
          have down : ∀ q e, f'.parent e = some q → f'.Anc r e →
              (∃ n, w' q = some n ∧ ∀ p, Inherited s.unset s.initial f' (declOf w') p q (n.computed p)) →
              ∃ n, w' e = some n ∧ ∀ p, Inherited s.unset s.initial f' (declOf w') p e (n.computed p) := by
            intro q e hpe hae hq
            obtain ⟨n, hn, _, _, hc⟩ := hcase e ⟨r, hr, Or.inr hae⟩
            rcases hc with hc | ⟨_, hk⟩
            · exact absurd (hu e) hc
            · exact ⟨n, hn, hstep e n ⟨r, hr, Or.inr hae⟩ hn hk (by
                intro q' hq'; rw [hpe] at hq'; cases hq'; exact hq)⟩
          induction ha with
          | child e he => exact down r e he (.child e he) hroot
          | step q e haq he ih => exact down q e he (.step q e haq he) ih
      intro e he
      obtain ⟨n, hn, hi⟩ := hall e he
      obtain ⟨n', hn', hd', hq', hc'⟩ := hcase e he
      rw [hn] at hn'; cases hn'
      have hpend : n.pending = none := by
        rcases hc' with hc' | ⟨_, hk⟩
        · exact absurd (hu e) hc'
        · rcases hk with hk | hk
          · exact hk.1
          · exact hk.1
      refine ⟨_, hframe e n hn, hpend, by rw [hd', hu e]; rfl, ?_, ?_⟩
      · intro m hm; exact hq' m hm (hu e)
      · intro p
        refine Inherited_congr (hi p) ?_
        intro x hx
        apply hdecl
        rcases hx with rfl | hx
        · exact he
        · exact Under_anc ok' he hx

/-- C16 (partial).  In every history of frames in which no node is declared `unset` on a property whose
registered unset behaviour is inheritance, after every frame every property of every node below the
roots has the computed value of the top down definition for the current hierarchy and the declarations in
force — so a child that inherits follows its parent within the same frame.
Missing from the full property: declarations that are explicitly `unset` (see `C16_unset_is_stale`). -/
theorem C16_follow_parent_partial (s : Static P V) (hs : ∀ p, s.unset p ≠ .unset)
    (w : World E P V) (f : Forest E) (roots : List E) (decl : E → Option (P → PropertyValue V))
    (h : Reach s (fun m => ∀ p, m p = .unset → s.unset p ≠ .inherit) w f roots decl) (e : E) (he : Under f roots e) :
    ∃ n, w e = some n ∧ ∀ p, Inherited s.unset s.initial f decl p e (n.computed p) := by
  obtain ⟨ok, good⟩ := reach_good s hs w f roots decl h
  obtain ⟨n, h1, _, _, _, h4⟩ := good e he
  refine ⟨n, h1, fun p => Inherited_congr (h4 p) ?_⟩
  intro x hx
  have hux : Under f roots x := by
    rcases hx with rfl | hx
    · exact he
    · exact Under_anc ok he hx
  obtain ⟨nx, hx1, _, hx3, _⟩ := good x hux
  simp [declOf, hx1, hx3]

/-! ## Counterexample to the full C16 -/

/-- Two nodes: 0 is the root, 1 its child. -/
private def exF : Forest Bool where
  children e := if e then [] else [true]
  parent e := if e then some false else none
  nodes := [false, true]

private theorem exF_anc {a e : Bool} (h : exF.Anc a e) : a = false ∧ e = true := by
  have key : ∀ a e : Bool, exF.parent e = some a → a = false ∧ e = true := by decide
  induction h with
  | child e h => exact key _ _ h
  | step p e _ h ih =>
    have := (key _ _ h).1
    rw [ih.2] at this; cases this

private theorem exF_wf : exF.WF where
  mem_iff := by decide
  nodup := by decide
  parent_mem := by decide
  acyclic e h := by have := exF_anc h; rw [this.1] at this; simp at this

private def exS : Static Unit Nat := { unset := fun _ => .inherit, initial := fun _ => 0 }
private def exO : Oracle Bool Unit := { sharing := fun _ => false, transition := fun _ _ => false }
private def exW0 : World Bool Unit Nat := fun _ => some freshNode
/-- First frame: the root is `1`, the child `unset`. -/
private def exW1 : World Bool Unit Nat :=
  frame exS exO exF [false] (fun e => some fun _ => if e then .unset else .value 1) true exW0
/-- Second frame: only the root changes, to `2`. -/
private def exW2 : World Bool Unit Nat :=
  frame exS exO exF [false] (fun e => if e then none else some fun _ => .value 2) true exW1

private def exDecl2 : Bool → Option (Unit → PropertyValue Nat) :=
  fun e => some fun _ => if e then .unset else .value 2

/-- The counterexample history is a legal history. -/
private theorem exW2_reach : Reach exS (fun _ => True) exW2 exF [false] exDecl2 := by
  have okr : RootsOK exF [false] := ⟨by simp, by simp [exF]⟩
  have h1 : Reach exS (fun _ => True) exW1 exF [false] _ :=
    .frame exW0 exF [false] _ exW0 exF [false] _ true exO (fun e => some fun _ => if e then .unset else .value 1)
      (.start exW0 exF [false] okr (fun _ _ => rfl)) exF_wf okr
      (fun e _ => ⟨freshNode, rfl, Or.inl ⟨by simp, rfl⟩⟩) (by simp) (by simp)
  refine .frame exW1 exF [false] _ exW1 exF [false] _ true exO _ h1 exF_wf okr ?_ (by simp) (by simp)
  intro e he
  cases e with
  | false => exact ⟨_, rfl, Or.inl ⟨by simp, rfl⟩⟩
  | true => exact ⟨_, rfl, Or.inr (Or.inr ⟨rfl, rfl, he, rfl, rfl, fun _ _ => rfl⟩)⟩

/-- C16 is false for the code as it is: a child declared `unset` on an inherited property keeps the old
value of its parent.  After the second frame the parent's computed value is 2 and the child's is still 1,
while the specification says 2. -/
theorem C16_unset_is_stale :
    ¬ ∀ (w : World Bool Unit Nat) (f : Forest Bool) (roots : List Bool) (decl : Bool → Option (Unit → PropertyValue Nat)),
      Reach exS (fun _ => True) w f roots decl →
      ∀ e, Under f roots e → ∃ n, w e = some n ∧ ∀ p, Inherited exS.unset exS.initial f decl p e (n.computed p) := by
  intro hall
  obtain ⟨n, hn, hi⟩ := hall exW2 exF [false] exDecl2 exW2_reach true ⟨false, by simp, Or.inr (.child true rfl)⟩
  have hc : (exW2 true).map (fun n => n.computed ()) = some (some 1) := by decide
  rw [hn] at hc
  simp only [Option.map_some, Option.some.injEq] at hc
  have h := hi ()
  rw [hc] at h
  have hspec : Inherited exS.unset exS.initial exF exDecl2 () true (some 2) :=
    .child true false _ (some 2) _ rfl rfl (.root false _ _ rfl rfl (.concrete 2)) (.unset _ (.inherit _ rfl))
  have := Inherited_unique (by simp [exS]) h hspec
  simp at this

/-- The same history with `inherit` instead of `unset` meets the hypotheses of the partial theorem, and
the child does follow the parent. -/
example :
    let w1 : World Bool Unit Nat :=
      frame exS exO exF [false] (fun e => some fun _ => if e then .inherit else .value 1) true exW0
    let w2 : World Bool Unit Nat :=
      frame exS exO exF [false] (fun e => if e then none else some fun _ => .value 2) true w1
    Reach exS (fun m => ∀ p, m p = .unset → exS.unset p ≠ .inherit) w2 exF [false]
      (fun e => some fun _ => if e then .inherit else .value 2) ∧
    (w2 true).map (fun n => n.computed ()) = some (some 2) := by
  have okr : RootsOK exF [false] := ⟨by simp, by simp [exF]⟩
  refine ⟨?_, by decide⟩
  have h1 := Reach.frame (s := exS) (Q := fun m => ∀ p, m p = .unset → exS.unset p ≠ .inherit) exW0 exF [false] _
    exW0 exF [false] (fun e => some fun _ => if e then .inherit else .value 1) true exO
    (fun e => some fun _ => if e then .inherit else .value 1)
    (.start exW0 exF [false] okr (fun _ _ => rfl)) exF_wf okr
    (fun e _ => ⟨freshNode, rfl, Or.inl ⟨by simp, rfl⟩⟩) (by simp) (by
      intro e m hm
      simp only [Option.some.injEq] at hm
      subst hm
      intro p
      cases e <;> simp)
  refine .frame _ exF [false] _ _ exF [false] _ true exO _ h1 exF_wf okr ?_ (by simp) ?_
  · intro e he
    cases e with
    | false => exact ⟨_, rfl, Or.inl ⟨by simp, rfl⟩⟩
    | true => exact ⟨_, rfl, Or.inr (Or.inr ⟨rfl, rfl, he, rfl, rfl, fun _ _ => rfl⟩)⟩
  · intro e m hm
    cases e <;> simp at hm
    subst hm; simp

end Flair.Props
