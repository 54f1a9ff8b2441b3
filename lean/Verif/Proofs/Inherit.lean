import Verif.Model.Inherit
import Verif.Spec.Inherit
import Verif.Proofs.Tree
import Verif.Props.Values
set_option linter.unusedSectionVars false
namespace Flair.Inherit
open Flair.Values Flair.Tree Flair.Spec

variable {E P V : Type} [DecidableEq E] [DecidableEq (P → ComputedValue V)] [DecidableEq V]

/-- Roots as `UiRootNodes` gives them: distinct entities without parent. -/
structure RootsOK (f : Forest E) (roots : List E) : Prop where
  nodup : roots.Nodup
  noParent : ∀ r ∈ roots, f.parent r = none

/-- The whole visiting order, roots tagged with `none`. -/
def visit (f : Forest E) (roots : List E) : List (Option E × E) :=
  roots.flatMap fun r => (none, r) :: (descendantsWithParent f r).map fun pe => (some pe.1, pe.2)

/-- New value of an entity, from its own value and its parent's. -/
def newVal (s : Static P V) (o : Oracle E P) (e : E) : Option (Option (Node P V)) → Option (Node P V) →
    Option (Node P V)
  | none, some n => some (computeRoot s o e n)
  | some (some par), some n => some (computeWithParent s o e par n)
  | _, x => x

def visitStep (s : Static P V) (o : Oracle E P) (w : World E P V) (x : Option E × E) : World E P V :=
  fun y => if y = x.2 then newVal s o x.2 (x.1.map w) (w x.2) else w y

theorem stepChild_eq (s : Static P V) (o : Oracle E P) (w : World E P V) (pe : E × E) :
    stepChild s o w pe = visitStep s o w (some pe.1, pe.2) := by
  funext y
  unfold stepChild visitStep
  cases h1 : w pe.1 with
  | none =>
    simp only [Option.map_some, h1]
    by_cases hy : y = pe.2
    · subst hy; cases h2 : w pe.2 <;> simp [newVal]
    · simp [hy]
  | some par =>
    cases h2 : w pe.2 with
    | none =>
      simp only [Option.map_some, h1]
      by_cases hy : y = pe.2
      · subst hy; simp [newVal, h2]
      · simp [hy]
    | some n =>
      simp only [Option.map_some, h1]
      by_cases hy : y = pe.2
      · subst hy; simp [newVal, World.put]
      · simp [hy, World.put]

theorem visitStep_isSome (s : Static P V) (o : Oracle E P) (w : World E P V) (x : Option E × E) (y : E) :
    (visitStep s o w x y).isSome = (w y).isSome := by
  unfold visitStep
  by_cases hy : y = x.2
  · subst hy
    simp only [if_true]
    cases h2 : w x.2 with
    | none => cases hx : x.1.map w with
      | none => simp [newVal]
      | some z => cases z <;> simp [newVal]
    | some n => cases hx : x.1.map w with
      | none => simp [newVal]
      | some z => cases z <;> simp [newVal]
  · simp [hy]

theorem visitFold_isSome (s : Static P V) (o : Oracle E P) (l : List (Option E × E)) (w : World E P V) (y : E) :
    (l.foldl (visitStep s o) w y).isSome = (w y).isSome := by
  induction l generalizing w with
  | nil => rfl
  | cons x l ih => rw [List.foldl_cons, ih, visitStep_isSome]

theorem computePass_eq (s : Static P V) (o : Oracle E P) (f : Forest E) (roots : List E) (w : World E P V)
    (hr : ∀ r ∈ roots, (w r).isSome) :
    computePass s o f roots w = (visit f roots).foldl (visitStep s o) w := by
  induction roots generalizing w with
  | nil => rfl
  | cons r roots ih =>
    obtain ⟨n, hn⟩ := Option.isSome_iff_exists.mp (hr r (by simp))
    have hroot : w.put r (computeRoot s o r n) = visitStep s o w (none, r) := by
      funext y
      unfold World.put visitStep
      by_cases hy : y = r
      · subst hy; simp [newVal, hn]
      · simp [hy]
    have hchild : ∀ (l : List (E × E)) (w : World E P V),
        l.foldl (stepChild s o) w = (l.map fun pe => (some pe.1, pe.2)).foldl (visitStep s o) w := by
      intro l
      induction l with
      | nil => intro w; rfl
      | cons x l ihl => intro w; simp only [List.foldl_cons, List.map_cons]; rw [stepChild_eq, ihl]
    simp only [computePass, hn]
    rw [ih]
    · rw [hroot, hchild]
      simp only [visit, List.flatMap_cons, List.foldl_append, List.foldl_cons]
    · intro r' hr'
      rw [hroot, hchild, visitFold_isSome, visitStep_isSome]
      exact hr r' (by simp [hr'])

/-- Parent-first, duplicate free: every visited entity ends with the value computed from its original
value and its parent's final value. -/
theorem visitFold_final (s : Static P V) (o : Oracle E P) (w : World E P V) (l : List (Option E × E))
    (hnd : (l.map Prod.snd).Nodup)
    (hpf : ∀ l1 p e l2, l = l1 ++ (some p, e) :: l2 → p ∈ l1.map Prod.snd) :
    (∀ po e, (po, e) ∈ l → l.foldl (visitStep s o) w e = newVal s o e (po.map (l.foldl (visitStep s o) w)) (w e)) ∧
    (∀ y, y ∉ l.map Prod.snd → l.foldl (visitStep s o) w y = w y) := by
  induction l using List.reverseRecOn with
  | nil => simp
  | append_singleton l x ih =>
    obtain ⟨xo, xe⟩ := x
    have hnd' : (l.map Prod.snd).Nodup := by
      rw [List.map_append] at hnd; exact (List.nodup_append.mp hnd).1
    have hx : xe ∉ l.map Prod.snd := by
      rw [List.map_append] at hnd
      intro h
      exact (List.nodup_append.mp hnd).2.2 xe h xe (by simp) rfl
    obtain ⟨ih1, ih2⟩ := ih hnd' (by
      intro l1 p e l2 h
      exact hpf l1 p e (l2 ++ [(xo, xe)]) (by rw [h]; simp))
    have hfold : ∀ y, (l ++ [(xo, xe)]).foldl (visitStep s o) w y =
        if y = xe then newVal s o xe (xo.map (l.foldl (visitStep s o) w)) (w xe)
        else l.foldl (visitStep s o) w y := by
      intro y
      rw [List.foldl_append]
      simp only [List.foldl_cons, List.foldl_nil, visitStep]
      rw [ih2 xe hx]
    have hsame : ∀ y, y ≠ xe → (l ++ [(xo, xe)]).foldl (visitStep s o) w y = l.foldl (visitStep s o) w y := by
      intro y hy; rw [hfold, if_neg hy]
    constructor
    · intro po e he
      rcases List.mem_append.mp he with he | he
      · have hne : e ≠ xe := by
          intro hh; exact hx (hh ▸ List.mem_map.mpr ⟨(po, e), he, rfl⟩)
        rw [hsame e hne, ih1 po e he]
        congr 1
        cases po with
        | none => rfl
        | some p =>
          simp only [Option.map_some]
          congr 1
          obtain ⟨l1, l2, hl⟩ := List.append_of_mem he
          have hp := hpf l1 p e (l2 ++ [(xo, xe)]) (by rw [hl]; simp)
          have hpx : p ≠ xe := by
            rintro rfl; exact hx (by rw [hl]; simp only [List.map_append, List.mem_append]; exact Or.inl hp)
          rw [hsame p hpx]
      · simp only [List.mem_singleton, Prod.mk.injEq] at he
        obtain ⟨rfl, rfl⟩ := he
        rw [hfold, if_pos rfl]
        congr 1
        cases po with
        | none => rfl
        | some p =>
          simp only [Option.map_some]
          congr 1
          have hp := hpf l p e [] rfl
          have hpx : p ≠ e := by
            rintro rfl; exact hx hp
          rw [hsame p hpx]
    · intro y hy
      simp only [List.map_append, List.map_cons, List.map_nil, List.mem_append, List.mem_singleton, not_or] at hy
      rw [hsame y hy.2, ih2 y hy.1]

theorem descendants_inv (f : Forest E) (wf : f.WF) (r : E) :
    BfsInv f r (descendantsWithParent f r) [] := by
  obtain ⟨out, h1, h2⟩ := bfsCollect_inv wf r (f.nodes.length + 1) [] _ (bfsInv_new wf r) (by simp)
  unfold descendantsWithParent
  rw [h1]; simpa using h2

theorem Anc_root_unique {f : Forest E} {r r' e : E} (hr : f.parent r = none) (hr' : f.parent r' = none)
    (h : f.Anc r e) (h' : f.Anc r' e) : r = r' := by
  induction h with
  | child e he =>
    cases h' with
    | child _ he' => rw [he] at he'; cases he'; rfl
    | step p _ ha he' =>
      rw [he] at he'; cases he'
      obtain ⟨q, hq, _⟩ := Anc_iff_parent.mp ha
      rw [hr] at hq; cases hq
  | step p e ha he ih =>
    cases h' with
    | child _ he' =>
      rw [he] at he'; cases he'
      obtain ⟨q, hq, _⟩ := Anc_iff_parent.mp ha
      rw [hr'] at hq; cases hq
    | step q _ ha' he' => rw [he] at he'; cases he'; exact ih ha'

theorem visit_mem {f : Forest E} (wf : f.WF) {roots : List E} (po : Option E) (e : E) :
    (po, e) ∈ visit f roots ↔
      (po = none ∧ e ∈ roots) ∨ (∃ p, po = some p ∧ f.parent e = some p ∧ ∃ r ∈ roots, f.Anc r e) := by
  simp only [visit, List.mem_flatMap, List.mem_cons, Prod.mk.injEq, List.mem_map]
  constructor
  · rintro ⟨r, hr, ⟨rfl, rfl⟩ | ⟨⟨p, c⟩, h, rfl, rfl⟩⟩
    · exact Or.inl ⟨rfl, hr⟩
    · have := (BfsInv_done_mem (descendants_inv f wf r) p c).mp h
      exact Or.inr ⟨p, rfl, this.2, r, hr, this.1⟩
  · rintro (⟨rfl, h⟩ | ⟨p, rfl, hp, r, hr, ha⟩)
    · exact ⟨e, h, Or.inl ⟨rfl, rfl⟩⟩
    · exact ⟨r, hr, Or.inr ⟨(p, e), (BfsInv_done_mem (descendants_inv f wf r) p e).mpr ⟨ha, hp⟩, rfl, rfl⟩⟩

theorem visit_entities {f : Forest E} (wf : f.WF) {roots : List E} (e : E) :
    e ∈ (visit f roots).map Prod.snd ↔ Under f roots e := by
  rw [List.mem_map]
  constructor
  · rintro ⟨⟨po, e'⟩, h, rfl⟩
    rcases (visit_mem wf po e').mp h with ⟨_, h⟩ | ⟨p, _, _, r, hr, ha⟩
    · exact ⟨e', h, Or.inl rfl⟩
    · exact ⟨r, hr, Or.inr ha⟩
  · rintro ⟨r, hr, rfl | ha⟩
    · exact ⟨(none, r), (visit_mem wf _ _).mpr (Or.inl ⟨rfl, hr⟩), rfl⟩
    · obtain ⟨p, hp, _⟩ := Anc_iff_parent.mp ha
      exact ⟨(some p, e), (visit_mem wf _ _).mpr (Or.inr ⟨p, rfl, hp, r, hr, ha⟩), rfl⟩

theorem visit_nodup {f : Forest E} (wf : f.WF) {roots : List E} (ok : RootsOK f roots) :
    ((visit f roots).map Prod.snd).Nodup := by
  induction roots with
  | nil => simp [visit]
  | cons r roots ih =>
    have ok' : RootsOK f roots := ⟨(List.nodup_cons.mp ok.nodup).2, fun x hx => ok.noParent x (by simp [hx])⟩
    have hsplit : visit f (r :: roots) =
        ((none, r) :: (descendantsWithParent f r).map fun pe => (some pe.1, pe.2)) ++ visit f roots := rfl
    have inv := descendants_inv f wf r
    rw [hsplit, List.map_append]
    refine List.Nodup.append ?_ (ih ok') ?_
    · simp only [List.map_cons, List.map_map, List.nodup_cons]
      constructor
      · intro h
        obtain ⟨⟨p, c⟩, hm, hc⟩ := List.mem_map.mp h
        simp only [Function.comp] at hc
        subst hc
        exact wf.acyclic _ ((BfsInv_done_mem inv p c).mp hm).1
      · have := inv.nodup
        simpa [Function.comp_def] using this
    · intro x h1 h2
      have hx1 : x = r ∨ f.Anc r x := by
        simp only [List.map_cons, List.map_map, List.mem_cons] at h1
        rcases h1 with h1 | h1
        · exact Or.inl h1
        · obtain ⟨⟨p, c⟩, hm, hc⟩ := List.mem_map.mp h1
          simp only [Function.comp] at hc
          subst hc
          exact Or.inr ((BfsInv_done_mem inv p c).mp hm).1
      obtain ⟨r', hr', hx2⟩ := (visit_entities wf x).mp h2
      have hne : r ≠ r' := by
        rintro rfl; exact (List.nodup_cons.mp ok.nodup).1 hr'
      have hpr := ok.noParent r (by simp)
      have hpr' := ok.noParent r' (by simp [hr'])
      rcases hx1 with rfl | ha
      · rcases hx2 with rfl | ha'
        · exact hne rfl
        · obtain ⟨q, hq, _⟩ := Anc_iff_parent.mp ha'
          rw [hpr] at hq; cases hq
      · rcases hx2 with rfl | ha'
        · obtain ⟨q, hq, _⟩ := Anc_iff_parent.mp ha
          rw [hpr'] at hq; cases hq
        · exact hne (Anc_root_unique hpr hpr' ha ha')

theorem visit_parent_first {f : Forest E} (wf : f.WF) {roots : List E} :
    ∀ l1 p e l2, visit f roots = l1 ++ (some p, e) :: l2 → p ∈ l1.map Prod.snd := by
  induction roots with
  | nil => intro l1 p e l2 h; simp [visit] at h
  | cons r roots ih =>
    intro l1 p e l2 h
    have inv := descendants_inv f wf r
    have hsplit : visit f (r :: roots) =
        ((none, r) :: (descendantsWithParent f r).map fun pe => (some pe.1, pe.2)) ++ visit f roots := rfl
    rw [hsplit] at h
    have block : ∀ m l1, ((none, r) :: (descendantsWithParent f r).map fun pe => (some pe.1, pe.2))
        = l1 ++ (some p, e) :: m → p ∈ l1.map Prod.snd := by
      intro m l1 hb
      cases l1 with
      | nil => simp at hb
      | cons y l1 =>
        simp only [List.cons_append, List.cons.injEq] at hb
        obtain ⟨rfl, hb⟩ := hb
        rw [List.map_eq_append_iff] at hb
        obtain ⟨d1, d2, hd, rfl, hd2⟩ := hb
        cases d2 with
        | nil => simp at hd2
        | cons z d2 =>
          simp only [List.map_cons, List.cons.injEq, Prod.mk.injEq, Option.some.injEq] at hd2
          obtain ⟨⟨rfl, rfl⟩, _⟩ := hd2
          rcases inv.first d1 z.1 z.2 d2 hd with h' | h'
          · simp [h']
          · obtain ⟨y, hy, hye⟩ := List.mem_map.mp h'
            simp only [List.map_cons, List.map_map, List.mem_cons]
            exact Or.inr (List.mem_map.mpr ⟨y, hy, hye⟩)
    rcases List.append_eq_append_iff.mp h with ⟨m, h1, h2⟩ | ⟨m, h1, h2⟩
    · have := ih m p e l2 h2
      rw [h1, List.map_append, List.mem_append]
      exact Or.inr this
    · cases m with
      | nil =>
        simp only [List.nil_append] at h2
        have := ih [] p e l2 h2.symm
        simp at this
      | cons y m =>
        simp only [List.cons_append, List.cons.injEq] at h2
        obtain ⟨rfl, _⟩ := h2
        exact block m l1 h1

/-- What the frame needs to know of a node that was not recalculated: it is consistent with its old
declarations and with its parent's old computed values, and no declaration is `unset` for a property
whose unset behaviour is inheritance. -/
def Kept (s : Static P V) (f : Forest E) (w : World E P V) (e : E) (n : Node P V) : Prop :=
  n.pending = none ∧ ∃ m, n.propValues = some m ∧ (∀ p, m p = .unset → s.unset p ≠ .inherit) ∧
    (f.parent e = none → ∀ p, Computes (s.unset p) (s.initial p) none (m p) (n.computed p)) ∧
    (∀ q, f.parent e = some q → ∃ nq, w q = some nq ∧
      ∀ p, Computes (s.unset p) (s.initial p) (some (nq.computed p)) (m p) (n.computed p))

/-- A node no style sheet has been applied to. -/
def Unstyled (n : Node P V) : Prop :=
  n.pending = none ∧ n.propValues = none ∧ ∀ p, n.computed p = none

/-- The declarations in force after the frame. -/
def declOf (w : World E P V) (e : E) : Option (P → PropertyValue V) := (w e).bind (·.propValues)

/-- `Computes` does not look at the parent unless the value inherits. -/
theorem Computes_parent_irrel {u : PropertyValue V} {i : V} {pa pa' : ComputedValue V} {pv : PropertyValue V}
    {c : ComputedValue V} (h1 : pv ≠ .inherit) (h2 : pv = .unset → u ≠ .inherit)
    (h3 : u ≠ .unset)
    (h : Computes u i (some pa) pv c) : Computes u i (some pa') pv c := by
  have base : ∀ {pv c}, pv ≠ .inherit → pv ≠ .unset → Computes u i (some pa) pv c → Computes u i (some pa') pv c := by
    intro pv c hi hu h
    cases h with
    | undeclared => exact .undeclared
    | concrete v => exact .concrete v
    | initial => exact .initial
    | inherit _ _ => exact absurd rfl hi
    | inheritRoot h => cases h
    | unset _ _ => exact absurd rfl hu
  cases h with
  | unset c h => exact .unset c (base (h2 rfl) h3 h)
  | undeclared => exact .undeclared
  | concrete v => exact .concrete v
  | initial => exact .initial
  | inherit _ _ => exact absurd rfl h1
  | inheritRoot h => cases h

theorem Computes_of_compute {u : PropertyValue V} (hu : u ≠ .unset) (i : V) (par : Option (ComputedValue V))
    (pv : PropertyValue V) : Computes u i par pv ((compute pv u i par).getD none) := by
  obtain ⟨r, hr⟩ := Flair.Props.C14_compute_total pv u i par hu
  rw [hr]
  exact (Flair.Props.C14_compute_spec pv u i par hu r).mp hr

/-- The state of a visited node right after the compute pass. -/
structure PassResult (s : Static P V) (f : Forest E) (decl : E → Option (P → PropertyValue V))
    (e : E) (n n' : Node P V) (pc : P → ComputedValue V) : Prop where
  pc_eq : n'.pendingComputed = some pc
  pending : n'.pending = none
  props : n'.propValues = decl e
  inh : ∀ p, Inherited s.unset s.initial f decl p e (pc p)
  shared : n'.shared = true → pc = n.computed

theorem pass_main (s : Static P V) (hs : ∀ p, s.unset p ≠ .unset) (o : Oracle E P) (f : Forest E) (wf : f.WF)
    (roots : List E) (ok : RootsOK f roots) (w : World E P V) (u : E → Option (P → PropertyValue V))
    (hw : ∀ e, Under f roots e → ∃ n, w e = some n ∧ (u e ≠ none ∨ (u e = none ∧ (Unstyled n ∨ Kept s f w e n)))) :
    ∀ e, Under f roots e → ∃ n n' pc, w e = some n ∧ computePass s o f roots (setPending u w) e = some n' ∧
      PassResult s f (fun e => (u e).or (declOf w e)) e n n' pc := by
  have hsome : ∀ r ∈ roots, (setPending u w r).isSome := by
    intro r hr
    obtain ⟨n, hn, _⟩ := hw r ⟨r, hr, Or.inl rfl⟩
    simp [setPending, hn]
  rw [computePass_eq s o f roots _ hsome]
  obtain ⟨hfin, _⟩ := visitFold_final s o (setPending u w) (visit f roots) (visit_nodup wf ok)
    (visit_parent_first wf)
  set W := (visit f roots).foldl (visitStep s o) (setPending u w) with hW
  -- root case
  have hroot : ∀ r ∈ roots, ∃ n n' pc, w r = some n ∧ W r = some n' ∧
      PassResult s f (fun e => (u e).or (declOf w e)) r n n' pc := by
    intro r hr
    have hnp := ok.noParent r hr
    obtain ⟨n, hn, hcase⟩ := hw r ⟨r, hr, Or.inl rfl⟩
    have hv := hfin none r ((visit_mem wf _ _).mpr (Or.inl ⟨rfl, hr⟩))
    rcases hcase with hu | ⟨hu, hk⟩
    · obtain ⟨m, hm⟩ := Option.ne_none_iff_exists'.mp hu
      simp only [setPending, hn, hm, Option.map_some, Option.map_none, newVal, computeRoot, finish] at hv
      refine ⟨n, _, _, hn, hv, rfl, rfl, by simp [hm], ?_, ?_⟩
      · intro p
        exact .root r m _ hnp (by simp [hm]) (Computes_of_compute (hs p) _ _ _)
      · simp
    · rcases hk with ⟨hp, hpv, hc⟩ | ⟨hp, m, hpv, _, hk, _⟩
      · simp only [setPending, hn, hu, Option.map_some, Option.map_none, newVal, computeRoot, hp, finish] at hv
        refine ⟨n, _, _, hn, hv, rfl, rfl, by simp [hu, declOf, hn], ?_, by simp⟩
        intro p
        rw [hc p]
        exact .unstyled r (by simp [hu, declOf, hn, hpv])
      · simp only [setPending, hn, hu, Option.map_some, Option.map_none, newVal, computeRoot, hp, finish] at hv
        refine ⟨n, _, _, hn, hv, rfl, rfl, by simp [hu, declOf, hn], ?_, by simp⟩
        intro p
        exact .root r m _ hnp (by simp [hu, declOf, hn, hpv]) (hk hnp p)
  intro e he
  obtain ⟨r, hr, rfl | ha⟩ := he
  · exact hroot r hr
  · -- descend
    have hstep : ∀ q e, f.parent e = some q → f.Anc r e →
        (∃ n n' pc, w q = some n ∧ W q = some n' ∧ PassResult s f (fun e => (u e).or (declOf w e)) q n n' pc) →
        ∃ n n' pc, w e = some n ∧ W e = some n' ∧ PassResult s f (fun e => (u e).or (declOf w e)) e n n' pc := by
      intro q e hq hae ⟨nq, nq', pcq, hnq, hWq, rq⟩
      obtain ⟨n, hn, hcase⟩ := hw e ⟨r, hr, Or.inr hae⟩
      have hv := hfin (some q) e ((visit_mem wf _ _).mpr (Or.inr ⟨q, rfl, hq, r, hr, hae⟩))
      rw [Option.map_some, hWq] at hv
      rcases hcase with hu | ⟨hu, hk⟩
      · obtain ⟨m, hm⟩ := Option.ne_none_iff_exists'.mp hu
        simp only [setPending, hn, hm, Option.map_some, newVal, computeWithParent, rq.pc_eq, Option.getD_some, finish] at hv
        refine ⟨n, _, _, hn, hv, rfl, rfl, by simp [hm], ?_, ?_⟩
        · intro p
          exact .child e q m (pcq p) _ hq (by simp [hm]) (rq.inh p) (Computes_of_compute (hs p) _ _ _)
        · simp
      · rcases hk with ⟨hp, hpv, hc⟩ | ⟨hp, m, hpv, hmu, _, hk⟩
        · simp only [setPending, hn, hu, Option.map_some, newVal, computeWithParent, hp, hpv, finish, ite_self] at hv
          refine ⟨n, _, _, hn, hv, rfl, by simp, by simp [hu, declOf, hn, hpv], ?_, ?_⟩
          · intro p
            rw [hc p]
            exact .unstyled e (by simp [hu, declOf, hn, hpv])
          · simp
        · obtain ⟨nq0, hnq0, hcomp⟩ := hk q hq
          rw [hnq] at hnq0; cases hnq0
          simp only [setPending, hn, hu, Option.map_some, newVal, computeWithParent, hp, hpv, finish, rq.pc_eq, Option.getD_some] at hv
          refine ⟨n, _, _, hn, hv, rfl, by simp, by simp [hu, declOf, hn, hpv], ?_, by
            intro h; simp only [Bool.and_eq_true, decide_eq_true_eq] at h; exact h.2⟩
          intro p
          by_cases hsh : nq'.shared = true
          · have hpcq := rq.shared hsh
            simp only [hsh, if_true]
            refine .child e q m (pcq p) _ hq (by simp [hu, declOf, hn, hpv]) (rq.inh p) ?_
            rw [hpcq]; exact hcomp p
          · simp only [if_neg hsh]
            refine .child e q m (pcq p) _ hq (by simp [hu, declOf, hn, hpv]) (rq.inh p) ?_
            by_cases hmi : m p = .inherit
            · simp only [hmi, if_true]; exact .inherit _ rfl
            · simp only [hmi, if_false]
              exact Computes_parent_irrel hmi (hmu p) (hs p) (hcomp p)
    induction ha with
    | child e he => exact hstep r e he (.child e he) (hroot r hr)
    | step p e hap he ih => exact hstep p e he (.step p e hap he) ih

/-- The state of a node at a frame boundary: consistent with the specification. -/
def Settled (s : Static P V) (f : Forest E) (w : World E P V) (e : E) : Prop :=
  ∃ n, w e = some n ∧ n.pending = none ∧
    ∀ p, Inherited s.unset s.initial f (declOf w) p e (n.computed p)

theorem frame_changed_settled (s : Static P V) (hs : ∀ p, s.unset p ≠ .unset) (o : Oracle E P) (f : Forest E)
    (wf : f.WF) (roots : List E) (ok : RootsOK f roots) (w : World E P V) (u : E → Option (P → PropertyValue V))
    (hw : ∀ e, Under f roots e → ∃ n, w e = some n ∧ (u e ≠ none ∨ (u e = none ∧ (Unstyled n ∨ Kept s f w e n)))) :
    ∀ e, Under f roots e → ∃ n, frame s o f roots u true w e = some n ∧ n.pending = none ∧
      n.propValues = (u e).or (declOf w e) ∧
      ∀ p, Inherited s.unset s.initial f (fun e => (u e).or (declOf w e)) p e (n.computed p) := by
  intro e he
  obtain ⟨n, n', pc, hn, hn', r⟩ := pass_main s hs o f wf roots ok w u hw e he
  have hfr : frame s o f roots u true w e
      = some { n' with computed := n'.pendingComputed.getD n'.computed, pendingComputed := none } := by
    simp [frame, applyComputed, hn']
  refine ⟨_, hfr, r.pending, r.props, ?_⟩
  intro p
  simp only [r.pc_eq, Option.getD_some]
  exact r.inh p

/-- `Inherited` only looks at the declarations of the element and its ancestors. -/
theorem Inherited_congr {s : Static P V} {f : Forest E} {d d' : E → Option (P → PropertyValue V)} {p : P} {e : E}
    {c : ComputedValue V} (h : Inherited s.unset s.initial f d p e c)
    (hd : ∀ x, (x = e ∨ f.Anc x e) → d' x = d x) : Inherited s.unset s.initial f d' p e c := by
  induction h with
  | unstyled e h => exact .unstyled e (by rw [hd e (Or.inl rfl)]; exact h)
  | root e m c hp hm hc => exact .root e m c hp (by rw [hd e (Or.inl rfl)]; exact hm) hc
  | child e q m cq c hp hm hq hc ih =>
    refine .child e q m cq c hp (by rw [hd e (Or.inl rfl)]; exact hm) (ih ?_) hc
    intro x hx
    apply hd x
    right
    rcases hx with rfl | hx
    · exact .child e hp
    · exact .step q e hx hp

/-- The specification determines the value. -/
theorem Computes_unique {u : PropertyValue V} {i : V} {par : Option (ComputedValue V)} {pv : PropertyValue V}
    (hu : u ≠ .unset) {c c' : ComputedValue V} (h : Computes u i par pv c) (h' : Computes u i par pv c') : c = c' := by
  have a := (Flair.Props.C14_compute_spec pv u i par hu c).mpr h
  have b := (Flair.Props.C14_compute_spec pv u i par hu c').mpr h'
  rw [a] at b; exact Option.some.inj b

theorem Inherited_unique {s : Static P V} (hs : ∀ p, s.unset p ≠ .unset) {f : Forest E}
    {d : E → Option (P → PropertyValue V)} {p : P} {e : E} {c c' : ComputedValue V}
    (h : Inherited s.unset s.initial f d p e c) (h' : Inherited s.unset s.initial f d p e c') : c = c' := by
  induction h generalizing c' with
  | unstyled e h =>
    cases h' with
    | unstyled _ _ => rfl
    | root _ m _ _ hm => rw [h] at hm; cases hm
    | child _ _ m _ _ _ hm => rw [h] at hm; cases hm
  | root e m c hp hm hc =>
    cases h' with
    | unstyled _ h => rw [h] at hm; cases hm
    | root _ m' _ _ hm' hc' => rw [hm] at hm'; cases hm'; exact Computes_unique (hs p) hc hc'
    | child _ _ m' _ _ hp' => rw [hp] at hp'; cases hp'
  | child e q m cq c hp hm hq hc ih =>
    cases h' with
    | unstyled _ h => rw [h] at hm; cases hm
    | root _ m' _ hp' => rw [hp] at hp'; cases hp'
    | child _ q' m' cq' _ hp' hm' hq' hc' =>
      rw [hp] at hp'; cases hp'
      rw [hm] at hm'; cases hm'
      have := ih hq'
      subst this
      exact Computes_unique (hs p) hc hc'

theorem Under_parent {f : Forest E} {roots : List E} (ok : RootsOK f roots) {e q : E} (he : Under f roots e)
    (hq : f.parent e = some q) : Under f roots q := by
  obtain ⟨r, hr, rfl | ha⟩ := he
  · rw [ok.noParent r hr] at hq; cases hq
  · obtain ⟨p, hp, h⟩ := Anc_iff_parent.mp ha
    rw [hq] at hp; cases hp
    rcases h with rfl | h
    · exact ⟨q, hr, Or.inl rfl⟩
    · exact ⟨r, hr, Or.inr h⟩

theorem Under_anc {f : Forest E} {roots : List E} (ok : RootsOK f roots) {e x : E} (he : Under f roots e)
    (hx : f.Anc x e) : Under f roots x := by
  induction hx with
  | child e h => exact Under_parent ok he h
  | step p e _ h ih => exact ih (Under_parent ok he h)

end Flair.Inherit
