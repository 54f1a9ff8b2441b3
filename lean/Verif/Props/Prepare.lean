import Verif.Proofs.Prepare
/-!
# C19 : effective style sheets, C20 : siblings, C21 : pseudo elements
-/
namespace Flair.Props
open Flair.Tree Flair.Spec Flair.Prepare
variable {E A : Type} [DecidableEq E] [DecidableEq A]

/-! ## C19 -/

/-- C19, partial.  After every pass, in every history, the stored effective sheet of every entity is the
one of the nearest ancestor-or-self that specifies one.  Missing (the full property is false, see
`C19_stale_after_move`): entities that are moved in the hierarchy while their sheet component is not
touched, and entities that gain or lose the component while they have children. -/
theorem C19_effective_sheet_partial (w : World E A) (eff : E → Option A) (h : SheetRun MoveMarked w eff)
    (e : E) (he : w.sheets e ≠ none) (r : Option A) :
    EffectiveIs w.forest w.sheets e r ↔ eff e = r := by
  have := sheetRun_ok h e he
  exact ⟨fun hr => EffectiveIs_unique this hr, fun hr => hr ▸ this⟩

/-- Every entity has a sheet that applies to it. -/
theorem C19_effective_exists (f : Forest E) (wf : f.WF) (sheets : E → Option (NodeSheet A)) (e : E) :
    ∃ r, EffectiveIs f sheets e r := ⟨_, effAll_is wf sheets e⟩

private def moveForest (p : Nat) : Forest Nat where
  children e := if e = p then [1] else []
  parent e := if e = 1 then some p else none
  nodes := [0, 1, 2]

private theorem moveForest_wf (p : Nat) (hp : p = 0 ∨ p = 2) : (moveForest p).WF where
  mem_iff q c := by
    simp only [moveForest]
    by_cases h1 : q = p <;> by_cases h2 : c = 1 <;> simp [h1, h2]
    exact fun h => h1 h.symm
  nodup q := by simp only [moveForest]; split <;> simp
  parent_mem q c := by
    simp only [moveForest]
    split
    · rename_i h; subst h; intro hh; cases hh; rcases hp with rfl | rfl <;> simp
    · simp
  acyclic e := by
    have : ∀ a e, (moveForest p).Anc a e → a = p ∧ e = 1 := by
      intro a e h
      induction h with
      | child e h => simp only [moveForest] at h; split at h <;> simp_all
      | step q e _ h ih => simp only [moveForest] at h; split at h <;> simp_all
    intro h
    have := this e e h
    omega

/-- Entities 0 and 2 have the sheets 10 and 20, entity 1 inherits. -/
private def moveSheets (e : Nat) : Option (NodeSheet Nat) :=
  if e = 0 then some (.sheet 10) else if e = 1 then some .inherited else if e = 2 then some (.sheet 20) else none

/-- C19 is false: the entity 1, a child of 0, is given the parent 2 (no sheet component is touched);
after the pass it still has the sheet of 0, although the one of 2 applies. -/
theorem C19_stale_after_move : ∃ (w : World Nat Nat) (eff : Nat → Option Nat) (e : Nat),
    SheetRun (fun _ _ _ => True) w eff ∧ w.sheets e ≠ none ∧
    EffectiveIs w.forest w.sheets e (some 20) ∧ eff e = some 10 := by
  have r1 : SheetRun (fun _ _ _ => True) (⟨moveForest 0, moveSheets⟩ : World Nat Nat) _ :=
    .frame (w := ⟨moveForest 0, fun _ => none⟩) (eff := fun _ => none) _ (fun _ => none) [0, 1, 2] id
      (.start _ _ fun _ => rfl) (moveForest_wf 0 (Or.inl rfl)) (by
        intro e h1 h2
        simp only [List.mem_cons, List.not_mem_nil, or_false, not_or] at h2
        simp [moveSheets, h2] at h1) trivial (fun _ => .refl _) (by simp)
  have r2 : SheetRun (fun _ _ _ => True) (⟨moveForest 2, moveSheets⟩ : World Nat Nat) _ :=
    .frame _ _ [] id r1 (moveForest_wf 2 (Or.inr rfl)) (by intro e _ _; rfl) trivial
      (fun _ => .refl _) (fun _ _ _ => rfl)
  refine ⟨_, _, 1, r2, by simp [moveSheets], ?_, by decide⟩
  exact .inherit 1 2 _ (Or.inl rfl) rfl (.sheet 2 20 rfl)

/-- The partial theorem on a concrete history: 1 inherits from 0, then is moved to 2 and reported. -/
example : ∃ eff, SheetRun MoveMarked (⟨moveForest 2, moveSheets⟩ : World Nat Nat) eff ∧
    eff 1 = some 20 := by
  have r1 : SheetRun MoveMarked (⟨moveForest 0, moveSheets⟩ : World Nat Nat) _ :=
    .frame (w := ⟨moveForest 2, fun _ => none⟩) (eff := fun _ => none) _ (fun _ => none) [0, 1, 2] id
      (.start _ _ fun _ => rfl) (moveForest_wf 0 (Or.inl rfl)) (by
        intro e h1 h2
        simp only [List.mem_cons, List.not_mem_nil, or_false, not_or] at h2
        simp [moveSheets, h2] at h1)
      (by
        refine ⟨?_, ?_⟩
        · intro e h1 h2
          simp only [List.mem_cons, List.not_mem_nil, or_false, not_or] at h2
          simp [moveSheets, h2] at h1
        · intro e c h1 h2
          simp only [moveForest] at h1 h2
          split at h1 <;> simp_all
          omega)
      (fun _ => .refl _) (by simp)
  have r2 : SheetRun MoveMarked (⟨moveForest 2, moveSheets⟩ : World Nat Nat) _ :=
    .frame _ _ [1] id r1 (moveForest_wf 2 (Or.inr rfl)) (by intro e _ _; rfl)
      (by
        refine ⟨?_, ?_⟩
        · intro e _ h2
          have : e ≠ 1 := by simpa using h2
          simp [moveForest, this]
        · intro e c h1 h2
          simp only [moveForest] at h1 h2
          split at h1 <;> simp_all)
      (fun _ => .refl _) (fun _ _ _ => rfl)
  refine ⟨_, r2, ?_⟩
  refine (C19_effective_sheet_partial _ _ r2 1 (by simp [moveSheets]) _).mp ?_
  exact .inherit 1 2 _ (Or.inl rfl) rfl (.sheet 2 20 rfl)

/-! ## C20 -/

/-- C20 for the entities with a parent, in every history: the system does not crash, and the stored
siblings of every such entity are its neighbours. -/
theorem C20_neighbours (f : Forest E) (r : Option (E → Option (Siblings E)))
    (h : SiblingRun AnyEdit f r) :
    ∃ sib, r = some sib ∧ ∀ e p s, f.parent e = some p → sib e = some s → Neighbours f e s :=
  siblingRun_ok h

/-- C20, partial: for all entities, in histories in which no entity loses its parent.  Missing (false,
see `C20_orphan_stale`): entities that had a parent and have none any more. -/
theorem C20_siblings_partial (f : Forest E) (r : Option (E → Option (Siblings E)))
    (h : SiblingRun NoOrphan f r) :
    ∃ sib, r = some sib ∧ ∀ e s, sib e = some s → Neighbours f e s := by
  obtain ⟨sib, hr, hs⟩ := siblingRun_ok h
  refine ⟨sib, hr, fun e s hes => ?_⟩
  cases hp : f.parent e with
  | some p => exact hs e p s hp hes
  | none =>
    have := siblingRun_orphan h sib hr e s hp hes
    subst this
    exact ⟨fun _ => ⟨rfl, rfl⟩, fun p l1 l2 hp' => by rw [hp] at hp'; cases hp'⟩

/-- 0 has the children 1 and 2 -/
private def twoForest : Forest Nat where
  children e := if e = 0 then [1, 2] else []
  parent e := if e = 1 ∨ e = 2 then some 0 else none
  nodes := [0, 1, 2]

private theorem twoForest_wf : twoForest.WF where
  mem_iff q c := by
    simp only [twoForest]
    by_cases h1 : q = 0
    · simp [h1]; omega
    · simp only [h1, if_false, List.not_mem_nil, false_iff]
      split
      · simpa using fun h => h1 h.symm
      · simp
  nodup q := by simp only [twoForest]; split <;> simp
  parent_mem q c := by simp only [twoForest]; split <;> simp; omega
  acyclic e := by
    have : ∀ a e, twoForest.Anc a e → a = 0 ∧ (e = 1 ∨ e = 2) := by
      intro a e h
      induction h with
      | child e h => simp only [twoForest] at h; split at h <;> simp_all
      | step q e _ h ih => simp only [twoForest] at h; split at h <;> simp_all
    intro h
    have := this e e h
    omega

private theorem two_run {keep} (hk : ∀ s, keep (moveForest 0) twoForest s) :
    SiblingRun keep twoForest (syncSiblings twoForest (fun _ => true) (fun p => p = 0) [0, 1, 2] [0]
      (fun e => if e ≤ 2 then some .default else none)) :=
  .frame (f := moveForest 0) _ _ _ _ _ _ (.start _ (moveForest_wf 0 (Or.inl rfl))) twoForest_wf (hk _)
    (by intro p h1 _; by_contra h; simp [twoForest] at h h1; omega)
    (by intro e h; simp at h ⊢; omega)
    (by intro e _; by_cases h : e ≤ 2 <;> simp [h]) (by simp)

/-- C20 is false: entity 2, the last child of 0, loses its parent; after the pass it still has entity 1
as its previous sibling. -/
theorem C20_orphan_stale : ∃ (f : Forest Nat) (sib : Nat → Option (Siblings Nat)) (e : Nat)
    (s : Siblings Nat), SiblingRun AnyEdit f (some sib) ∧ sib e = some s ∧ ¬ Neighbours f e s := by
  obtain ⟨sib, hsib⟩ : ∃ sib, syncSiblings twoForest (fun _ => true) (fun p => p = 0) [0, 1, 2] [0]
      (fun e => if e ≤ 2 then some .default else none) = some sib := ⟨_, rfl⟩
  have r1 : SiblingRun AnyEdit twoForest (some sib) := hsib ▸ two_run fun _ => trivial
  have h2 : sib 2 = some ⟨none, some 1⟩ := by cases hsib; decide
  obtain ⟨sib', hsib', hsame⟩ := syncSiblings_ok (moveForest_wf 0 (Or.inl rfl)) (fun _ => false)
    (fun p => p = 0) [0, 1, 2] [0] sib
  have hn : ∀ e, sib e ≠ none → e ∈ [0, 1, 2] := by
    cases hsib
    intro e h
    by_contra hc
    simp only [List.mem_cons, List.not_mem_nil, or_false, not_or] at hc
    obtain ⟨c0, c1, c2⟩ := hc
    apply h
    show (if e = 2 then _ else if e = 1 then _ else _) = none
    rw [if_neg c2, if_neg c1]
    show (if e = 2 then _ else if e = 1 then _ else _) = none
    rw [if_neg c2, if_neg c1]
    simp; omega
  have r2 := SiblingRun.frame (keep := AnyEdit) (moveForest 0) sib (fun _ => false) (fun p => p = 0)
    [0, 1, 2] [0] r1 (moveForest_wf 0 (Or.inl rfl)) trivial
    (by intro p h1 _; by_contra h; simp [moveForest] at h h1; omega) hn (by simp) (by simp)
  rw [hsib'] at r2
  refine ⟨_, sib', 2, ⟨none, some 1⟩, r2, ?_, ?_⟩
  · rcases hsame 2 with h | h
    · rw [h.1]; exact h2
    · obtain ⟨⟨p, hp⟩, _⟩ := h; simp [moveForest] at hp
  · intro h
    have := (h.1 rfl).1
    simp at this

/-- The theorems of C20 apply to a history with two siblings. -/
example : ∃ sib : Nat → Option (Siblings Nat), SiblingRun NoOrphan twoForest (some sib) ∧
    sib 1 = some ⟨some 2, none⟩ :=
  ⟨_, two_run (by intro s e _; simp only [moveForest, twoForest]; split <;> simp_all), by decide⟩

/-! ## C21 -/

/-- C21.  The children after sorting are a rearrangement of the children before; a `::before` child (if
only one) comes first, an `::after` child (if only one) last; the other children keep their order;
sorting again changes nothing (if there is at most one `::after`). -/
theorem C21_pseudo_elements (pseudo : E → Option Pseudo) (children : List E) (hnd : children.Nodup) :
    (sortPseudo pseudo children).Perm children ∧
    (∀ b ∈ children, pseudo b = some .before → (∀ c ∈ children, pseudo c = some .before → c = b) →
      (sortPseudo pseudo children).head? = some b) ∧
    (∀ a ∈ children, pseudo a = some .after → (∀ c ∈ children, pseudo c = some .after → c = a) →
      (sortPseudo pseudo children).getLast? = some a) ∧
    (sortPseudo pseudo children).filter (fun c => pseudo c = none) =
      children.filter (fun c => pseudo c = none) ∧
    ((∀ a ∈ children, ∀ c ∈ children, pseudo a = some .after → pseudo c = some .after → c = a) →
      sortPseudo pseudo (sortPseudo pseudo children) = sortPseudo pseudo children) := by
  have hperm : (sortPseudo pseudo children).Perm children := by
    unfold sortPseudo
    simp only
    split
    · exact .refl _
    · exact List.mergeSort_perm _ _
  have hfind : ∀ k, ∀ b ∈ children, pseudo b = some k → (∀ c ∈ children, pseudo c = some k → c = b) →
      (children.find? fun c => pseudo c = some k) = some b := by
    intro k b hb hk hu
    cases h : children.find? fun c => pseudo c = some k with
    | none =>
      rw [List.find?_eq_none] at h
      exact absurd hk (by simpa using h b hb)
    | some c => rw [hu c (List.mem_of_find?_eq_some h) (by simpa using List.find?_some h)]
  refine ⟨hperm, ?_, ?_, ?_, ?_⟩
  · intro b hb hk hu
    rw [sortPseudo_eq _ _ hnd, hfind _ b hb hk hu]
    simp
  · intro a ha hk hu
    rw [sortPseudo_eq _ _ hnd, hfind _ a ha hk hu]
    simp
  · rw [sortPseudo_eq _ _ hnd]
    have h1 : ∀ k, (children.find? fun c => pseudo c = some k).toList.filter (fun c => pseudo c = none) = [] := by
      intro k
      cases h : children.find? fun c => pseudo c = some k with
      | none => rfl
      | some c =>
        have := List.find?_some h
        simp only [decide_eq_true_eq] at this
        simp [this]
    rw [List.filter_append, List.filter_append, h1, h1, List.filter_filter]
    simp only [List.nil_append, List.append_nil]
    apply List.filter_congr
    intro c _
    by_cases hc : pseudo c = none
    · have h2 : ∀ k, (children.find? fun c => pseudo c = some k) ≠ some c := by
        intro k h
        have := List.find?_some h
        simp [hc] at this
      simp [hc, h2]
    · simp [hc]
  · intro huniq
    have hnd' : (sortPseudo pseudo children).Nodup := hperm.nodup_iff.mpr hnd
    have heq := sortPseudo_eq pseudo children hnd
    have heq2 := sortPseudo_eq pseudo _ hnd'
    have hmem : ∀ c, c ∈ sortPseudo pseudo children ↔ c ∈ children := fun c => hperm.mem_iff
    have hb : ((sortPseudo pseudo children).find? fun c => pseudo c = some .before) =
        (children.find? fun c => pseudo c = some .before) := by
      cases h : children.find? fun c => pseudo c = some .before with
      | none =>
        rw [List.find?_eq_none] at h ⊢
        exact fun x hx => h x ((hmem x).mp hx)
      | some b =>
        rw [heq, h]
        have := List.find?_some h
        simp only [decide_eq_true_eq] at this
        simp [this]
    have ha : ((sortPseudo pseudo children).find? fun c => pseudo c = some .after) =
        (children.find? fun c => pseudo c = some .after) := by
      cases h : (sortPseudo pseudo children).find? fun c => pseudo c = some .after with
      | none =>
        rw [eq_comm, List.find?_eq_none]
        rw [List.find?_eq_none] at h
        exact fun x hx => h x ((hmem x).mpr hx)
      | some a =>
        have h1 := List.find?_some h
        simp only [decide_eq_true_eq] at h1
        have h2 := (hmem a).mp (List.mem_of_find?_eq_some h)
        exact (hfind _ a h2 h1 (fun c hc hk => huniq a h2 c hc h1 hk)).symm
    rw [hb, ha] at heq2
    rw [heq2]
    conv => rhs; rw [heq]
    congr 1
    congr 1
    rw [heq, List.filter_append, List.filter_append, List.filter_filter]
    simp only [Bool.and_self]
    have e1 : ∀ (o o' : Option E), o.toList.filter (fun c => decide (o ≠ some c ∧ o' ≠ some c)) = [] := by
      intro o o'; cases o <;> simp
    have e2 : ∀ (o o' : Option E), o.toList.filter (fun c => decide (o' ≠ some c ∧ o ≠ some c)) = [] := by
      intro o o'; cases o <;> simp
    rw [e1, e2]
    simp

/-- C21 on a list with both pseudo elements in the wrong places. -/
example : let pseudo : Nat → Option Pseudo := fun c => if c = 7 then some .before else if c = 8 then some .after else none
    (sortPseudo pseudo [8, 1, 7, 2]).head? = some 7 ∧ (sortPseudo pseudo [8, 1, 7, 2]).getLast? = some 8 := by
  intro pseudo
  obtain ⟨_, h1, h2, _⟩ := C21_pseudo_elements pseudo [8, 1, 7, 2] (by decide)
  exact ⟨h1 7 (by decide) (by decide) (by decide), h2 8 (by decide) (by decide) (by decide)⟩

end Flair.Props
