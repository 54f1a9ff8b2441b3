import Verif.Proofs.Tree
import Verif.Model.Vars
import Verif.Spec.Hierarchy
/-!
# C17 : descendant traversal, C06 : custom property inheritance

Specification used here: `Forest.Anc` ("is a strict ancestor of") and `NearestDef`.
-/
namespace Flair.Props
open Flair.Tree Flair.Spec Flair.Vars
variable {E : Type}

/-- C17.  In every well formed hierarchy, iterating the descendants of any entity with their parents
terminates, and what it yields is: exactly the pairs (parent of e, e) for `e` a strict descendant, no
entity twice, and each entity after its parent (or below the start). -/
theorem C17_descendants (f : Forest E) (wf : f.WF) (root : E) :
    ∃ n out, bfsCollect f n (bfsNew f root) = some out ∧
      (∀ p e, (p, e) ∈ out ↔ f.Anc root e ∧ f.parent e = some p) ∧
      (out.map Prod.snd).Nodup ∧
      (∀ l1 p e l2, out = l1 ++ (p, e) :: l2 → p = root ∨ p ∈ l1.map Prod.snd) := by
  obtain ⟨out, h1, h2⟩ := bfsCollect_inv wf root (f.nodes.length + 1) [] _ (bfsInv_new wf root) (by simp)
  simp only [List.nil_append] at h2
  refine ⟨_, out, h1, BfsInv_done_mem h2, by simpa using h2.nodup, h2.first⟩

/-- C17, the outcome does not depend on how many times the driver is willing to call `next`. -/
theorem C17_descendants_unique (f : Forest E) (root : E) (n m : Nat) (out out' : List (E × E))
    (h : bfsCollect f n (bfsNew f root) = some out) (h' : bfsCollect f m (bfsNew f root) = some out') :
    out = out' := by
  have h1 := bfsCollect_mono n (max n m) _ out (by omega) h
  have h2 := bfsCollect_mono m (max n m) _ out' (by omega) h'
  rw [h1] at h2; exact Option.some.inj h2

/-- C17, the ancestor iterator: exactly the strict ancestors, nearest first (each is the parent of the
one before, the first the parent of the entity), no repetition. -/
theorem C17_ancestors (f : Forest E) (wf : f.WF) (e : E) :
    (∀ a, a ∈ ancestors f e ↔ f.Anc a e) ∧ (ancestors f e).Nodup ∧
    (∀ l1 a l2, ancestors f e = l1 ++ a :: l2 → f.parent (l1.getLast?.getD e) = some a) ∧
    f.parent ((ancestors f e).getLast?.getD e) = none := by
  refine ⟨mem_ancestors wf e, ancestorsN_nodup wf _ e, ?_, ?_⟩
  · intro l1
    induction l1 generalizing e with
    | nil =>
      intro a l2 h
      rw [ancestors_eq wf] at h
      cases hp : f.parent e with
      | none => rw [hp] at h; simp at h
      | some p => rw [hp] at h; simp at h; simp [hp, h.1]
    | cons x l1 ih =>
      intro a l2 h
      rw [ancestors_eq wf] at h
      cases hp : f.parent e with
      | none => rw [hp] at h; simp at h
      | some p =>
        rw [hp] at h
        simp only [List.cons_append, List.cons.injEq] at h
        obtain ⟨rfl, h⟩ := h
        have := ih p a l2 h
        cases l1 with
        | nil => simpa using this
        | cons y l1 =>
          have hne : (y :: l1).getLast? = some ((y :: l1).getLast (by simp)) := List.getLast?_eq_some_getLast _
          have hne2 : (p :: y :: l1).getLast? = some ((y :: l1).getLast (by simp)) := by
            rw [List.getLast?_cons_cons]; exact hne
          rw [hne2]; rw [hne] at this; simpa using this
  · have key : ∀ (n : Nat) (e : E), (ancestorsN f n e).length < n →
        f.parent ((ancestorsN f n e).getLast?.getD e) = none := by
      intro n
      induction n with
      | zero => intro e h; simp [ancestorsN] at h
      | succ n ih =>
        intro e h
        unfold ancestorsN at h ⊢
        cases hp : f.parent e with
        | none => simpa using hp
        | some p =>
          simp only [hp] at h
          have := ih p (by simpa using h)
          simp only
          cases hl : ancestorsN f n p with
          | nil => rw [hl] at this; simpa using this
          | cons y l1 =>
            rw [List.getLast?_cons_cons]
            rw [hl] at this
            have hne : (y :: l1).getLast? = some ((y :: l1).getLast (by simp)) := List.getLast?_eq_some_getLast _
            rw [hne] at this ⊢; simpa using this
    exact key _ e (Nat.lt_succ_of_le (ancestors_length wf _ e))

/-- C06.  In every well formed hierarchy, for every assignment of variables to entities (entities may
lack the component), the lookup returns the nearest definition. -/
theorem C06_nearest_definition {Name V : Type} (f : Forest E) (wf : f.WF)
    (vars : E → Option (Name → Option V)) (e : E) (v : Name) :
    NearestDef f (fun e => (vars e).bind (fun m => m v)) e
      (getVarTokens vars (e :: ancestors f e) v) := by
  have key : ∀ (n : Nat) (e : E), (ancestorsN f n e).length < n →
      NearestDef f (fun e => (vars e).bind (fun m => m v)) e
        (getVarTokens vars (e :: ancestorsN f n e) v) := by
    intro n
    induction n with
    | zero => intro e h; simp [ancestorsN] at h
    | succ n ih =>
      intro e h
      unfold getVarTokens
      rw [List.findSome?_cons]
      cases hd : (vars e).bind (fun m => m v) with
      | some x => exact .own e x hd
      | none =>
        unfold ancestorsN at h ⊢
        cases hp : f.parent e with
        | none => exact .undefined e hd hp
        | some p =>
          simp only [hp] at h
          exact .inherited e p _ hd hp (ih p (by simpa using h))
  exact key _ e (Nat.lt_succ_of_le (ancestors_length wf _ e))

/-- C06, the specification is a function: an element sees at most one definition. -/
theorem C06_nearest_unique {V : Type} (f : Forest E) (defs : E → Option V) (e : E) (r r' : Option V)
    (h : NearestDef f defs e r) (h' : NearestDef f defs e r') : r = r' := by
  induction h with
  | own e v h =>
    cases h' with
    | own _ _ h2 => rw [h] at h2; cases h2; rfl
    | inherited _ _ _ h2 => rw [h] at h2; cases h2
    | undefined _ h2 => rw [h] at h2; cases h2
  | inherited e p r h hp _ ih =>
    cases h' with
    | own _ _ h2 => rw [h] at h2; cases h2
    | inherited _ _ _ _ hp2 h3 => rw [hp] at hp2; cases hp2; exact ih h3
    | undefined _ _ hp2 => rw [hp] at hp2; cases hp2
  | undefined e h hp =>
    cases h' with
    | own _ _ h2 => rw [h] at h2; cases h2
    | inherited _ _ _ _ hp2 => rw [hp] at hp2; cases hp2
    | undefined _ => rfl

/-! A concrete hierarchy: 0 has children 1, 2; 1 has child 3; 4 is alone. -/
private def exForest : Forest Nat where
  children e := if e = 0 then [1, 2] else if e = 1 then [3] else []
  parent e := if e = 1 ∨ e = 2 then some 0 else if e = 3 then some 1 else none
  nodes := [0, 1, 2, 3, 4]

private theorem exForest_anc_lt {a e : Nat} (h : exForest.Anc a e) : a < e := by
  have key : ∀ e a : Nat, exForest.parent e = some a → a < e := by
    intro e a h
    unfold exForest at h
    dsimp only at h
    split at h <;> (try split at h) <;> simp_all <;> omega
  induction h with
  | child e hp => exact key _ _ hp
  | step p e _ hp ih => exact Nat.lt_trans ih (key _ _ hp)

/-- The example hierarchy meets the hypothesis of the theorems of this file. -/
private theorem exForest_wf : exForest.WF where
  mem_iff p c := by
    simp only [exForest]
    by_cases h0 : p = 0
    · subst h0
      by_cases hc : c = 1 ∨ c = 2
      · simp [hc]
      · by_cases h3 : c = 3 <;> simp [hc, h3]
    · by_cases h1 : p = 1
      · subst h1; simp
        constructor
        · rintro rfl; simp
        · intro h; by_contra hc; split at h <;> simp_all
      · simp only [h0, h1, if_false]; split <;> (try split) <;> simp_all <;> omega
  nodup p := by simp only [exForest]; split <;> (try split) <;> simp
  parent_mem p c h := by simp only [exForest] at h ⊢; split at h <;> (try split at h) <;> simp_all <;> omega
  acyclic e h := Nat.lt_irrefl e (exForest_anc_lt h)

example : exForest.WF ∧ bfsCollect exForest 10 (bfsNew exForest 0) = some [(0, 1), (0, 2), (1, 3)] ∧
    ancestors exForest 3 = [1, 0] ∧
    getVarTokens (fun e => if e = 0 then some (fun v => if v = "x" then some 7 else none) else none)
      (3 :: ancestors exForest 3) "x" = some 7 :=
  ⟨exForest_wf, by decide, by decide, by decide⟩

end Flair.Props
