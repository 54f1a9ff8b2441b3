import Verif.Spec.Keyframes
import Verif.Proofs.SortStable
import Verif.Proofs.Curve
import Verif.Tactics
import Mathlib.Data.List.Pairwise
import Mathlib.Tactic.Linarith
import Mathlib.Tactic.Ring
import Mathlib.Tactic.FieldSimp
import Mathlib.Tactic.NormNum
/-! # Theorems about `@keyframes` (C34, C35, C36) -/
namespace Flair.Props
open Flair.Keyframes Flair.Spec Flair.Proofs.Curve
variable {D E P V S : Type}

/-! ## C34 -/

private theorem timeEq_iff {a b : ℚ} : timeEq a b = true ↔ SameTime a b := by
  unfold timeEq SameTime
  rw [abs_le]
  simp only [Bool.and_eq_true, decide_eq_true_eq]
  constructor <;> rintro ⟨h1, h2⟩ <;> constructor <;> linarith

/-- what the builder knows -/
private structure BInv (calls : List (Call D E)) (ks : List (KB D E)) : Prop where
  apart : ks.Pairwise fun a b => ¬ SameTime a.time b.time
  zero : ∃ k ∈ ks, k.time = 0
  one : ∃ k ∈ ks, k.time = 1
  times : ∀ k ∈ ks, IsTime calls k.time
  merged : ∀ k ∈ ks, ∃ cs : List (Call D E), cs.Sublist calls ∧ (∀ c ∈ cs, SameTime k.time c.time) ∧
    (calls.filter fun c => c.time = k.time).Sublist cs ∧
    k.props = cs.flatMap (·.props) ∧ k.easing = lastGiven (cs.map (·.easing))
  kept : ∀ c ∈ calls, ∃ k ∈ ks, SameTime k.time c.time ∧ c.props <:+: k.props

private theorem lastGiven_append (l : List (Option E)) (e : Option E) :
    lastGiven (l ++ [e]) = e.or (lastGiven l) := by
  unfold lastGiven
  cases e <;> simp

private theorem add_mem {ks : List (KB D E)} {c : Call D E} {k' : KB D E}
    (hp : ks.Pairwise fun a b => ¬ SameTime a.time b.time) (h : k' ∈ add ks c) :
    (k' ∈ ks ∧ c.time ≠ k'.time) ∨
    (∃ k ∈ ks, SameTime k.time c.time ∧
      k' = { k with props := k.props ++ c.props, easing := c.easing.or k.easing }) ∨
    ((∀ k ∈ ks, ¬ SameTime k.time c.time) ∧ k' = ⟨c.time, c.props, c.easing⟩) := by
  induction ks with
  | nil =>
    right; right
    simp [add] at h
    simpa using h
  | cons k ks ih =>
    obtain ⟨hp1, hp2⟩ := List.pairwise_cons.mp hp
    unfold add at h
    split at h
    · rename_i ht
      rcases List.mem_cons.mp h with h | h
      · right; left
        exact ⟨k, List.mem_cons_self, timeEq_iff.mp ht, h⟩
      · left
        refine ⟨List.mem_cons_of_mem _ h, fun he => hp1 k' h ?_⟩
        rw [← he]; exact timeEq_iff.mp ht
    · rename_i ht
      have ht : ¬ SameTime k.time c.time := fun h => ht (timeEq_iff.mpr h)
      rcases List.mem_cons.mp h with h | h
      · left; rw [h]
        refine ⟨List.mem_cons_self, fun he => ht ?_⟩
        rw [he]; unfold SameTime; norm_num
      · rcases ih hp2 h with ⟨h, h'⟩ | ⟨k2, h1, h2, h3⟩ | ⟨h1, h2⟩
        · left; exact ⟨List.mem_cons_of_mem _ h, h'⟩
        · right; left; exact ⟨k2, List.mem_cons_of_mem _ h1, h2, h3⟩
        · right; right
          refine ⟨?_, h2⟩
          intro x hx
          rcases List.mem_cons.mp hx with rfl | hx
          · exact ht
          · exact h1 x hx

private theorem add_old {ks : List (KB D E)} {c : Call D E} {k : KB D E} (h : k ∈ ks) :
    ∃ k' ∈ add ks c, k'.time = k.time ∧ k.props <:+: k'.props := by
  induction ks with
  | nil => simp at h
  | cons k0 ks ih =>
    unfold add
    rcases List.mem_cons.mp h with rfl | h
    · split
      · exact ⟨_, List.mem_cons_self, rfl, ⟨[], c.props, by simp⟩⟩
      · exact ⟨_, List.mem_cons_self, rfl, List.infix_refl _⟩
    · split
      · exact ⟨k, List.mem_cons_of_mem _ h, rfl, List.infix_refl _⟩
      · obtain ⟨k', h1, h2⟩ := ih h
        exact ⟨k', List.mem_cons_of_mem _ h1, h2⟩

private theorem add_self (ks : List (KB D E)) (c : Call D E) :
    ∃ k' ∈ add ks c, SameTime k'.time c.time ∧ c.props <:+: k'.props := by
  induction ks with
  | nil => exact ⟨_, List.mem_cons_self, by unfold SameTime; norm_num, by simp⟩
  | cons k0 ks ih =>
    unfold add
    split
    · rename_i ht
      exact ⟨_, List.mem_cons_self, timeEq_iff.mp ht, ⟨k0.props, [], by simp⟩⟩
    · obtain ⟨k', h1, h2⟩ := ih
      exact ⟨k', List.mem_cons_of_mem _ h1, h2⟩

private theorem add_times (ks : List (KB D E)) (c : Call D E) :
    (add ks c).map (·.time) = ks.map (·.time) ∨
    ((∀ k ∈ ks, ¬ SameTime k.time c.time) ∧ (add ks c).map (·.time) = ks.map (·.time) ++ [c.time]) := by
  induction ks with
  | nil => right; simp [add]
  | cons k0 ks ih =>
    unfold add
    split
    · left; rfl
    · rename_i ht
      rcases ih with h | ⟨h1, h2⟩
      · left; simp [h]
      · right
        refine ⟨?_, by simp [h2]⟩
        intro k hk
        rcases List.mem_cons.mp hk with rfl | hk
        · exact fun h => ht (timeEq_iff.mpr h)
        · exact h1 k hk

private theorem add_inv {calls : List (Call D E)} {ks : List (KB D E)} (h : BInv calls ks) (c : Call D E) :
    BInv (calls ++ [c]) (add ks c) := by
  have hmono : ∀ t, IsTime calls t → IsTime (calls ++ [c]) t := by
    rintro t (h | h | ⟨x, hx, h⟩)
    · exact Or.inl h
    · exact Or.inr (Or.inl h)
    · exact Or.inr (Or.inr ⟨x, by simp [hx], h⟩)
  refine ⟨?_, ?_, ?_, ?_, ?_, ?_⟩
  · have h0 : (ks.map (·.time)).Pairwise fun a b => ¬ SameTime a b := List.pairwise_map.mpr h.apart
    refine (List.pairwise_map (f := fun k : KB D E => k.time) (R := fun a b => ¬ SameTime a b)).mp ?_
    rcases add_times ks c with ht | ⟨h1, ht⟩ <;> rw [ht]
    · exact h0
    · refine List.pairwise_append.mpr ⟨h0, by simp, ?_⟩
      intro a ha b hb
      obtain ⟨k, hk, rfl⟩ := List.mem_map.mp ha
      rw [List.mem_singleton.mp hb]
      exact h1 k hk
  · obtain ⟨k, hk, ht⟩ := h.zero
    obtain ⟨k', h1, h2, _⟩ := add_old (c := c) hk
    exact ⟨k', h1, h2.trans ht⟩
  · obtain ⟨k, hk, ht⟩ := h.one
    obtain ⟨k', h1, h2, _⟩ := add_old (c := c) hk
    exact ⟨k', h1, h2.trans ht⟩
  · intro k hk
    rcases add_mem h.apart hk with ⟨hk, _⟩ | ⟨k0, hk0, _, rfl⟩ | ⟨_, rfl⟩
    · exact hmono _ (h.times k hk)
    · exact hmono _ (h.times k0 hk0)
    · exact Or.inr (Or.inr ⟨c, by simp, rfl⟩)
  · intro k hk
    rcases add_mem h.apart hk with ⟨hk, hne⟩ | ⟨k0, hk0, hs, rfl⟩ | ⟨hno, rfl⟩
    · obtain ⟨cs, h1, h2, h3, h4⟩ := h.merged k hk
      refine ⟨cs, h1.trans (List.sublist_append_left _ _), h2, ?_, h4⟩
      rw [List.filter_append]
      simpa [hne] using h3
    · obtain ⟨cs, h1, h2, h3, h4, h5⟩ := h.merged k0 hk0
      refine ⟨cs ++ [c], h1.append (List.Sublist.refl _), ?_, ?_, ?_, ?_⟩
      · intro x hx
        rcases List.mem_append.mp hx with hx | hx
        · exact h2 x hx
        · rw [List.mem_singleton.mp hx]; exact hs
      · rw [List.filter_append]
        exact h3.append List.filter_sublist
      · simp [h4]
      · simp only [List.map_append, List.map_cons, List.map_nil, lastGiven_append, h5]
    · refine ⟨[c], List.sublist_append_right _ _, ?_, ?_, by simp, ?_⟩
      · intro x hx
        rw [List.mem_singleton.mp hx]; unfold SameTime; norm_num
      · rw [List.filter_append]
        have : (calls.filter fun x => x.time = c.time) = [] := by
          rw [List.filter_eq_nil_iff]
          intro x hx he
          obtain ⟨k, hk, h1, _⟩ := h.kept x hx
          simp only [decide_eq_true_eq] at he
          rw [he] at h1
          exact hno k hk h1
        simp only [this, List.nil_append]
        exact List.filter_sublist
      · change c.easing = lastGiven ([] ++ [c.easing])
        rw [lastGiven_append]; cases c.easing <;> rfl
  · intro x hx
    rcases List.mem_append.mp hx with hx | hx
    · obtain ⟨k, hk, h1, h2⟩ := h.kept x hx
      obtain ⟨k', h3, h4, h5⟩ := add_old (c := c) hk
      exact ⟨k', h3, by rw [h4]; exact h1, h2.trans h5⟩
    · rw [List.mem_singleton.mp hx]; exact add_self ks c

private theorem fold_inv (calls : List (Call D E)) : BInv calls (calls.foldl add new) := by
  induction calls using List.reverseRecOn with
  | nil =>
    refine ⟨?_, ⟨_, List.mem_cons_self, rfl⟩, ⟨_, List.mem_cons_of_mem _ List.mem_cons_self, rfl⟩, ?_, ?_, ?_⟩
    · simp [new, SameTime]
      norm_num
    · intro k hk
      simp [new] at hk
      rcases hk with rfl | rfl
      · exact Or.inl rfl
      · exact Or.inr (Or.inl rfl)
    · intro k hk
      simp [new] at hk
      rcases hk with rfl | rfl <;> exact ⟨[], by simp, by simp, by simp, rfl, rfl⟩
    · simp
  | append_singleton l c ih =>
    rw [List.foldl_append]
    exact add_inv ih c

private theorem mem_keyframes {calls : List (Call D E)} {k : KB D E} :
    k ∈ keyframes calls ↔ k ∈ calls.foldl add new ∧ 0 ≤ k.time ∧ k.time ≤ 1 := by
  unfold keyframes build
  rw [List.mem_mergeSort, List.mem_filter]
  simp

/-- The keyframes are in order, and more than 0.1% apart. -/
private theorem keyframes_sorted (calls : List (Call D E)) :
    (keyframes calls).Pairwise fun a b => a.time + 1 / 1000 < b.time := by
  have hs : (keyframes calls).Pairwise fun a b => a.time ≤ b.time := by
    have := List.pairwise_mergeSort (le := fun (a b : KB D E) => decide (a.time ≤ b.time))
      (by intro a b c h1 h2; simp at *; linarith) (by intro a b; simp; exact le_total _ _)
      ((calls.foldl add new).filter fun k => 0 ≤ k.time ∧ k.time ≤ 1)
    unfold keyframes build
    exact this.imp (by simp)
  have ha : (keyframes calls).Pairwise fun a b => ¬ SameTime a.time b.time := by
    have h1 := (fold_inv calls).apart.filter (fun k => decide (0 ≤ k.time ∧ k.time ≤ 1))
    unfold keyframes build
    refine (List.Perm.pairwise_iff ?_ (List.mergeSort_perm _ _)).mpr h1
    intro a b h h'
    apply h
    unfold SameTime at *
    rw [abs_sub_comm]; exact h'
  refine (hs.and ha).imp ?_
  rintro a b ⟨h1, h2⟩
  by_contra h
  apply h2
  unfold SameTime
  rw [abs_le]
  constructor <;> linarith

/-- **C34**: the keyframes are strictly sorted (and at least 0.1% apart), lie in [0,1], start at 0 and end
at 1. -/
theorem C34_normalised (calls : List (Call D E)) :
    ((keyframes calls).map (·.time)).Pairwise (fun a b => a + 1 / 1000 < b) ∧
    (∀ k ∈ keyframes calls, 0 ≤ k.time ∧ k.time ≤ 1) ∧
    (∃ k, (keyframes calls).head? = some k ∧ k.time = 0) ∧
    (∃ k, (keyframes calls).getLast? = some k ∧ k.time = 1) := by
  have hr : ∀ k ∈ keyframes calls, 0 ≤ k.time ∧ k.time ≤ 1 := fun k hk => (mem_keyframes.mp hk).2
  have hs := keyframes_sorted calls
  refine ⟨List.pairwise_map.mpr hs, hr, ?_, ?_⟩
  · obtain ⟨k, hk, h0⟩ := (fold_inv calls).zero
    have hk : k ∈ keyframes calls := mem_keyframes.mpr ⟨hk, by rw [h0]; norm_num⟩
    revert hr hs hk
    cases keyframes calls with
    | nil => simp
    | cons x l =>
      intro hr hs hk
      refine ⟨x, rfl, ?_⟩
      rcases List.mem_cons.mp hk with rfl | hk
      · exact h0
      · have := (List.pairwise_cons.mp hs).1 k hk
        have := (hr x List.mem_cons_self).1
        linarith
  · obtain ⟨k, hk, h0⟩ := (fold_inv calls).one
    have hk : k ∈ keyframes calls := mem_keyframes.mpr ⟨hk, by rw [h0]; norm_num⟩
    revert hr hs hk
    induction keyframes calls using List.reverseRecOn with
    | nil => simp
    | append_singleton l x _ =>
      intro hr hs hk
      refine ⟨x, by simp, ?_⟩
      rcases List.mem_append.mp hk with hk | hk
      · have := (List.pairwise_append.mp hs).2.2 k hk x (by simp)
        have := (hr x (by simp)).2
        linarith
      · rw [← List.mem_singleton.mp hk]; exact h0

/-- **C34**: every declaration for a percentage inside [0,1] is in the keyframe of this percentage, and
every keyframe has been declared (or is 0% or 100%). -/
theorem C34_declared (calls : List (Call D E)) :
    (∀ c ∈ calls, 0 ≤ c.time → c.time ≤ 1 →
      ∃ k ∈ keyframes calls, SameTime k.time c.time ∧ c.props <:+: k.props) ∧
    (∀ k ∈ keyframes calls, IsTime calls k.time) := by
  have hi := fold_inv calls
  constructor
  · intro c hc h0 h1
    obtain ⟨k, hk, hs, hp⟩ := hi.kept c hc
    refine ⟨k, mem_keyframes.mpr ⟨hk, ?_⟩, hs, hp⟩
    have : Std.Symm (fun a b : KB D E => ¬ SameTime a.time b.time) := ⟨by
      intro a b h h'
      apply h; unfold SameTime at *; rw [abs_sub_comm]; exact h'⟩
    obtain ⟨z, hz, hz0⟩ := hi.zero
    obtain ⟨o, ho, ho1⟩ := hi.one
    unfold SameTime at hs
    rw [abs_le] at hs
    constructor
    · by_contra hneg
      have hne : z ≠ k := fun he => by subst he; apply hneg; rw [hz0]
      apply hi.apart.forall hz hk hne
      unfold SameTime
      rw [hz0, abs_le]
      constructor <;> linarith
    · by_contra hneg
      have hne : o ≠ k := fun he => by subst he; apply hneg; rw [ho1]
      apply hi.apart.forall ho hk hne
      unfold SameTime
      rw [ho1, abs_le]
      constructor <;> linarith
  · intro k hk
    exact hi.times k (mem_keyframes.mp hk).1

/-- **C34**: a keyframe consists of the declarations for its percentage, in the order of the calls, and has the
last timing function given for it. -/
theorem C34_merged (calls : List (Call D E)) (k : KB D E) (hk : k ∈ keyframes calls) :
    ∃ cs : List (Call D E), cs.Sublist calls ∧ (∀ c ∈ cs, SameTime k.time c.time) ∧
      (calls.filter fun c => c.time = k.time).Sublist cs ∧
      k.props = cs.flatMap (·.props) ∧ k.easing = lastGiven (cs.map (·.easing)) :=
  (fold_inv calls).merged k (mem_keyframes.mp hk).1

/-- **C34**, when different percentages are more than 0.1% apart: there is a keyframe exactly for 0%, 100%
and the declared percentages in [0,1], and it has exactly what was declared for it, in order. -/
theorem C34_exact (calls : List (Call D E)) (hsep : Separated calls) :
    (∀ t, (∃ k ∈ keyframes calls, k.time = t) ↔ IsTime calls t ∧ 0 ≤ t ∧ t ≤ 1) ∧
    (∀ k ∈ keyframes calls, k.props = (calls.filter fun c => c.time = k.time).flatMap (·.props) ∧
      k.easing = lastGiven ((calls.filter fun c => c.time = k.time).map (·.easing))) := by
  have hi := fold_inv calls
  constructor
  · intro t
    constructor
    · rintro ⟨k, hk, rfl⟩
      exact ⟨(C34_declared calls).2 k hk, (mem_keyframes.mp hk).2⟩
    · rintro ⟨ht, h0, h1⟩
      have h := ht
      rcases ht with rfl | rfl | ⟨c, hc, rfl⟩
      · obtain ⟨k, hk, hk0⟩ := hi.zero
        exact ⟨k, mem_keyframes.mpr ⟨hk, by rw [hk0]; exact ⟨h0, h1⟩⟩, hk0⟩
      · obtain ⟨k, hk, hk0⟩ := hi.one
        exact ⟨k, mem_keyframes.mpr ⟨hk, by rw [hk0]; exact ⟨h0, h1⟩⟩, hk0⟩
      · obtain ⟨k, hk, hs, _⟩ := (C34_declared calls).1 c hc h0 h1
        exact ⟨k, hk, hsep _ _ ((C34_declared calls).2 k hk) h hs⟩
  · intro k hk
    obtain ⟨cs, h1, h2, h3, h4, h5⟩ := C34_merged calls k hk
    have he : cs = calls.filter fun c => c.time = k.time := by
      apply List.Sublist.antisymm _ h3
      have : cs.filter (fun c => c.time = k.time) = cs := by
        rw [List.filter_eq_self]
        intro c hc
        simp only [decide_eq_true_eq]
        exact (hsep _ _ ((C34_declared calls).2 k hk) (Or.inr (Or.inr ⟨c, h1.subset hc, rfl⟩)) (h2 c hc)).symm
      rw [← this]
      exact h1.filter _
    rw [← he]
    exact ⟨h4, h5⟩

private theorem filter_item (t : ℚ) (times : List ℚ) (hn : times.Nodup) (g : ℚ → Call D E)
    (hg : ∀ x, (g x).time = x) :
    (times.map g).filter (fun c => c.time = t) = if t ∈ times then [g t] else [] := by
  induction times with
  | nil => rfl
  | cons x l ih =>
    obtain ⟨h1, h2⟩ := List.nodup_cons.mp hn
    rw [List.map_cons, List.filter_cons, ih h2]
    by_cases hx : x = t
    · subst hx
      simp [hg, h1]
    · simp [hg, hx, Ne.symm hx]

private theorem filter_block {X : Type} (t : ℚ) (g : Call D E → List X) (h : Item D E → List X)
    (hgh : ∀ it, g (callOf it t) = h it) (rules : List (List ℚ × List (Item D E)))
    (hn : ∀ r ∈ rules, r.1.Nodup) :
    ((callsOf rules).filter fun c => c.time = t).flatMap g =
      (rules.filter fun r => t ∈ r.1).flatMap fun r => r.2.flatMap h := by
  unfold callsOf
  induction rules with
  | nil => rfl
  | cons r rules ih =>
    rw [List.flatMap_cons, List.filter_append, List.flatMap_append, ih fun x hx => hn x (List.mem_cons_of_mem _ hx),
      List.filter_cons]
    have hr := hn r List.mem_cons_self
    have : ((r.2.flatMap fun it => r.1.map (callOf it)).filter fun c => c.time = t).flatMap g =
        if t ∈ r.1 then r.2.flatMap h else [] := by
      induction r.2 with
      | nil => simp
      | cons it l ih2 =>
        rw [List.flatMap_cons, List.filter_append, List.flatMap_append, ih2]
        have hi := filter_item t r.1 hr (callOf it) (by intro x; cases it <;> rfl)
        rw [hi]
        by_cases ht : t ∈ r.1
        · simp only [ht, if_true, List.flatMap_cons, List.flatMap_nil, List.append_nil, hgh]
        · simp [ht]
    by_cases ht : t ∈ r.1
    · simp only [ht, decide_true, if_true, List.flatMap_cons]
      rw [if_pos ht] at this
      rw [this]
    · simp only [ht, decide_false, Bool.false_eq_true, if_false]
      rw [if_neg ht] at this
      rw [this, List.nil_append]

/-- **C34** for an `@keyframes` block: a keyframe has the declarations of the rules that list its percentage,
in the order of the block, and the easing that the last of them with one gives. -/
theorem C34_block (rules : List (List ℚ × List (Item D E))) (hsep : Separated (callsOf rules))
    (hn : ∀ r ∈ rules, r.1.Nodup) (k : KB D E) (hk : k ∈ keyframes (callsOf rules)) :
    (k.props = (rules.filter fun r => k.time ∈ r.1).flatMap fun r => r.2.flatMap itemProps) ∧
    k.easing = lastGiven ((rules.filter fun r => k.time ∈ r.1).flatMap fun r => r.2.map itemEasing) := by
  obtain ⟨h1, h2⟩ := (C34_exact _ hsep).2 k hk
  constructor
  · rw [h1]
    exact filter_block k.time (·.props) itemProps (by intro it; cases it <;> rfl) rules hn
  · rw [h2]
    congr 1
    have := filter_block k.time (fun c => [c.easing]) (fun it => [itemEasing it]) (by intro it; cases it <;> rfl) rules hn
    simpa only [← List.map_eq_flatMap] using this

/-- a case: a block with 50%, twice, 100% and (out of range) 150% -/
private def exCalls : List (Call Nat Nat) :=
  [⟨1/2, [1], some 7⟩, ⟨1, [2], none⟩, ⟨3/2, [3], none⟩, ⟨1/2, [4], none⟩]

example : (keyframes exCalls).map (fun k => (k.time, k.props, k.easing)) =
    [(0, [], none), (1/2, [1, 4], some 7), (1, [2], none)] := by
  have h : exCalls.foldl add new = [⟨0, [], none⟩, ⟨1, [2], none⟩, ⟨1/2, [1, 4], some 7⟩, ⟨3/2, [3], none⟩] := by
    norm_num [exCalls, add, new, timeEq]
  unfold keyframes
  rw [h]
  norm_num [build, List.filter, List.mergeSort, List.merge, List.MergeSort.Internal.splitInTwo]

example : Separated exCalls := by
  have h : ∀ t, IsTime exCalls t → t = 0 ∨ t = 1/2 ∨ t = 1 ∨ t = 3/2 := by
    rintro t (h | h | ⟨c, hc, rfl⟩)
    · exact Or.inl h
    · exact Or.inr (Or.inr (Or.inl h))
    · simp [exCalls] at hc
      rcases hc with rfl | rfl | rfl | rfl <;> simp
  intro a b ha hb hs
  unfold SameTime at hs
  rw [abs_le] at hs
  rcases h a ha with rfl | rfl | rfl | rfl <;> rcases h b hb with rfl | rfl | rfl | rfl <;>
    first | rfl | (exfalso; norm_num at hs)

/-! ## C35 -/

private theorem nextEntry_some {l : List (ℚ × Cell V)} {x : ℚ × Option V} (h : nextEntry l = some x) :
    ∃ q : Nat, l[q]? = some (x.1, some x.2) ∧ ∀ (j : Nat) t c, j < q → l[j]? = some (t, c) → c = none := by
  induction l with
  | nil => simp [nextEntry] at h
  | cons y l ih =>
    obtain ⟨t, c⟩ := y
    cases c with
    | some v =>
      simp [nextEntry] at h
      subst h
      exact ⟨0, rfl, by simp⟩
    | none =>
      obtain ⟨q, h1, h2⟩ := ih h
      refine ⟨q + 1, h1, ?_⟩
      intro j t' c hj hl
      cases j with
      | zero => simp at hl; exact hl.2.symm
      | succ j => exact h2 j t' c (by omega) (by simpa using hl)

private theorem nextEntry_of_last {l : List (ℚ × Cell V)} {x : ℚ × Cell V} (h : l.getLast? = some x)
    (hx : x.2.isSome) : (nextEntry l).isSome := by
  induction l with
  | nil => simp at h
  | cons y l ih =>
    obtain ⟨t, c⟩ := y
    cases c with
    | some v => rfl
    | none =>
      cases l with
      | nil => simp at h; subst h; simp at hx
      | cons z l => exact ih (by simpa using h)

private theorem fillMid_some (interp : Option (V → V → ℚ → V)) (l : List (ℚ × Cell V))
    (h : ∀ x, l.getLast? = some x → x.2.isSome) (prev : ℚ × Option V) :
    ∃ r, fillMid interp prev l = some r := by
  induction l generalizing prev with
  | nil => exact ⟨[], rfl⟩
  | cons y l ih =>
    obtain ⟨t, c⟩ := y
    have hl : ∀ x, l.getLast? = some x → x.2.isSome := by
      intro x hx
      apply h
      cases l with
      | nil => simp at hx
      | cons z l => simpa using hx
    cases c with
    | some v =>
      obtain ⟨r, hr⟩ := ih hl (t, v)
      exact ⟨_, by simp [fillMid, hr]; rfl⟩
    | none =>
      have : (nextEntry l).isSome := by
        cases l with
        | nil => have := h (t, none) rfl; simp at this
        | cons z l =>
          obtain ⟨x, hx⟩ : ∃ x, (z :: l).getLast? = some x := ⟨_, List.getLast?_eq_some_getLast (by simp)⟩
          exact nextEntry_of_last hx (hl x hx)
      obtain ⟨nx, hnx⟩ := Option.isSome_iff_exists.mp this
      obtain ⟨r, hr⟩ := ih hl (t, interpolateValue interp prev.1 prev.2 nx.1 nx.2 t)
      exact ⟨_, by simp [fillMid, hnx, hr]; rfl⟩

private theorem allValues_map {r : List (ℚ × Option V)} {out : List (ℚ × V)} (h : allValues r = some out) :
    r = out.map fun x => (x.1, some x.2) := by
  induction r generalizing out with
  | nil => simp [allValues] at h; subst h; rfl
  | cons x r ih =>
    obtain ⟨t, c⟩ := x
    cases c with
    | none => simp [allValues] at h
    | some v =>
      simp only [allValues, Option.map_eq_some_iff] at h
      obtain ⟨o, h1, rfl⟩ := h
      rw [ih h1]; rfl

/-- where the previous keyframe `(tp, vp)` stands: it is the anchor `A`, or on the way from it to the next
entry -/
private def OnWay (f : V → V → ℚ → V) (A : ℚ × V) (tp : ℚ) (vp : V) (l : List (ℚ × Cell V)) : Prop :=
  (tp = A.1 ∧ vp = A.2) ∨ ∃ tn b, nextEntry l = some (tn, some b) ∧ A.1 < tp ∧ tp < tn ∧
    vp = f A.2 b ((tp - A.1) / (tn - A.1))

private theorem way_step {f : V → V → ℚ → V} (hf : Straight f) {A : ℚ × V} {tp : ℚ} {vp b : V} {tn t : ℚ}
    (h : (tp = A.1 ∧ vp = A.2) ∨ (A.1 < tp ∧ tp < tn ∧ vp = f A.2 b ((tp - A.1) / (tn - A.1))))
    (h1 : tp < t) (h2 : t < tn) :
    f vp b ((t - tp) / (tn - tp)) = f A.2 b ((t - A.1) / (tn - A.1)) := by
  rcases h with ⟨rfl, rfl⟩ | ⟨ha, hb, rfl⟩
  · rfl
  · have d1 : (0 : ℚ) < tn - A.1 := by linarith
    have d2 : (0 : ℚ) < tn - tp := by linarith
    rw [hf]
    · congr 1
      field_simp
      ring
    · exact div_nonneg (by linarith) d1.le
    · rw [div_lt_one d1]; linarith
    · exact div_nonneg (by linarith) d2.le
    · rw [div_le_one d2]; linarith

private theorem fillMid_spec {f : V → V → ℚ → V} (hf : Straight f) {interp : Option (V → V → ℚ → V)}
    (hi : ∀ g, interp = some g → g = f)
    (l : List (ℚ × Cell V)) : ∀ (A : ℚ × V) (tp : ℚ) (vp : V) (r : List (ℚ × Option V)) (out : List (ℚ × V)),
    (tp :: l.map (·.1)).Pairwise (· < ·) → OnWay f A tp vp l →
    fillMid interp (tp, some vp) l = some r → allValues r = some out →
    out.map (·.1) = l.map (·.1) ∧
    ∀ (i : Nat) t c t' v, l[i]? = some (t, c) → out[i]? = some (t', v) →
      match c with
      | some w => w = some v
      | none => ∃ (q : Nat) (b a : ℚ × V), i < q ∧ l[q]? = some (b.1, some (some b.2)) ∧ out[q]? = some b ∧
          (∀ (j : Nat) t c, i < j → j < q → l[j]? = some (t, c) → c = none) ∧
          ((a = A ∧ ∀ (j : Nat) t c, j < i → l[j]? = some (t, c) → c = none) ∨
            ∃ p : Nat, p < i ∧ l[p]? = some (a.1, some (some a.2)) ∧ out[p]? = some a ∧
              ∀ (j : Nat) t c, p < j → j < i → l[j]? = some (t, c) → c = none) ∧
          interp = some f ∧ v = f a.2 b.2 ((t - a.1) / (b.1 - a.1)) := by
  induction l with
  | nil =>
    intro A tp vp r out _ _ h1 h2
    simp [fillMid] at h1
    subst h1
    simp [allValues] at h2
    subst h2
    exact ⟨rfl, by simp⟩
  | cons y l ih =>
    intro A tp vp r out hp hw h1 h2
    obtain ⟨t0, c0⟩ := y
    obtain ⟨hp1, hp2⟩ := List.pairwise_cons.mp hp
    have htp : tp < t0 := hp1 t0 (by simp)
    cases c0 with
    | some w0 =>
      simp only [fillMid, Option.map_eq_some_iff] at h1
      obtain ⟨r0, hr0, rfl⟩ := h1
      cases w0 with
      | none => simp [allValues] at h2
      | some w0 =>
        simp only [allValues, Option.map_eq_some_iff] at h2
        obtain ⟨o, ho, rfl⟩ := h2
        obtain ⟨e1, e2⟩ := ih (t0, w0) t0 w0 r0 o hp2 (Or.inl ⟨rfl, rfl⟩) hr0 ho
        refine ⟨by simp [e1], ?_⟩
        intro i t c t' v hl hout
        cases i with
        | zero =>
          simp at hl hout
          obtain ⟨rfl, rfl⟩ := hl
          obtain ⟨rfl, rfl⟩ := hout
          rfl
        | succ i =>
          have := e2 i t c t' v (by simpa using hl) (by simpa using hout)
          cases c with
          | some w => exact this
          | none =>
            obtain ⟨q, b, a, g1, g2, g3, g4, g5, g6⟩ := this
            refine ⟨q + 1, b, a, by omega, by simpa using g2, by simpa using g3, ?_, Or.inr ?_, g6⟩
            · intro j t c hj1 hj2 hl
              cases j with
              | zero => omega
              | succ j => exact g4 j t c (by omega) (by omega) (by simpa using hl)
            · rcases g5 with ⟨rfl, g5⟩ | ⟨p, p1, p2, p3, p4⟩
              · refine ⟨0, by omega, rfl, rfl, ?_⟩
                intro j t c hj1 hj2 hl
                cases j with
                | zero => omega
                | succ j => exact g5 j t c (by omega) (by simpa using hl)
              · refine ⟨p + 1, by omega, by simpa using p2, by simpa using p3, ?_⟩
                intro j t c hj1 hj2 hl
                cases j with
                | zero => omega
                | succ j => exact p4 j t c (by omega) (by omega) (by simpa using hl)
    | none =>
      simp only [fillMid, Option.bind_eq_some_iff, Option.map_eq_some_iff] at h1
      obtain ⟨⟨tn, bn⟩, hnx, r0, hr0, rfl⟩ := h1
      obtain ⟨qn, hq1, hq2⟩ := nextEntry_some hnx
      have htn : t0 < tn := by
        have := (List.pairwise_cons.mp hp2).1 tn
        apply this
        exact List.mem_map.mpr ⟨_, List.mem_of_getElem? hq1, rfl⟩
      -- the new value
      simp only at hr0
      cases hv : interpolateValue interp tp (some vp) tn bn t0 with
      | none => rw [hv] at h2; simp [allValues] at h2
      | some v0 =>
        rw [hv] at h2 hr0
        simp only [allValues, Option.map_eq_some_iff] at h2
        obtain ⟨o, ho, rfl⟩ := h2
        unfold interpolateValue at hv
        simp only [Option.bind_some, Option.bind_eq_some_iff] at hv
        obtain ⟨bn, rfl, g, hg, hv⟩ := hv
        obtain rfl := hi g hg
        split at hv
        · cases hv
          rw [way_step hf (A := A) (by
            rcases hw with hw | ⟨tn', b', h1, h2, h3, h4⟩
            · exact Or.inl hw
            · have : nextEntry ((t0, (none : Cell V)) :: l) = nextEntry l := rfl
              rw [this, hnx] at h1
              cases h1
              exact Or.inr ⟨h2, h3, h4⟩) htp htn] at hr0 ⊢
          have hA : A.1 < t0 := by
            rcases hw with ⟨rfl, _⟩ | ⟨_, _, _, h, _⟩
            · exact htp
            · linarith
          obtain ⟨e1, e2⟩ := ih A t0 _ r0 o hp2 (Or.inr ⟨tn, bn, hnx, hA, htn, rfl⟩) hr0 ho
          refine ⟨by simp [e1], ?_⟩
          intro i t c t' v hl hout
          cases i with
          | zero =>
            simp at hl hout
            obtain ⟨rfl, rfl⟩ := hl
            obtain ⟨rfl, rfl⟩ := hout
            have hlen : o.length = l.length := by simpa using congrArg List.length e1
            have hqo : qn < o.length := by
              rw [hlen]; exact (List.getElem?_eq_some_iff.mp hq1).1
            have h3 := e2 qn tn (some (some bn)) _ _ hq1 (List.getElem?_eq_getElem hqo)
            simp only [Option.some.injEq] at h3
            have h4 : o[qn].1 = tn := by
              have := congrArg (fun l => l[qn]?) e1
              simp [hq1, hqo] at this
              exact this
            refine ⟨qn + 1, (tn, bn), A, by omega, by simpa using hq1, ?_, ?_, Or.inl ⟨rfl, by omega⟩, hg, rfl⟩
            · simp only [List.getElem?_cons_succ, List.getElem?_eq_getElem hqo]
              rw [← h4, h3]; rfl
            · intro j t c hj1 hj2 hl
              cases j with
              | zero => omega
              | succ j => exact hq2 j t c (by omega) (by simpa using hl)
          | succ i =>
            have := e2 i t c t' v (by simpa using hl) (by simpa using hout)
            cases c with
            | some w => exact this
            | none =>
              obtain ⟨q, b, a, g1, g2, g3, g4, g5, g6⟩ := this
              refine ⟨q + 1, b, a, by omega, by simpa using g2, by simpa using g3, ?_, ?_, g6⟩
              · intro j t c hj1 hj2 hl
                cases j with
                | zero => omega
                | succ j => exact g4 j t c (by omega) (by omega) (by simpa using hl)
              · rcases g5 with ⟨rfl, g5⟩ | ⟨p, p1, p2, p3, p4⟩
                · refine Or.inl ⟨rfl, ?_⟩
                  intro j t c hj1 hl
                  cases j with
                  | zero => simp at hl; exact hl.2.symm
                  | succ j => exact g5 j t c (by omega) (by simpa using hl)
                · refine Or.inr ⟨p + 1, by omega, by simpa using p2, by simpa using p3, ?_⟩
                  intro j t c hj1 hj2 hl
                  cases j with
                  | zero => omega
                  | succ j => exact p4 j t c (by omega) (by omega) (by simpa using hl)
        · simp at hv

private theorem fillEnds_get (cur : Option V) (l : List (ℚ × Cell V)) (i : Nat) :
    (fillEnds cur l)[i]? = (l[i]?).map fun x => if i = 0 ∨ i + 1 = l.length then fillCell cur x else x := by
  unfold fillEnds
  rw [List.getElem?_modify, List.getElem?_modify]
  cases hx : l[i]? with
  | none => simp
  | some x =>
    have hlt : i < l.length := (List.getElem?_eq_some_iff.mp hx).1
    simp only [Option.map_some]
    have h2 : (l.length - 1 = i) ↔ i + 1 = l.length := by omega
    by_cases h0 : i = 0 <;> by_cases hl : i + 1 = l.length <;>
      simp [h0, h2, hl, Ne.symm, fillCell, eq_comm]

private theorem fillEnds_times (cur : Option V) (l : List (ℚ × Cell V)) :
    (fillEnds cur l).map (·.1) = l.map (·.1) := by
  apply List.ext_getElem?
  intro i
  rw [List.getElem?_map, List.getElem?_map, fillEnds_get]
  cases l[i]? with
  | none => rfl
  | some x =>
    simp only [Option.map_some]
    split <;> rfl

private theorem fillEnds_last (cur : Option V) (l : List (ℚ × Cell V)) (x : ℚ × Cell V)
    (h : (fillEnds cur l).getLast? = some x) : x.2.isSome := by
  rw [List.getLast?_eq_getElem?] at h
  have hlen : (fillEnds cur l).length = l.length := by simpa using congrArg List.length (fillEnds_times cur l)
  rw [fillEnds_get, hlen] at h
  obtain ⟨y, hy, rfl⟩ := Option.map_eq_some_iff.mp h
  have := (List.getElem?_eq_some_iff.mp hy).1
  rw [if_pos (Or.inr (by omega))]
  rfl

private theorem fillEnds_cons (cur : Option V) (l : List (ℚ × Cell V)) (hl : 0 < l.length) :
    ∃ t v r, fillEnds cur l = (t, some v) :: r := by
  cases h : fillEnds cur l with
  | nil =>
    have := congrArg List.length (fillEnds_times cur l)
    rw [h] at this
    simp at this
    omega
  | cons x r =>
    have := fillEnds_get cur l 0
    rw [h] at this
    simp only [List.getElem?_cons_zero] at this
    obtain ⟨y, _, hy⟩ := Option.map_eq_some_iff.mp this.symm
    rw [if_pos (Or.inl trivial)] at hy
    subst hy
    exact ⟨_, _, r, rfl⟩

/-- **C35**: resolving never panics. -/
theorem C35_no_panic (interp : Option (V → V → ℚ → V)) (cur : Option V) (l : List (ℚ × Cell V))
    (hlen : 2 ≤ l.length) : resolveColumn interp cur l ≠ .panic := by
  obtain ⟨t, v, r, hr⟩ := fillEnds_cons cur l (by omega)
  have hlast : ∀ x, r.getLast? = some x → x.2.isSome := by
    intro x hx
    apply fillEnds_last cur l
    rw [hr]
    cases r with
    | nil => simp at hx
    | cons z r => simpa using hx
  obtain ⟨q, hq⟩ := fillMid_some interp r hlast (t, v)
  unfold resolveColumn fillColumn
  rw [hr]
  simp only [hq, Option.map_some]
  split <;> simp

/-- **C35**: the values of a property at the keyframes are filled as specified. -/
theorem C35_filled (interp : Option (V → V → ℚ → V)) (hs : ∀ f, interp = some f → Straight f)
    (cur : Option V) (l : List (ℚ × Cell V)) (hlen : 2 ≤ l.length) (hsort : (l.map (·.1)).Pairwise (· < ·))
    (out : List (ℚ × V)) (h : resolveColumn interp cur l = .ok out) : Filled interp cur l out := by
  obtain ⟨f, hf, hi⟩ : ∃ f : V → V → ℚ → V, Straight f ∧ ∀ g, interp = some g → g = f := by
    cases interp with
    | none => exact ⟨fun _ b _ => b, fun _ _ _ _ _ _ _ _ => rfl, by simp⟩
    | some f => exact ⟨f, hs f rfl, by simp⟩
  obtain ⟨t0, v0, r, hr⟩ := fillEnds_cons cur l (by omega)
  unfold resolveColumn fillColumn at h
  rw [hr] at h
  simp only at h
  cases hq : fillMid interp (t0, v0) r with
  | none => rw [hq] at h; simp at h
  | some q =>
    rw [hq] at h
    simp only [Option.map_some] at h
    cases v0 with
    | none => simp [allValues] at h
    | some v0 =>
      simp only [allValues] at h
      cases ho : allValues q with
      | none => rw [ho] at h; simp at h
      | some o =>
        rw [ho] at h
        simp only [Option.map_some, Resolved.ok.injEq] at h
        subst h
        have ht := fillEnds_times cur l
        rw [hr] at ht
        have hp : (t0 :: r.map (·.1)).Pairwise (· < ·) := by
          rw [← ht] at hsort; exact hsort
        obtain ⟨e1, e2⟩ := fillMid_spec hf hi r (t0, v0) t0 v0 q o hp (Or.inl ⟨rfl, rfl⟩) hq ho
        have hget := fillEnds_get cur l
        rw [hr] at hget
        -- anchors
        have anchor : ∀ (j : Nat) t w, ((t0, some (some v0)) :: r)[j]? = some (t, some w) → Anchor l j := by
          intro j t w hj
          rw [hget] at hj
          obtain ⟨y, hy, hy2⟩ := Option.map_eq_some_iff.mp hj
          split at hy2
          · rename_i h
            rcases h with h | h
            · exact Or.inl h
            · exact Or.inr (Or.inl h)
          · subst hy2
            exact Or.inr (Or.inr ⟨t, w, hy⟩)
        have noanchor : ∀ (j : Nat) t, ((t0, some (some v0)) :: r)[j]? = some (t, none) → ¬ Anchor l j := by
          intro j t hj ha
          rw [hget] at hj
          obtain ⟨y, hy, hy2⟩ := Option.map_eq_some_iff.mp hj
          rcases ha with ha | ha | ⟨t', w, ha⟩
          · rw [if_pos (Or.inl ha)] at hy2; simp [fillCell] at hy2
          · rw [if_pos (Or.inr ha)] at hy2; simp [fillCell] at hy2
          · rw [hy] at ha
            cases ha
            split at hy2 <;> simp [fillCell] at hy2
        refine ⟨by rw [← ht]; simp [e1], ?_⟩
        intro i t c t' v hl hout
        have hi' : ((t0, some (some v0)) :: r)[i]? =
            some (if i = 0 ∨ i + 1 = l.length then fillCell cur (t, c) else (t, c)) := by
          rw [hget, hl]; rfl
        by_cases hend : i = 0 ∨ i + 1 = l.length
        · rw [if_pos hend] at hi'
          have hc : c.getD cur = some v := by
            cases i with
            | zero =>
              simp [fillCell] at hi' hout
              rw [← hi'.2, hout.2]
            | succ i =>
              have := e2 i t (some (c.getD cur)) t' v (by simpa [fillCell] using hi') (by simpa using hout)
              exact this
          cases c with
          | some w => exact hc
          | none => simp only [if_pos hend]; exact hc
        · rw [if_neg hend] at hi'
          obtain ⟨k, rfl⟩ : ∃ k, i = k + 1 := ⟨i - 1, by omega⟩
          have := e2 k t c t' v (by simpa using hi') (by simpa using hout)
          cases c with
          | some w => exact this
          | none =>
            simp only [if_neg hend]
            obtain ⟨q, b, a, g1, g2, g3, g4, g5, g6, g7⟩ := this
            have gq : Anchor l (q + 1) := anchor (q + 1) _ _ (by simpa using g2)
            have hrlen : r.length + 1 = l.length := by simpa using congrArg List.length ht
            have hql : q < r.length := (List.getElem?_eq_some_iff.mp g2).1
            have none_at : ∀ j, j < r.length → (∀ t c, r[j]? = some (t, c) → c = none) → ¬ Anchor l (j + 1) := by
              intro j hj hc
              have hj' := List.getElem?_eq_getElem hj
              have hc2 := hc r[j].1 r[j].2 (by rw [hj'])
              apply noanchor (j + 1) r[j].1
              simp only [List.getElem?_cons_succ, hj', ← hc2]
            rcases g5 with ⟨rfl, g5⟩ | ⟨p, p1, p2, p3, p4⟩
            · refine ⟨0, q + 1, (t0, v0), b, f, by omega, by omega, Or.inl rfl, gq, ?_, rfl, by simpa using g3, g6, g7⟩
              intro j hj1 hj2
              obtain ⟨j, rfl⟩ : ∃ m, j = m + 1 := ⟨j - 1, by omega⟩
              apply none_at j (by omega)
              intro t c hc
              by_cases hjk : j < k
              · exact g5 j t c hjk hc
              · by_cases hjk : j = k
                · subst hjk
                  rw [show r[j]? = some _ from by simpa using hi'] at hc
                  cases hc; rfl
                · exact g4 j t c (by omega) (by omega) hc
            · refine ⟨p + 1, q + 1, a, b, f, by omega, by omega, anchor (p + 1) _ _ (by simpa using p2), gq, ?_,
                by simpa using p3, by simpa using g3, g6, g7⟩
              intro j hj1 hj2
              obtain ⟨j, rfl⟩ : ∃ m, j = m + 1 := ⟨j - 1, by omega⟩
              apply none_at j (by omega)
              intro t c hc
              by_cases hjk : j < k
              · exact p4 j t c (by omega) hjk hc
              · by_cases hjk : j = k
                · subst hjk
                  rw [show r[j]? = some _ from by simpa using hi'] at hc
                  cases hc; rfl
                · exact g4 j t c (by omega) (by omega) hc

private theorem fillMid_values {interp : Option (V → V → ℚ → V)} (l : List (ℚ × Cell V)) :
    ∀ (tp : ℚ) (vp : V) (r : List (ℚ × Option V)), (tp :: l.map (·.1)).Pairwise (· < ·) →
    (∀ t, (t, some none) ∉ l) → ((∃ t, (t, none) ∈ l) → interp.isSome) →
    fillMid interp (tp, some vp) l = some r → ∃ out, allValues r = some out := by
  induction l with
  | nil =>
    intro tp vp r _ _ _ h
    simp [fillMid] at h; subst h
    exact ⟨[], rfl⟩
  | cons y l ih =>
    intro tp vp r hp hn hi h
    obtain ⟨t0, c0⟩ := y
    obtain ⟨hp1, hp2⟩ := List.pairwise_cons.mp hp
    have htp : tp < t0 := hp1 t0 (by simp)
    have hn' : ∀ t, (t, some none) ∉ l := fun t ht => hn t (List.mem_cons_of_mem _ ht)
    have hi' : (∃ t, (t, (none : Cell V)) ∈ l) → interp.isSome :=
      fun ⟨t, ht⟩ => hi ⟨t, List.mem_cons_of_mem _ ht⟩
    cases c0 with
    | some w0 =>
      cases w0 with
      | none => exact absurd List.mem_cons_self (hn t0)
      | some w0 =>
        simp only [fillMid, Option.map_eq_some_iff] at h
        obtain ⟨r0, hr0, rfl⟩ := h
        obtain ⟨o, ho⟩ := ih t0 w0 r0 hp2 hn' hi' hr0
        exact ⟨_, by simp [allValues, ho]; rfl⟩
    | none =>
      simp only [fillMid, Option.bind_eq_some_iff, Option.map_eq_some_iff] at h
      obtain ⟨⟨tn, bn⟩, hnx, r0, hr0, rfl⟩ := h
      obtain ⟨qn, hq1, _⟩ := nextEntry_some hnx
      have htn : t0 < tn := by
        apply (List.pairwise_cons.mp hp2).1 tn
        exact List.mem_map.mpr ⟨_, List.mem_of_getElem? hq1, rfl⟩
      obtain ⟨f, hf⟩ := Option.isSome_iff_exists.mp (hi ⟨t0, List.mem_cons_self⟩)
      cases bn with
      | none => exact absurd (List.mem_of_getElem? hq1) (hn' _)
      | some bn =>
        have d2 : (0 : ℚ) < tn - tp := by linarith
        have hv : interpolateValue interp tp (some vp) tn (some bn) t0 =
            some (f vp bn ((t0 - tp) / (tn - tp))) := by
          unfold interpolateValue
          simp only [hf, Option.bind_some]
          rw [if_pos]
          constructor
          · exact div_nonneg (by linarith) d2.le
          · rw [div_le_one d2]; linarith
        simp only at hr0
        simp only [hv] at hr0 ⊢
        obtain ⟨o, ho⟩ := ih t0 _ r0 hp2 hn' hi' hr0
        exact ⟨_, by simp [allValues, ho]; rfl⟩

/-- **C35**: the property is ignored only if a keyframe gives it no value, if the element has no value where one
is needed, or if its type cannot be interpolated where a keyframe leaves it out. -/
theorem C35_ignored_iff (interp : Option (V → V → ℚ → V)) (hs : ∀ f, interp = some f → Straight f)
    (cur : Option V) (l : List (ℚ × Cell V)) (hlen : 2 ≤ l.length) (hsort : (l.map (·.1)).Pairwise (· < ·)) :
    resolveColumn interp cur l = .ignored ↔
      (∃ t, (t, some none) ∈ l) ∨
      (cur = none ∧ ∃ (i : Nat) (t : ℚ), (i = 0 ∨ i + 1 = l.length) ∧ l[i]? = some (t, none)) ∨
      (interp = none ∧ ∃ (i : Nat) (t : ℚ), i ≠ 0 ∧ i + 1 ≠ l.length ∧ l[i]? = some (t, none)) := by
  have hnp := C35_no_panic interp cur l hlen
  constructor
  · intro h
    by_contra hno
    push Not at hno
    obtain ⟨n1, n2, n3⟩ := hno
    obtain ⟨t0, v0, r, hr⟩ := fillEnds_cons cur l (by omega)
    have hget := fillEnds_get cur l
    rw [hr] at hget
    have ht := fillEnds_times cur l
    rw [hr] at ht
    -- no entry without value
    have hmem : ∀ (j : Nat) t, ((t0, some v0) :: r)[j]? ≠ some (t, some none) := by
      intro j t hj
      rw [hget] at hj
      obtain ⟨⟨t1, c1⟩, hy, hy2⟩ := Option.map_eq_some_iff.mp hj
      split at hy2
      · rename_i hend
        simp [fillCell] at hy2
        obtain ⟨rfl, hc⟩ := hy2
        cases c1 with
        | none => exact n2 hc j t1 hend hy
        | some w =>
          simp at hc; subst hc
          exact n1 t1 (List.mem_of_getElem? hy)
      · cases hy2
        exact n1 t (List.mem_of_getElem? hy)
    cases v0 with
    | none => exact hmem 0 t0 rfl
    | some v0 =>
      unfold resolveColumn fillColumn at h hnp
      rw [hr] at h hnp
      simp only at h hnp
      cases hq : fillMid interp (t0, some v0) r with
      | none => rw [hq] at hnp; simp at hnp
      | some q =>
        obtain ⟨o, ho⟩ := fillMid_values r t0 v0 q (by rw [← ht] at hsort; exact hsort) (by
          intro t hmem2
          obtain ⟨j, hj⟩ := List.mem_iff_getElem?.mp hmem2
          exact hmem (j + 1) t (by simpa using hj)) (by
          rintro ⟨t, hmem2⟩
          obtain ⟨j, hj⟩ := List.mem_iff_getElem?.mp hmem2
          have := hget (j + 1)
          simp only [List.getElem?_cons_succ, hj] at this
          obtain ⟨y, hy, hy2⟩ := Option.map_eq_some_iff.mp this.symm
          split at hy2
          · simp [fillCell] at hy2
          · subst hy2
            rename_i hend
            by_contra hin
            exact n3 (by simpa using hin) (j + 1) t (by omega) (by omega) hy) hq
        rw [hq] at h
        simp [allValues, ho] at h
  · intro hcase
    cases hres : resolveColumn interp cur l with
    | panic => exact absurd hres hnp
    | ignored => rfl
    | ok out =>
      exfalso
      obtain ⟨e1, e2⟩ := C35_filled interp hs cur l hlen hsort out hres
      have hol : out.length = l.length := by simpa using congrArg List.length e1
      have get : ∀ (i : Nat) t c, l[i]? = some (t, c) → ∃ x, out[i]? = some x := by
        intro i t c h
        have := (List.getElem?_eq_some_iff.mp h).1
        exact ⟨out[i], List.getElem?_eq_getElem (by omega)⟩
      rcases hcase with ⟨t, ht⟩ | ⟨hc, i, t, hend, ht⟩ | ⟨hc, i, t, h0, h1, ht⟩
      · obtain ⟨i, hi⟩ := List.mem_iff_getElem?.mp ht
        obtain ⟨x, hx⟩ := get i _ _ hi
        have := e2 i t (some none) x.1 x.2 hi hx
        simp at this
      · obtain ⟨x, hx⟩ := get i _ _ ht
        have := e2 i t none x.1 x.2 ht hx
        simp only [if_pos hend] at this
        rw [hc] at this; simp at this
      · obtain ⟨x, hx⟩ := get i _ _ ht
        have := e2 i t none x.1 x.2 ht hx
        simp only [if_neg (show ¬ (i = 0 ∨ i + 1 = l.length) by omega)] at this
        obtain ⟨_, _, _, _, _, _, _, _, _, _, _, _, h, _⟩ := this
        rw [hc] at h; simp at h

/-- linear interpolation of numbers is straight -/
private theorem lerp_straight : Straight (fun a b t : ℚ => a * (1 - t) + b * t) := by
  intro a b s u _ _ _ _
  ring

/-- a case: 0% and 100% are left out (the element has 10), 50% is 20, 25% and 75% are in between -/
example : resolveColumn (some fun a b t : ℚ => a * (1 - t) + b * t) (some 10)
    [(0, none), (1/4, none), (1/2, some (some 20)), (3/4, none), (1, none)] =
    .ok [(0, 10), (1/4, 15), (1/2, 20), (3/4, 15), (1, 10)] := by
  norm_num [resolveColumn, fillColumn, fillEnds, fillCell, fillMid, nextEntry, interpolateValue, allValues]

/-! ## C36 -/

/-- **C36**: the curve exists, and at the time of a keyframe it has the value of this keyframe. -/
theorem C36_hits (interp : V → V → ℚ → V) (l : List (ℚ × V × (ℚ → ℚ)))
    (hsort : l.Pairwise fun a b => a.1 < b.1) (hl : 2 ≤ l.length) (hr : ∀ k ∈ l, 0 ≤ k.1 ∧ k.1 ≤ 1) :
    ∃ c, keyframeCurve interp l = some c ∧ ∀ k ∈ l, c k.1 = some k.2.1 := by
  refine ⟨_, by unfold keyframeCurve; rw [coreNew_sorted hsort hl]; rfl, ?_⟩
  intro k hk
  simp only [if_pos (hr k hk)]
  obtain ⟨pre, post, rfl⟩ := List.append_of_mem hk
  obtain ⟨_, s2, s3⟩ := List.pairwise_append.mp hsort
  unfold sampleUnchecked
  rw [sampleInterp_split (fun x hx => s3 x hx k List.mem_cons_self) (by
    intro x hx
    rcases List.mem_cons.mp hx with rfl | hx
    · exact lt_irrefl _
    · exact not_lt.mpr ((List.pairwise_cons.mp s2).1 x hx).le)]
  simp

/-- **C36**: between two keyframes that follow each other, the curve is the interpolation of exactly these
two, eased by the timing function of the first. -/
theorem C36_between (interp : V → V → ℚ → V) (pre post : List (ℚ × V × (ℚ → ℚ))) (a b : ℚ × V × (ℚ → ℚ))
    (hsort : (pre ++ a :: b :: post).Pairwise fun a b => a.1 < b.1)
    (hr : ∀ k ∈ pre ++ a :: b :: post, 0 ≤ k.1 ∧ k.1 ≤ 1) :
    ∃ c, keyframeCurve interp (pre ++ a :: b :: post) = some c ∧ ∀ t, a.1 < t → t < b.1 →
      c t = some (interp a.2.1 b.2.1 (a.2.2 ((t - a.1) / (b.1 - a.1)))) := by
  refine ⟨_, by unfold keyframeCurve; rw [coreNew_sorted hsort (by simp; omega)]; rfl, ?_⟩
  intro t h1 h2
  have ha := hr a (by simp)
  have hb := hr b (by simp)
  simp only [if_pos (show 0 ≤ t ∧ t ≤ 1 from ⟨by linarith, by linarith⟩)]
  have e : pre ++ a :: b :: post = (pre ++ [a]) ++ b :: post := by simp
  rw [e] at hsort ⊢
  obtain ⟨s1, s2, s3⟩ := List.pairwise_append.mp hsort
  unfold sampleUnchecked
  rw [sampleInterp_split (t := t) (pre := pre ++ [a]) (post := b :: post) (by
    intro x hx
    rcases List.mem_append.mp hx with hx | hx
    · have := (List.pairwise_append.mp s1).2.2 x hx a (by simp)
      linarith
    · rw [List.mem_singleton.mp hx]; exact h1) (by
    intro x hx
    rcases List.mem_cons.mp hx with rfl | hx
    · exact not_lt.mpr h2.le
    · have := (List.pairwise_cons.mp s2).1 x hx
      exact not_lt.mpr (by linarith))]
  simp [h2.ne']

/-- **C36**: outside of the keyframes the curve is clamped (inside the unit interval) and has no value outside
of the unit interval. -/
theorem C36_outside (interp : V → V → ℚ → V) (l : List (ℚ × V × (ℚ → ℚ)))
    (hsort : l.Pairwise fun a b => a.1 < b.1) (hl : 2 ≤ l.length) :
    ∃ c, keyframeCurve interp l = some c ∧
      (∀ t, t < 0 ∨ 1 < t → c t = none) ∧
      (∀ t x, 0 ≤ t → t ≤ 1 → l.head? = some x → t ≤ x.1 → c t = some x.2.1) ∧
      (∀ t x, 0 ≤ t → t ≤ 1 → l.getLast? = some x → x.1 ≤ t → c t = some x.2.1) := by
  refine ⟨_, by unfold keyframeCurve; rw [coreNew_sorted hsort hl]; rfl, ?_, ?_, ?_⟩
  · intro t ht
    simp only
    rw [if_neg]
    rintro ⟨h1, h2⟩
    rcases ht with h | h <;> linarith
  · intro t x h0 h1 hx ht
    simp only [if_pos (And.intro h0 h1)]
    cases l with
    | nil => simp at hx
    | cons y l =>
      simp at hx; subst hx
      unfold sampleUnchecked
      have := sampleInterp_split (t := t) (pre := []) (post := y :: l) (by simp) (by
        intro x hx
        rcases List.mem_cons.mp hx with rfl | hx
        · exact not_lt.mpr ht
        · have := (List.pairwise_cons.mp hsort).1 x hx
          exact not_lt.mpr (by linarith))
      simp only [List.nil_append] at this
      rw [this]
      simp
  · intro t x h0 h1 hx ht
    simp only [if_pos (And.intro h0 h1)]
    obtain ⟨m, rfl⟩ : ∃ m, l = m ++ [x] := by
      obtain ⟨h, he⟩ := List.getLast?_eq_some_iff.mp hx
      exact ⟨h, he⟩
    obtain ⟨s1, s2, s3⟩ := List.pairwise_append.mp hsort
    unfold sampleUnchecked
    by_cases he : x.1 = t
    · rw [sampleInterp_split (t := t) (pre := m) (post := [x]) (by
        intro y hy
        have := s3 y hy x (by simp)
        linarith) (by
        intro y hy
        rw [List.mem_singleton.mp hy, he]; exact lt_irrefl _)]
      simp [he]
    · have := sampleInterp_split (t := t) (pre := m ++ [x]) (post := []) (by
        intro y hy
        rcases List.mem_append.mp hy with hy | hy
        · have := s3 y hy x (by simp)
          linarith
        · rw [List.mem_singleton.mp hy]
          exact lt_of_le_of_ne ht he) (by simp)
      simp only [List.append_nil] at this
      rw [this]
      simp

/-- a case for all of C36: 0 at 0%, 10 at 50%, 0 at 100% -/
example : ∃ c, keyframeCurve (fun a b t : ℚ => a * (1 - t) + b * t)
      [(0, 0, id), (1/2, 10, id), (1, 0, id)] = some c ∧ c (1/4) = some 5 ∧ c (1/2) = some 10 := by
  refine ⟨_, by unfold keyframeCurve; rw [coreNew_sorted (by norm_num) (by simp)]; rfl, ?_, ?_⟩ <;>
    norm_num [sampleUnchecked, sampleInterp, List.takeWhile, List.dropWhile]

/-! ## All together -/

private theorem keyframes_length (calls : List (Call D E)) : 2 ≤ (keyframes calls).length := by
  obtain ⟨_, _, ⟨k, hk, h0⟩, ⟨k', hk', h1⟩⟩ := C34_normalised calls
  match h : keyframes calls with
  | [] => rw [h] at hk; simp at hk
  | [x] =>
    rw [h] at hk hk'
    simp at hk hk'
    subst hk
    rw [← hk', h0] at h1
    norm_num at h1
  | x :: y :: l => simp

private theorem last_cases {P : Type} [DecidableEq P] (l : List (P × Option V)) (p : P) :
    ((l.filter fun x => x.1 = p).getLast? = none ∧ ∀ x ∈ l, x.1 ≠ p) ∨
    ∃ b a v, (l.filter fun x => x.1 = p).getLast? = some (p, v) ∧ l = b ++ (p, v) :: a ∧ ∀ x ∈ a, x.1 ≠ p := by
  induction l using List.reverseRecOn with
  | nil => exact .inl ⟨rfl, by simp⟩
  | append_singleton l x ih =>
    by_cases hp : x.1 = p
    · right
      refine ⟨l, [], x.2, ?_, ?_, by simp⟩
      · rw [List.filter_append, List.filter_cons_of_pos (by simpa using hp)]
        simp [← hp]
      · rw [← hp]
    · have hf : ((l ++ [x]).filter fun x => decide (x.1 = p)) = l.filter fun x => decide (x.1 = p) := by
        rw [List.filter_append, List.filter_cons_of_neg (by simpa using hp)]; simp
      rw [hf]
      rcases ih with ⟨h1, h2⟩ | ⟨b, a, v, h1, h2, h3⟩
      · refine .inl ⟨h1, ?_⟩
        intro y hy
        rcases List.mem_append.mp hy with hy | hy
        · exact h2 y hy
        · rw [List.mem_singleton.mp hy]; exact hp
      · refine .inr ⟨b, a ++ [x], v, h1, by rw [h2]; simp, ?_⟩
        intro y hy
        rcases List.mem_append.mp hy with hy | hy
        · exact h3 y hy
        · rw [List.mem_singleton.mp hy]; exact hp

private theorem specifies_iff {P : Type} [DecidableEq P] (ev : D → List (P × Option V)) (ds : List D) (p : P)
    (c : Cell V) : Specifies ev ds p c ↔ cellOf ev ds p = c := by
  unfold cellOf
  constructor
  · intro h
    cases h with
    | no h => rw [List.filter_eq_nil_iff.mpr (by simpa using h)]; rfl
    | yes b a v h h' =>
      have : (a.filter fun x => decide (x.1 = p)) = [] := List.filter_eq_nil_iff.mpr (by simpa using h')
      rw [h, List.filter_append, List.filter_cons_of_pos (by simp), this]
      simp
  · rintro rfl
    rcases last_cases (ds.flatMap ev) p with ⟨h1, h2⟩ | ⟨b, a, v, h1, h2, h3⟩
    · rw [h1]; exact .no h2
    · rw [h1]; exact .yes b a v h2 h3

/-- **C35**: for any `@keyframes` block, a property is animated exactly if some keyframe declares it, no keyframe gives it a
value that cannot be computed, the element has a value of its own when the first or the last keyframe leaves the property
out, and its type can be interpolated when a keyframe in between leaves it out. -/
theorem C35_block [DecidableEq P] (ev : D → List (P × Option V)) (interp : P → Option (V → V → ℚ → V))
    (hs : ∀ p f, interp p = some f → Straight f) (cur : P → Option V) (dflt : ℚ → ℚ)
    (calls : List (Call D (ℚ → ℚ))) (p : P) :
    (∃ kfs, resolve ev interp cur dflt (keyframes calls) p = some kfs) ↔
      (∃ k ∈ keyframes calls, ∃ v, Specifies ev k.props p (some v)) ∧
      (∀ k ∈ keyframes calls, ¬ Specifies ev k.props p (some none)) ∧
      (cur p = none → ∀ i k, i = 0 ∨ i + 1 = (keyframes calls).length → (keyframes calls)[i]? = some k →
        ¬ Specifies ev k.props p none) ∧
      (interp p = none → ∀ i k, i ≠ 0 → i + 1 ≠ (keyframes calls).length → (keyframes calls)[i]? = some k →
        ¬ Specifies ev k.props p none) := by
  obtain ⟨n1, n2, _, _⟩ := C34_normalised calls
  have hlen := keyframes_length calls
  have hcol : (columnOf ev (keyframes calls) p).map (·.1) = (keyframes calls).map (·.time) := by
    unfold columnOf; simp
  have hl2 : (columnOf ev (keyframes calls) p).length = (keyframes calls).length := by unfold columnOf; simp
  have hcl : 2 ≤ (columnOf ev (keyframes calls) p).length := by rw [hl2]; simpa using hlen
  have hnp := C35_no_panic (interp p) (cur p) (columnOf ev (keyframes calls) p) hcl
  have hig := C35_ignored_iff (interp p) (hs p) (cur p) (columnOf ev (keyframes calls) p) hcl
    (by rw [hcol]; exact n1.imp (by intro a b h; linarith))
  have hget : ∀ (i : Nat) (t : ℚ) (c : Cell V), (columnOf ev (keyframes calls) p)[i]? = some (t, c) ↔
      ∃ k, (keyframes calls)[i]? = some k ∧ k.time = t ∧ cellOf ev k.props p = c := by
    intro i t c
    unfold columnOf
    simp
  have hmem : ∀ (t : ℚ) (c : Cell V), (t, c) ∈ columnOf ev (keyframes calls) p ↔
      ∃ k ∈ keyframes calls, k.time = t ∧ cellOf ev k.props p = c := by
    intro t c
    unfold columnOf
    simp
  simp only [specifies_iff]
  have hany : (columnOf ev (keyframes calls) p).any (fun x => x.2.isSome) = true ↔
      ∃ k ∈ keyframes calls, ∃ v, cellOf ev k.props p = some v := by
    unfold columnOf
    simp [Option.isSome_iff_exists]
  unfold resolve
  rw [← hany]
  have hrest : resolveColumn (interp p) (cur p) (columnOf ev (keyframes calls) p) ≠ .ignored ↔
      (∀ k ∈ keyframes calls, ¬ cellOf ev k.props p = some none) ∧
      (cur p = none → ∀ i k, i = 0 ∨ i + 1 = (keyframes calls).length → (keyframes calls)[i]? = some k →
        ¬ cellOf ev k.props p = none) ∧
      (interp p = none → ∀ i k, i ≠ 0 → i + 1 ≠ (keyframes calls).length → (keyframes calls)[i]? = some k →
        ¬ cellOf ev k.props p = none) := by
    rw [Ne, hig, not_or, not_or, hl2]
    refine and_congr ?_ (and_congr ?_ ?_)
    · constructor
      · intro h k hk e; exact h ⟨k.time, (hmem _ _).mpr ⟨k, hk, rfl, e⟩⟩
      · rintro h ⟨t, ht⟩
        obtain ⟨k, hk, _, e⟩ := (hmem _ _).mp ht
        exact h k hk e
    · constructor
      · intro h hc i k hi hk e; exact h ⟨hc, i, k.time, hi, (hget _ _ _).mpr ⟨k, hk, rfl, e⟩⟩
      · rintro h ⟨hc, i, t, hi, ht⟩
        obtain ⟨k, hk, _, e⟩ := (hget _ _ _).mp ht
        exact h hc i k hi hk e
    · constructor
      · intro h hc i k hi hi' hk e; exact h ⟨hc, i, k.time, hi, hi', (hget _ _ _).mpr ⟨k, hk, rfl, e⟩⟩
      · rintro h ⟨hc, i, t, hi, hi', ht⟩
        obtain ⟨k, hk, _, e⟩ := (hget _ _ _).mp ht
        exact h hc i k hi hi' hk e
  rw [← hrest]
  by_cases ha : (columnOf ev (keyframes calls) p).any (fun x => x.2.isSome) = true
  · rw [if_pos ha]
    cases hr : resolveColumn (interp p) (cur p) (columnOf ev (keyframes calls) p) with
    | panic => exact absurd hr hnp
    | ignored => simp
    | ok out => simp [ha]
  · rw [if_neg ha]
    simp [ha]

/-- **C34, C35, C36**: for any `@keyframes` block and any property that some keyframe declares and that is
not ignored, the animation's curve exists, and it takes at each percentage the value that the last
declaration for this percentage gives. -/
theorem C36_block [DecidableEq P] (ev : D → List (P × Option V)) (interp : P → Option (V → V → ℚ → V))
    (f : V → V → ℚ → V) (hs : ∀ p f, interp p = some f → Straight f) (cur : P → Option V) (dflt : ℚ → ℚ)
    (calls : List (Call D (ℚ → ℚ))) (p : P) (kfs : List (ℚ × V × (ℚ → ℚ)))
    (h : resolve ev interp cur dflt (keyframes calls) p = some kfs) :
    kfs.map (·.1) = (keyframes calls).map (·.time) ∧
    ∃ c, keyframeCurve f kfs = some c ∧
      (∀ k ∈ kfs, c k.1 = some k.2.1) ∧
      (∀ k ∈ keyframes calls, ∀ w, Specifies ev k.props p (some w) → c k.time = w) := by
  obtain ⟨n1, n2, _, _⟩ := C34_normalised calls
  have hlen := keyframes_length calls
  unfold resolve at h
  split at h
  · split at h
    · rename_i out hout
      cases h
      have hcol : (columnOf ev (keyframes calls) p).map (·.1) = (keyframes calls).map (·.time) := by
        unfold columnOf; simp
      have hfill := C35_filled (interp p) (hs p) (cur p) (columnOf ev (keyframes calls) p)
        (by unfold columnOf; simpa using hlen)
        (by rw [hcol]; exact n1.imp (by intro a b h; linarith)) out hout
      obtain ⟨e1, e2⟩ := hfill
      rw [hcol] at e1
      have hol : out.length = (keyframes calls).length := by simpa using congrArg List.length e1
      have ht : ((out.zip (keyframes calls)).map fun x => (x.1.1, x.1.2, x.2.easing.getD dflt)).map (·.1) =
          (keyframes calls).map (·.time) := by
        rw [← e1, List.map_map]
        have : ((fun x : ℚ × V × (ℚ → ℚ) => x.1) ∘ fun x : (ℚ × V) × KB D (ℚ → ℚ) =>
            (x.1.1, x.1.2, x.2.easing.getD dflt)) = (fun x => x.1) ∘ Prod.fst := rfl
        rw [this, ← List.map_map, List.map_fst_zip (by omega)]
      refine ⟨ht, ?_⟩
      have hsort : ((out.zip (keyframes calls)).map fun x =>
          (x.1.1, x.1.2, x.2.easing.getD dflt)).Pairwise fun a b => a.1 < b.1 := by
        refine (List.pairwise_map (f := fun x : ℚ × V × (ℚ → ℚ) => x.1) (R := (· < ·))).mp ?_
        rw [ht]; exact n1.imp (by intro a b h; linarith)
      have hr : ∀ k ∈ (out.zip (keyframes calls)).map fun x =>
          (x.1.1, x.1.2, x.2.easing.getD dflt), 0 ≤ k.1 ∧ k.1 ≤ 1 := by
        intro k hk
        have hm : k.1 ∈ (keyframes calls).map (·.time) := by rw [← ht]; exact List.mem_map.mpr ⟨k, hk, rfl⟩
        obtain ⟨x, hx, he⟩ := List.mem_map.mp hm
        rw [← he]; exact n2 x hx
      obtain ⟨c, hc, hits⟩ := C36_hits f _ hsort (by simp; omega) hr
      refine ⟨c, hc, hits, ?_⟩
      intro k hk w hw
      rw [specifies_iff] at hw
      obtain ⟨i, hi⟩ := List.mem_iff_getElem?.mp hk
      have hil := (List.getElem?_eq_some_iff.mp hi).1
      have ho : out[i]? = some out[i] := List.getElem?_eq_getElem (by omega)
      have h3 := e2 i k.time (some w) out[i].1 out[i].2 (by unfold columnOf; simp [hi, hw]) ho
      simp only at h3
      have h4 : out[i].1 = k.time := by
        have := congrArg (fun l => l[i]?) e1
        simp [hi, ho] at this
        exact this
      have := hits (out[i].1, out[i].2, k.easing.getD dflt) (by
        refine List.mem_map.mpr ⟨(out[i], k), ?_, rfl⟩
        refine List.mem_iff_getElem?.mpr ⟨i, ?_⟩
        rw [List.getElem?_zip_eq_some]
        exact ⟨ho, hi⟩)
      rw [h3, ← h4]; exact this
    · simp at h
  · simp at h

/-- a case: `50% { p: 20 }` on an element with the value 10 -/
example : (resolve (fun d : ℚ => [((), some d)]) (fun _ => some fun a b t : ℚ => a * (1 - t) + b * t)
    (fun _ => some 10) (id : ℚ → ℚ) (keyframes [⟨1/2, [20], none⟩]) ()).map (·.map fun x => (x.1, x.2.1)) =
    some [(0, 10), (1/2, 20), (1, 10)] := by
  have h : keyframes ([⟨1/2, [20], none⟩] : List (Call ℚ (ℚ → ℚ))) =
      [⟨0, [], none⟩, ⟨1/2, [20], none⟩, ⟨1, [], none⟩] := by
    norm_num [keyframes, build, add, new, timeEq, List.filter, List.mergeSort, List.merge,
      List.MergeSort.Internal.splitInTwo]
  rw [h]
  norm_num [resolve, columnOf, cellOf, resolveColumn, fillColumn, fillEnds, fillCell, fillMid, nextEntry,
    interpolateValue, allValues]

end Flair.Props
