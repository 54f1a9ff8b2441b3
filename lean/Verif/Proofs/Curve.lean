import Verif.Model.Keyframes
import Verif.Tactics
import Verif.Proofs.SortStable
import Mathlib.Data.List.Pairwise
/-! # Lemmas about sampled curves -/
namespace Flair.Proofs.Curve
open Flair.Keyframes
variable {S : Type}

theorem dedup_sorted {l : List (ℚ × S)} (h : l.Pairwise fun a b => a.1 < b.1) : dedup l = l := by
  induction l with
  | nil => rfl
  | cons x l ih =>
    obtain ⟨h1, h2⟩ := List.pairwise_cons.mp h
    unfold dedup
    rw [ih h2]
    cases l with
    | nil => rfl
    | cons y r => simp [(h1 y List.mem_cons_self).ne]

theorem coreNew_sorted {l : List (ℚ × S)} (h : l.Pairwise fun a b => a.1 < b.1) (hl : 2 ≤ l.length) :
    coreNew l = some l := by
  unfold coreNew
  have : (l.mergeSort fun a b => decide (a.1 ≤ b.1)) = l :=
    List.mergeSort_of_pairwise (h.imp (by intro a b h; simpa using h.le))
  simp only [this, dedup_sorted h]
  rw [if_neg (by omega)]

/-- for sorted samples: the samples below `t` and the others -/
theorem split_at {pre post : List (ℚ × S)} {t : ℚ} (h1 : ∀ x ∈ pre, x.1 < t)
    (h2 : ∀ x ∈ post, ¬ x.1 < t) :
    (pre ++ post).takeWhile (fun x => x.1 < t) = pre ∧ (pre ++ post).dropWhile (fun x => x.1 < t) = post := by
  have e1 : post.takeWhile (fun x => decide (x.1 < t)) = [] := by
    cases post with
    | nil => rfl
    | cons x l => simp [h2 x List.mem_cons_self]
  have e2 : post.dropWhile (fun x => decide (x.1 < t)) = post := by
    cases post with
    | nil => rfl
    | cons x l => simp [h2 x List.mem_cons_self]
  have h1' : ∀ x ∈ pre, decide (x.1 < t) = true := by simpa using h1
  constructor
  · rw [List.takeWhile_append_of_pos h1', e1, List.append_nil]
  · rw [List.dropWhile_append_of_pos h1', e2]

theorem sampleInterp_split {pre post : List (ℚ × S)} {t : ℚ} (h1 : ∀ x ∈ pre, x.1 < t)
    (h2 : ∀ x ∈ post, ¬ x.1 < t) :
    sampleInterp (pre ++ post) t =
      match post with
      | [] => (pre.getLast?).map fun a => .single a.2
      | b :: _ =>
        if b.1 = t then some (.single b.2)
        else
          match pre.getLast? with
          | none => some (.single b.2)
          | some a => some (.between a.2 b.2 ((t - a.1) / (b.1 - a.1))) := by
  unfold sampleInterp
  obtain ⟨e1, e2⟩ := split_at h1 h2
  rw [e1, e2]
  cases post <;> rfl


theorem dedup_find (p : ℚ) (l : List (ℚ × S)) :
    (dedup l).find? (fun x => x.1 = p) = l.find? (fun x => x.1 = p) := by
  induction l with
  | nil => rfl
  | cons x l ih =>
    unfold dedup
    rw [List.find?_cons (a := x) (as := l), ← ih]
    cases hd : dedup l with
    | nil => rw [List.find?_cons]
    | cons y r =>
      dsimp only
      split_ifs with h
      · rw [List.find?_cons, List.find?_cons (a := y)]
        by_cases hx : x.1 = p
        · simp [hx]
        · simp [hx, ← h]
      · rw [List.find?_cons]

theorem dedup_strict {l : List (ℚ × S)} (h : l.Pairwise fun a b => a.1 ≤ b.1) :
    (dedup l).Pairwise (fun a b => a.1 < b.1) ∧ ∀ x ∈ dedup l, x ∈ l := by
  induction l with
  | nil => simp [dedup]
  | cons x l ih =>
    obtain ⟨h1, h2⟩ := List.pairwise_cons.mp h
    obtain ⟨i1, i2⟩ := ih h2
    unfold dedup
    cases hd : dedup l with
    | nil => simp
    | cons y r =>
      rw [hd] at i1 i2
      obtain ⟨j1, j2⟩ := List.pairwise_cons.mp i1
      dsimp only
      split_ifs with h
      · refine ⟨List.pairwise_cons.mpr ⟨fun z hz => h ▸ j1 z hz, j2⟩, ?_⟩
        intro z hz
        rcases List.mem_cons.mp hz with rfl | hz
        · exact List.mem_cons_self
        · exact List.mem_cons_of_mem _ (i2 z (List.mem_cons_of_mem _ hz))
      · refine ⟨List.pairwise_cons.mpr ⟨?_, i1⟩, ?_⟩
        · have hxy : x.1 < y.1 := lt_of_le_of_ne (h1 y (i2 y List.mem_cons_self)) h
          intro z hz
          rcases List.mem_cons.mp hz with rfl | hz
          · exact hxy
          · exact hxy.trans (j1 z hz)
        · intro z hz
          rcases List.mem_cons.mp hz with rfl | hz
          · exact List.mem_cons_self
          · exact List.mem_cons_of_mem _ (i2 z hz)

theorem mem_strict {l : List (ℚ × S)} (h : l.Pairwise fun a b => a.1 < b.1) (x : ℚ × S) :
    l.find? (fun y => y.1 = x.1) = some x ↔ x ∈ l := by
  induction l with
  | nil => simp
  | cons y l ih =>
    obtain ⟨h1, h2⟩ := List.pairwise_cons.mp h
    rw [List.find?_cons, List.mem_cons]
    by_cases hy : y.1 = x.1
    · simp only [hy, decide_true, Option.some.injEq]
      constructor
      · rintro rfl; exact .inl rfl
      · rintro (e | hx)
        · exact e.symm
        · exact absurd hy (h1 x hx).ne
    · simp only [hy, decide_false, ih h2]
      constructor
      · exact .inr
      · rintro (e | hx)
        · subst e; exact absurd rfl hy
        · exact hx

theorem sort_sorted (l : List (ℚ × S)) :
    (l.mergeSort fun a b => a.1 ≤ b.1).Pairwise fun a b => a.1 ≤ b.1 := by
  have := List.pairwise_mergeSort (le := fun a b : ℚ × S => decide (a.1 ≤ b.1))
    (by intro a b c; simp only [decide_eq_true_eq]; exact le_trans)
    (by intro a b; simpa using le_total a.1 b.1) l
  exact this.imp (by intro a b h; simpa using h)

/-- the samples of a core: strictly sorted, and of several ones at the same place the first -/
theorem coreNew_spec (l : List (ℚ × S)) :
    (dedup (l.mergeSort fun a b => a.1 ≤ b.1)).Pairwise (fun a b => a.1 < b.1) ∧
    ∀ x, x ∈ dedup (l.mergeSort fun a b => a.1 ≤ b.1) ↔ l.find? (fun y => y.1 = x.1) = some x := by
  have hs := (dedup_strict (sort_sorted l)).1
  refine ⟨hs, fun x => ?_⟩
  rw [← mem_strict hs, dedup_find, ← List.head?_filter, Flair.filter_mergeSort (fun a b : ℚ × S => decide (a.1 ≤ b.1))
    (by intro a b c; simp only [decide_eq_true_eq]; exact le_trans) (by intro a b; simpa using le_total a.1 b.1),
    List.mergeSort_of_pairwise, List.head?_filter]
  apply List.Pairwise.imp_of_mem (R := fun _ _ => True)
  · intro a b ha hb _
    have h1 := (List.mem_filter.mp ha).2
    have h2 := (List.mem_filter.mp hb).2
    simp only [decide_eq_true_eq] at h1 h2
    simp [h1, h2]
  · exact List.pairwise_of_forall (fun _ _ => trivial)

theorem strict_unique {l m : List (ℚ × S)} (hl : l.Pairwise fun a b => a.1 < b.1)
    (hm : m.Pairwise fun a b => a.1 < b.1) (h : ∀ x, x ∈ l ↔ x ∈ m) : l = m := by
  induction l generalizing m with
  | nil =>
    cases m with
    | nil => rfl
    | cons y m => exact absurd ((h y).mpr List.mem_cons_self) (by simp)
  | cons x l ih =>
    cases m with
    | nil => exact absurd ((h x).mp List.mem_cons_self) (by simp)
    | cons y m =>
      obtain ⟨l1, l2⟩ := List.pairwise_cons.mp hl
      obtain ⟨m1, m2⟩ := List.pairwise_cons.mp hm
      have exy : x = y := by
        rcases List.mem_cons.mp ((h x).mp List.mem_cons_self) with e | hx
        · exact e
        · rcases List.mem_cons.mp ((h y).mpr List.mem_cons_self) with e | hy
          · exact e.symm
          · exact absurd ((l1 y hy).trans (m1 x hx)) (lt_irrefl _)
      subst exy
      congr 1
      apply ih l2 m2
      intro z
      have := h z
      simp only [List.mem_cons] at this
      constructor
      · intro hz
        rcases this.mp (.inr hz) with e | h
        · subst e; exact absurd (l1 z hz) (lt_irrefl _)
        · exact h
      · intro hz
        rcases this.mpr (.inr hz) with e | h
        · subst e; exact absurd (m1 z hz) (lt_irrefl _)
        · exact h

end Flair.Proofs.Curve
