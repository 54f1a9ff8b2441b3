import Verif.Model.Easing
import Verif.Spec.Easing
import Verif.Proofs.Curve
import Verif.Tactics
import Mathlib.Data.List.Pairwise
import Mathlib.Tactic.Linarith
import Mathlib.Tactic.Ring
import Mathlib.Tactic.FieldSimp
import Mathlib.Tactic.NormNum
import Mathlib.Algebra.Order.Field.Rat
/-! # Theorems about easing functions (C51, C55) -/
namespace Flair.Props
open Flair.Keyframes Flair.Spec Flair.Proofs.Curve
open Flair.Easing (Point setFirst setLast clampFrom emit fill spread linearPoints)

/-! ## C51 -/

private def posAt (l : List Point) (i : ℕ) : Option ℚ := (l[i]?).bind Prod.fst

@[simp] private theorem posAt_zero (p : Point) (l : List Point) : posAt (p :: l) 0 = p.1 := rfl
@[simp] private theorem posAt_succ (p : Point) (l : List Point) (i : ℕ) : posAt (p :: l) (i + 1) = posAt l i := rfl
@[simp] private theorem posAt_nil (i : ℕ) : posAt [] i = none := rfl

private theorem posAt_left {A B : List Point} {i : ℕ} (h : i < A.length) : posAt (A ++ B) i = posAt A i := by
  unfold posAt; rw [List.getElem?_append_left h]

private theorem posAt_right {A B : List Point} {i : ℕ} : posAt (A ++ B) (A.length + i) = posAt B i := by
  unfold posAt; rw [List.getElem?_append_right (by omega)]; simp

private theorem setFirst_length (l : List Point) : (setFirst l).length = l.length := by
  unfold setFirst; split <;> rfl

private theorem setFirst_vals (l : List Point) : (setFirst l).map Prod.snd = l.map Prod.snd := by
  unfold setFirst; split <;> rfl

private theorem setLast_vals (l : List Point) : (setLast l).map Prod.snd = l.map Prod.snd := by
  fun_induction setLast l <;> simp_all

private theorem setLast_length (l : List Point) : (setLast l).length = l.length := by
  have := congrArg List.length (setLast_vals l); simpa using this

private theorem setLast_pos (l : List Point) (i : ℕ) :
    posAt (setLast l) i = if i + 1 = l.length then some ((posAt l i).getD 1) else posAt l i := by
  fun_induction setLast l generalizing i with
  | case1 => simp
  | case2 v => cases i <;> simp
  | case3 p hp =>
    obtain ⟨_ | q, v⟩ := p
    · exact absurd rfl (hp v)
    · cases i <;> simp
  | case4 p q l ih =>
    cases i with
    | zero => simp
    | succ i => rw [posAt_succ, ih, posAt_succ]; simp

private theorem setFirst_pos (l : List Point) (i : ℕ) :
    posAt (setFirst l) i = if i = 0 ∧ l ≠ [] then some ((posAt l 0).getD 0) else posAt l i := by
  unfold setFirst
  split
  · cases i <;> simp
  · rename_i h
    cases l with
    | nil => simp
    | cons p l =>
      obtain ⟨_ | q, v⟩ := p
      · exact absurd rfl (h v l)
      · cases i <;> simp

private theorem given_eq (l : List Point) (i : ℕ) : givenPosition l i = posAt (setLast (setFirst l)) i := by
  rw [setLast_pos, setFirst_length, setFirst_pos]
  unfold givenPosition posAt
  cases hi : l[i]? with
  | none =>
    have : l.length ≤ i := List.getElem?_eq_none_iff.mp hi
    by_cases h : i = 0 ∧ l ≠ []
    · have := List.length_pos_iff.mpr h.2
      omega
    · by_cases h' : i + 1 = l.length
      · omega
      · simp only [if_neg h, if_neg h', Option.bind_none]
  | some x =>
    obtain ⟨hlt, -⟩ := List.getElem?_eq_some_iff.mp hi
    have hne : l ≠ [] := by intro e; subst e; simp at hlt
    obtain ⟨_ | q, v⟩ := x
    · rcases i with _ | i
      · simp [hi, hne]
      · simp
    · rcases i with _ | i
      · simp [hi, hne]
      · simp

private theorem clamp_vals (m : ℚ) (l : List Point) : (clampFrom m l).map Prod.snd = l.map Prod.snd := by
  fun_induction clampFrom m l <;> simp_all

private theorem clamp_none (m : ℚ) (l : List Point) (i : ℕ) : posAt (clampFrom m l) i = none ↔ posAt l i = none := by
  fun_induction clampFrom m l generalizing i with
  | case1 => simp
  | case2 m v l ih => cases i <;> simp [ih]
  | case3 m p v l h ih => cases i <;> simp [ih]
  | case4 m p v l h ih => cases i <;> simp [ih]

private theorem clamp_some (m : ℚ) (l : List Point) (i : ℕ) (g : ℚ) (hg : posAt l i = some g) :
    ∃ p, posAt (clampFrom m l) i = some p ∧ IsGreatest {q | q = m ∨ ∃ j ≤ i, posAt l j = some q} p := by
  fun_induction clampFrom m l generalizing i with
  | case1 => simp at hg
  | case2 m v l ih =>
    cases i with
    | zero => simp at hg
    | succ i =>
      obtain ⟨p, h1, h2, h3⟩ := ih i hg
      refine ⟨p, h1, ?_, ?_⟩
      · rcases h2 with h | ⟨j, hj, h⟩
        · exact .inl h
        · exact .inr ⟨j + 1, by omega, h⟩
      · rintro q (h | ⟨j, hj, h⟩)
        · exact h3 (.inl h)
        · cases j with
          | zero => simp at h
          | succ j => exact h3 (.inr ⟨j, by omega, h⟩)
  | case3 m p v l hlt ih =>
    cases i with
    | zero =>
      refine ⟨m, rfl, .inl rfl, ?_⟩
      rintro q (h | ⟨j, hj, h⟩)
      · exact h.le
      · obtain rfl : j = 0 := by omega
        simp only [posAt_zero, Option.some.injEq] at h
        subst h; exact hlt.le
    | succ i =>
      obtain ⟨p', h1, h2, h3⟩ := ih i hg
      refine ⟨p', h1, ?_, ?_⟩
      · rcases h2 with h | ⟨j, hj, h⟩
        · exact .inl h
        · exact .inr ⟨j + 1, by omega, h⟩
      · rintro q (h | ⟨j, hj, h⟩)
        · exact h3 (.inl h)
        · cases j with
          | zero =>
            simp only [posAt_zero, Option.some.injEq] at h
            subst h
            exact hlt.le.trans (h3 (.inl rfl))
          | succ j => exact h3 (.inr ⟨j, by omega, h⟩)
  | case4 m p v l hlt ih =>
    cases i with
    | zero =>
      refine ⟨p, rfl, .inr ⟨0, by omega, rfl⟩, ?_⟩
      rintro q (h | ⟨j, hj, h⟩)
      · exact h.le.trans (not_lt.mp hlt)
      · obtain rfl : j = 0 := by omega
        simp only [posAt_zero, Option.some.injEq] at h
        exact h.ge
    | succ i =>
      obtain ⟨p', h1, h2, h3⟩ := ih i hg
      refine ⟨p', h1, ?_, ?_⟩
      · rcases h2 with h | ⟨j, hj, h⟩
        · exact .inr ⟨0, by omega, by simp [h]⟩
        · exact .inr ⟨j + 1, by omega, h⟩
      · rintro q (h | ⟨j, hj, h⟩)
        · exact h.le.trans ((not_lt.mp hlt).trans (h3 (.inl rfl)))
        · cases j with
          | zero =>
            simp only [posAt_zero, Option.some.injEq] at h
            exact h.ge.trans (h3 (.inl rfl))
          | succ j => exact h3 (.inr ⟨j, by omega, h⟩)

private theorem clamp_sorted (m : ℚ) (l : List Point) :
    ((clampFrom m l).filterMap Prod.fst).Pairwise (· ≤ ·) ∧ ∀ p ∈ (clampFrom m l).filterMap Prod.fst, m ≤ p := by
  fun_induction clampFrom m l with
  | case1 => simp
  | case2 m v l ih => simpa using ih
  | case3 m p v l h ih =>
    simp only [List.filterMap_cons, List.pairwise_cons]
    exact ⟨⟨ih.2, ih.1⟩, by simpa using ih.2⟩
  | case4 m p v l h ih =>
    simp only [List.filterMap_cons, List.pairwise_cons]
    refine ⟨⟨ih.2, ih.1⟩, ?_⟩
    intro q hq
    rcases List.mem_cons.mp hq with rfl | hq
    · exact not_lt.mp h
    · exact (not_lt.mp h).trans (ih.2 q hq)

private theorem emit_length (f t : ℚ) (pe : List ℚ) : (emit f t pe).length = pe.length := by simp [emit]

private theorem emit_vals (f t : ℚ) (pe : List ℚ) : (emit f t pe).map Prod.snd = pe := by
  unfold emit
  rw [List.map_map]
  exact List.zipIdx_map_fst 0 pe

private theorem emit_get {f t : ℚ} {pe : List ℚ} {i : ℕ} {p v : ℚ} (h : (emit f t pe)[i]? = some (p, v)) :
    i < pe.length ∧ p = f + ((i : ℚ) + 1) * ((t - f) / ((pe.length : ℚ) + 1)) := by
  have hl : i < pe.length := by
    have := (List.getElem?_eq_some_iff.mp h).1
    rwa [emit_length] at this
  refine ⟨hl, ?_⟩
  unfold emit at h
  rw [List.getElem?_map, List.getElem?_zipIdx] at h
  rw [List.getElem?_eq_getElem hl] at h
  simp only [Option.map_some, Option.some.injEq, Prod.mk.injEq] at h
  rw [← h.1]; push_cast; ring

private theorem emit_sorted {f t : ℚ} (hft : f ≤ t) (pe : List ℚ) :
    ((emit f t pe).map Prod.fst).Pairwise (· ≤ ·) ∧ ∀ p ∈ (emit f t pe).map Prod.fst, f ≤ p ∧ p ≤ t := by
  have hd : 0 ≤ (t - f) / ((pe.length : ℚ) + 1) := by
    apply div_nonneg <;> [linarith; positivity]
  have key : ((pe.length : ℚ) + 1) * ((t - f) / ((pe.length : ℚ) + 1)) = t - f := by field_simp
  constructor
  · rw [List.pairwise_iff_getElem]
    intro i j hi hj hij
    simp only [List.getElem_map]
    have hi' : i < (emit f t pe).length := by simpa using hi
    have hj' : j < (emit f t pe).length := by simpa using hj
    have e1 := (emit_get (p := (emit f t pe)[i].1) (v := (emit f t pe)[i].2) (List.getElem?_eq_getElem hi')).2
    have e2 := (emit_get (p := (emit f t pe)[j].1) (v := (emit f t pe)[j].2) (List.getElem?_eq_getElem hj')).2
    rw [e1, e2]
    have : (i : ℚ) ≤ j := by exact_mod_cast hij.le
    nlinarith
  · intro p hp
    obtain ⟨x, hx, rfl⟩ := List.mem_map.mp hp
    obtain ⟨i, hi⟩ := List.mem_iff_getElem?.mp hx
    obtain ⟨h1, h2⟩ := emit_get (p := x.1) (v := x.2) hi
    rw [h2]
    have h3 : (i : ℚ) + 1 ≤ pe.length := by exact_mod_cast h1
    have h4 : (0 : ℚ) ≤ i := by positivity
    constructor <;> nlinarith

private theorem fill_vals {f : ℚ} {pe : List ℚ} {l : List Point} {out : List (ℚ × ℚ)}
    (h : fill f pe l = some out) : out.map Prod.snd = pe ++ l.map Prod.snd := by
  fun_induction fill f pe l generalizing out with
  | case1 => cases h; rfl
  | case2 => cases h
  | case3 f pe v l ih => rw [ih h]; simp
  | case4 f pe t v l ih =>
    obtain ⟨o, ho, rfl⟩ := Option.map_eq_some_iff.mp h
    simp [emit_vals, ih ho]

private theorem fill_sorted {f : ℚ} {pe : List ℚ} {l : List Point} {out : List (ℚ × ℚ)}
    (h : fill f pe l = some out) (h1 : (l.filterMap Prod.fst).Pairwise (· ≤ ·))
    (h2 : ∀ p ∈ l.filterMap Prod.fst, f ≤ p) :
    (out.map Prod.fst).Pairwise (· ≤ ·) ∧ ∀ p ∈ out.map Prod.fst, f ≤ p := by
  fun_induction fill f pe l generalizing out with
  | case1 => cases h; simp
  | case2 => cases h
  | case3 f pe v l ih => exact ih h (by simpa using h1) (by simpa using h2)
  | case4 f pe t v l ih =>
    obtain ⟨o, ho, rfl⟩ := Option.map_eq_some_iff.mp h
    simp only [List.filterMap_cons, List.pairwise_cons] at h1
    have hft : f ≤ t := h2 t (by simp)
    obtain ⟨s1, s2⟩ := ih ho h1.2 h1.1
    obtain ⟨e1, e2⟩ := emit_sorted hft pe
    rw [List.map_append, List.map_cons]
    constructor
    · rw [List.pairwise_append, List.pairwise_cons]
      refine ⟨e1, ⟨s2, s1⟩, ?_⟩
      intro a ha b hb
      rcases List.mem_cons.mp hb with rfl | hb
      · exact (e2 a ha).2
      · exact (e2 a ha).2.trans (s2 b hb)
    · intro p hp
      rcases List.mem_append.mp hp with hp | hp
      · exact (e2 p hp).1
      · rcases List.mem_cons.mp hp with rfl | hp
        · exact hft
        · exact hft.trans (s2 p hp)

private theorem fill_total (f : ℚ) (pe : List ℚ) (l : List Point)
    (h : pe = [] ∧ l = [] ∨ ∃ m p v, l = m ++ [(some p, v)]) : ∃ out, fill f pe l = some out := by
  fun_induction fill f pe l with
  | case1 => exact ⟨_, rfl⟩
  | case2 f pe hpe =>
    rcases h with h | ⟨m, p, v, h⟩
    · exact absurd h.1 hpe
    · simp at h
  | case3 f pe v l ih =>
    apply ih
    rcases h with h | ⟨m, p, w, h⟩
    · simp at h
    · cases m with
      | nil => simp at h
      | cons x m => exact .inr ⟨m, p, w, (List.cons.inj h).2⟩
  | case4 f pe t v l ih =>
    obtain ⟨o, ho⟩ := ih (by
      rcases h with h | ⟨m, p, w, h⟩
      · simp at h
      · cases m with
        | nil => exact .inl ⟨rfl, (List.cons.inj h).2⟩
        | cons x m => exact .inr ⟨m, p, w, (List.cons.inj h).2⟩)
    exact ⟨_, by rw [ho]; rfl⟩

private def known (f v0 : ℚ) (pe : List ℚ) (l : List Point) : List Point :=
  ((some f, v0) :: pe.map fun v => (none, v)) ++ l

/-- the positions after `fill` -/
private theorem fill_pos {f v0 : ℚ} {pe : List ℚ} {l : List Point} {out : List (ℚ × ℚ)}
    (h : fill f pe l = some out) :
    (∀ i p, posAt (known f v0 pe l) i = some p → ∃ v, ((f, v0) :: out)[i]? = some (p, v)) ∧
    (∀ a i b pa va pi vi pb vb, a < i → i < b → (posAt (known f v0 pe l) a).isSome →
      (posAt (known f v0 pe l) b).isSome → (∀ j, a < j → j < b → posAt (known f v0 pe l) j = none) →
      ((f, v0) :: out)[a]? = some (pa, va) → ((f, v0) :: out)[i]? = some (pi, vi) →
      ((f, v0) :: out)[b]? = some (pb, vb) → pi = pa + ((i : ℚ) - a) / ((b : ℚ) - a) * (pb - pa)) := by
  fun_induction fill f pe l generalizing out v0 with
  | case1 f =>
    cases h
    constructor
    · intro i p hp
      cases i with
      | zero => simp only [known, List.cons_append, posAt_zero, Option.some.injEq] at hp; exact ⟨v0, by simp [hp]⟩
      | succ i => simp [known] at hp
    · intro a i b pa va pi vi pb vb h1 h2 h3 h4 h5 h6 h7 h8
      obtain ⟨hlt, -⟩ := List.getElem?_eq_some_iff.mp h8
      simp at hlt; omega
  | case2 => cases h
  | case3 f pe v l ih =>
    have e : known f v0 pe ((none, v) :: l) = known f v0 (pe ++ [v]) l := by simp [known]
    rw [e]; exact ih h
  | case4 f pe t v l ih =>
    obtain ⟨o, ho, rfl⟩ := Option.map_eq_some_iff.mp h
    obtain ⟨i1, i2⟩ := ih (v0 := v) ho
    have ek : known t v [] l = (some t, v) :: l := by simp [known]
    rw [ek] at i1 i2
    set A : List Point := (some f, v0) :: pe.map fun v => (none, v) with hA
    have hAl : A.length = pe.length + 1 := by simp [hA]
    have hkn : known f v0 pe ((some t, v) :: l) = A ++ (some t, v) :: l := rfl
    rw [hkn]
    set B : List (ℚ × ℚ) := (f, v0) :: emit f t pe with hB
    have hBl : B.length = pe.length + 1 := by simp [hB, emit_length]
    have hout : (f, v0) :: (emit f t pe ++ (t, v) :: o) = B ++ (t, v) :: o := rfl
    rw [hout]
    have Ain : ∀ i, i < A.length → (posAt A i).isSome → i = 0 := by
      intro i hi hs
      cases i with
      | zero => rfl
      | succ i =>
        simp only [hA, posAt, List.getElem?_cons_succ, List.getElem?_map] at hs
        cases hq : pe[i]? <;> simp [hq] at hs
    have mid : posAt (A ++ (some t, v) :: l) A.length = some t := by
      have := posAt_right (A := A) (B := (some t, v) :: l) (i := 0)
      simpa using this
    constructor
    · intro i p hp
      by_cases hi : i < A.length
      · rw [posAt_left hi] at hp
        obtain rfl := Ain i hi (by rw [hp]; rfl)
        simp only [hA, posAt_zero, Option.some.injEq] at hp
        exact ⟨v0, by simp [hB, hp]⟩
      · obtain ⟨k, rfl⟩ := Nat.exists_eq_add_of_le (not_lt.mp hi)
        rw [posAt_right] at hp
        obtain ⟨w, hw⟩ := i1 k p hp
        refine ⟨w, ?_⟩
        rw [List.getElem?_append_right (by omega), show A.length + k - B.length = k by omega]
        exact hw
    · intro a i b pa va pi vi pb vb h1 h2 h3 h4 h5 h6 h7 h8
      by_cases ha : a < A.length
      · rw [posAt_left ha] at h3
        obtain rfl := Ain a ha h3
        have hb : b = A.length := by
          rcases lt_trichotomy b A.length with hb | hb | hb
          · rw [posAt_left hb] at h4
            have := Ain b hb h4
            omega
          · exact hb
          · have := h5 A.length (by omega) hb
            rw [mid] at this; cases this
        subst hb
        obtain ⟨k, rfl⟩ : ∃ k, i = k + 1 := ⟨i - 1, by omega⟩
        have e6 : pa = f := by simp [hB] at h6; exact h6.1.symm
        have e8 : pb = t := by
          rw [List.getElem?_append_right (by omega), show A.length - B.length = 0 by omega] at h8
          simp at h8; exact h8.1.symm
        rw [List.getElem?_append_left (by omega)] at h7
        simp only [hB, List.getElem?_cons_succ] at h7
        obtain ⟨-, e7⟩ := emit_get h7
        rw [e7, e6, e8, hAl]
        push_cast
        have : (pe.length : ℚ) + 1 ≠ 0 := by positivity
        field_simp
        ring
      · obtain ⟨a', rfl⟩ := Nat.exists_eq_add_of_le (not_lt.mp ha)
        obtain ⟨i', rfl⟩ := Nat.exists_eq_add_of_le (show A.length ≤ i by omega)
        obtain ⟨b', rfl⟩ := Nat.exists_eq_add_of_le (show A.length ≤ b by omega)
        rw [posAt_right] at h3 h4
        have sh : ∀ k, (B ++ (t, v) :: o)[A.length + k]? = ((t, v) :: o)[k]? := by
          intro k
          rw [List.getElem?_append_right (by omega), show A.length + k - B.length = k by omega]
        rw [sh] at h6 h7 h8
        have := i2 a' i' b' pa va pi vi pb vb (by omega) (by omega) h3 h4 (by
          intro j hj1 hj2
          have := h5 (A.length + j) (by omega) (by omega)
          rwa [posAt_right] at this) h6 h7 h8
        rw [this]
        push_cast
        ring_nf

private theorem setLast_snoc {l : List Point} (h : l ≠ []) : ∃ m p v, setLast l = m ++ [(some p, v)] := by
  fun_induction setLast l with
  | case1 => exact absurd rfl h
  | case2 v => exact ⟨[], 1, v, rfl⟩
  | case3 p hp =>
    obtain ⟨_ | q, v⟩ := p
    · exact absurd rfl (hp v)
    · exact ⟨[], q, v, rfl⟩
  | case4 p q l ih =>
    obtain ⟨m, x, v, e⟩ := ih (by simp)
    exact ⟨p :: m, x, v, by rw [e]; rfl⟩

/-- **C51**: `linear()` never fails on control points, and completes them as CSS says. -/
theorem C51_linear_completed (l : List (Option ℚ × ℚ)) : ∃ out, linearPoints l = some out ∧ LinearCompleted l out := by
  unfold linearPoints
  by_cases h0 : l = []
  · subst h0
    exact ⟨[], rfl, rfl, by simp, by intro i g h; simp [givenPosition] at h,
      by intro a i b pa va pi vi pb vb h1 h2 h3; simp [givenPosition] at h3⟩
  rw [if_neg h0]
  have hD := given_eq l
  have hlen : (setLast (setFirst l)).length = l.length := by rw [setLast_length, setFirst_length]
  by_cases h1 : l.length = 1
  · rw [if_pos h1]
    obtain ⟨x, rfl⟩ := List.length_eq_one_iff.mp h1
    obtain ⟨q, v⟩ := x
    have e : (setFirst [(q, v)]) = [(some (q.getD 0), v)] := by cases q <;> rfl
    have e' : ∀ i g, givenPosition [(q, v)] i = some g ↔ i = 0 ∧ g = q.getD 0 := by
      intro i g
      rw [hD, e]
      cases i with
      | zero => simp [setLast, eq_comm]
      | succ i => simp [setLast]
    refine ⟨[(q.getD 0, v)], by rw [e]; rfl, by simp, by simp, ?_, ?_⟩
    · intro i g hg
      obtain ⟨rfl, rfl⟩ := (e' i g).mp hg
      refine ⟨_, v, rfl, ⟨0, le_rfl, (e' 0 _).mpr ⟨rfl, rfl⟩⟩, ?_⟩
      rintro r ⟨j, -, hj⟩
      exact ((e' j r).mp hj).2.le
    · intro a i b pa va pi vi pb vb h1 h2 h3 h4 h5 h6 h7 h8
      obtain ⟨hlt, -⟩ := List.getElem?_eq_some_iff.mp h8
      simp at hlt; omega
  · rw [if_neg h1]
    have hne : setLast (setFirst l) ≠ [] := by
      intro e; rw [e] at hlen; exact h0 (List.length_eq_zero_iff.mp hlen.symm)
    obtain ⟨⟨q0, v0⟩, D, hDc⟩ := List.exists_cons_of_ne_nil hne
    have hq : ∃ p0, q0 = some p0 := by
      have := hD 0
      rw [hDc, posAt_zero] at this
      cases l with
      | nil => exact absurd rfl h0
      | cons x l =>
        obtain ⟨_ | g, w⟩ := x
        · exact ⟨0, this.symm⟩
        · exact ⟨g, this.symm⟩
    obtain ⟨p0, rfl⟩ := hq
    rw [hDc] at hD
    have hvals : v0 :: D.map Prod.snd = l.map Prod.snd := by
      have := setLast_vals (setFirst l)
      rw [hDc, setFirst_vals] at this
      simpa using this
    have hDlen : D.length + 1 = l.length := by rw [← hlen, hDc]; rfl
    have hsn : ∃ m p v, clampFrom p0 D = m ++ [(some p, v)] := by
      obtain ⟨m, p, v, e⟩ := setLast_snoc (l := setFirst l) (by
        intro e; have := setFirst_length l; rw [e] at this; exact h0 (List.length_eq_zero_iff.mp this.symm))
      rw [hDc] at e
      cases m with
      | nil =>
        have := (List.cons.inj e).2
        subst this
        simp at hDlen; omega
      | cons x m =>
        have e2 := (List.cons.inj e).2
        have hcl : (clampFrom p0 D) ≠ [] := by
          intro h
          have := clamp_vals p0 D
          rw [h, e2] at this; simp at this
        obtain ⟨m', ⟨q', v'⟩, hm'⟩ := List.eq_nil_or_concat (clampFrom p0 D) |>.resolve_left hcl
        rw [List.concat_eq_append] at hm'
        have hlen2 : m'.length = m.length := by
          have := congrArg List.length (clamp_vals p0 D)
          rw [hm', e2] at this
          simpa using this
        have hx : posAt (clampFrom p0 D) m.length ≠ none := by
          rw [Ne, clamp_none, e2]
          have := posAt_right (A := m) (B := [(some p, v)]) (i := 0)
          simp at this; simp [this]
        rw [hm', ← hlen2] at hx
        have := posAt_right (A := m') (B := [(q', v')]) (i := 0)
        rw [Nat.add_zero] at this
        rw [this, posAt_zero] at hx
        obtain ⟨p', rfl⟩ := Option.ne_none_iff_exists'.mp hx
        exact ⟨m', p', v', hm'⟩
    obtain ⟨o, ho⟩ := fill_total p0 [] (clampFrom p0 D) (.inr hsn)
    refine ⟨(p0, v0) :: o, by rw [hDc]; simp only [spread]; rw [ho]; rfl, ?_, ?_, ?_, ?_⟩
    · have := fill_vals ho
      rw [List.map_cons, this, List.nil_append, clamp_vals]; exact hvals
    · obtain ⟨s1, s2⟩ := clamp_sorted p0 D
      obtain ⟨t1, t2⟩ := fill_sorted ho s1 s2
      exact List.pairwise_cons.mpr ⟨t2, t1⟩
    all_goals
      have ek : known p0 v0 [] (clampFrom p0 D) = clampFrom p0 ((some p0, v0) :: D) := by
        simp [known, clampFrom]
      obtain ⟨f1, f2⟩ := fill_pos (v0 := v0) ho
      rw [ek] at f1 f2
    · intro i g hg
      rw [hD] at hg
      obtain ⟨p, hp, g1, g2⟩ := clamp_some p0 _ i g hg
      obtain ⟨v, hv⟩ := f1 i p hp
      refine ⟨p, v, hv, ?_, ?_⟩
      · rcases g1 with h | ⟨j, hj, h⟩
        · exact ⟨0, by omega, by rw [hD, h]; rfl⟩
        · exact ⟨j, hj, by rw [hD]; exact h⟩
      · rintro q ⟨j, hj, h⟩
        exact g2 (.inr ⟨j, hj, by rw [← hD]; exact h⟩)
    · intro a i b pa va pi vi pb vb h1 h2 h3 h4 h5 h6 h7 h8
      have nn : ∀ k, (givenPosition l k).isSome → (posAt (clampFrom p0 ((some p0, v0) :: D)) k).isSome := by
        intro k hk
        rw [hD] at hk
        cases hc : posAt (clampFrom p0 ((some p0, v0) :: D)) k with
        | some _ => rfl
        | none => rw [(clamp_none _ _ _).mp hc] at hk; cases hk
      refine f2 a i b pa va pi vi pb vb h1 h2 (nn a h3) (nn b h4) ?_ h6 h7 h8
      intro j hj1 hj2
      rw [clamp_none, ← hD]
      exact h5 j hj1 hj2

/-- a case: first and last default to 0 and 1, 20% is raised to 50%, and two points are spread -/
example : linearPoints [(none, 0), (some (1/2), 3), (some (1/5), 4), (none, 5), (none, 6), (none, 7)] =
    some [(0, 0), (1/2, 3), (1/2, 4), (2/3, 5), (5/6, 6), (1, 7)] := by
  rw [linearPoints, if_neg (List.cons_ne_nil _ _)]
  norm_num [setFirst, setLast, spread, clampFrom, fill, emit, List.zipIdx]

/-- no two completions: the specification of C51 leaves no choice -/
theorem C51_unique (l : List (Option ℚ × ℚ)) (o₁ o₂ : List (ℚ × ℚ)) (h₁ : LinearCompleted l o₁)
    (h₂ : LinearCompleted l o₂) : o₁ = o₂ := by
  have hl : ∀ {o}, LinearCompleted l o → o.length = l.length := by
    intro o h; have := congrArg List.length h.values; simpa using this
  have hv : ∀ {o}, LinearCompleted l o → ∀ (i : ℕ) (p v : ℚ), o[i]? = some (p, v) → (l.map Prod.snd)[i]? = some v := by
    intro o h i p v e; rw [← h.values, List.getElem?_map, e]; rfl
  have some_of : ∀ i g, givenPosition l i = some g → o₁[i]? = o₂[i]? := by
    intro i g hg
    obtain ⟨p, v, e1, m1⟩ := h₁.given i g hg
    obtain ⟨q, w, e2, m2⟩ := h₂.given i g hg
    have := hv h₁ i p v e1
    rw [hv h₂ i q w e2] at this
    rw [e1, e2, m1.unique m2, Option.some.inj this]
  apply List.ext_getElem?
  intro i
  cases hg : givenPosition l i with
  | some g => exact some_of i g hg
  | none =>
    by_cases hi : i < l.length
    · have ends : ∀ j, j < l.length → j = 0 ∨ j + 1 = l.length → (givenPosition l j).isSome := by
        intro j hj he
        unfold givenPosition
        rw [List.getElem?_eq_getElem hj]
        rcases hx : l[j] with ⟨_ | p, v⟩
        · rcases he with he | he
          · simp [he]
          · simp only [he]; split <;> rfl
        · rfl
      -- the nearest neighbours with a position
      have down : ∃ a < i, (givenPosition l a).isSome ∧ ∀ j, a < j → j ≤ i → givenPosition l j = none := by
        have : ∀ k, k ≤ i → (∀ j, k < j → j ≤ i → givenPosition l j = none) →
            ∃ a < i, (givenPosition l a).isSome ∧ ∀ j, a < j → j ≤ i → givenPosition l j = none := by
          intro k
          induction k with
          | zero =>
            intro hk hj
            have h0 := ends 0 (by omega) (.inl rfl)
            rcases Nat.eq_zero_or_pos i with rfl | hp
            · rw [hg] at h0; cases h0
            · exact ⟨0, hp, h0, hj⟩
          | succ k ih =>
            intro hk hj
            by_cases hs : (givenPosition l (k + 1)).isSome
            · have : k + 1 ≠ i := by rintro rfl; rw [hg] at hs; cases hs
              exact ⟨k + 1, by omega, hs, hj⟩
            · refine ih (by omega) fun j hj1 hj2 => ?_
              rcases Nat.eq_or_lt_of_le hj1 with e | hlt
              · subst e; simpa using hs
              · exact hj j (by omega) hj2
        exact this i le_rfl (by intro j h1 h2; omega)
      have up : ∃ b, i < b ∧ b < l.length ∧ (givenPosition l b).isSome ∧
          ∀ j, i ≤ j → j < b → givenPosition l j = none := by
        have : ∀ d k, k + d + 1 = l.length → i ≤ k → (∀ j, i ≤ j → j < k → givenPosition l j = none) →
            ∃ b, i < b ∧ b < l.length ∧ (givenPosition l b).isSome ∧ ∀ j, i ≤ j → j < b → givenPosition l j = none := by
          intro d
          induction d with
          | zero =>
            intro k hk hik hj
            have h1 := ends k (by omega) (.inr (by omega))
            have : k ≠ i := by rintro rfl; rw [hg] at h1; cases h1
            exact ⟨k, by omega, by omega, h1, hj⟩
          | succ d ih =>
            intro k hk hik hj
            by_cases hs : (givenPosition l k).isSome
            · have : k ≠ i := by rintro rfl; rw [hg] at hs; cases hs
              exact ⟨k, by omega, by omega, hs, hj⟩
            · refine ih (k + 1) (by omega) (by omega) fun j hj1 hj2 => ?_
              rcases Nat.eq_or_lt_of_le (show j ≤ k by omega) with e | hlt
              · subst e; simpa using hs
              · exact hj j hj1 hlt
        exact this (l.length - i - 1) i (by omega) le_rfl (by intro j h1 h2; omega)
      obtain ⟨a, ha, hga, na⟩ := down
      obtain ⟨b, hb, hbl, hgb, nb⟩ := up
      obtain ⟨ga, ea⟩ := Option.isSome_iff_exists.mp hga
      obtain ⟨gb, eb⟩ := Option.isSome_iff_exists.mp hgb
      have ca := some_of a ga ea
      have cb := some_of b gb eb
      have get : ∀ {o : List (ℚ × ℚ)}, LinearCompleted l o → ∀ k, k < l.length → ∃ p v, o[k]? = some (p, v) := by
        intro o h k hk
        exact ⟨_, _, List.getElem?_eq_getElem (by rw [hl h]; exact hk)⟩
      obtain ⟨p1, v1, a1⟩ := get h₁ a (by omega)
      obtain ⟨p2, v2, i1⟩ := get h₁ i hi
      obtain ⟨p3, v3, b1⟩ := get h₁ b hbl
      obtain ⟨p4, v4, i2⟩ := get h₂ i hi
      have nn : ∀ j, a < j → j < b → givenPosition l j = none := by
        intro j hj1 hj2
        rcases Nat.le_total j i with h | h
        · exact na j hj1 h
        · exact nb j h hj2
      have r1 := h₁.missing a i b _ _ _ _ _ _ ha hb hga hgb nn a1 i1 b1
      have r2 := h₂.missing a i b _ _ _ _ _ _ ha hb hga hgb nn (ca ▸ a1) i2 (cb ▸ b1)
      have := hv h₁ i _ _ i1
      rw [hv h₂ i _ _ i2] at this
      rw [i1, i2, r1, r2, Option.some.inj this]
    · rw [List.getElem?_eq_none (by rw [hl h₁]; omega), List.getElem?_eq_none (by rw [hl h₂]; omega)]

/-! ## C55: steps() -/
open Flair.Easing (EasingFunction StepPosition JumpAt stepsOf stepStart stepEnd asUsize asIsize clamp01 Curve)

private theorem clamp01_id {x : ℚ} (h0 : 0 ≤ x) (h1 : x ≤ 1) : clamp01 x = x := by
  unfold clamp01; rw [min_eq_left h1, max_eq_right h0]

/-- the parts of a steps curve -/
private theorem steps_eval {n : ℕ} (hn : 1 ≤ n) (hmax : n < 2 ^ 31) (pos : StepPosition) (t : ℚ) :
    (EasingFunction.steps n pos).eval t = some (clamp01 (((⌊clamp01 t * n⌋ : ℚ) + pos.jumpAt.numbers.1) /
      ((max ((n : ℤ) + pos.jumpAt.numbers.2) 1 : ℤ) : ℚ))) := by
  have h1 : asUsize n = n := by unfold asUsize; rw [if_neg (by omega)]; omega
  have h2 : asIsize n = n := by unfold asIsize; rw [if_pos (by omega)]
  simp only [EasingFunction.eval, EasingFunction.curve, Option.bind_some, Curve.sample, JumpAt.eval, h1, h2]

private theorem steps_core {n : ℕ} (hn : 1 ≤ n) (hmax : n < 2 ^ 31) (pos : StepPosition) (kind : StepsKind)
    (a : ℕ) (b : ℤ) (hp : pos.jumpAt.numbers = ((a : ℚ), b)) (hb : 1 ≤ n + b) (hab : (n : ℤ) + b ≤ n + a)
    (hka : (n : ℤ) + a ≤ n + b + 1)
    (hval : ∀ k, kind.value n k = ((k : ℚ) + a) / ((n : ℚ) + b)) : IsSteps kind n (EasingFunction.steps n pos).eval := by
  have hn0 : (0 : ℚ) < n := by exact_mod_cast hn
  have hd : (0 : ℚ) < (n : ℚ) + b := by exact_mod_cast (by omega : (0 : ℤ) < n + b)
  have hm : ((max ((n : ℤ) + b) 1 : ℤ) : ℚ) = (n : ℚ) + b := by rw [max_eq_left hb]; push_cast; rfl
  constructor
  · intro k hk t ht1 ht2
    rw [steps_eval hn hmax, hp, hval]
    have hk1 : ((k : ℚ) + 1) ≤ n := by exact_mod_cast hk
    have h0 : 0 ≤ t := le_trans (by positivity) ht1
    have h1 : t ≤ 1 := by
      apply ht2.le.trans; rw [div_le_one hn0]; exact hk1
    rw [clamp01_id h0 h1]
    have hf : ⌊t * n⌋ = (k : ℤ) := by
      rw [Int.floor_eq_iff]
      rw [div_le_iff₀ hn0] at ht1
      rw [lt_div_iff₀ hn0] at ht2
      exact ⟨by exact_mod_cast ht1, by exact_mod_cast ht2⟩
    rw [hf]
    dsimp only
    rw [hm]
    congr 1
    push_cast
    apply clamp01_id
    · positivity
    · rw [div_le_one hd]
      have : (k : ℤ) + a ≤ n + b := by omega
      exact_mod_cast this
  · rw [steps_eval hn hmax, hp]
    dsimp only
    rw [hm, clamp01_id (by norm_num) le_rfl, one_mul, Int.floor_natCast]
    congr 1
    unfold clamp01
    have : 1 ≤ (((n : ℤ) : ℚ) + (a : ℚ)) / ((n : ℚ) + b) := by
      rw [le_div_iff₀ hd, one_mul]
      exact_mod_cast hab
    rw [min_eq_right this]; norm_num

/-- **C55**: `steps(n, name)` is the step function with this name, for every number of intervals CSS allows
(an `i32`). -/
theorem C55_steps (name : String) (kind : StepsKind) (hname : stepsKinds.lookup name = some kind) (n : ℕ)
    (hn : kind.least ≤ n) (hmax : n < 2 ^ 31) :
    ∃ e, stepsOf n (some name) = some e ∧ IsSteps kind n e.eval := by
  have hn1 : 1 ≤ n := by cases kind <;> simp only [StepsKind.least] at hn <;> omega
  have key : ∃ pos : StepPosition, Flair.Easing.stepPosition name = some pos ∧
      IsSteps kind n (EasingFunction.steps n pos).eval := by
    have start : ∀ pos : StepPosition, pos.jumpAt = .start → IsSteps .jumpStart n (EasingFunction.steps n pos).eval :=
      fun pos h => steps_core hn1 hmax pos _ 1 0 (by rw [h]; norm_num [JumpAt.numbers]) (by omega) (by omega) (by omega)
        (by intro k; simp [StepsKind.value])
    have end_ : ∀ pos : StepPosition, pos.jumpAt = .end → IsSteps .jumpEnd n (EasingFunction.steps n pos).eval :=
      fun pos h => steps_core hn1 hmax pos _ 0 0 (by rw [h]; norm_num [JumpAt.numbers]) (by omega) (by omega) (by omega)
        (by intro k; simp [StepsKind.value])
    unfold stepsKinds at hname
    unfold Flair.Easing.stepPosition
    simp only [List.lookup_cons] at hname ⊢
    by_cases h1 : name = "jump-start"
    · subst h1
      cases (show StepsKind.jumpStart = kind by simpa using hname)
      exact ⟨_, rfl, start _ rfl⟩
    by_cases h2 : name = "start"
    · subst h2
      cases (show StepsKind.jumpStart = kind by simpa using hname)
      exact ⟨_, rfl, start _ rfl⟩
    by_cases h3 : name = "jump-end"
    · subst h3
      cases (show StepsKind.jumpEnd = kind by simpa using hname)
      exact ⟨_, rfl, end_ _ rfl⟩
    by_cases h4 : name = "end"
    · subst h4
      cases (show StepsKind.jumpEnd = kind by simpa using hname)
      exact ⟨_, rfl, end_ _ rfl⟩
    by_cases h5 : name = "jump-none"
    · subst h5
      cases (show StepsKind.jumpNone = kind by simpa using hname)
      have : 2 ≤ n := hn
      exact ⟨_, rfl, steps_core hn1 hmax _ _ 0 (-1) (by norm_num [JumpAt.numbers, StepPosition.jumpAt]) (by omega) (by omega)
        (by omega) (by intro k; simp [StepsKind.value, sub_eq_add_neg])⟩
    by_cases h6 : name = "jump-both"
    · subst h6
      cases (show StepsKind.jumpBoth = kind by simpa using hname)
      exact ⟨_, rfl, steps_core hn1 hmax _ _ 1 1 (by norm_num [JumpAt.numbers, StepPosition.jumpAt]) (by omega) (by omega)
        (by omega) (by intro k; simp [StepsKind.value])⟩
    · simp [beq_false_of_ne h1, beq_false_of_ne h2, beq_false_of_ne h3, beq_false_of_ne h4, beq_false_of_ne h5,
        beq_false_of_ne h6] at hname
  obtain ⟨pos, e, h⟩ := key
  exact ⟨_, by simp only [stepsOf, e, Option.map_some], h⟩

/-- `steps(n)`, `step-start` and `step-end` are what CSS says -/
theorem C55_step_defaults (n : ℕ) (hn : 1 ≤ n) (hmax : n < 2 ^ 31) :
    (∃ e, stepsOf n none = some e ∧ IsSteps .jumpEnd n e.eval) ∧ IsSteps .jumpStart 1 stepStart.eval ∧
      IsSteps .jumpEnd 1 stepEnd.eval := by
  refine ⟨⟨_, rfl, ?_⟩, ?_, ?_⟩
  · obtain ⟨e, h1, h2⟩ := C55_steps "end" .jumpEnd rfl n hn hmax
    cases (show EasingFunction.steps n .end = e from Option.some.inj h1)
    exact h2
  · obtain ⟨e, h1, h2⟩ := C55_steps "jump-start" .jumpStart rfl 1 le_rfl (by norm_num)
    cases (show EasingFunction.steps 1 .jumpStart = e from Option.some.inj h1)
    exact h2
  · obtain ⟨e, h1, h2⟩ := C55_steps "jump-end" .jumpEnd rfl 1 le_rfl (by norm_num)
    cases (show EasingFunction.steps 1 .jumpEnd = e from Option.some.inj h1)
    exact h2

/-- a case: `steps(4, jump-none)` at 0.6 shows 2/3 -/
example : (EasingFunction.steps 4 .jumpNone).eval (3/5) = some (2/3) := by
  obtain ⟨e, h1, h2, -⟩ := C55_steps "jump-none" .jumpNone rfl 4 (by decide) (by norm_num)
  cases (show EasingFunction.steps 4 .jumpNone = e from Option.some.inj h1)
  rw [h2 2 (by norm_num) (3/5) (by norm_num) (by norm_num)]
  norm_num [StepsKind.value]

/-- `steps(1, jump-none)` and `steps(0)`, which CSS rejects, are accepted: the first one stays at 0 before the end,
the second one always. -/
theorem C55_invalid_steps_accepted :
    (∃ e, stepsOf 1 (some "jump-none") = some e ∧ e.eval (99/100) = some 0) ∧
      ∃ e, stepsOf 0 none = some e ∧ ∀ t, e.eval t = some 0 := by
  refine ⟨⟨_, rfl, ?_⟩, ⟨_, rfl, ?_⟩⟩
  · rw [show (1 : ℤ) = ((1 : ℕ) : ℤ) from rfl, steps_eval le_rfl (by norm_num)]
    have : ⌊clamp01 (99/100) * ((1 : ℕ) : ℚ)⌋ = 0 := by rw [clamp01_id (by norm_num) (by norm_num)]; norm_num
    rw [this]
    norm_num [StepPosition.jumpAt, JumpAt.numbers, clamp01]
  · intro t
    simp [EasingFunction.eval, EasingFunction.curve, Curve.sample, JumpAt.eval, asUsize, StepPosition.jumpAt,
      JumpAt.numbers, clamp01]

/-! ## C55: linear() -/

/-- **C55**: what `linear()` draws: the polyline through its points and through (0, 0) and (1, 1), where of several points
at the same position only the first one counts. -/
theorem C55_linear_drawn (points : List (ℚ × ℚ)) (hl : 2 ≤ points.length) :
    ∃ drawn, drawn.Pairwise (fun a b => a.1 < b.1) ∧
      (∀ x, x ∈ drawn ↔ (points ++ [(0, 0), (1, 1)]).find? (fun y => y.1 = x.1) = some x) ∧
      IsPolyline drawn (EasingFunction.linearPoints points).eval := by
  obtain ⟨hs, hm⟩ := coreNew_spec (points ++ [(0, 0), (1, 1)])
  refine ⟨_, hs, hm, ?_⟩
  set core := dedup ((points ++ [(0, 0), (1, 1)]).mergeSort fun a b => a.1 ≤ b.1) with hcore
  have hlen : ¬ core.length < 2 := by
    have key : ∀ k : ℚ, k = 0 ∨ k = 1 → ∃ v, (k, v) ∈ core := by
      intro k hk
      have : ∃ x : ℚ × ℚ, (points ++ [(0, 0), (1, 1)]).find? (fun y : ℚ × ℚ => y.1 = k) = some x := by
        rw [← Option.isSome_iff_exists, List.find?_isSome]
        rcases hk with rfl | rfl
        · exact ⟨(0, 0), by simp, by simp⟩
        · exact ⟨(1, 1), by simp, by simp⟩
      obtain ⟨x, hx⟩ := this
      have hk' : x.1 = k := by simpa using List.find?_some hx
      refine ⟨x.2, (hm _).mpr ?_⟩
      rw [← hk'] at hx ⊢
      exact hx
    obtain ⟨v, hv⟩ := key 0 (.inl rfl)
    obtain ⟨w, hw⟩ := key 1 (.inr rfl)
    clear_value core
    match core with
    | [] => cases hv
    | [x] =>
      have := (List.mem_singleton.mp hv).trans (List.mem_singleton.mp hw).symm
      norm_num at this
    | _ :: _ :: _ => simp
  have ev : ∀ t, (EasingFunction.linearPoints points).eval t = (Curve.linearPoints core).sample t := by
    intro t
    match points, hl with
    | p :: q :: l, _ =>
      have : coreNew ((p :: q :: l) ++ [(0, 0), (1, 1)]) = some core := by
        unfold coreNew
        simp only [← hcore]
        rw [if_neg hlen]
      simp only [EasingFunction.eval, EasingFunction.curve, this, Option.map_some, Option.bind_some]
  constructor
  · intro p hp
    rw [ev]
    obtain ⟨pre, post, e⟩ := List.append_of_mem hp
    rw [e] at hs ⊢
    obtain ⟨_, s2, s3⟩ := List.pairwise_append.mp hs
    simp only [Curve.sample]
    rw [sampleInterp_split (fun x hx => s3 x hx p List.mem_cons_self) (by
      intro x hx
      rcases List.mem_cons.mp hx with rfl | hx
      · exact lt_irrefl _
      · exact not_lt.mpr ((List.pairwise_cons.mp s2).1 x hx).le)]
    simp
  · intro pre a b post e t h1 h2
    rw [ev, e]
    rw [e, show pre ++ a :: b :: post = (pre ++ [a]) ++ b :: post by simp] at hs
    rw [show pre ++ a :: b :: post = (pre ++ [a]) ++ b :: post by simp]
    obtain ⟨s1, s2, s3⟩ := List.pairwise_append.mp hs
    simp only [Curve.sample]
    rw [sampleInterp_split (t := t) (by
      intro x hx
      rcases List.mem_append.mp hx with hx | hx
      · exact ((List.pairwise_append.mp s1).2.2 x hx a (by simp)).trans h1
      · rw [List.mem_singleton.mp hx]; exact h1) (by
      intro x hx
      rcases List.mem_cons.mp hx with rfl | hx
      · exact not_lt.mpr h2.le
      · exact not_lt.mpr (h2.trans ((List.pairwise_cons.mp s2).1 x hx)).le)]
    have hd : b.1 - a.1 ≠ 0 := by linarith
    simp only [List.getLast?_append, List.getLast?_singleton, Option.some_or, if_neg h2.ne', Option.map_some,
      Flair.Easing.lerp]
    congr 1
    field_simp
    ring

/-- **C55**: `linear()` with increasing positions from 0 to 1 joins its points by straight lines. -/
theorem C55_linear_partial (points : List (ℚ × ℚ)) (hs : points.Pairwise fun a b => a.1 < b.1)
    (h0 : ∃ v, (0, v) ∈ points) (h1 : ∃ v, (1, v) ∈ points) :
    IsPolyline points (EasingFunction.linearPoints points).eval := by
  obtain ⟨v, hv⟩ := h0
  obtain ⟨w, hw⟩ := h1
  have hlen : 2 ≤ points.length := by
    match points with
    | [] => cases hv
    | [x] =>
      have := (List.mem_singleton.mp hv).trans (List.mem_singleton.mp hw).symm
      norm_num at this
    | _ :: _ :: _ => simp
  obtain ⟨drawn, d1, d2, d3⟩ := C55_linear_drawn points hlen
  have e : drawn = points := strict_unique d1 hs ?_
  · rw [e] at d3; exact d3
  intro x
  rw [d2, List.find?_append]
  symm
  constructor
  · intro hx
    rw [(mem_strict hs x).mpr hx]; rfl
  · intro hx
    cases hf : points.find? (fun y => y.1 = x.1) with
    | some y =>
      rw [hf] at hx
      cases (show y = x from Option.some.inj hx)
      exact List.mem_of_find?_eq_some hf
    | none =>
      rw [hf, Option.none_or] at hx
      rw [List.find?_eq_none] at hf
      have e1 := List.mem_of_find?_eq_some hx
      simp only [List.mem_cons, List.not_mem_nil, or_false] at e1
      rcases e1 with rfl | rfl
      · exact (hf _ hv (by simp)).elim
      · exact (hf _ hw (by simp)).elim

/-- a case: `linear(0, 3 50%, 1)` at 25% -/
example : (EasingFunction.linearPoints [(0, 0), (1/2, 3), (1, 1)]).eval (1/4) = some (3/2) := by
  rw [(C55_linear_partial [(0, 0), (1/2, 3), (1, 1)] (by norm_num) ⟨0, by simp⟩ ⟨1, by simp⟩).2 [] (0, 0) (1/2, 3) [(1, 1)]
    rfl (1/4) (by norm_num) (by norm_num)]
  norm_num

/-- A jump is lost: `linear(0, 0 50%, 1 50%, 1)` stays at 0, then at 1, in CSS; here it rises from 0 to 1 in the second
half. -/
theorem C55_jump_lost :
    ∃ points, linearPoints [(none, 0), (some (1/2), 0), (some (1/2), 1), (none, 1)] = some points ∧
      (EasingFunction.linearPoints points).eval (3/4) = some (1/2) := by
  refine ⟨[(0, 0), (1/2, 0), (1/2, 1), (1, 1)], ?_, ?_⟩
  · rw [linearPoints, if_neg (List.cons_ne_nil _ _)]
    norm_num [setFirst, setLast, spread, clampFrom, fill, emit, List.zipIdx]
  obtain ⟨drawn, d1, d2, d3⟩ := C55_linear_drawn [(0, 0), (1/2, 0), (1/2, 1), (1, 1)] (by simp)
  have e : drawn = [(0, 0), (1/2, 0), (1, 1)] := by
    refine strict_unique d1 (by norm_num) fun x => ?_
    rw [d2]
    obtain ⟨p, v⟩ := x
    simp only [List.cons_append, List.nil_append, List.find?_cons, List.find?_nil, List.mem_cons, Prod.mk.injEq,
      List.not_mem_nil, or_false]
    by_cases h0 : p = 0
    · subst h0; norm_num [eq_comm]
    by_cases h1 : p = 1/2
    · subst h1; norm_num [eq_comm]
    by_cases h2 : p = 1
    · subst h2; norm_num [eq_comm]
    · simp only [decide_eq_false (Ne.symm h0), decide_eq_false (Ne.symm h1), decide_eq_false (Ne.symm h2), h0, h1, h2,
        false_and, or_self, iff_false]
      simp
  rw [e] at d3
  rw [d3.2 [(0, 0)] (1/2, 0) (1, 1) [] rfl (3/4) (by norm_num) (by norm_num)]
  norm_num

/-- A single point: `linear(0.7)` is 0.7 everywhere in CSS; here it is the position of the point, 0. -/
theorem C55_single_point_wrong :
    ∃ points, linearPoints [(none, 7/10)] = some points ∧ ∀ t, (EasingFunction.linearPoints points).eval t = some 0 :=
  ⟨[(0, 7/10)], rfl, fun _ => rfl⟩

/-- Without arguments it is the identity on the unit interval -/
theorem C55_linear_identity (t : ℚ) (h0 : 0 ≤ t) (h1 : t ≤ 1) :
    EasingFunction.linear.eval t = some t ∧ (linearPoints []).bind (fun l => (EasingFunction.linearPoints l).eval t) = some t := by
  constructor <;> exact congrArg some (clamp01_id h0 h1)

end Flair.Props
