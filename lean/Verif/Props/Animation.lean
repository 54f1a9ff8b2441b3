import Verif.Spec.Animation
import Verif.Tactics
import Mathlib.Tactic.Linarith
import Mathlib.Tactic.Ring
import Mathlib.Tactic.FieldSimp
import Mathlib.Tactic.NormNum
/-!
# C27 : animation life cycle, C28 : direction, C29 : fill mode, C30 : pause, C59 : active animations yield
values, C61 : changing options
-/
namespace Flair.Props
open Flair.Spec Flair.Animation
variable {V : Type}

/-! ## The state as a function of time -/

/-- The current direction in iteration `k`. -/
private def rev (dir : Direction) (k : Nat) : Bool :=
  match dir with
  | .normal => false
  | .reverse => true
  | .alternate => k % 2 = 1
  | .alternateReverse => k % 2 = 0

/-- Start of iteration `k` on the stopwatch's time scale. -/
private def base (o : Options) (k : Nat) : Nat := if k = 0 then 0 else o.delay + k * o.duration

/-- The animation is at time `T`. -/
private structure At (o : Options) (T : Nat) (begun fin : Bool) (a : Anim) : Prop where
  delay : a.delay = o.delay
  duration : a.duration = o.duration
  max : a.max = o.count
  direction : a.direction = o.direction
  fill : a.fill = o.fill
  cases :
    (a.state = .pending ∧ a.current = 0 ∧ a.reversed = rev o.direction 0 ∧ a.elapsed = T ∧
      (T < o.delay ∨ begun = false ∧ T = 0)) ∨
    (∃ k, a.state = .running ∧ o.delay + k * o.duration ≤ T ∧ T < o.delay + (k + 1) * o.duration ∧
      (∀ n, o.count = some n → k < n) ∧ a.current = min k u32Max ∧ a.reversed = rev o.direction k ∧
      a.elapsed = T - base o k) ∨
    (∃ n, o.count = some n ∧ 0 < n ∧ endAt o n ≤ T ∧ a.current = n - 1 ∧
      a.reversed = rev o.direction (n - 1) ∧
      ((fin = false ∧ a.state = .justFinished ∧ a.elapsed = a.iterDuration) ∨
       (fin = true ∧ a.state = .finished ∧ a.elapsed > a.iterDuration)))

private theorem rev_succ (dir : Direction) (k : Nat) :
    rev dir (k + 1) = match dir with
      | .alternate | .alternateReverse => !(rev dir k)
      | _ => rev dir k := by
  cases dir <;> simp only [rev]
  · rcases Nat.mod_two_eq_zero_or_one k with h | h <;> simp [Nat.add_mod, h]
  · rcases Nat.mod_two_eq_zero_or_one k with h | h <;> simp [Nat.add_mod, h]

private theorem min_inf (k M : Nat) : min (min k M + 1) M = min (k + 1) M := by omega

private theorem min_fin (k M n : Nat) (h : k + 1 < n) (hn : n ≤ M) :
    min (min (min k M + 1) M) n = min (k + 1) M := by omega

private theorem loop_at {o : Options} (hv : Options.Valid o) {T : Nat} (m : Nat) :
    ∀ (a : Anim) (k : Nat), a.delay = o.delay → a.duration = o.duration → a.max = o.count →
      a.direction = o.direction → a.fill = o.fill → a.state = .running → o.delay + k * o.duration ≤ T →
      (∀ n, o.count = some n → k < n) → a.current = min k u32Max → a.reversed = rev o.direction k →
      a.elapsed = T - base o k →
      (match o.count with
        | some n => n - k
        | none => T - (o.delay + k * o.duration)) < m → (0 < o.duration ∨ o.count ≠ none) →
      ∃ fuel b, a.loop fuel = some b ∧ At o T true false b ∧ b.paused = a.paused := by
  induction m with
  | zero => intro a k _ _ _ _ _ _ _ _ _ _ _ h; omega
  | succ m ih =>
    intro a k h1 h2 h3 h4 h5 h6 h7 h8 h9 h10 h11 hm hd
    have hmax : 0 < u32Max := by decide
    have hid : a.iterDuration = o.duration + (if k = 0 then o.delay else 0) := by
      unfold Anim.iterDuration Anim.iterDelay
      rw [h1, h2, h9]
      congr 1
      by_cases hk : k = 0
      · simp [hk]
      · rw [if_neg (by omega), if_neg hk]
    have hbase : base o k ≤ T := by
      unfold base; split <;> omega
    have hge : a.elapsed ≥ a.iterDuration ↔ o.delay + (k + 1) * o.duration ≤ T := by
      rw [hid, h11]
      unfold base at hbase ⊢
      by_cases hk : k = 0
      · simp [hk]; omega
      · simp only [hk, if_false] at hbase ⊢
        rw [Nat.succ_mul]; omega
    by_cases hmore : o.delay + (k + 1) * o.duration ≤ T
    · by_cases hl : a.onLast = true
      · refine ⟨1, ({ a with state := .justFinished, elapsed := a.iterDuration } : Anim),
          by rw [Anim.loop, if_pos (hge.mpr hmore), if_pos hl], ?_, rfl⟩
        unfold Anim.onLast at hl
        rw [h3] at hl
        cases hc : o.count with
        | none => rw [hc] at hl; simp at hl
        | some n =>
          rw [hc] at hl
          simp only [ge_iff_le, decide_eq_true_eq] at hl
          have hkn := h8 n hc
          have hn := hv n hc
          have hk : k = n - 1 := by omega
          refine ⟨h1, h2, h3, h4, h5, Or.inr (Or.inr ⟨n, hc, by omega, ?_, ?_, ?_, Or.inl ⟨rfl, rfl, rfl⟩⟩)⟩
          · unfold endAt
            have : n = k + 1 := by omega
            rw [this]; exact hmore
          · simp only; rw [h9]; omega
          · simp only; rw [h10, hk]
      · have hsub : a.elapsed - a.iterDuration = T - base o (k + 1) := by
          have hb1 : base o (k + 1) = o.delay + (k * o.duration + o.duration) := by
            simp [base, Nat.succ_mul]
          rw [hid, h11, hb1]
          rw [Nat.succ_mul] at hmore
          unfold base at hbase ⊢
          by_cases hk : k = 0
          · simp [hk]; omega
          · simp only [hk, if_false] at hbase ⊢
            omega
        have hlast : ∀ n, o.count = some n → k + 1 < n := by
          intro n hc
          unfold Anim.onLast at hl
          rw [h3, hc] at hl
          simp only [ge_iff_le, decide_eq_true_eq, not_le] at hl
          have := h8 n hc
          have := hv n hc
          omega
        obtain ⟨fuel, b, hb, hat, hp⟩ := ih
          ({ a with elapsed := a.elapsed - a.iterDuration } : Anim).iterate (k + 1) h1 h2 h3 h4 h5 h6 hmore hlast
          (by
            simp only [Anim.iterate]
            rw [h3]
            cases hc : o.count with
            | none => simp only; rw [h9, min_inf]
            | some n =>
              simp only
              rw [h9, min_fin _ _ _ (hlast n hc) (hv n hc)])
          (by
            simp only [Anim.iterate]
            rw [rev_succ, h4, h10]
            cases o.direction <;> rfl)
          hsub
          (by
            cases hc : o.count with
            | none =>
              rw [hc] at hm
              simp only at hm ⊢
              have : 0 < o.duration := hd.resolve_right (by simp [hc])
              rw [Nat.succ_mul] at hmore ⊢
              omega
            | some n =>
              rw [hc] at hm
              simp only at hm ⊢
              have := hlast n hc
              omega)
          hd
        refine ⟨fuel + 1, b, ?_, hat, hp⟩
        rw [Anim.loop, if_pos (hge.mpr hmore), if_neg (by simpa using hl)]
        exact hb
    · refine ⟨1, a, by rw [Anim.loop, if_neg (fun h => hmore (hge.mp h))], ?_, rfl⟩
      exact ⟨h1, h2, h3, h4, h5, Or.inr (Or.inl ⟨k, h6, h7, by omega, h8, h9, h10, h11⟩)⟩

private theorem loop_more {f : Nat} {a b : Anim} (h : a.loop f = some b) : a.loop (f + 1) = some b := by
  induction f generalizing a with
  | zero => simp [Anim.loop] at h
  | succ f ih =>
    rw [Anim.loop] at h ⊢
    split at h
    · rename_i hge
      rw [if_pos hge]
      split at h
      · rename_i hl; rw [if_pos hl]; exact h
      · rename_i hl; rw [if_neg hl]; exact ih h
    · rename_i hge; rw [if_neg hge]; exact h

private theorem loop_more_le {f g : Nat} {a b : Anim} (hfg : f ≤ g) (h : a.loop f = some b) :
    a.loop g = some b := by
  induction hfg with
  | refl => exact h
  | step _ ih => exact loop_more ih

private theorem tick_more {f g : Nat} {a b : Anim} {d : Nat} (hfg : f ≤ g) (h : a.tick f d = some b) :
    a.tick g d = some b := by
  unfold Anim.tick at h ⊢
  generalize (if a.paused then a.elapsed else a.elapsed + d) = e at h ⊢
  dsimp only at h ⊢
  generalize (if a.state = AState.pending ∧ e ≥ ({ a with elapsed := e } : Anim).iterDelay then
    ({ a with elapsed := e, state := AState.running } : Anim) else { a with elapsed := e }) = c at h ⊢
  split at h
  · rename_i hc; rw [if_pos hc]; exact h
  · rename_i hc
    rw [if_neg hc]
    split at h
    · rename_i hj
      rw [if_pos hj]; exact h
    · rename_i hj
      rw [if_neg hj]
      split at h
      · rename_i hr
        rw [if_pos hr]
        exact loop_more_le hfg h
      · rename_i hr
        rw [if_neg hr]; exact h

/-- `tick` has at most one result. -/
theorem C27_tick_functional (a b c : Anim) (d : Nat) (hb : a.Ticks d b) (hc : a.Ticks d c) : b = c := by
  obtain ⟨f, hf⟩ := hb
  obtain ⟨g, hg⟩ := hc
  have h1 := tick_more (Nat.le_max_left f g) hf
  have h2 := tick_more (Nat.le_max_right f g) hg
  rw [h1] at h2
  exact Option.some.inj h2

/-- The time that the stopwatch adds. -/
private def added (a : Anim) (d : Nat) : Nat := if a.paused then 0 else d

private theorem runs_functional {a b c : Anim} {ds : List Nat} (hb : Runs a ds b) (hc : Runs a ds c) :
    b = c := by
  induction hb generalizing c with
  | nil =>
    generalize hds : ([] : List Nat) = ds at hc
    cases hc with
    | nil => rfl
    | snoc d c h1 h2 => simp at hds
  | @snoc ds b d c' _ hd ih =>
    generalize hds : ds ++ [d] = ds' at hc
    cases hc with
    | nil => simp at hds
    | snoc d' c h1 h2 =>
      obtain ⟨e1, e2⟩ := List.append_inj' hds rfl
      cases e2
      subst e1
      have := ih h1
      subst this
      exact C27_tick_functional _ _ _ _ hd h2

/-- One tick, when the loop ends. -/
private theorem tick_at {o : Options} (hv : Options.Valid o) (h0 : o.count ≠ some 0) {T : Nat}
    {begun fin : Bool} {a : Anim} (h : At o T begun fin a) (d : Nat)
    (hd : 0 < o.duration ∨ o.count ≠ none) :
    ∃ b, a.Ticks d b ∧
      At o (T + added a d) true
        (decide (a.state = .finished ∨ a.state = .justFinished ∧ 0 < added a d)) b ∧
      b.paused = a.paused := by
  have he : (if a.paused then a.elapsed else a.elapsed + d) = a.elapsed + added a d := by
    unfold added; split <;> simp
  obtain ⟨h1, h2, h3, h4, h5, hc⟩ := h
  rcases hc with ⟨c1, c2, c3, c4, c5⟩ | ⟨k, c1, c2, c3, c4, c5, c6, c7⟩ | ⟨n, c1, c2, c3, c4, c5, c6⟩
  · have hid : a.iterDelay = o.delay := by simp [Anim.iterDelay, c2, h1]
    have hfin : (decide (a.state = .finished ∨ a.state = .justFinished ∧ 0 < added a d)) = false := by
      simp [c1]
    rw [hfin]
    have htick : ∀ fuel, a.tick fuel d =
        if T + added a d ≥ o.delay then
          ({ a with elapsed := T + added a d, state := .running } : Anim).loop fuel
        else some { a with elapsed := T + added a d } := by
      intro fuel
      unfold Anim.tick
      rw [he, c4]
      simp only [Anim.canTick, c1, decide_true, Bool.true_or, Bool.not_true, Bool.false_eq_true, if_false,
        reduceCtorEq, true_and]
      have : ({ a with elapsed := T + added a d } : Anim).iterDelay = o.delay := hid
      rw [← c1, this]
      by_cases hge : T + added a d ≥ o.delay
      · simp only [hge, if_true]
      · simp only [hge, if_false]
        rw [if_neg (by simp [c1])]
    by_cases hge : T + added a d ≥ o.delay
    · obtain ⟨fuel, b, hb, hat, hp⟩ := loop_at hv (T := T + added a d)
        ((match o.count with
          | some n => n - 0
          | none => T + added a d - (o.delay + 0 * o.duration)) + 1)
        ({ a with elapsed := T + added a d, state := .running } : Anim) 0 h1 h2 h3 h4 h5 rfl (by omega)
        (by intro n hn; rcases Nat.eq_zero_or_pos n with rfl | h; · exact absurd hn h0
            · exact h)
        (by simp [c2]) c3 (by simp [base]) (by omega) hd
      exact ⟨b, ⟨fuel, by rw [htick, if_pos hge]; exact hb⟩, hat, hp⟩
    · exact ⟨{ a with elapsed := T + added a d }, ⟨0, by rw [htick, if_neg hge]⟩,
        ⟨h1, h2, h3, h4, h5, Or.inl ⟨c1, c2, c3, rfl, Or.inl (by omega)⟩⟩, rfl⟩
  · have hfin : (decide (a.state = .finished ∨ a.state = .justFinished ∧ 0 < added a d)) = false := by
      simp [c1]
    rw [hfin]
    have hb : base o k ≤ T := by unfold base; split <;> omega
    have htick : ∀ fuel, a.tick fuel d =
          ({ a with elapsed := T - base o k + added a d } : Anim).loop fuel := by
      intro fuel
      unfold Anim.tick
      rw [he, c7]
      simp [Anim.canTick, c1]
    obtain ⟨fuel, b, hb, hat, hp⟩ := loop_at hv (T := T + added a d)
        ((match o.count with
          | some n => n - k
          | none => T + added a d - (o.delay + k * o.duration)) + 1)
        ({ a with elapsed := T - base o k + added a d } : Anim) k h1 h2 h3 h4 h5 c1 (by omega)
        c4 c5 c6 (by simp only; omega) (by omega) hd
    exact ⟨b, ⟨fuel, by rw [htick]; exact hb⟩, hat, hp⟩
  · rcases c6 with ⟨_, c7, c8⟩ | ⟨_, c7, c8⟩
    · have htick : a.tick 0 d = some (if 0 < added a d then
            { a with elapsed := a.elapsed + added a d, state := .finished } else a) := by
        unfold Anim.tick
        rw [he]
        simp only [Anim.canTick, c7, decide_true, Bool.or_true, Bool.not_true, Bool.false_eq_true, if_false,
          if_true]
        by_cases hz : 0 < added a d
        · rw [if_pos (by omega), if_pos hz]
        · have hz0 : added a d = 0 := by omega
          rw [if_neg (by omega), if_neg hz, hz0, Nat.add_zero, ← c7]
      refine ⟨_, ⟨0, htick⟩, ?_⟩
      by_cases hz : 0 < added a d
      · rw [if_pos hz]
        refine ⟨⟨h1, h2, h3, h4, h5, Or.inr (Or.inr ⟨n, c1, c2, by omega, c4, c5, Or.inr ⟨?_, rfl, ?_⟩⟩)⟩, rfl⟩
        · simp [c7, hz]
        · have : ({ a with elapsed := a.elapsed + added a d, state := .finished } : Anim).iterDuration =
            a.iterDuration := rfl
          rw [this]; simp only; omega
      · rw [if_neg hz]
        refine ⟨⟨h1, h2, h3, h4, h5, Or.inr (Or.inr ⟨n, c1, c2, by omega, c4, c5, Or.inl ⟨?_, c7, c8⟩⟩)⟩, rfl⟩
        simp [c7, hz]
    · refine ⟨a, ⟨0, ?_⟩, ⟨h1, h2, h3, h4, h5, Or.inr (Or.inr ⟨n, c1, c2, by omega, c4, c5, Or.inr ⟨?_, c7, c8⟩⟩)⟩, rfl⟩
      · unfold Anim.tick
        simp [Anim.canTick, c7]
      · simp [c7]

private theorem new_at (o : Options) (h0 : o.count ≠ some 0) : At o 0 false false (new o) := by
  refine ⟨rfl, rfl, rfl, rfl, rfl, Or.inl ⟨?_, rfl, ?_, rfl, Or.inr ⟨rfl, rfl⟩⟩⟩
  · show (if o.count = some 0 then AState.finished else .pending) = _
    rw [if_neg h0]
  · simp only [new, restart, rev]
    cases o.direction <;> simp

private theorem runs_at {o : Options} (hv : Options.Valid o) (h0 : o.count ≠ some 0) (hp : o.paused = false)
    (hd : 0 < o.duration ∨ o.count ≠ none) (ds : List Nat) :
    ∃ b fin, Runs (new o) ds b ∧ b.paused = false ∧ At o ds.sum (decide (ds ≠ [])) fin b ∧
      (fin = true ↔ Past o ds) := by
  induction ds using List.reverseRecOn with
  | nil =>
    refine ⟨new o, false, Runs.nil _, hp, new_at o h0, ?_⟩
    simp only [Bool.false_eq_true, false_iff]
    rintro ⟨n, l₁, l₂, _, h, h1, _⟩
    exact h1 (List.append_eq_nil_iff.mp h.symm).1
  | append_singleton ds d ih =>
    obtain ⟨b, fin, hr, hbp, hat, hfin⟩ := ih
    obtain ⟨c, hc, hcat, hcp⟩ := tick_at hv h0 hat d hd
    have hadd : added b d = d := by simp [added, hbp]
    rw [hadd] at hcat
    refine ⟨c, decide (b.state = .finished ∨ b.state = .justFinished ∧ 0 < d), Runs.snoc d c hr hc,
      hcp.trans hbp, ?_, ?_⟩
    · rw [List.sum_append, List.sum_singleton]
      simpa using hcat
    · rw [decide_eq_true_eq]
      constructor
      · intro h
        rcases hat.cases with ⟨c1, _⟩ | ⟨k, c1, _⟩ | ⟨n, c1, c2, c3, c4, c5, c6⟩
        · rw [c1] at h; simp at h
        · rw [c1] at h; simp at h
        · rcases c6 with ⟨c6, c7, c8⟩ | ⟨c6, c7, c8⟩
          · rw [c7] at h
            simp only [reduceCtorEq, false_or, true_and] at h
            refine ⟨n, ds, [d], c1, rfl, ?_, c3, by simpa using h⟩
            rintro rfl
            cases runs_functional hr (Runs.nil _)
            rw [(new_at o h0).cases.elim (fun h => h.1) (fun h => ?_)] at c7
            · simp at c7
            · have : (new o).state = .pending := by
                show (if o.count = some 0 then AState.finished else .pending) = _
                rw [if_neg h0]
              exact this
          · obtain ⟨n', l₁, l₂, hn', e, h1, h2, h3⟩ := hfin.mp c6
            exact ⟨n', l₁, l₂ ++ [d], hn', by simp [e], h1, h2, by simp; omega⟩
      · rintro ⟨n, l₁, l₂, hn, e, h1, h2, h3⟩
        have hl2 : l₂ ≠ [] := by rintro rfl; simp at h3
        obtain ⟨l₂', x, rfl⟩ := List.eq_nil_or_concat l₂ |>.resolve_left hl2
        rw [List.concat_eq_append, ← List.append_assoc] at e
        obtain ⟨e1, e2⟩ := List.append_inj' e rfl
        cases e2
        have hend : endAt o n ≤ ds.sum := by rw [e1, List.sum_append]; omega
        have hne : ds ≠ [] := by rw [e1]; simp [h1]
        rcases hat.cases with ⟨c1, c2, c3, c4, c5⟩ | ⟨k, c1, c2, c3, c4, _⟩ | ⟨n', c1, c2, c3, c4, c5, c6⟩
        · exfalso
          have : endAt o n ≥ o.delay := by unfold endAt; omega
          rcases c5 with h | h
          · omega
          · simp [hne] at h
        · exfalso
          have := c4 n hn
          have : (k + 1) * o.duration ≤ n * o.duration := Nat.mul_le_mul_right _ this
          unfold endAt at hend
          omega
        · rcases c6 with ⟨c6, c7, c8⟩ | ⟨c6, c7, c8⟩
          · right
            refine ⟨c7, ?_⟩
            by_contra hx
            have hx0 : d = 0 := by omega
            have : fin = true := hfin.mpr ⟨n, l₁, l₂', hn, e1, h1, h2, by
              rw [List.concat_eq_append, List.sum_append, List.sum_singleton] at h3; omega⟩
            rw [c6] at this
            simp at this
          · exact Or.inl c7

private theorem transform_rev {a : Anim} {dir : Direction} {k : Nat} (h : a.reversed = rev dir k) (p : ℚ) :
    a.transform p = positionAt dir k p := by
  unfold Anim.transform positionAt
  rw [h]
  unfold rev
  cases dir <;> simp only [Bool.false_eq_true, if_false, if_true, decide_eq_true_eq]
  rcases Nat.mod_two_eq_zero_or_one k with h | h <;> simp [h]

private theorem iter_eq {o : Options} {T k : Nat} (h1 : o.delay + k * o.duration ≤ T)
    (h2 : T < o.delay + (k + 1) * o.duration) : iterationAt o T = k := by
  unfold iterationAt
  apply Nat.div_eq_of_lt_le <;> omega

private theorem spec_at {o : Options} {T : Nat} {begun fin : Bool} {a : Anim}
    (h : At o T begun fin a) (hb : begun = true ∨ 0 < T) : AnimAt o T fin a := by
  obtain ⟨h1, h2, h3, h4, h5, hc⟩ := h
  have hM : 0 < u32Max := by decide
  rcases hc with ⟨c1, c2, c3, c4, c5⟩ | ⟨k, c1, c2, c3, c4, c5, c6, c7⟩ | ⟨n, c1, c2, c3, c4, c5, c6⟩
  · have hT : T < o.delay := by
      rcases c5 with h | ⟨h, h'⟩
      · exact h
      · rcases hb with hb | hb
        · rw [h] at hb; simp at hb
        · omega
    refine ⟨fun _ => ⟨c1, c2, ?_⟩, fun h => absurd h (by omega), ?_⟩
    · simp only [Anim.totalElapsed, Anim.iterDuration, Anim.iterDelay, c2, h1, h2, c4]
      simp
      omega
    · intro n _ hn
      unfold endAt at hn
      omega
  · have hk := iter_eq c2 c3
    refine ⟨fun h => absurd h (by omega), fun _ _ => ⟨c1, by rw [hk]; exact c5, ?_, ?_⟩, ?_⟩
    · rw [hk]
      intro hku
      have hcur : a.current = k := by omega
      rw [Nat.succ_mul] at c3
      unfold base at c7
      simp only [Anim.totalElapsed, Anim.iterDuration, Anim.iterDelay, hcur, h1, h2, c7]
      by_cases hk0 : k = 0
      · subst hk0; simp; omega
      · simp only [hk0, if_false]
        rw [if_pos (by omega)]
        omega
    · intro p; rw [hk]; exact transform_rev c6 p
    · intro n hn he
      exfalso
      have : (k + 1) * o.duration ≤ n * o.duration := Nat.mul_le_mul_right _ (c4 n hn)
      unfold endAt at he
      omega
  · refine ⟨fun h => ?_, fun _ h => absurd ⟨n, c1, c3⟩ h, ?_⟩
    · unfold endAt at c3; omega
    · intro n' hn' _
      rw [c1] at hn'
      cases hn'
      have ht : a.elapsed ≥ a.iterDuration → a.totalElapsed = endAt o n := by
        intro hge
        unfold Anim.totalElapsed
        rw [Nat.min_eq_right hge]
        obtain ⟨m, rfl⟩ : ∃ m, n = m + 1 := ⟨n - 1, by omega⟩
        simp only [Anim.iterDuration, Anim.iterDelay, c4, h1, h2, endAt, Nat.succ_mul, Nat.add_sub_cancel]
        by_cases hm : m = 0
        · subst hm; simp; omega
        · rw [if_pos (by omega), if_neg hm]; omega
      rcases c6 with ⟨c6, c7, c8⟩ | ⟨c6, c7, c8⟩
      · exact ⟨by rw [c6, c7]; rfl, c4, ht (by omega), transform_rev c5⟩
      · exact ⟨by rw [c6, c7]; rfl, c4, ht (by omega), transform_rev c5⟩

/-- **C27/C28**: after any sequence of ticks (with `T` in total) the animation is where the time `T` says,
however `T` was cut into frames; ticking returns. -/
theorem C27_life_cycle (o : Options) (hv : Options.Valid o) (h0 : o.count ≠ some 0) (hp : o.paused = false)
    (hd : 0 < o.duration ∨ o.count ≠ none) (ds : List Nat) (hne : ds ≠ []) :
    ∃ b over, Runs (new o) ds b ∧ AnimAt o ds.sum over b ∧ (over = true ↔ Past o ds) := by
  obtain ⟨b, fin, hr, _, hat, hfin⟩ := runs_at hv h0 hp hd ds
  exact ⟨b, fin, hr, spec_at hat (Or.inl (by simpa using hne)), hfin⟩

/-- Runs have one result, so `C27_life_cycle` speaks about every result. -/
theorem C27_functional (a b c : Anim) (ds : List Nat) (hb : Runs a ds b) (hc : Runs a ds c) : b = c :=
  runs_functional hb hc

private theorem fillsAfter_eq (f : Fill) : fillsAfter f = f.isForwards := by cases f <;> rfl

private theorem fillsBefore_eq (f : Fill) : fillsBefore f = f.isBackwards := by cases f <;> rfl

private theorem sample_at (curve : ℚ → V) {o : Options} {T : Nat} {begun fin : Bool} {a : Anim}
    (h : At o T begun fin a) (hb : begun = true ∨ 0 < T) (hd : 0 < o.duration) :
    a.sampleValue curve = animValue curve o T (a.state = .justFinished) := by
  obtain ⟨h1, h2, h3, h4, h5, hc⟩ := h
  have hM : 0 < u32Max := by decide
  have hdq : (0 : ℚ) < o.duration := by exact_mod_cast hd
  have hE : (0 : ℚ) < 1000000000 := by norm_num
  have hdiv : ∀ x y : Nat, F32.div (secs x - secs y) (secs a.duration) =
      .num (((x : ℚ) - y) / o.duration) := by
    intro x y
    unfold F32.div secs
    rw [h2, if_neg (by positivity)]
    congr 1
    field_simp
  unfold Anim.sampleValue
  rw [hdiv]
  simp only
  rcases hc with ⟨c1, c2, c3, c4, c5⟩ | ⟨k, c1, c2, c3, c4, c5, c6, c7⟩ | ⟨n, c1, c2, c3, c4, c5, c6⟩
  · have hT : T < o.delay := by
      rcases c5 with h | ⟨h, h'⟩
      · exact h
      · rcases hb with hb | hb
        · rw [h] at hb; simp at hb
        · omega
    have hid : a.iterDelay = o.delay := by simp [Anim.iterDelay, c2, h1]
    have hneg : ((T : ℚ) - o.delay) / o.duration < 0 := by
      apply div_neg_of_neg_of_pos _ hdq
      have : (T : ℚ) < o.delay := by exact_mod_cast hT
      linarith
    rw [c4, hid, if_neg (by rintro ⟨h, _⟩; linarith)]
    unfold animValue
    simp only [fillsBefore_eq]
    rw [if_pos hT, h5, ← transform_rev c3]
    by_cases hf : o.fill.isBackwards = true
    · rw [if_pos ⟨hneg, hf⟩, if_pos hf]
    · rw [if_neg (fun h => hf h.2), if_neg hf, if_neg (by rintro ⟨h, _⟩; linarith)]
  · have hk := iter_eq c2 c3
    have hx : (a.elapsed : ℚ) - a.iterDelay = ((T - o.delay) % o.duration : Nat) := by
      have hmod : (T - o.delay) % o.duration = T - (o.delay + k * o.duration) := by
        have := Nat.div_add_mod (T - o.delay) o.duration
        rw [iterationAt] at hk
        rw [hk, Nat.mul_comm] at this
        omega
      rw [hmod]
      have : a.iterDelay ≤ a.elapsed ∧ a.elapsed - a.iterDelay = T - (o.delay + k * o.duration) := by
        unfold Anim.iterDelay
        rw [c5, c7, h1]
        unfold base
        by_cases hk0 : k = 0
        · subst hk0; simp; omega
        · rw [if_neg (by omega), if_neg hk0]; omega
      rw [← this.2, Nat.cast_sub this.1]
    rw [hx]
    have hlt : ((T - o.delay) % o.duration : Nat) < o.duration := Nat.mod_lt _ hd
    have hprog : iterProgressAt o T = (((T - o.delay) % o.duration : Nat) : ℚ) / o.duration := rfl
    rw [← hprog]
    have hp0 : 0 ≤ iterProgressAt o T := by rw [hprog]; positivity
    have hp1 : iterProgressAt o T ≤ 1 := by
      rw [hprog, div_le_one hdq]
      exact_mod_cast hlt.le
    rw [if_pos ⟨hp0, hp1, Or.inl c1⟩, transform_rev c6]
    unfold animValue
    rw [if_neg (by omega), hk]
    cases hc : o.count with
    | none => rfl
    | some n =>
      simp only
      have : (k + 1) * o.duration ≤ n * o.duration := Nat.mul_le_mul_right _ (c4 n hc)
      rw [if_pos (by unfold endAt; omega)]
  · have hid : a.iterDuration = o.duration + a.iterDelay := by rw [Anim.iterDuration, h2]
    have hge : o.delay ≤ T := by unfold endAt at c3; omega
    have hval : animValue curve o T (a.state = .justFinished) =
        if decide (a.state = .justFinished) || o.fill.isForwards then
          some (curve (positionAt o.direction (n - 1) 1)) else none := by
      unfold animValue
      simp only [fillsAfter_eq]
      rw [if_neg (by omega : ¬ T < o.delay), c1]
      simp only
      rw [if_neg (by omega : ¬ T < endAt o n)]
    rw [hval]
    rcases c6 with ⟨c6, c7, c8⟩ | ⟨c6, c7, c8⟩
    · have : ((a.elapsed : ℚ) - a.iterDelay) / o.duration = 1 := by
        rw [c8, hid]; push_cast; field_simp; ring
      rw [this, c7, transform_rev c5]
      simp
    · have : 1 < ((a.elapsed : ℚ) - a.iterDelay) / o.duration := by
        rw [lt_div_iff₀ hdq]
        have : (o.duration : ℚ) + a.iterDelay < a.elapsed := by
          rw [hid] at c8; exact_mod_cast c8
        linarith
      rw [if_neg (by rintro ⟨_, h, _⟩; exact absurd h (not_le.mpr this)),
        if_neg (by rintro ⟨h, _⟩; linarith), h5, c7, transform_rev c5]
      simp [this.le]

/-- **C29**: what the animation shows is what its options say for the time `T`. -/
theorem C29_value (curve : ℚ → V) (o : Options) (hv : Options.Valid o) (h0 : o.count ≠ some 0)
    (hp : o.paused = false) (hd : 0 < o.duration) (ds : List Nat) (hne : ds ≠ []) (b : Anim)
    (hr : Runs (new o) ds b) :
    b.sampleValue curve = animValue curve o ds.sum (b.state = .justFinished) := by
  obtain ⟨b', fin, hr', _, hat, _⟩ := runs_at hv h0 hp (Or.inl hd) ds
  cases runs_functional hr hr'
  exact sample_at curve hat (Or.inl (by simpa using hne)) hd

/-- **C28**: within iteration `k`, at progress `x / duration` (`x` below the duration), the animation shows
its keyframes at `x / duration` or, in the iterations that run backwards, at `1 - x / duration`: all with
`reverse`, the second, fourth, ... with `alternate`, the first, third, ... with `alternate-reverse`. -/
theorem C28_direction (curve : ℚ → V) (o : Options) (hv : Options.Valid o)
    (hp : o.paused = false) (ds : List Nat) (b : Anim) (hr : Runs (new o) ds b) (hne : ds ≠ [])
    (k x : Nat) (hx : x < o.duration) (hk : ∀ n, o.count = some n → k < n)
    (hT : ds.sum = o.delay + k * o.duration + x) :
    b.sampleValue curve = some (curve (
      if o.direction = .reverse ∨ o.direction = .alternate ∧ k % 2 = 1 ∨
          o.direction = .alternateReverse ∧ k % 2 = 0
      then 1 - (x : ℚ) / o.duration else (x : ℚ) / o.duration)) := by
  have h0 : o.count ≠ some 0 := fun h => absurd (hk 0 h) (by omega)
  have hd : 0 < o.duration := by omega
  rw [C29_value curve o hv h0 hp hd ds hne b hr]
  have hi : iterationAt o ds.sum = k := by
    apply iter_eq
    · omega
    · rw [Nat.succ_mul]; omega
  have hprog : iterProgressAt o ds.sum = (x : ℚ) / o.duration := by
    unfold iterProgressAt
    have : ds.sum - o.delay = x + o.duration * k := by rw [hT, Nat.mul_comm]; omega
    rw [this, Nat.add_mul_mod_self_left, Nat.mod_eq_of_lt hx]
  have hpos : positionAt o.direction k ((x : ℚ) / o.duration) =
      if o.direction = .reverse ∨ o.direction = .alternate ∧ k % 2 = 1 ∨
          o.direction = .alternateReverse ∧ k % 2 = 0
      then 1 - (x : ℚ) / o.duration else (x : ℚ) / o.duration := by
    unfold positionAt
    cases o.direction <;> rcases Nat.mod_two_eq_zero_or_one k with h | h <;> simp [h]
  unfold animValue
  rw [if_neg (by omega), hi, hprog, hpos]
  cases hc : o.count with
  | none => rfl
  | some n =>
    simp only
    have : (k + 1) * o.duration ≤ n * o.duration := Nat.mul_le_mul_right _ (hk n hc)
    rw [Nat.succ_mul] at this
    rw [if_pos (by unfold endAt; omega)]

/-! ## Options with no iterations, or infinitely many of no duration -/

/-- An animation with `animation-iteration-count: 0` is finished from the start. -/
theorem C27_zero_count (o : Options) (h0 : o.count = some 0) (ds : List Nat) :
    Runs (new o) ds (new o) ∧ (new o).state = .finished := by
  have hs : (new o).state = .finished := by
    show (if o.count = some 0 then AState.finished else .pending) = _
    rw [if_pos h0]
  refine ⟨?_, hs⟩
  induction ds using List.reverseRecOn with
  | nil => exact Runs.nil _
  | append_singleton ds d ih =>
    refine Runs.snoc d _ ih ⟨0, ?_⟩
    unfold Anim.tick
    simp [Anim.canTick, hs]

private theorem loop_diverges (f : Nat) : ∀ a : Anim, a.max = none → a.duration = 0 → a.delay ≤ a.elapsed ∨ a.current ≠ 0 →
    a.loop f = none := by
  induction f with
  | zero => intros; rfl
  | succ f ih =>
    intro a h1 h2 h3
    have hM : 0 < u32Max := by decide
    have hge : a.elapsed ≥ a.iterDuration := by
      unfold Anim.iterDuration Anim.iterDelay
      rw [h2]
      split
      · rcases h3 with h | h
        · omega
        · contradiction
      · omega
    have hl : a.onLast = false := by unfold Anim.onLast; rw [h1]
    rw [Anim.loop, if_pos hge, hl]
    simp only [Bool.false_eq_true, if_false]
    refine ih _ h1 h2 (Or.inr ?_)
    simp only [Anim.iterate, h1]
    omega

/-- "Ticking always returns" is false: an infinite animation without duration never returns from the tick in
which its delay ends (F4). -/
theorem C27_diverges (o : Options) (hc : o.count = none) (hd : o.duration = 0) (hp : o.paused = false)
    (d : Nat) (h : o.delay ≤ d) : ¬ ∃ b, (new o).Ticks d b := by
  rintro ⟨b, fuel, hb⟩
  have : (new o).tick fuel d =
      ({ new o with elapsed := d, state := .running } : Anim).loop fuel := by
    unfold Anim.tick
    simp [Anim.canTick, new, restart, hp, hc, Anim.iterDelay, h]
  rw [this, loop_diverges] at hb
  · simp at hb
  · exact hc
  · exact hd
  · exact Or.inl h

private def exD : Options :=
  { delay := 0, duration := 0, direction := .normal, count := none, fill := .none, paused := false }

/-- Counterexample to the claim that `tick` always returns. -/
theorem C27_not_always_returns : ¬ ∀ (o : Options) (d : Nat), Options.Valid o → ∃ b, (new o).Ticks d b :=
  fun h => C27_diverges exD rfl rfl rfl 16 (Nat.zero_le _) (h exD 16 (by intro n hn; simp [exD] at hn))

/-- A case that meets the hypotheses of `C27_life_cycle` and `C29_value`: two iterations of 100ns after
50ns, ticked to 260ns. -/
private def exF : Options :=
  { delay := 50, duration := 100, direction := .alternate, count := some 2, fill := .forwards, paused := false }

example : ∃ b over, Runs (new exF) [60, 100, 60, 40] b ∧ AnimAt exF 260 over b ∧
    (over = true ↔ Past exF [60, 100, 60, 40]) :=
  C27_life_cycle exF (by intro n hn; cases hn; decide) (by simp [exF]) rfl (Or.inl (by decide)) _ (by simp)

/-- `C28_direction` for it: 170ns are 20ns in the second iteration, which runs backwards -/
example (b : Anim) (curve : ℚ → V) (h : Runs (new exF) [60, 110] b) :
    b.sampleValue curve = some (curve (1 - (20 : Nat) / (100 : Nat))) :=
  C28_direction curve exF (by intro n hn; cases hn; decide) rfl _ b h (by simp) 1 20 (by decide)
    (by intro n hn; cases hn; decide) rfl

/-- there the last tick reaches the end, and it is not past -/
example : ∃ b, Runs (new exF) [60, 100, 60, 40] b ∧ b.state = .justFinished := by
  obtain ⟨b, over, h1, h2, h3⟩ :=
    C27_life_cycle exF (by intro n hn; cases hn; decide) (by simp [exF]) rfl (Or.inl (by decide))
      [60, 100, 60, 40] (by simp)
  refine ⟨b, h1, ?_⟩
  rw [(h2.ended 2 rfl (by decide)).1]
  have : over = false := by
    by_contra h
    obtain ⟨n, l₁, l₂, hn, e, h4, h5, h6⟩ := h3.mp (by simpa using h)
    cases hn
    have hs : l₁.sum + l₂.sum = 260 := by rw [← List.sum_append, ← e]; rfl
    have h7 : endAt exF 2 = 250 := rfl
    have hl2 : l₂ ≠ [] := by rintro rfl; simp at h6
    obtain ⟨l₂', x, rfl⟩ := List.eq_nil_or_concat l₂ |>.resolve_left hl2
    rw [List.concat_eq_append, ← List.append_assoc] at e
    obtain ⟨e1, e2⟩ := List.append_inj' (s₁ := [60, 100, 60]) (t₁ := [40]) e rfl
    cases e2
    rw [List.concat_eq_append, List.sum_append] at hs
    simp at hs
    omega
  rw [this]; rfl

/-! ## Cancelled animations, and `is_active` -/

/-- "A cancelled animation yields none" is false: it still yields with fill mode forwards after its end
(and with backwards before its start): F5. -/
theorem C29_canceled_yields : ¬ ∀ (o : Options) (ds : List Nat) (b : Anim) (curve : ℚ → Nat),
    Options.Valid o → Runs (new o) ds b → b.cancel.sampleValue curve = none := by
  intro h
  have := h { exF with fill := .backwards } [] _ (fun _ => 0) (by intro n hn; cases hn; decide) (Runs.nil _)
  revert this
  have : F32.div (secs 0 - secs 50) (secs 100) = .num (-(1/2)) := by
    unfold F32.div secs
    norm_num
  simp only [Anim.sampleValue, Anim.cancel, new, restart, exF, Anim.iterDelay, if_true, this]
  norm_num [Fill.isBackwards]
  simp

/-- A cancelled animation with no fill yields none. -/
theorem C29_canceled_partial (curve : ℚ → V) (b : Anim) (hf : b.fill = .none) :
    b.cancel.sampleValue curve = none := by
  unfold Anim.sampleValue Anim.cancel
  simp only [hf]
  split <;> simp [Fill.isBackwards, Fill.isForwards]

/-- **C59** (animations, duration not zero): an animation is active iff it yields a value. -/
theorem C59_animation_partial (curve : ℚ → V) (o : Options) (hv : Options.Valid o) (h0 : o.count ≠ some 0)
    (hp : o.paused = false) (hd : 0 < o.duration) (ds : List Nat) (hne : ds ≠ []) (b : Anim)
    (hr : Runs (new o) ds b) : b.isActive = true ↔ b.sampleValue curve ≠ none := by
  rw [C29_value curve o hv h0 hp hd ds hne b hr]
  obtain ⟨b', over, hr', hat, _⟩ := C27_life_cycle o hv h0 hp (Or.inl hd) ds hne
  cases runs_functional hr hr'
  have hfill : b.fill = o.fill := by
    obtain ⟨b', _, hr', _, hat', _⟩ := runs_at hv h0 hp (Or.inl hd) ds
    cases runs_functional hr hr'
    exact hat'.fill
  unfold animValue Anim.isActive
  rw [hfill]
  by_cases h1 : ds.sum < o.delay
  · rw [if_pos h1, (hat.pending h1).1]
    simp [fillsBefore_eq]
  · rw [if_neg h1]
    cases hc : o.count with
    | none =>
      rw [(hat.running (by omega) (by rintro ⟨n, hn, _⟩; rw [hc] at hn; simp at hn)).1]
      simp
    | some n =>
      simp only
      by_cases h2 : ds.sum < endAt o n
      · rw [if_pos h2, (hat.running (by omega)
          (by rintro ⟨m, hm, hle⟩; rw [hc] at hm; cases hm; omega)).1]
        simp
      · rw [if_neg h2, (hat.ended n hc (by omega)).1]
        cases over <;> simp [fillsAfter_eq]

/-- With duration 0 it fails: the frame in which such an animation finishes, it is active but yields none
(F5). -/
theorem C59_animation_zero_duration : ¬ ∀ (o : Options) (ds : List Nat) (b : Anim) (curve : ℚ → Nat),
    Options.Valid o → ds ≠ [] → Runs (new o) ds b → (b.isActive = true ↔ b.sampleValue curve ≠ none) := by
  intro h
  let o : Options := { exD with count := some 1 }
  let b : Anim := { new o with state := .justFinished, elapsed := 0 }
  have hr : Runs (new o) ([] ++ [0]) b := Runs.snoc 0 b (Runs.nil _) ⟨1, by
    simp [Anim.tick, Anim.canTick, new, restart, o, b, exD, Anim.iterDelay, Anim.loop, Anim.iterDuration,
      Anim.onLast]⟩
  have := h o _ b (fun _ => 0) (by intro n hn; cases hn; decide) (by simp) hr
  revert this
  have hdiv : F32.div (secs 0 - secs 0) (secs 0) = .nan := by
    unfold F32.div secs; norm_num
  rw [sub_self] at hdiv
  simp [b, o, new, restart, exD, Anim.isActive, Anim.sampleValue, Anim.iterDelay, hdiv]

/-! ## Pause, and change of options -/

private theorem at_total {o : Options} {T : Nat} {begun fin : Bool} {a : Anim} (h : At o T begun fin a)
    (hi : o.count = none → iterationAt o T ≤ u32Max) (hv : Options.Valid o) : a.totalElapsed = cappedTime o T := by
  by_cases hb : begun = true ∨ 0 < T
  · have hs := spec_at h hb
    unfold cappedTime
    by_cases h1 : T < o.delay
    · rw [(hs.pending h1).2.2]
      split
      · unfold endAt; omega
      · rfl
    · cases hc : o.count with
      | none =>
        exact (hs.running (by omega) (by rintro ⟨n, hn, _⟩; rw [hc] at hn; simp at hn)).2.2.1 (hi hc)
      | some n =>
        simp only
        by_cases h2 : endAt o n ≤ T
        · rw [(hs.ended n hc h2).2.2.1, Nat.min_eq_right h2]
        · have hr := hs.running (by omega) (by rintro ⟨m, hm, hle⟩; rw [hc] at hm; cases hm; omega)
          rw [hr.2.2.1, Nat.min_eq_left (by omega)]
          rcases h.cases with ⟨c1, _⟩ | ⟨k, c1, c2, c3, c4, _⟩ | ⟨n', c1, c2, c3, _⟩
          · rw [c1] at hr; simp at hr
          · rw [iter_eq c2 c3]
            have := c4 n hc
            have := hv n hc
            omega
          · rw [hc] at c1; cases c1; omega
  · have hT : T = 0 := by omega
    subst hT
    have hcap : cappedTime o 0 = 0 := by unfold cappedTime; split <;> simp
    rw [hcap]
    rcases h.cases with ⟨c1, c2, c3, c4, c5⟩ | ⟨k, c1, c2, c3, c4, c5, c6, c7⟩ | ⟨n', c1, c2, c3, c4, c5, c6⟩
    · simp [Anim.totalElapsed, c2, c4]
    · have hk : k = 0 := by
        by_contra hk
        have hz : k * o.duration = 0 := by omega
        rcases Nat.mul_eq_zero.mp hz with h | h
        · exact hk h
        · rw [h] at c3; simp at c3; omega
      subst hk
      simp only [Nat.zero_min] at c5
      simp only [Anim.totalElapsed, c5, c7]
      simp
    · unfold endAt at c3
      have hd0 : n' * o.duration = 0 := by omega
      have hd1 : o.duration = 0 := by
        rcases Nat.mul_eq_zero.mp hd0 with h | h
        · omega
        · exact h
      have hdel : o.delay = 0 := by omega
      simp [Anim.totalElapsed, h.duration, h.delay, hd1, hdel, Anim.iterDuration, Anim.iterDelay]

private theorem restart_at (o : Options) (h0 : o.count ≠ some 0) : At o 0 false false (restart o) := by
  obtain ⟨h1, h2, h3, h4, h5, h6⟩ := new_at o h0
  exact ⟨h1, h2, h3, h4, h5, h6⟩

private theorem at_paused {o o' : Options} {T : Nat} {begun fin : Bool} {a : Anim} {p : Bool}
    (h : At o T begun fin a) (e1 : o'.delay = o.delay) (e2 : o'.duration = o.duration)
    (e3 : o'.count = o.count) (e4 : o'.direction = o.direction) (e5 : o'.fill = o.fill) :
    At o' T begun fin { a with paused := p } := by
  obtain ⟨d1, d2, d3, d4, d5, d6⟩ := o
  obtain ⟨f1, f2, f3, f4, f5, f6⟩ := o'
  simp only at e1 e2 e3 e4 e5
  subst e1 e2 e3 e4 e5
  obtain ⟨h1, h2, h3, h4, h5, h6⟩ := h
  exact ⟨h1, h2, h3, h4, h5, h6⟩

private theorem update_at {o : Options} (hg : Options.Good o) {a b : Anim} (hu : a.Updates o b) :
    ∃ begun fin, At o a.totalElapsed begun fin b ∧ b.paused = o.paused ∧
      (begun = false → a.totalElapsed = 0) := by
  obtain ⟨c, d, h1, h2, rfl⟩ := hu
  have hc : ∃ begun, At o a.totalElapsed begun false c ∧ c.paused = false ∧
      (begun = false → a.totalElapsed = 0) := by
    by_cases ht : a.totalElapsed > 0
    · rw [if_pos ht] at h1
      obtain ⟨c', hc', hat, hp⟩ := tick_at hg.valid hg.count (restart_at o hg.count) a.totalElapsed hg.returns
      cases C27_tick_functional _ _ _ _ h1 hc'
      have hadd : added (restart o) a.totalElapsed = a.totalElapsed := by simp [added, restart]
      rw [hadd, Nat.zero_add] at hat
      have hs : (restart o).state = .pending := by
        show (if o.count = some 0 then AState.finished else .pending) = _
        rw [if_neg hg.count]
      rw [hs] at hat
      exact ⟨true, by simpa using hat, hp, by simp⟩
    · rw [if_neg ht] at h1
      subst h1
      have : a.totalElapsed = 0 := by omega
      rw [this]
      exact ⟨false, restart_at o hg.count, rfl, fun _ => rfl⟩
  obtain ⟨begun, hat, hp, hbeg⟩ := hc
  by_cases hj : a.state = .finished ∧ c.state = .justFinished
  · rw [if_pos hj] at h2
    obtain ⟨d', hd', hat', hp'⟩ := tick_at hg.valid hg.count hat 1000000 hg.returns
    cases C27_tick_functional _ _ _ _ h2 hd'
    have hadd : added c 1000000 = 1000000 := by simp [added, hp]
    rw [hadd, hj.2] at hat'
    rcases hat.cases with ⟨c1, _⟩ | ⟨k, c1, _⟩ | ⟨n, c1, c2, c3, _⟩
    · rw [hj.2] at c1; simp at c1
    · rw [hj.2] at c1; simp at c1
    · -- at the end: the extra tick only changes the state
      refine ⟨true, true, ?_, rfl, by simp⟩
      obtain ⟨g1, g2, g3, g4, g5, g6⟩ := hat'
      refine ⟨g1, g2, g3, g4, g5, Or.inr (Or.inr ⟨n, c1, c2, c3, ?_⟩)⟩
      rcases g6 with ⟨e1, e2, e3, e4, e5⟩ | ⟨k, e1, e2, e3, e4, _⟩ | ⟨n', e1, e2, e3, e4, e5, e6⟩
      · exfalso
        unfold endAt at c3
        rcases e5 with h | h
        · omega
        · simp at h
      · exfalso
        have := e4 n c1
        have : (k + 1) * o.duration ≤ n * o.duration := Nat.mul_le_mul_right _ this
        unfold endAt at c3
        omega
      · rw [c1] at e1; cases e1
        refine ⟨e4, e5, ?_⟩
        have : d.state = .finished ∧ d.iterDuration < d.elapsed := by simpa using e6
        exact Or.inr ⟨rfl, this.1, this.2⟩
  · rw [if_neg hj] at h2
    subst h2
    exact ⟨begun, false, at_paused hat rfl rfl rfl rfl rfl, rfl, hbeg⟩

private theorem hist_at {o : Options} {T : Nat} {a : Anim} (h : Hist o T a) :
    Options.Good o ∧ ∃ begun fin, At o T begun fin a ∧ a.paused = o.paused := by
  induction h with
  | new o hg => exact ⟨hg, false, false, new_at o hg.count, rfl⟩
  | @tick o T a b d hh ht ih =>
    obtain ⟨hg, begun, fin, hat, hp⟩ := ih
    obtain ⟨b', hb', hat', hp'⟩ := tick_at hg.valid hg.count hat d hg.returns
    cases C27_tick_functional _ _ _ _ ht hb'
    have : T + added a d = if o.paused then T else T + d := by
      unfold added; rw [hp]; split <;> rfl
    rw [this] at hat'
    exact ⟨hg, true, _, hat', hp'.trans hp⟩
  | @update o T a b o' hh hg' hi hu ih =>
    obtain ⟨hg, begun, fin, hat, hp⟩ := ih
    obtain ⟨begun', fin', hat', hp', _⟩ := update_at hg' hu
    rw [at_total hat hi hg.valid] at hat'
    exact ⟨hg', begun', fin', hat', hp'⟩

/-- **C61**: after any history of ticks, pauses and changes of options, the animation is where its present
options put it at the time that has passed (`update_options`: "as if the options were given from the
start"). -/
theorem C61_history (o : Options) (T : Nat) (a : Anim) (h : Hist o T a) (hT : 0 < T) :
    ∃ over, AnimAt o T over a := by
  obtain ⟨_, begun, fin, hat, _⟩ := hist_at h
  exact ⟨fin, spec_at hat (Or.inr hT)⟩

/-- The value shown is also that of the present options at that time. -/
theorem C61_value (curve : ℚ → V) (o : Options) (T : Nat) (a : Anim) (h : Hist o T a) (hT : 0 < T)
    (hd : 0 < o.duration) : a.sampleValue curve = animValue curve o T (a.state = .justFinished) := by
  obtain ⟨_, begun, fin, hat, _⟩ := hist_at h
  exact sample_at curve hat (Or.inr hT) hd

/-- Ticking returns, when options are good. -/
theorem C61_returns (o : Options) (T : Nat) (a : Anim) (h : Hist o T a) (d : Nat) : ∃ b, a.Ticks d b := by
  obtain ⟨hg, begun, fin, hat, _⟩ := hist_at h
  obtain ⟨b, hb, _⟩ := tick_at hg.valid hg.count hat d hg.returns
  exact ⟨b, hb⟩

/-- **C30**: ticking a paused animation leaves it as it is, except that one that has no delay and was never
ticked starts running (without advancing). -/
theorem C30_paused (o : Options) (T : Nat) (a b : Anim) (h : Hist o T a) (hp : o.paused = true)
    (hd : 0 < o.duration) (d : Nat) (ht : a.Ticks d b) :
    b = a ∨ a.state = .pending ∧ T = 0 ∧ o.delay = 0 ∧ b = { a with state := .running } := by
  obtain ⟨hg, begun, fin, hat, hap⟩ := hist_at h
  rw [hp] at hap
  obtain ⟨f, hf⟩ := ht
  have hf := tick_more (Nat.le_add_right f 1) hf
  have key : ∀ X, a.tick (f + 1) d = some X → b = X := by
    intro X hX; rw [hX] at hf; exact (Option.some.inj hf).symm
  obtain ⟨g1, g2, g3, g4, g5, g6⟩ := hat
  obtain ⟨a1, a2, a3, a4, a5, a6, a7, a8, a9, a10⟩ := a
  simp only at hap g1 g2 g3 g4 g5 g6
  subst hap g1 g2 g3 g4 g5
  rcases g6 with ⟨c1, c2, c3, c4, c5⟩ | ⟨k, c1, c2, c3, c4, c5, c6, c7⟩ | ⟨n, c1, c2, c3, c4, c5, c6⟩
  · subst c1 c2 c4
    by_cases hge : a3 ≥ o.delay
    · right
      have hT : a3 = 0 := by omega
      have hdel : o.delay = 0 := by omega
      refine ⟨rfl, hT, hdel, key _ ?_⟩
      subst hT
      simp only [Anim.tick, Anim.canTick, Anim.iterDelay, Anim.loop, Anim.iterDuration, hdel]
      simp
      omega
    · left
      refine key _ ?_
      simp only [Anim.tick, Anim.canTick, Anim.iterDelay]
      simp [hge]
  · subst c1
    left
    refine key _ ?_
    simp only [Anim.tick, Anim.canTick, Anim.loop]
    have hlt : ¬ a3 ≥ (Anim.mk o.delay o.duration a3 true a5 o.count a7 .running o.direction
        o.fill).iterDuration := by
      have hM : 0 < u32Max := by decide
      unfold Anim.iterDuration Anim.iterDelay
      rw [c7, c5]
      unfold base
      rw [Nat.succ_mul] at c3
      by_cases hk : k = 0
      · subst hk; simp; omega
      · rw [if_neg hk]; simp only; rw [if_neg (by omega)]; omega
    simp
    exact fun h => absurd h hlt
  · left
    rcases c6 with ⟨_, c7, _⟩ | ⟨_, c7, _⟩
    · subst c7
      refine key _ ?_
      simp [Anim.tick, Anim.canTick]
    · subst c7
      refine key _ ?_
      simp [Anim.tick, Anim.canTick]

/-- **C30**: pausing, waiting through any ticks and resuming leaves the animation at the time it had. -/
theorem C30_resume (o : Options) (T : Nat) (a b c e : Anim) (h : Hist o T a)
    (hi : o.count = none → iterationAt o T ≤ u32Max)
    (hb : a.Updates { o with paused := true } b) (ds : List Nat) (hc : Runs b ds c)
    (he : c.Updates o e) (hT : 0 < cappedTime o T) :
    Hist o (cappedTime o T) e ∧ ∃ over, AnimAt o (cappedTime o T) over e := by
  have hg := (hist_at h).1
  have hg' : Options.Good { o with paused := true } := ⟨hg.valid, hg.count, hg.returns⟩
  have hbH := Hist.update _ h hg' hi hb
  have hcH : Hist { o with paused := true } (cappedTime o T) c := by
    clear he
    induction hc with
    | nil => exact hbH
    | snoc d c h1 h2 ih => exact Hist.tick d (ih) h2
  have hcap : cappedTime { o with paused := true } (cappedTime o T) = cappedTime o T := by
    unfold cappedTime endAt
    simp only
    cases o.count with
    | none => rfl
    | some n => simp
  have hi' : ({ o with paused := true } : Options).count = none →
      iterationAt { o with paused := true } (cappedTime o T) ≤ u32Max := by
    intro hn
    have : cappedTime o T = T := by
      unfold cappedTime
      simp only at hn
      rw [hn]
    rw [this]
    exact hi hn
  have heH := Hist.update o hcH hg hi' he
  rw [hcap] at heH
  exact ⟨heH, C61_history o _ e heH hT⟩

/-- Changing options to good ones returns. -/
theorem C61_update_returns (o : Options) (hg : Options.Good o) (a : Anim) : ∃ b, a.Updates o b := by
  obtain ⟨c, hc, hat, _⟩ := tick_at hg.valid hg.count (restart_at o hg.count) a.totalElapsed hg.returns
  obtain ⟨d, hd, _⟩ := tick_at hg.valid hg.count hat 1000000 hg.returns
  obtain ⟨d', hd', _⟩ := tick_at hg.valid hg.count (restart_at o hg.count) 1000000 hg.returns
  by_cases h : a.totalElapsed > 0
  · by_cases hj : a.state = .finished ∧ c.state = .justFinished
    · exact ⟨_, c, d, by rw [if_pos h]; exact hc, by rw [if_pos hj]; exact hd, rfl⟩
    · exact ⟨_, c, c, by rw [if_pos h]; exact hc, by rw [if_neg hj], rfl⟩
  · by_cases hj : a.state = .finished ∧ (restart o).state = .justFinished
    · exact ⟨_, restart o, d', by rw [if_neg h], by rw [if_pos hj]; exact hd', rfl⟩
    · exact ⟨_, restart o, restart o, by rw [if_neg h], by rw [if_neg hj], rfl⟩

private theorem exF_good (p : Bool) (d : Nat) : Options.Good { exF with paused := p, delay := d } :=
  ⟨by intro n hn; cases hn; decide, by simp [exF], Or.inl (by simp [exF])⟩

/-- A history with a tick, a pause, a tick, and a resume with another delay. -/
example : ∃ a, Hist { exF with delay := 20 } 170 a ∧ ∃ over, AnimAt { exF with delay := 20 } 170 over a := by
  have h0 : Hist exF 0 (new exF) := Hist.new _ (exF_good false 50)
  obtain ⟨a1, h1⟩ := C61_returns _ _ _ h0 170
  have h1 : Hist exF 170 a1 := Hist.tick 170 h0 h1
  obtain ⟨a2, h2⟩ := C61_update_returns { exF with paused := true } (exF_good true 50) a1
  have h2 : Hist { exF with paused := true } 170 a2 :=
    Hist.update { exF with paused := true } h1 (exF_good true 50) (by simp [exF]) h2
  obtain ⟨a3, h3⟩ := C61_returns _ _ _ h2 1000
  have h3 : Hist { exF with paused := true } 170 a3 := Hist.tick 1000 h2 h3
  obtain ⟨a4, h4⟩ := C61_update_returns { exF with delay := 20 } (exF_good false 20) a3
  have h4 : Hist { exF with delay := 20 } 170 a4 :=
    Hist.update { exF with delay := 20 } h3 (exF_good false 20) (by simp [exF]) h4
  exact ⟨a4, h4, C61_history _ _ _ h4 (by decide)⟩

end Flair.Props
