import Verif.Spec.Transition
import Verif.Tactics
import Mathlib.Tactic.Linarith
import Mathlib.Tactic.Ring
import Mathlib.Tactic.FieldSimp
import Mathlib.Tactic.NormNum
/-!
# C24 : transition life cycle, C25 : transition values, C26 : reversed transitions,
C59 : active transitions yield values, C60 : no jump when a transition is replaced
-/
namespace Flair.Props
open Flair.Spec Flair.Transition
variable {V : Type}

/-- What all transitions that were just created have in common. -/
private theorem created_facts [DecidableEq V] {interp : V → V → ℚ → V} {dflt : V} {t : Tr V}
    (h : Created interp dflt t) : t.elapsed = 0 ∧ t.state = .pending ∧ t.total = t.duration + t.delay ∧
      ((∀ a b, interp a b 0 = a) → t.src = t.curveStart) := by
  cases h with
  | new src dst o => exact ⟨rfl, rfl, rfl, fun hi => hi _ _⟩
  | replacing src dst o replaced t h =>
    unfold fromPossiblyReversed Tr.updateReversed at h
    split at h
    · cases h; exact ⟨rfl, rfl, rfl, fun hi => hi _ _⟩
    · dsimp only at h
      split at h
      · split at h
        · cases h
        · cases h; exact ⟨rfl, rfl, rfl, fun _ => rfl⟩
      · cases h

private theorem tick_fields (t : Tr V) (d : Nat) : (t.tick d).delay = t.delay ∧
    (t.tick d).duration = t.duration ∧ (t.tick d).total = t.total ∧ (t.tick d).src = t.src ∧
    (t.tick d).dst = t.dst ∧ (t.tick d).ease = t.ease ∧ (t.tick d).curveStart = t.curveStart ∧
    (t.tick d).radj = t.radj ∧ (t.tick d).factor = t.factor := by
  unfold Tr.tick
  split
  · simp
  · split
    · simp
    · split <;> simp

private theorem ticks_fields (ds : List Nat) (t : Tr V) : (ds.foldl Tr.tick t).delay = t.delay ∧
    (ds.foldl Tr.tick t).duration = t.duration ∧ (ds.foldl Tr.tick t).total = t.total ∧
    (ds.foldl Tr.tick t).src = t.src ∧ (ds.foldl Tr.tick t).dst = t.dst ∧
    (ds.foldl Tr.tick t).ease = t.ease ∧ (ds.foldl Tr.tick t).curveStart = t.curveStart ∧
    (ds.foldl Tr.tick t).radj = t.radj ∧ (ds.foldl Tr.tick t).factor = t.factor := by
  induction ds generalizing t with
  | nil => simp
  | cons d ds ih =>
    rw [List.foldl_cons]
    have h1 := ih (t.tick d)
    have h2 := tick_fields t d
    obtain ⟨a1, a2, a3, a4, a5, a6, a7, a8, a9⟩ := h1
    obtain ⟨b1, b2, b3, b4, b5, b6, b7, b8, b9⟩ := h2
    exact ⟨a1.trans b1, a2.trans b2, a3.trans b3, a4.trans b4, a5.trans b5, a6.trans b6, a7.trans b7,
      a8.trans b8, a9.trans b9⟩

/-- State and clock after the ticks. -/
private theorem ticks_state {t : Tr V} (h0 : t.elapsed = 0) (hs : t.state = .pending)
    (ht : t.total = t.duration + t.delay) (ds : List Nat) (hne : ds ≠ []) :
    (ds.foldl Tr.tick t).state = phaseAt t.delay t.duration ds.sum ∧
    (ds.foldl Tr.tick t).elapsed = min ds.sum (t.delay + t.duration) := by
  induction ds using List.reverseRecOn with
  | nil => exact absurd rfl hne
  | append_singleton ds d ih =>
    rw [List.foldl_append, List.foldl_cons, List.foldl_nil, List.sum_append, List.sum_cons, List.sum_nil,
      Nat.add_zero]
    obtain ⟨f1, f2, f3, _⟩ := ticks_fields ds t
    have hcase : ((ds.foldl Tr.tick t).state = .pending ∧ (ds.foldl Tr.tick t).elapsed = ds.sum ∧
          (ds.sum < t.delay ∨ ds.sum = 0)) ∨
        ((ds.foldl Tr.tick t).state = .running ∧ (ds.foldl Tr.tick t).elapsed = ds.sum ∧
          t.delay ≤ ds.sum ∧ ds.sum < t.delay + t.duration) ∨
        ((ds.foldl Tr.tick t).state = .finished ∧ (ds.foldl Tr.tick t).elapsed = t.delay + t.duration ∧
          t.delay + t.duration ≤ ds.sum) := by
      by_cases hnil : ds = []
      · subst hnil
        exact Or.inl ⟨hs, h0, Or.inr rfl⟩
      · obtain ⟨i1, i2⟩ := ih hnil
        unfold phaseAt at i1
        by_cases hfin : t.delay + t.duration ≤ ds.sum
        · rw [if_pos hfin] at i1
          exact Or.inr (Or.inr ⟨i1, by rw [i2]; omega, hfin⟩)
        · rw [if_neg hfin] at i1
          by_cases hr : t.delay ≤ ds.sum
          · rw [if_pos hr] at i1
            exact Or.inr (Or.inl ⟨i1, by rw [i2]; omega, hr, by omega⟩)
          · rw [if_neg hr] at i1
            exact Or.inl ⟨i1, by rw [i2]; omega, Or.inl (by omega)⟩
    generalize ds.foldl Tr.tick t = u at *
    obtain ⟨u1, u2, u3, u4, u5, u6, u7, u8, u9, u10, u11⟩ := u
    simp only at f1 f2 f3 hcase
    subst f1 f2 f3
    unfold phaseAt
    rcases hcase with ⟨c1, c2, c3⟩ | ⟨c1, c2, c3, c4⟩ | ⟨c1, c2, c3⟩
    · subst c1
      by_cases h1 : ds.sum + d ≥ t.duration + t.delay
      · rw [if_pos (by omega)]
        simp [Tr.tick, Tr.canTick, c2, ht, h1]
        omega
      · rw [if_neg (by omega)]
        by_cases h2 : ds.sum + d ≥ t.delay
        · rw [if_pos (by omega)]
          simp [Tr.tick, Tr.canTick, c2, ht, h1, h2]
          omega
        · rw [if_neg (by omega)]
          simp [Tr.tick, Tr.canTick, c2, ht, h1, h2]
          omega
    · subst c1
      by_cases h1 : ds.sum + d ≥ t.duration + t.delay
      · rw [if_pos (by omega)]
        simp [Tr.tick, Tr.canTick, c2, ht, h1]
        omega
      · rw [if_neg (by omega), if_pos (by omega)]
        simp [Tr.tick, Tr.canTick, c2, ht, h1]
        omega
    · subst c1
      rw [if_pos (by omega)]
      simp [Tr.tick, Tr.canTick, c2]
      omega

/-! ## C24 -/

/-- C24.  After any frames, a transition (new or replacing another) is pending while the total time is
below the delay, running while it is below delay + duration, and finished then: whatever the frames. -/
theorem C24_phase [DecidableEq V] (interp : V → V → ℚ → V) (dflt : V) (t : Tr V)
    (h : Created interp dflt t) (ds : List Nat) (hne : ds ≠ []) :
    (ds.foldl Tr.tick t).state = phaseAt t.delay t.duration ds.sum := by
  obtain ⟨h0, hs, ht, _⟩ := created_facts h
  exact (ticks_state h0 hs ht ds hne).1

/-- C24, the declared delay and duration are those of a new transition. -/
theorem C24_phase_new [DecidableEq V] (interp : V → V → ℚ → V) (dflt : V) (src : Option V) (dst : V)
    (o : Options) (ds : List Nat) (hne : ds ≠ []) :
    (ds.foldl Tr.tick (new interp dflt src dst o)).state = phaseAt o.delay o.duration ds.sum :=
  C24_phase interp dflt _ (.new src dst o) ds hne

/-- C24, once finished or cancelled nothing changes any more. -/
theorem C24_over (t : Tr V) (h : t.state = .finished ∨ t.state = .canceled) (ds : List Nat) :
    ds.foldl Tr.tick t = t := by
  have hct : t.canTick = false := by rcases h with h | h <;> simp [Tr.canTick, h]
  induction ds with
  | nil => rfl
  | cons d ds ih =>
    rw [List.foldl_cons]
    have : t.tick d = t := by simp [Tr.tick, hct]
    rw [this, ih]

/-- C24, cancelling ends a transition. -/
theorem C24_cancel (t : Tr V) : (t.cancel).state = .canceled ∨ (t.cancel).state = .finished := by
  unfold Tr.cancel Tr.canTick
  cases h : t.state <;> simp [h]

example : ((new lerp 0 (some 0) 10 ⟨3, 5, linearEase⟩).tick 4).state = .running ∧
    Created lerp 0 (new lerp 0 (some 0) 10 ⟨3, 5, linearEase⟩) := by
  refine ⟨?_, .new _ _ _⟩
  exact C24_phase_new lerp 0 (some 0) 10 ⟨3, 5, linearEase⟩ [4] (by simp)

/-! ## C25, C59 -/

private theorem secs_sub_div {a b c : Nat} (hc : c ≠ 0) :
    F32.div (secs a - secs b) (secs c) = .num (((a : ℚ) - b) / c) := by
  have hc' : (c : ℚ) ≠ 0 := by exact_mod_cast hc
  unfold F32.div secs
  rw [if_neg (by positivity)]
  congr 1
  field_simp

/-- C25, the progress of the running phase is in `[0, 1]`, is 0 when the delay is over and never
decreases. -/
theorem C25_progress (delay duration T T' : Nat) (h : phaseAt delay duration T = .running)
    (h' : phaseAt delay duration T' = .running) (hle : T ≤ T') :
    0 ≤ progressAt delay duration T ∧ progressAt delay duration T ≤ progressAt delay duration T' ∧
    progressAt delay duration T' < 1 ∧ (T = delay → progressAt delay duration T = 0) := by
  have phase : ∀ T, phaseAt delay duration T = .running → delay ≤ T ∧ T < delay + duration := by
    intro T h
    unfold phaseAt at h
    split at h
    · cases h
    · split at h
      · omega
      · cases h
  obtain ⟨a1, a2⟩ := phase T h
  obtain ⟨b1, b2⟩ := phase T' h'
  have hd : (0 : ℚ) < duration := by
    have : 0 < duration := by omega
    exact_mod_cast this
  have a1' : (delay : ℚ) ≤ T := by exact_mod_cast a1
  have b2' : (T' : ℚ) < delay + duration := by exact_mod_cast b2
  have hle' : (T : ℚ) ≤ T' := by exact_mod_cast hle
  unfold progressAt
  refine ⟨div_nonneg (by linarith) hd.le, ?_, ?_, ?_⟩
  · exact div_le_div_of_nonneg_right (by linarith) hd.le
  · rw [div_lt_one hd]; linarith
  · rintro rfl; simp

/-- C25.  The value a transition contributes after any frames is the one CSS defines: its start value
during the delay, then the interpolation at the eased progress, and exactly the target at the end. -/
theorem C25_value [DecidableEq V] (interp : V → V → ℚ → V) (hi : ∀ a b, interp a b 0 = a) (dflt : V)
    (t : Tr V) (h : Created interp dflt t) (e : ℚ → ℚ)
    (he : ∀ q, 0 ≤ q → q ≤ 1 → t.ease (.num q) = .num (e q) ∧ 0 ≤ e q ∧ e q ≤ 1)
    (ds : List Nat) (hne : ds ≠ []) :
    (ds.foldl Tr.tick t).shown interp = some (valueAt interp e t.src t.dst t.delay t.duration ds.sum) := by
  obtain ⟨h0, hs, ht, hsrc⟩ := created_facts h
  obtain ⟨s1, s2⟩ := ticks_state h0 hs ht ds hne
  obtain ⟨f1, f2, f3, f4, f5, f6, f7, _⟩ := ticks_fields ds t
  unfold Tr.shown valueAt
  rw [s1]
  cases hp : phaseAt t.delay t.duration ds.sum with
  | pending => simp only [Tr.sampleValue, s1, hp, decide_true, Bool.or_true, if_true, f4]
  | finished => simp only [f5]
  | canceled => simp only [f5]
  | running =>
    have hr := C25_progress _ _ _ _ hp hp (le_refl _)
    have hlt : t.delay ≤ ds.sum ∧ ds.sum < t.delay + t.duration := by
      unfold phaseAt at hp
      split at hp
      · cases hp
      · split at hp
        · omega
        · cases hp
    have hel : (ds.foldl Tr.tick t).elapsed = ds.sum := by rw [s2]; omega
    obtain ⟨he1, he2, he3⟩ := he _ hr.1 hr.2.2.1.le
    have hprog : F32.div (secs ds.sum - secs t.delay) (secs t.duration) =
        .num (progressAt t.delay t.duration ds.sum) := secs_sub_div (by omega)
    simp only [Tr.sampleValue, s1, hp, hel, f1, f2, f5, f6, f7, hprog, F32.isNeg]
    rw [if_neg (by simp [hr.1]), he1, hsrc hi]
    unfold sampleCurve
    simp only
    rw [if_pos ⟨he2, he3⟩]

/-- C25, before the first frame it is the start value. -/
theorem C25_value_before [DecidableEq V] (interp : V → V → ℚ → V) (dflt : V)
    (t : Tr V) (h : Created interp dflt t) : t.shown interp = some t.src := by
  obtain ⟨_, hs, _⟩ := created_facts h
  unfold Tr.shown
  rw [hs]
  simp [Tr.sampleValue, hs]

/-- C25 for numbers: with a non-decreasing timing function, the value moves monotonically from the start
to the target. -/
theorem C25_monotone (dflt : ℚ) (t : Tr ℚ) (h : Created lerp dflt t) (e : ℚ → ℚ)
    (he : ∀ q, 0 ≤ q → q ≤ 1 → t.ease (.num q) = .num (e q) ∧ 0 ≤ e q ∧ e q ≤ 1)
    (hm : ∀ p q, 0 ≤ p → p ≤ q → q ≤ 1 → e p ≤ e q) (hup : t.src ≤ t.dst)
    (ds ds' : List Nat) (hne : ds ≠ []) (hne' : ds' ≠ []) (hle : ds.sum ≤ ds'.sum) :
    ∃ v v', (ds.foldl Tr.tick t).shown lerp = some v ∧ (ds'.foldl Tr.tick t).shown lerp = some v' ∧
      t.src ≤ v ∧ v ≤ v' ∧ v' ≤ t.dst := by
  have hi : ∀ a b : ℚ, lerp a b 0 = a := by intro a b; simp [lerp]
  refine ⟨_, _, C25_value lerp hi dflt t h e he ds hne, C25_value lerp hi dflt t h e he ds' hne', ?_⟩
  have hbd : ∀ x, 0 ≤ x → x ≤ 1 → t.src ≤ lerp t.src t.dst x ∧ lerp t.src t.dst x ≤ t.dst := by
    intro x hx hx1
    unfold lerp
    constructor
    · nlinarith
    · nlinarith
  have hphase : ∀ T, phaseAt t.delay t.duration T = .canceled → False := by
    intro T h
    unfold phaseAt at h
    split at h
    · cases h
    · split at h <;> cases h
  have hphases : ∀ T T', T ≤ T' →
      (phaseAt t.delay t.duration T = .finished → phaseAt t.delay t.duration T' = .finished) ∧
      (phaseAt t.delay t.duration T = .running → phaseAt t.delay t.duration T' ≠ .pending) := by
    intro T T' hTT
    unfold phaseAt
    split_ifs <;> simp <;> omega
  unfold valueAt
  cases hp : phaseAt t.delay t.duration ds.sum with
  | canceled => exact (hphase _ hp).elim
  | finished =>
    rw [(hphases _ _ hle).1 hp]
    exact ⟨hup, le_refl _, le_refl _⟩
  | pending =>
    cases hp' : phaseAt t.delay t.duration ds'.sum with
    | canceled => exact (hphase _ hp').elim
    | finished => exact ⟨le_refl _, hup, le_refl _⟩
    | pending => exact ⟨le_refl _, le_refl _, hup⟩
    | running =>
      have hr := C25_progress _ _ _ _ hp' hp' (le_refl _)
      have hb := he _ hr.1 hr.2.2.1.le
      have := hbd _ hb.2.1 hb.2.2
      exact ⟨le_refl _, this.1, this.2⟩
  | running =>
    have hr0 := C25_progress _ _ _ _ hp hp (le_refl _)
    have hb0 := he _ hr0.1 hr0.2.2.1.le
    have h0 := hbd _ hb0.2.1 hb0.2.2
    cases hp' : phaseAt t.delay t.duration ds'.sum with
    | canceled => exact (hphase _ hp').elim
    | finished => exact ⟨h0.1, h0.2, le_refl _⟩
    | pending => exact absurd hp' ((hphases _ _ hle).2 hp)
    | running =>
      have hr := C25_progress _ _ _ _ hp hp' hle
      have hb := he _ (hr.1.trans hr.2.1) hr.2.2.1.le
      have h1 := hbd _ hb.2.1 hb.2.2
      refine ⟨h0.1, ?_, h1.2⟩
      have := hm _ _ hr.1 hr.2.1 hr.2.2.1.le
      simp only
      unfold lerp
      nlinarith

private theorem linear_ease (q : ℚ) (h0 : 0 ≤ q) (h1 : q ≤ 1) :
    linearEase (.num q) = .num q ∧ 0 ≤ q ∧ q ≤ 1 := by
  refine ⟨?_, h0, h1⟩
  simp only [linearEase, F32.clamp, F32.clampQ]
  rw [if_neg (by linarith), if_neg (by linarith)]

/-- A linear transition from 0 to 10 in 4 ns after 2 ns, seen after frames of 3 ns and 1 ns. -/
example : (([3, 1].foldl Tr.tick (new lerp 0 (some 0) 10 ⟨2, 4, linearEase⟩)).shown lerp) = some 5 := by
  rw [C25_value lerp (by intro a b; simp [lerp]) 0 _ (.new (some 0) 10 ⟨2, 4, linearEase⟩) (fun q => q)
    (fun q h0 h1 => linear_ease q h0 h1) [3, 1] (by simp)]
  simp [valueAt, phaseAt, new, lerp, progressAt]
  norm_num

/-- C59 for transitions, partial: an active transition yields a value, at every time, if its timing
function does not overshoot (see `C59_overshoot`). -/
theorem C59_transition_partial [DecidableEq V] (interp : V → V → ℚ → V) (dflt : V)
    (t : Tr V) (h : Created interp dflt t) (he : EaseIn01 t.ease) (ds : List Nat)
    (hact : (ds.foldl Tr.tick t).canTick = true) : (ds.foldl Tr.tick t).sampleValue interp ≠ none := by
  obtain ⟨h0, hs, ht, _⟩ := created_facts h
  obtain ⟨f1, f2, f3, f4, f5, f6, f7, _⟩ := ticks_fields ds t
  unfold Tr.sampleValue
  dsimp only
  split
  · simp
  · rename_i hn
    by_cases hnil : ds = []
    · subst hnil
      simp [hs] at hn
    obtain ⟨s1, s2⟩ := ticks_state h0 hs ht ds hnil
    have hst : (ds.foldl Tr.tick t).state = .running := by
      unfold Tr.canTick at hact
      simp only [Bool.or_eq_true, decide_eq_true_eq, not_or] at hact hn
      exact hact.resolve_left hn.2
    rw [s1] at hst
    have hr := C25_progress _ _ _ _ hst hst (le_refl _)
    have hlt : t.delay ≤ ds.sum ∧ ds.sum < t.delay + t.duration := by
      unfold phaseAt at hst
      split at hst
      · cases hst
      · split at hst
        · omega
        · cases hst
    have hel : (ds.foldl Tr.tick t).elapsed = ds.sum := by rw [s2]; omega
    have hprog : F32.div (secs ds.sum - secs t.delay) (secs t.duration) =
        .num (progressAt t.delay t.duration ds.sum) := secs_sub_div (by omega)
    rw [hel, f1, f2, f6, hprog]
    obtain ⟨r, hr1, hr2, hr3⟩ := he _ hr.1 hr.2.2.1.le
    rw [hr1]
    simp [sampleCurve, hr2, hr3]

/-- C59 is false for a timing function that overshoots (here constant, `linear(1.5)`): the transition is
active but yields no value. -/
theorem C59_overshoot : ∃ t : Tr ℚ, Created lerp 0 t ∧ (t.tick 1).canTick = true ∧
    (t.tick 1).sampleValue lerp = none := by
  refine ⟨new lerp 0 (some 0) 10 ⟨0, 4, fun _ => .num (3 / 2)⟩, .new _ _ _, by decide, ?_⟩
  simp [Tr.sampleValue, Tr.tick, Tr.canTick, new, sampleCurve, F32.div, secs, F32.isNeg]
  norm_num

/-! ## C26 -/

private theorem round_facts {d : Nat} {f : ℚ} (h0 : 0 ≤ f) (h1 : f ≤ 1) :
    fromSecs (.num (secs d * f)) = some ⌊(d : ℚ) * f + 1 / 2⌋.toNat ∧
    |((⌊(d : ℚ) * f + 1 / 2⌋.toNat : ℕ) : ℚ) - d * f| ≤ 1 / 2 ∧ ⌊(d : ℚ) * f + 1 / 2⌋.toNat ≤ d := by
  have hd : (0 : ℚ) ≤ d := by positivity
  have hp : 0 ≤ (d : ℚ) * f := mul_nonneg hd h0
  have hnn : 0 ≤ ⌊(d : ℚ) * f + 1 / 2⌋ := Int.floor_nonneg.mpr (by linarith)
  have hcast : ((⌊(d : ℚ) * f + 1 / 2⌋.toNat : ℕ) : ℚ) = (⌊(d : ℚ) * f + 1 / 2⌋ : ℤ) := by
    have := Int.toNat_of_nonneg hnn
    exact_mod_cast this
  refine ⟨?_, ?_, ?_⟩
  · unfold fromSecs secs
    simp only
    rw [if_neg (by
      rw [not_lt]
      exact mul_nonneg (div_nonneg hd (by norm_num)) h0)]
    congr 3
    ring_nf
  · rw [hcast, abs_le]
    have := Int.floor_le ((d : ℚ) * f + 1 / 2)
    have := Int.lt_floor_add_one ((d : ℚ) * f + 1 / 2)
    constructor <;> linarith
  · have hle : (⌊(d : ℚ) * f + 1 / 2⌋ : ℤ) < (d : ℤ) + 1 := by
      rw [Int.floor_lt]
      push_cast
      nlinarith
    omega

/-- What one reversal does (for timing functions without overshoot). -/
private theorem reverse_facts {dflt : ℚ} {src : Option ℚ} {dst : ℚ} {o : Options} {t t' : Tr ℚ}
    (hdur : t.duration = 0 ∨ (0 < t.duration ∧ EaseIn01 t.ease)) (hf0 : 0 ≤ t.factor) (hf1 : t.factor ≤ 1)
    (hr : t.radj = dst) (hnan : t.duration = 0 → t.ease .nan = .nan) (hel : t.elapsed ≤ t.delay + t.duration)
    (h : fromPossiblyReversed lerp dflt src dst o t = some t') :
    0 < t.duration ∧ ∃ e, 0 ≤ e ∧ e ≤ 1 ∧ t'.dst = dst ∧ t'.radj = t.dst ∧
      t'.factor = e * t.factor + (1 - t.factor) ∧ 0 ≤ t'.factor ∧ t'.factor ≤ 1 ∧
      t'.src = lerp t.curveStart t.dst e ∧ t'.curveStart = t'.src ∧ t'.delay = o.delay ∧
      t'.ease = o.ease ∧ t'.elapsed = 0 ∧
      |(t'.duration : ℚ) - o.duration * t'.factor| ≤ 1 / 2 ∧ t'.duration ≤ o.duration := by
  unfold fromPossiblyReversed Tr.updateReversed at h
  rw [if_neg (by simp [new, hr])] at h
  dsimp only at h
  rcases hdur with hd0 | ⟨hd, he⟩
  · have hsec : t.elapsedSecs = 0 := by
      unfold Tr.elapsedSecs secs
      have : (t.elapsed : ℚ) ≤ t.delay := by
        have : t.elapsed ≤ t.delay := by omega
        exact_mod_cast this
      rw [max_eq_right]
      rw [← sub_div]
      exact div_nonpos_of_nonpos_of_nonneg (by linarith) (by norm_num)
    rw [hsec, hd0] at h
    have : (F32.div 0 (secs 0)).clamp = .nan := by simp [F32.div, secs, F32.clamp]
    rw [this, hnan hd0] at h
    simp [F32.mulAdd, F32.abs, F32.clamp] at h
  · refine ⟨hd, ?_⟩
    have hdq : (0 : ℚ) < t.duration := by exact_mod_cast hd
    have hsecd : secs t.duration ≠ 0 := by unfold secs; positivity
    obtain ⟨p, hp0, hp1, hp⟩ : ∃ p, 0 ≤ p ∧ p ≤ 1 ∧
        (F32.div t.elapsedSecs (secs t.duration)).clamp = .num p := by
      unfold F32.div
      rw [if_neg hsecd]
      refine ⟨_, ?_, ?_, rfl⟩
      · unfold F32.clampQ; split_ifs <;> linarith
      · unfold F32.clampQ; split_ifs <;> linarith
    obtain ⟨e, he1, he2, he3⟩ := he p hp0 hp1
    rw [hp, he1] at h
    have hfac0 : 0 ≤ e * t.factor + (1 - t.factor) := by nlinarith
    have hfac1 : e * t.factor + (1 - t.factor) ≤ 1 := by nlinarith
    have hfac : ((F32.num e).mulAdd t.factor (1 - t.factor)).abs.clamp =
        .num (e * t.factor + (1 - t.factor)) := by
      simp only [F32.mulAdd, F32.abs, F32.clamp, F32.clampQ]
      rw [abs_of_nonneg hfac0, if_neg (by linarith), if_neg (by linarith)]
    rw [hfac] at h
    simp only at h
    obtain ⟨r1, r2, r3⟩ := round_facts (d := o.duration) hfac0 hfac1
    have : (new lerp dflt src dst o).duration = o.duration := rfl
    rw [this, r1] at h
    simp only [sampleCurve, he2, he3, and_self, if_true, Option.getD_some] at h
    cases h
    exact ⟨e, he2, he3, rfl, rfl, rfl, hfac0, hfac1, rfl, rfl, rfl, rfl, rfl, r2, r3⟩

/-- A timing function without overshoot, that propagates NaN. -/
def EaseOk (ease : F32 → F32) : Prop := EaseIn01 ease ∧ ease .nan = .nan

private theorem elapsed_le (t : Tr ℚ) (d : Nat) (h : t.elapsed ≤ t.total) : (t.tick d).elapsed ≤ t.total := by
  unfold Tr.tick
  split
  · exact h
  · split
    · simp
    · split <;> · simp only; omega

private theorem total_rev {dflt : ℚ} {src : Option ℚ} {dst : ℚ} {o : Options} {t t' : Tr ℚ}
    (h : fromPossiblyReversed lerp dflt src dst o t = some t') : t'.total = t'.duration + t'.delay :=
  (created_facts (.replacing _ _ _ _ _ h)).2.2.1

private theorem back_inv {dflt a b : ℚ} {o : Options} {t : Tr ℚ} (h : BackAndForth EaseOk lerp dflt a b o t) :
    (t.dst = a ∧ t.radj = b ∨ t.dst = b ∧ t.radj = a) ∧ 0 ≤ t.factor ∧ t.factor ≤ 1 ∧
    t.src = t.curveStart ∧ t.src = t.dst + t.factor * (t.radj - t.dst) ∧ EaseOk t.ease ∧
    t.elapsed ≤ t.delay + t.duration ∧ t.total = t.duration + t.delay ∧
    |(t.duration : ℚ) - o.duration * t.factor| ≤ 1 / 2 ∧ t.duration ≤ o.duration := by
  induction h with
  | fresh o ho =>
    refine ⟨Or.inr ⟨rfl, by simp [new, lerp]⟩, by simp [new], by simp [new], by simp [new, lerp],
      by simp [new, lerp], ho, by simp [new], by simp [new], by simp [new], by simp [new]⟩
  | @tick o t d _ ih =>
    obtain ⟨f1, f2, f3, f4, f5, f6, f7, f8, f9⟩ := tick_fields t d
    rw [f1, f2, f3, f4, f5, f6, f7, f8, f9]
    obtain ⟨i1, i2, i3, i4, i5, i6, i7, i8, i9, i10⟩ := ih
    have := elapsed_le t d (by omega)
    exact ⟨i1, i2, i3, i4, i5, i6, by omega, i8, i9, i10⟩
  | @reverse o t t' o' _ hct ho' hrev ih =>
    obtain ⟨i1, i2, i3, i4, i5, i6, i7, i8, i9, i10⟩ := ih
    have hradj : t.radj = (if t.dst = b then a else b) := by
      rcases i1 with ⟨x, y⟩ | ⟨x, y⟩
      · rw [x, y]; split
        · rename_i hab; exact hab.symm
        · rfl
      · rw [x, y, if_pos rfl]
    obtain ⟨hpos, e, r1, r2, r3, r4, r5, r6, r7, r8, r9, r10, r11, r12, r13, r14⟩ := reverse_facts
      (by rcases Nat.eq_zero_or_pos t.duration with h | h
          · exact Or.inl h
          · exact Or.inr ⟨h, i6.1⟩)
      i2 i3 hradj (fun _ => i6.2) i7 hrev
    rw [← hradj] at r3
    refine ⟨?_, r6, r7, r9.symm, ?_, r11 ▸ ho', by rw [r12]; omega, total_rev hrev, r13, r14⟩
    · rw [r3, r4]
      rcases i1 with ⟨x, y⟩ | ⟨x, y⟩
      · exact Or.inr ⟨y, x⟩
      · exact Or.inl ⟨y, x⟩
    · rw [r8, r3, r4, r5]
      unfold lerp
      rw [← i4, i5]
      ring

/-- C26.  However often a transition between `a` and `b` is reversed part-way (at any times, with any
options): the one that results has to cover the fraction `f` of the whole distance, and takes that
fraction of the declared duration (to the nearest nanosecond); never longer than declared. -/
theorem C26_proportional (dflt a b : ℚ) (o : Options) (t : Tr ℚ)
    (h : BackAndForth EaseOk lerp dflt a b o t) :
    ∃ f, 0 ≤ f ∧ f ≤ 1 ∧ |t.dst - t.src| = f * |b - a| ∧
      |(t.duration : ℚ) - o.duration * f| ≤ 1 / 2 ∧ t.duration ≤ o.duration := by
  obtain ⟨i1, i2, i3, i4, i5, i6, i7, i8, i9, i10⟩ := back_inv h
  refine ⟨t.factor, i2, i3, ?_, i9, i10⟩
  rw [i5]
  rcases i1 with ⟨x, y⟩ | ⟨x, y⟩
  · rw [x, y]
    rw [show a - (a + t.factor * (b - a)) = -(t.factor * (b - a)) by ring, abs_neg, abs_mul,
      abs_of_nonneg i2]
  · rw [x, y]
    rw [show b - (b + t.factor * (a - b)) = t.factor * (b - a) by ring, abs_mul, abs_of_nonneg i2]

/-- C26, no panic, partial: the reversal succeeds if the interrupted transition has a non-zero duration.
Missing (false, see `C26_toggle_panics`): transitions with zero duration. -/
theorem C26_no_panic_partial (dflt a b : ℚ) (o : Options) (t : Tr ℚ)
    (h : BackAndForth EaseOk lerp dflt a b o t) (hd : 0 < t.duration) (o' : Options) :
    fromPossiblyReversed lerp dflt (some t.dst) (if t.dst = b then a else b) o' t ≠ none := by
  obtain ⟨i1, i2, i3, i4, i5, i6, i7, i8, i9, i10⟩ := back_inv h
  generalize (if t.dst = b then a else b) = dst
  unfold fromPossiblyReversed Tr.updateReversed
  split
  · simp
  · dsimp only
    have hsecd : secs t.duration ≠ 0 := by
      have hdq : (0 : ℚ) < t.duration := by exact_mod_cast hd
      unfold secs; positivity
    obtain ⟨p, hp0, hp1, hp⟩ : ∃ p, 0 ≤ p ∧ p ≤ 1 ∧
        (F32.div t.elapsedSecs (secs t.duration)).clamp = .num p := by
      unfold F32.div
      rw [if_neg hsecd]
      refine ⟨_, ?_, ?_, rfl⟩
      · unfold F32.clampQ; split_ifs <;> linarith
      · unfold F32.clampQ; split_ifs <;> linarith
    obtain ⟨e, he1, he2, he3⟩ := i6.1 p hp0 hp1
    rw [hp, he1]
    have hfac0 : 0 ≤ e * t.factor + (1 - t.factor) := by nlinarith
    have hfac1 : e * t.factor + (1 - t.factor) ≤ 1 := by nlinarith
    have hfac : ((F32.num e).mulAdd t.factor (1 - t.factor)).abs.clamp =
        .num (e * t.factor + (1 - t.factor)) := by
      simp only [F32.mulAdd, F32.abs, F32.clamp, F32.clampQ]
      rw [abs_of_nonneg hfac0, if_neg (by linarith), if_neg (by linarith)]
    rw [hfac]
    simp only
    have : (new lerp dflt (some t.dst) dst o').duration = o'.duration := rfl
    rw [this, (round_facts (d := o'.duration) hfac0 hfac1).1]
    simp

private theorem linear_ok : EaseOk linearEase :=
  ⟨fun q h0 h1 => ⟨q, linear_ease q h0 h1⟩, rfl⟩

private def exO : Options := ⟨500, 1000, linearEase⟩

/-- C26 is false: a transition with a delay, reversed before the delay is over, gets duration zero;
reversing that one, again before the delay is over, panics. -/
theorem C26_toggle_panics : ∃ t : Tr ℚ, BackAndForth EaseOk lerp 0 0 10 exO t ∧ t.canTick = true ∧
    fromPossiblyReversed lerp 0 (some t.dst) (if t.dst = 10 then 0 else 10) exO t = none := by
  have h1 := BackAndForth.fresh (interp := lerp) (dflt := 0) (a := 0) (b := 10) exO linear_ok
  have h2 : ∃ t', fromPossiblyReversed lerp 0 (some (10 : ℚ)) 0 exO (new lerp 0 (some 0) 10 exO) = some t' ∧
      t'.dst = 0 ∧ t'.radj = 10 ∧ t'.duration = 0 ∧ t'.elapsed = 0 ∧ t'.state = .pending ∧
      t'.ease = linearEase := by
    have e : (F32.div (new lerp 0 (some (0 : ℚ)) 10 exO).elapsedSecs (secs 1000)).clamp = .num 0 := by
      have : (new lerp 0 (some (0 : ℚ)) 10 exO).elapsedSecs = 0 := by
        simp [Tr.elapsedSecs, new, exO, secs]
        norm_num
      rw [this]
      simp [F32.div, secs, F32.clamp, F32.clampQ]
    refine ⟨{ new lerp 0 (some (10 : ℚ)) 0 exO with
      radj := 10, factor := 0, duration := 0, elapsed := 0, total := 0 + 500, src := 0, curveStart := 0 },
      ?_, rfl, rfl, rfl, rfl, rfl, rfl⟩
    unfold fromPossiblyReversed Tr.updateReversed
    rw [if_neg (by simp [new, lerp])]
    dsimp only
    have hd : (new lerp 0 (some (0 : ℚ)) 10 exO).duration = 1000 := rfl
    have he : (new lerp 0 (some (0 : ℚ)) 10 exO).ease = linearEase := rfl
    rw [hd, he, e]
    simp [linearEase, F32.clamp, F32.clampQ, F32.mulAdd, F32.abs, new, fromSecs, sampleCurve, lerp, exO]
    norm_num
  obtain ⟨t', e1, e2, e3, e4, e5, e6, e7⟩ := h2
  have h3 := BackAndForth.reverse exO h1 (by decide) linear_ok (t' := t') (by
    have : (new lerp 0 (some (0 : ℚ)) 10 exO).dst = 10 := rfl
    rw [this, if_pos rfl]; exact e1)
  refine ⟨t', h3, by simp [Tr.canTick, e6], ?_⟩
  unfold fromPossiblyReversed Tr.updateReversed
  rw [e2, if_neg (by simp [new, e3])]
  have : (F32.div t'.elapsedSecs (secs t'.duration)).clamp = .nan := by
    have : t'.elapsedSecs = 0 := by
      have : (0 : ℚ) ≤ t'.delay := by positivity
      simp only [Tr.elapsedSecs, e5, secs]
      rw [max_eq_right]
      simp
      positivity
    rw [this, e4]
    simp [F32.div, secs, F32.clamp]
  dsimp only
  rw [this, e7]
  rfl

/-! ## C60 -/

/-- C60, partial: a transition that reverses one that is going on (the new target is the value that one
came from) starts from the value that is shown at that moment.  (In the delay phase the timing function
has to start at 0.)  Missing (false, see `C60_retarget_jumps`): other new targets. -/
theorem C60_reversal_partial [DecidableEq V] (interp : V → V → ℚ → V) (hi : ∀ a b, interp a b 0 = a)
    (dflt : V) (t0 : Tr V) (h : Created interp dflt t0) (he : EaseIn01 t0.ease) (ds : List Nat)
    (hact : (ds.foldl Tr.tick t0).canTick = true)
    (hz : (ds.foldl Tr.tick t0).state = .running ∨ t0.ease (.num 0) = .num 0)
    (src : Option V) (dst : V) (o : Options) (t' : Tr V) (hr : t0.radj = dst) (hd : 0 < t0.duration)
    (hrev : fromPossiblyReversed interp dflt src dst o (ds.foldl Tr.tick t0) = some t') :
    t'.shown interp = (ds.foldl Tr.tick t0).shown interp := by
  obtain ⟨h0, hs, ht, hsrc⟩ := created_facts h
  obtain ⟨f1, f2, f3, f4, f5, f6, f7, f8, f9⟩ := ticks_fields ds t0
  rw [C25_value_before interp dflt t' (.replacing _ _ _ _ _ hrev)]
  have hdq : (0 : ℚ) < t0.duration := by exact_mod_cast hd
  have hsecd : secs t0.duration ≠ 0 := by unfold secs; positivity
  -- the start value of the new transition
  have hstart : ∀ p r, (F32.div (ds.foldl Tr.tick t0).elapsedSecs (secs t0.duration)).clamp = .num p →
      t0.ease (.num p) = .num r → 0 ≤ r → r ≤ 1 → t'.src = interp t0.curveStart t0.dst r := by
    intro p r hp hpr hr0 hr1
    unfold fromPossiblyReversed Tr.updateReversed at hrev
    rw [if_neg (by simp [new, f8, hr])] at hrev
    dsimp only at hrev
    rw [f2, f5, f6, f7, hp, hpr] at hrev
    split at hrev
    · split at hrev
      · cases hrev
      · cases hrev
        simp [sampleCurve, hr0, hr1]
    · cases hrev
  by_cases hst : (ds.foldl Tr.tick t0).state = .running
  · have hnil : ds ≠ [] := by
      rintro rfl
      rw [List.foldl_nil, hs] at hst; cases hst
    obtain ⟨s1, s2⟩ := ticks_state h0 hs ht ds hnil
    have hph := s1.symm.trans hst
    have hr := C25_progress _ _ _ _ hph hph (le_refl _)
    have hlt : t0.delay ≤ ds.sum ∧ ds.sum < t0.delay + t0.duration := by
      unfold phaseAt at hph
      split at hph
      · cases hph
      · split at hph
        · omega
        · cases hph
    have hel : (ds.foldl Tr.tick t0).elapsed = ds.sum := by rw [s2]; omega
    have hprog : F32.div (secs ds.sum - secs t0.delay) (secs t0.duration) =
        .num (progressAt t0.delay t0.duration ds.sum) := secs_sub_div (by omega)
    obtain ⟨r, hr1, hr2, hr3⟩ := he _ hr.1 hr.2.2.1.le
    have hes : (ds.foldl Tr.tick t0).elapsedSecs = secs ds.sum - secs t0.delay := by
      unfold Tr.elapsedSecs
      rw [hel, f1, max_eq_left]
      unfold secs
      have : (t0.delay : ℚ) ≤ ds.sum := by exact_mod_cast hlt.1
      rw [← sub_div]
      exact div_nonneg (by linarith) (by norm_num)
    rw [hstart (progressAt t0.delay t0.duration ds.sum) r (by
      rw [hes, hprog]
      simp only [F32.clamp, F32.clampQ]
      rw [if_neg (by linarith [hr.1]), if_neg (by linarith [hr.2.2.1])]) hr1 hr2 hr3]
    unfold Tr.shown
    rw [hst]
    simp only [Tr.sampleValue, hst, hel, f1, f2, f5, f6, f7, hprog, F32.isNeg]
    rw [if_neg (by simp [hr.1]), hr1]
    simp [sampleCurve, hr2, hr3]
  · have hpend : (ds.foldl Tr.tick t0).state = .pending := by
      unfold Tr.canTick at hact
      simp only [Bool.or_eq_true, decide_eq_true_eq] at hact
      exact hact.resolve_right hst
    have hz := hz.resolve_left hst
    have hes : (ds.foldl Tr.tick t0).elapsedSecs = 0 := by
      have hle : (ds.foldl Tr.tick t0).elapsed ≤ t0.delay := by
        by_cases hnil : ds = []
        · subst hnil; rw [List.foldl_nil, h0]; omega
        · obtain ⟨s1, s2⟩ := ticks_state h0 hs ht ds hnil
          rw [s1] at hpend
          unfold phaseAt at hpend
          split at hpend
          · cases hpend
          · split at hpend
            · cases hpend
            · rw [s2]; omega
      have hle' : ((ds.foldl Tr.tick t0).elapsed : ℚ) ≤ t0.delay := by exact_mod_cast hle
      unfold Tr.elapsedSecs secs
      rw [f1, max_eq_right]
      rw [← sub_div]
      exact div_nonpos_of_nonpos_of_nonneg (by linarith) (by norm_num)
    rw [hstart 0 0 (by
      rw [hes]
      simp only [F32.div, hsecd, if_false, zero_div, F32.clamp, F32.clampQ]
      rw [if_neg (by norm_num), if_neg (by norm_num)]) hz (le_refl _) (by norm_num)]
    unfold Tr.shown
    rw [hpend]
    simp only [Tr.sampleValue, hpend, decide_true, Bool.or_true, if_true]
    rw [f4, hsrc hi, hi]

/-- Half-way from 0 to 10, back to 0: the hypotheses of C60 (and C26) hold. -/
example : ∃ t', fromPossiblyReversed lerp 0 (some 10) 0 exO
      ([700, 300].foldl Tr.tick (new lerp 0 (some 0) 10 exO)) = some t' ∧
    t'.shown lerp = ([700, 300].foldl Tr.tick (new lerp 0 (some (0 : ℚ)) 10 exO)).shown lerp := by
  have hb : BackAndForth EaseOk lerp 0 0 10 exO ([700, 300].foldl Tr.tick (new lerp 0 (some 0) 10 exO)) :=
    .tick 300 (.tick 700 (.fresh exO linear_ok))
  obtain ⟨_, _, _, _, f5, _⟩ := ticks_fields [700, 300] (new lerp 0 (some (0 : ℚ)) 10 exO)
  have f5 : ([700, 300].foldl Tr.tick (new lerp 0 (some (0 : ℚ)) 10 exO)).dst = 10 := f5
  have hn := C26_no_panic_partial 0 0 10 exO _ hb (by decide) exO
  rw [f5, if_pos rfl] at hn
  obtain ⟨t', ht'⟩ := Option.ne_none_iff_exists'.mp hn
  refine ⟨t', ht', ?_⟩
  exact C60_reversal_partial lerp (by intro a b; simp [lerp]) 0 (new lerp 0 (some 0) 10 exO) (.new _ _ _)
    linear_ok.1 [700, 300] (by decide) (Or.inl (by decide)) (some 10) 0 exO t' (by simp [new, lerp])
    (by decide) ht'

/-- C60 is false for other targets: half-way from 0 to 10 (showing 5) the target becomes 20; the new
transition, which is given the old target as the node's previous value, starts from 10. -/
theorem C60_retarget_jumps : ∃ t t' : Tr ℚ, Created lerp 0 t ∧ (t.tick 2).shown lerp = some 5 ∧
    fromPossiblyReversed lerp 0 (some t.dst) 20 ⟨0, 4, linearEase⟩ (t.tick 2) = some t' ∧
    t'.shown lerp = some 10 := by
  have e : (new lerp 0 (some (0 : ℚ)) 10 ⟨0, 4, linearEase⟩).tick 2 =
      [2].foldl Tr.tick (new lerp 0 (some 0) 10 ⟨0, 4, linearEase⟩) := rfl
  refine ⟨new lerp 0 (some 0) 10 ⟨0, 4, linearEase⟩, new lerp 0 (some 10) 20 ⟨0, 4, linearEase⟩,
    .new _ _ _, ?_, ?_, ?_⟩
  · rw [e, C25_value lerp (by intro a b; simp [lerp]) 0 _ (.new (some 0) 10 ⟨0, 4, linearEase⟩) (fun q => q)
      (fun q h0 h1 => linear_ease q h0 h1) [2] (by simp)]
    simp [valueAt, phaseAt, new, lerp, progressAt]
    norm_num
  · unfold fromPossiblyReversed Tr.updateReversed
    rw [if_pos]
    · rfl
    · have : ((new lerp 0 (some (0 : ℚ)) 10 ⟨0, 4, linearEase⟩).tick 2).radj = 0 := by
        rw [(tick_fields _ _).2.2.2.2.2.2.2.1]; simp [new, lerp]
      rw [this]
      simp [new]
  · rw [C25_value_before lerp 0 _ (.new _ _ _)]
    simp [new, lerp]

end Flair.Props
