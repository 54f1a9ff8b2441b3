import Verif.Model.Bezier
import Verif.Spec.Bezier
import Verif.Props.AnimParse
import Mathlib.Tactic.Linarith
import Mathlib.Tactic.Ring
import Mathlib.Tactic.FieldSimp
import Mathlib.Tactic.NormNum
import Mathlib.Tactic.Positivity
/-!
# C98: cubic Bézier easing follows its curve
-/
namespace Flair.Props
open Flair.Bezier Flair.Spec
open Flair.AnimParse (Timing timing)
open Flair.Easing (clamp01)

private theorem position_eq (a b s : ℚ) : (coeffs a b).position s = bezierAt a b s := by
  simp only [coeffs, Coeffs.position, bezierAt]; ring

private theorem clamp_unit (t : ℚ) : 0 ≤ clamp01 t ∧ clamp01 t ≤ 1 :=
  ⟨le_max_left _ _, max_le (by norm_num) (min_le_right _ _)⟩

private theorem clamp_low {t : ℚ} (h : t ≤ 0) : clamp01 t = 0 := by
  unfold clamp01; exact max_eq_left ((min_le_left _ _).trans h)

private theorem clamp_high {t : ℚ} (h : 1 ≤ t) : clamp01 t = 1 := by
  unfold clamp01; rw [min_eq_right h]; exact max_eq_right (by norm_num)

private theorem clamp_mid {t : ℚ} (h0 : 0 ≤ t) (h1 : t ≤ 1) : clamp01 t = t := by
  unfold clamp01; rw [min_eq_left h1]; exact max_eq_right h0

/-- C98: whatever the control points are, the easing starts at 0 and ends at 1, exactly. -/
theorem C98_ends (x1 y1 x2 y2 : ℚ) {maxError : ℚ} (he : 0 ≤ maxError) (t : ℚ) :
    (t ≤ 0 → sampleTiming maxError (.cubicBezier x1 y1 x2 y2) t = some 0) ∧
      (1 ≤ t → sampleTiming maxError (.cubicBezier x1 y1 x2 y2) t = some 1) := by
  constructor <;> intro h
  · simp only [sampleTiming, EaseCurve.sample, clamp_low h, maxIters, EaseCurve.search, EaseCurve.new, Coeffs.position]
    rw [if_pos (by simpa using he)]
    simp
  · simp only [sampleTiming, EaseCurve.sample, clamp_high h, maxIters, EaseCurve.search, EaseCurve.new, Coeffs.position,
      coeffs]
    rw [if_pos (by ring_nf; simpa using he)]
    ring_nf

/-- C98: the keywords are the curves of CSS. -/
theorem C98_keywords (maxError t : ℚ) {w : String} {x1 y1 x2 y2 : ℚ} (h : (w, x1, y1, x2, y2) ∈ easeKeywords) :
    ∃ f, timing (.ident w) = .ok f ∧ sampleTiming maxError f t = sampleTiming maxError (.cubicBezier x1 y1 x2 y2) t := by
  simp only [easeKeywords, List.mem_cons, Prod.mk.injEq, List.not_mem_nil, or_false] at h
  rcases h with ⟨rfl, rfl, rfl, rfl, rfl⟩ | ⟨rfl, rfl, rfl, rfl, rfl⟩ | ⟨rfl, rfl, rfl, rfl, rfl⟩ | ⟨rfl, rfl, rfl, rfl, rfl⟩
  · exact ⟨.ease, by decide, by simp only [sampleTiming, ease]; norm_num⟩
  · exact ⟨.easeIn, by decide, by simp only [sampleTiming, easeIn]; norm_num⟩
  · exact ⟨.easeOut, by decide, by simp only [sampleTiming, easeOut]; norm_num⟩
  · exact ⟨.easeInOut, by decide, by simp only [sampleTiming, easeInOut]; norm_num⟩

/-! ## Newton's method -/

private theorem newton_step (c : Coeffs) (t x : ℚ) (hv : c.velocity t ≠ 0) :
    c.position (t - (c.position t - x) / c.velocity t) - x =
      ((c.position t - x) / c.velocity t) ^ 2 * (c.c2 + 3 * c.c3 * t - c.c3 * ((c.position t - x) / c.velocity t)) := by
  generalize hu : (c.position t - x) / c.velocity t = u
  have e : c.position t - x = u * c.velocity t := by rw [← hu]; field_simp
  have : c.position (t - u) - x = (c.position t - x) - u * c.velocity t +
      u ^ 2 * (c.c2 + 3 * c.c3 * t - c.c3 * u) := by
    simp only [Coeffs.position, Coeffs.velocity]; ring
  rw [this, e]; ring

/-- `n` more guesses are enough, from an error of `R`, `D` from the middle of a window of the width `W`; `m`: the least slope, `K`: the curvature. -/
private def Enough (maxError W m K : ℚ) : ℕ → ℚ → ℚ → Prop
  | 0, _, _ => False
  | n + 1, R, D => D ≤ W ∧ (R ≤ maxError ∨ R / m ≤ 1 / 4 ∧ Enough maxError W m K n (K * (R / m) ^ 2) (D + R / m))

private theorem enough_finds (c : EaseCurve) {maxError z W m K x : ℚ} (hm : 0 < m)
    (hv : ∀ t, |t - z| ≤ W → m ≤ c.x.velocity t)
    (hk : ∀ t u, |t - z| ≤ W → |u| ≤ 1 / 4 → |c.x.c2 + 3 * c.x.c3 * t - c.x.c3 * u| ≤ K) :
    ∀ (n : ℕ) (y t R D : ℚ), Enough maxError W m K n R D → |t - z| ≤ D →
      |c.x.position t - x| ≤ R → ∃ s, |s - z| ≤ W ∧ |c.x.position s - x| ≤ maxError ∧
        c.search maxError x n y t = some (c.y.position s) := by
  intro n
  induction n with
  | zero => intro y t R D h; exact h.elim
  | succ n ih =>
    intro y t R D h ht hr
    have htw := ht.trans h.1
    rw [EaseCurve.search]
    by_cases hc : |c.x.position t - x| ≤ maxError
    · exact ⟨t, htw, hc, by simp only [hc, if_true]⟩
    · obtain ⟨hR, hn⟩ := h.2.resolve_left (fun e => hc (hr.trans e))
      have hv0 := hv t htw
      have hvp : 0 < c.x.velocity t := lt_of_lt_of_le hm hv0
      simp only [if_neg hc, if_neg hvp.ne']
      have hR0 : 0 ≤ R := (abs_nonneg _).trans hr
      have hu : |(c.x.position t - x) / c.x.velocity t| ≤ R / m := by
        rw [abs_div, abs_of_pos hvp]
        exact div_le_div₀ hR0 hr hm hv0
      have hK := hk t _ htw (hu.trans hR)
      have hK0 : 0 ≤ K := (abs_nonneg _).trans hK
      apply ih
      · exact hn
      · have := abs_sub_abs_le_abs_sub (t - (c.x.position t - x) / c.x.velocity t - z) (t - z)
        have e : t - (c.x.position t - x) / c.x.velocity t - z - (t - z) =
            -((c.x.position t - x) / c.x.velocity t) := by ring
        rw [e, abs_neg] at this
        linarith
      · rw [newton_step _ _ _ hvp.ne', abs_mul, abs_pow]
        rw [mul_comm]
        exact mul_le_mul hK (pow_le_pow_left₀ (abs_nonneg _) hu 2) (by positivity) hK0

/-- The slope of a chord -/
private def chord (c : Coeffs) (s u : ℚ) : ℚ := c.c1 + c.c2 * (s + u) + c.c3 * (s ^ 2 + s * u + u ^ 2)

private theorem chord_eq (c : Coeffs) (s u : ℚ) : c.position u - c.position s = (u - s) * chord c s u := by
  simp only [Coeffs.position, chord]; ring

private theorem height_near {x1 y1 x2 y2 e x s : ℚ} (W : ℚ → Prop) (hW : ∀ u, 0 ≤ u → u ≤ 1 → W u)
    (hQ : ∀ s u : ℚ, W s → W u → |chord (coeffs y1 y2) s u| ≤ 3 * chord (coeffs x1 x2) s u)
    (hU : ∀ s u : ℚ, 0 ≤ s → s ≤ 1 → 0 ≤ u → u ≤ 1 → 0 ≤ chord (coeffs y1 y2) s u)
    (hx : 0 ≤ x ∧ x ≤ 1) (hs : W s) (hr : |(coeffs x1 x2).position s - x| ≤ e) :
    HeightNear x1 y1 x2 y2 (3 * e) x ((coeffs y1 y2).position s) := by
  have he : 0 ≤ e := (abs_nonneg _).trans hr
  rw [abs_le] at hr
  -- points whose abscissas are close are close
  have close : ∀ a b : ℚ, W a → W b → a ≤ b → (coeffs x1 x2).position b - (coeffs x1 x2).position a ≤ e →
      |(coeffs y1 y2).position b - (coeffs y1 y2).position a| ≤ 3 * e := by
    intro a b ha hb hab h
    rw [chord_eq] at h ⊢
    have h0 : 0 ≤ b - a := by linarith
    rw [abs_mul, abs_of_nonneg h0]
    have h2 := mul_le_mul_of_nonneg_left (hQ a b ha hb) h0
    linarith
  have up : ∀ a b : ℚ, 0 ≤ a → a ≤ b → b ≤ 1 → (coeffs y1 y2).position a ≤ (coeffs y1 y2).position b := by
    intro a b h0 hab h1
    have := chord_eq (coeffs y1 y2) a b
    have := mul_nonneg (sub_nonneg.2 hab) (hU a b h0 (hab.trans h1) (h0.trans hab) h1)
    linarith
  have one : (coeffs x1 x2).position 1 = 1 := by simp only [coeffs, Coeffs.position]; ring
  have zero : (coeffs x1 x2).position 0 = 0 := by simp only [coeffs, Coeffs.position]; ring
  intro u h0 h1
  rw [← position_eq, ← position_eq]
  have hu := hW u h0 h1
  constructor
  · intro h
    rcases le_total s u with hsu | hsu
    · have := (abs_le.1 (close s u hs hu hsu (by linarith))).2
      linarith
    · rcases le_total s 1 with hs1 | hs1
      · have := up u s h0 hsu hs1
        linarith
      · have := (abs_le.1 (close 1 s (hW 1 (by norm_num) le_rfl) hs hs1 (by linarith))).1
        have := up u 1 h0 h1 le_rfl
        linarith
  · intro h
    rcases le_total u s with hsu | hsu
    · have := (abs_le.1 (close u s hu hs hsu (by linarith))).2
      linarith
    · rcases le_total 0 s with hs0 | hs0
      · have := up s u hs0 hsu h1
        linarith
      · have := (abs_le.1 (close s 0 hs (hW 0 le_rfl (by norm_num)) hs0 (by linarith))).1
        have := up 0 u le_rfl h0 h1
        linarith

/-- The first guess for `ease` -/
private theorem ease_first {x : ℚ} (h0 : 0 ≤ x) (h1 : x ≤ 1) :
    |ease.x.position (x - (ease.x.position x - x) / ease.x.velocity x) - x| ≤ 33 / 500 ∧
      |x - (ease.x.position x - x) / ease.x.velocity x - 1 / 2| ≤ 1 / 2 := by
  have hd : 0 < 3 * x ^ 2 - 3 / 2 * x + 3 / 4 := by nlinarith [sq_nonneg (x - 1 / 4)]
  have hv : ease.x.velocity x = 3 * x ^ 2 - 3 / 2 * x + 3 / 4 := by
    simp only [ease, EaseCurve.new, coeffs, Coeffs.velocity]; ring
  have hp : ease.x.position x - x = -(x * (1 - x) * (x + 1 / 4)) := by
    simp only [ease, EaseCurve.new, coeffs, Coeffs.position]; ring
  rw [newton_step _ _ _ (by rw [hv]; exact hd.ne'), hp, hv]
  set d := 3 * x ^ 2 - 3 / 2 * x + 3 / 4 with hdd
  have hc2 : ease.x.c2 = -3 / 4 := by simp only [ease, EaseCurve.new, coeffs]; norm_num
  have hc3 : ease.x.c3 = 1 := by simp only [ease, EaseCurve.new, coeffs]; norm_num
  rw [hc2, hc3, neg_div]
  generalize hw : x * (1 - x) * (x + 1 / 4) / d = v
  have e : x * (1 - x) * (x + 1 / 4) = v * d := by rw [← hw]; field_simp
  have v0 : 0 ≤ v := by
    rw [← hw]; exact div_nonneg (mul_nonneg (mul_nonneg h0 (by linarith)) (by linarith)) hd.le
  have vle : ∀ q, x * (1 - x) * (x + 1 / 4) ≤ q * d → v ≤ q := fun q hq => by rw [← hw]; exact (div_le_iff₀ hd).2 hq
  have v1 : v ≤ 127 / 500 := by
    apply vle; rw [hdd]
    nlinarith [sq_nonneg (x - 9 / 20), mul_nonneg h0 (sq_nonneg (x - 9 / 20))]
  have v2 : v ≤ 1 - x := by
    apply vle; rw [hdd]
    nlinarith [mul_nonneg (sub_nonneg.2 h1) (sq_nonneg (x - 7 / 16)), sub_nonneg.2 h1]
  have v3 : 61 / 100 ≤ x → v ≤ 229 / 400 * (1 - x) := by
    intro h; apply vle; rw [hdd]
    nlinarith [mul_nonneg (sub_nonneg.2 h1) (sq_nonneg (x - 4 / 5)), sub_nonneg.2 h1]
  have v4 : 2 / 5 ≤ x → x ≤ 61 / 100 → v ≤ 127 / 500 - 8 / 5 * (x - 91 / 200) ^ 2 := by
    intro ha hb; apply vle; rw [hdd]
    nlinarith [mul_nonneg (sub_nonneg.2 ha) (sub_nonneg.2 hb), sq_nonneg (x - 91 / 200), sq_nonneg (x ^ 2 - x / 2)]
  have grow : ∀ q, v ≤ q → 0 ≤ -3 / 4 + 3 * x → (-v) ^ 2 * (-3 / 4 + 3 * 1 * x - 1 * -v) ≤ q ^ 2 * (-3 / 4 + 3 * x + q) := by
    intro q hq hx
    have e1 : (-v) ^ 2 * (-3 / 4 + 3 * 1 * x - 1 * -v) = v ^ 2 * (-3 / 4 + 3 * x + v) := by ring
    rw [e1]
    exact mul_le_mul (pow_le_pow_left₀ v0 hq 2) (by linarith) (by linarith) (by positivity)
  constructor
  · rw [abs_le]
    constructor
    · nlinarith [mul_nonneg v0 v0, mul_nonneg (mul_nonneg v0 v0) v0, mul_nonneg (mul_nonneg v0 v0) h0]
    · rcases le_total x (2 / 5) with hx | hx
      · nlinarith [mul_nonneg v0 v0]
      · rcases le_total x (61 / 100) with hx' | hx'
        · have hl : v ≤ 267 / 1000 - 36 / 125 * (x - 91 / 200) := by
            nlinarith [v4 hx hx', sq_nonneg (x - 109 / 200)]
          refine (grow _ hl (by linarith)).trans ?_
          nlinarith [mul_nonneg (sub_nonneg.2 hx) (sub_nonneg.2 hx'), sq_nonneg (x - 107 / 200),
            mul_nonneg (sub_nonneg.2 hx) (sq_nonneg (x - 107 / 200)), mul_nonneg (sub_nonneg.2 hx') (sq_nonneg (x - 107 / 200))]
        · refine (grow _ (v3 hx') (by linarith)).trans ?_
          nlinarith [mul_nonneg (sub_nonneg.2 h1) (sub_nonneg.2 hx'),
            mul_nonneg (mul_nonneg (sub_nonneg.2 h1) (sub_nonneg.2 hx')) (sub_nonneg.2 h1)]
  · rw [abs_le]; constructor <;> linarith

private theorem ease_chord (s u : ℚ) : 9 / 16 ≤ chord ease.x s u := by
  simp only [chord, ease, EaseCurve.new, coeffs]
  nlinarith [sq_nonneg (s - u), sq_nonneg (s + u - 1 / 2)]

private theorem velocity_chord (c : Coeffs) (t : ℚ) : c.velocity t = chord c t t := by
  simp only [Coeffs.velocity, chord]; ring

private theorem ease_finds {maxError : ℚ} (he : 1 / 10 ^ 7 ≤ maxError) {x : ℚ} (h0 : 0 ≤ x) (h1 : x ≤ 1) :
    ∃ s, |s - 1 / 2| ≤ 3 / 4 ∧ |ease.x.position s - x| ≤ maxError ∧
      ease.search maxError x maxIters 0 x = some (ease.y.position s) := by
  rw [maxIters, EaseCurve.search]
  by_cases hc : |ease.x.position x - x| ≤ maxError
  · exact ⟨x, by rw [abs_le]; constructor <;> linarith, hc, by simp only [hc, if_true]⟩
  · have hv : ease.x.velocity x ≠ 0 := by
      rw [velocity_chord]
      have := ease_chord x x
      linarith
    simp only [if_neg hc, if_neg hv]
    obtain ⟨hr, hd⟩ := ease_first h0 h1
    refine enough_finds ease (z := 1 / 2) (W := 3 / 4) (m := 9 / 16) (K := 13 / 4) (by norm_num) (fun t _ => ?_) ?_ 7 _ _ (33 / 500) (1 / 2) ?_ hd hr
    · rw [velocity_chord]; exact ease_chord t t
    · intro t u ht hu
      simp only [ease, EaseCurve.new, coeffs]
      rw [abs_le] at ht hu ⊢
      constructor <;> linarith
    · simp only [Enough]
      norm_num
      right
      norm_num
      right
      norm_num
      right
      norm_num
      right
      norm_num
      right
      norm_num
      right
      norm_num
      linarith

private theorem easeInOut_finds {maxError : ℚ} (he : 1 / 10 ^ 7 ≤ maxError) {x : ℚ} (h0 : 0 ≤ x) (h1 : x ≤ 1) :
    ∃ s, |s - 1 / 2| ≤ 3 / 4 ∧ |easeInOut.x.position s - x| ≤ maxError ∧
      easeInOut.search maxError x maxIters 0 x = some (easeInOut.y.position s) := by
  rw [maxIters]
  refine enough_finds easeInOut (z := 1 / 2) (W := 3 / 4) (m := 87 / 100) (K := 2) (by norm_num) ?_ ?_ 8 _ _ (13 / 200) (1 / 2) ?_ ?_ ?_
  · intro t _
    simp only [Coeffs.velocity, easeInOut, EaseCurve.new, coeffs]
    nlinarith [sq_nonneg (t - 1 / 2)]
  · intro t u ht hu
    simp only [easeInOut, EaseCurve.new, coeffs]
    rw [abs_le] at ht hu ⊢
    constructor <;> linarith
  · simp only [Enough]; norm_num; right; norm_num; right; norm_num; right; norm_num; right; norm_num; left; linarith
  · rw [abs_le]; constructor <;> linarith
  · simp only [Coeffs.position, easeInOut, EaseCurve.new, coeffs]
    rw [abs_le]
    constructor <;> nlinarith [mul_nonneg h0 (sub_nonneg.2 h1), mul_nonneg (mul_nonneg h0 (sub_nonneg.2 h1)) h0,
      mul_nonneg (mul_nonneg h0 (sub_nonneg.2 h1)) (sub_nonneg.2 h1)]

/-! ### `ease-out`, whose curve starts flat -/

private theorem out_position (t : ℚ) : easeOut.x.position t = t ^ 2 * (87 / 50 - 37 / 50 * t) := by
  simp only [easeOut, EaseCurve.new, coeffs, Coeffs.position]; ring

private theorem out_velocity (t : ℚ) : easeOut.x.velocity t = t * (87 / 25 - 111 / 50 * t) := by
  simp only [easeOut, EaseCurve.new, coeffs, Coeffs.velocity]; ring

private theorem out_c2 : easeOut.x.c2 = 87 / 50 := by simp only [easeOut, EaseCurve.new, coeffs]; norm_num
private theorem out_c3 : easeOut.x.c3 = -(37 / 50) := by simp only [easeOut, EaseCurve.new, coeffs]; norm_num

/-- From above, every guess is at least four times better. -/
private theorem out_quarter {x t : ℚ} (hx : 0 ≤ x) (ht : 0 < t) (ht1 : t ≤ 39 / 50) (hr : x ≤ easeOut.x.position t) :
    easeOut.x.velocity t ≠ 0 ∧ 0 < t - (easeOut.x.position t - x) / easeOut.x.velocity t ∧
      t - (easeOut.x.position t - x) / easeOut.x.velocity t ≤ t ∧
      x ≤ easeOut.x.position (t - (easeOut.x.position t - x) / easeOut.x.velocity t) ∧
      easeOut.x.position (t - (easeOut.x.position t - x) / easeOut.x.velocity t) - x ≤
        (easeOut.x.position t - x) / 4 := by
  have hw : 0 < 87 / 25 - 111 / 50 * t := by linarith
  have hv : 0 < easeOut.x.velocity t := by rw [out_velocity]; exact mul_pos ht hw
  have hstep := newton_step easeOut.x t x hv.ne'
  generalize hu : (easeOut.x.position t - x) / easeOut.x.velocity t = u at *
  have e : easeOut.x.position t - x = u * easeOut.x.velocity t := by rw [← hu]; field_simp
  have u0 : 0 ≤ u := by rw [← hu]; exact div_nonneg (by linarith) hv.le
  have hu2 : u * (87 / 25 - 111 / 50 * t) ≤ t * (87 / 50 - 37 / 50 * t) := by
    have h1 : u * easeOut.x.velocity t ≤ easeOut.x.position t := by linarith
    rw [out_velocity, out_position] at h1
    have h2 : t * (u * (87 / 25 - 111 / 50 * t)) ≤ t * (t * (87 / 50 - 37 / 50 * t)) := by nlinarith
    exact le_of_mul_le_mul_left h2 ht
  have hut : u ≤ 67 / 100 * t := by
    have h1 : t * (87 / 50 - 37 / 50 * t) ≤ 67 / 100 * t * (87 / 25 - 111 / 50 * t) := by nlinarith
    exact le_of_mul_le_mul_right (hu2.trans h1) hw
  rw [out_c2, out_c3] at hstep
  have hg : 0 ≤ 87 / 50 - 111 / 50 * t + 37 / 50 * u := by linarith
  refine ⟨hv.ne', by linarith, by linarith, ?_, ?_⟩
  · have : 0 ≤ u ^ 2 * (87 / 50 - 111 / 50 * t + 37 / 50 * u) := mul_nonneg (sq_nonneg _) hg
    linarith
  · have e1 : u ^ 2 * (87 / 50 + 3 * -(37 / 50) * t - -(37 / 50) * u) =
        u * (u * (87 / 50 - 111 / 50 * t + 37 / 50 * u)) := by ring
    rw [hstep, e1, e, mul_div_assoc]
    apply mul_le_mul_of_nonneg_left _ u0
    rw [out_velocity]
    -- multiplied by the slope
    have h1 : u * (87 / 25 - 111 / 50 * t) * (87 / 50 - 111 / 50 * t + 37 / 50 * u) ≤
        t * (87 / 50 - 37 / 50 * t) * (87 / 50 - 111 / 50 * t + 37 / 50 * u) := mul_le_mul_of_nonneg_right hu2 hg
    have h2 : (87 / 50 - 37 / 50 * t) * (87 / 50 - 111 / 50 * t + 37 / 50 * u) ≤ (87 / 25 - 111 / 50 * t) ^ 2 / 4 := by
      nlinarith [mul_nonneg u0 ht.le]
    have h3 := mul_le_mul_of_nonneg_left h2 ht.le
    refine le_of_mul_le_mul_right ?_ hw
    nlinarith

private theorem out_descent {maxError x : ℚ} (hx : 0 ≤ x) : ∀ (n : ℕ) (y t R : ℚ), 0 < t → t ≤ 39 / 50 →
    x ≤ easeOut.x.position t → easeOut.x.position t - x ≤ R * 4 ^ n → ∃ s, 0 ≤ s ∧ s ≤ 1 ∧
      |easeOut.x.position s - x| ≤ max maxError R ∧ easeOut.search maxError x (n + 1) y t = some (easeOut.y.position s) := by
  intro n
  induction n with
  | zero =>
    intro y t R ht ht1 hr hR
    refine ⟨t, ht.le, by linarith, ?_, ?_⟩
    · rw [abs_of_nonneg (by linarith)]
      exact le_max_of_le_right (by simpa using hR)
    · rw [EaseCurve.search]
      simp only [EaseCurve.search]
      split
      · rfl
      · split <;> rfl
  | succ n ih =>
    intro y t R ht ht1 hr hR
    rw [EaseCurve.search]
    by_cases hc : |easeOut.x.position t - x| ≤ maxError
    · exact ⟨t, ht.le, by linarith, le_max_of_le_left hc, by simp only [hc, if_true]⟩
    · obtain ⟨h1, h2, h3, h4, h5⟩ := out_quarter hx ht ht1 hr
      simp only [if_neg hc, if_neg h1]
      refine ih _ _ R h2 (by linarith) h4 ?_
      rw [pow_succ] at hR
      linarith

private theorem easeOut_finds {maxError : ℚ} (he : 1 / 10 ^ 7 ≤ maxError) {x : ℚ} (h0 : 0 ≤ x) (h1 : x ≤ 1) :
    ∃ s, 0 ≤ s ∧ s ≤ 5 / 4 ∧ |easeOut.x.position s - x| ≤ max maxError (1 / 30000) ∧
      easeOut.search maxError x maxIters 0 x = some (easeOut.y.position s) := by
  rcases le_total x (7 / 10) with hx | hx
  · rw [maxIters, EaseCurve.search]
    by_cases hc : |easeOut.x.position x - x| ≤ maxError
    · exact ⟨x, h0, by linarith, le_max_of_le_left hc, by simp only [hc, if_true]⟩
    · have hx0 : 0 < x := by
        rcases lt_or_eq_of_le h0 with h | h
        · exact h
        · rw [← h, out_position] at hc
          norm_num at hc
          linarith
      have hw : 0 < 87 / 25 - 111 / 50 * x := by linarith
      have hv : 0 < easeOut.x.velocity x := by rw [out_velocity]; exact mul_pos hx0 hw
      simp only [if_neg hc, if_neg hv.ne']
      have hstep := newton_step easeOut.x x x hv.ne'
      have hp : easeOut.x.position x - x = -(x * ((1 - x) * (1 - 37 / 50 * x))) := by rw [out_position]; ring
      have hq : (easeOut.x.position x - x) / easeOut.x.velocity x =
          -((1 - x) * (1 - 37 / 50 * x) / (87 / 25 - 111 / 50 * x)) := by
        rw [hp, out_velocity, neg_div, mul_div_mul_left _ _ hx0.ne']
      rw [hq] at hstep ⊢
      generalize hw' : (1 - x) * (1 - 37 / 50 * x) / (87 / 25 - 111 / 50 * x) = v at *
      have v0 : 0 ≤ v := by
        rw [← hw']; exact div_nonneg (mul_nonneg (by linarith) (by linarith)) hw.le
      have vle : ∀ q, (1 - x) * (1 - 37 / 50 * x) ≤ q * (87 / 25 - 111 / 50 * x) → v ≤ q := fun q hq => by
        rw [← hw']; exact (div_le_iff₀ hw).2 hq
      have v1 : v ≤ 36 / 125 - 3 / 10 * x := by
        apply vle
        nlinarith
      have v2 : v ≤ 39 / 50 - x := by
        apply vle
        nlinarith
      rw [out_c2, out_c3] at hstep
      have e1 : (-v) ^ 2 * (87 / 50 + 3 * -(37 / 50) * x - -(37 / 50) * -v) =
          v ^ 2 * (87 / 50 - 111 / 50 * x - 37 / 50 * v) := by ring
      rw [e1] at hstep
      obtain ⟨s, s0, s1, hs, hf⟩ := out_descent (maxError := maxError) h0 6 (easeOut.y.position x) (x - -v) (1 / 30000) (by linarith) (by linarith)
        (by
          have : 0 ≤ v ^ 2 * (87 / 50 - 111 / 50 * x - 37 / 50 * v) := by
            apply mul_nonneg (sq_nonneg _)
            linarith
          linarith)
        (by
          rw [hstep]
          have v3 : v ≤ 36 / 125 := by linarith
          nlinarith [mul_nonneg (mul_nonneg v0 v0) h0, mul_nonneg v0 (sub_nonneg.2 v3),
            mul_nonneg (mul_nonneg v0 v0) (sub_nonneg.2 v3), mul_nonneg (sub_nonneg.2 v3) (sub_nonneg.2 v3)])
      exact ⟨s, s0, by linarith, hs, hf⟩
  · have := enough_finds easeOut (z := 17 / 20) (W := 2 / 5) (m := 4 / 5) (K := 5 / 4) (x := x) (maxError := maxError) (by norm_num) ?_ ?_ 8 0 x
      (21 / 200) (3 / 20) ?_ ?_ ?_
    · obtain ⟨s, hs, hr, hf⟩ := this
      rw [abs_le] at hs
      exact ⟨s, by linarith, by linarith, le_max_of_le_left hr, hf⟩
    · intro t ht
      rw [abs_le] at ht
      rw [out_velocity]
      nlinarith
    · intro t u ht hu
      rw [out_c2, out_c3]
      rw [abs_le] at ht hu ⊢
      constructor <;> linarith
    · simp only [Enough]; norm_num; right; norm_num; right; norm_num; right; norm_num; right; norm_num; left; linarith
    · rw [abs_le]; constructor <;> linarith
    · rw [out_position, abs_le]
      constructor <;> nlinarith [mul_nonneg (sub_nonneg.2 hx) (sub_nonneg.2 h1)]

/-! ### `ease-in`, the same curve from the other end -/

private theorem turned (a b t : ℚ) : (coeffs (1 - b) (1 - a)).position (1 - t) = 1 - (coeffs a b).position t := by
  simp only [coeffs, Coeffs.position]; ring

private theorem turned_velocity (a b t : ℚ) : (coeffs (1 - b) (1 - a)).velocity (1 - t) = (coeffs a b).velocity t := by
  simp only [coeffs, Coeffs.velocity]; ring

private theorem search_new (x1 y1 x2 y2 e x : ℚ) (n : ℕ) (y t : ℚ) : (EaseCurve.new x1 y1 x2 y2).search e x (n + 1) y t =
    if |(coeffs x1 x2).position t - x| ≤ e then some ((coeffs y1 y2).position t)
    else if (coeffs x1 x2).velocity t = 0 then (if n = 0 then some ((coeffs y1 y2).position t) else none)
    else (EaseCurve.new x1 y1 x2 y2).search e x n ((coeffs y1 y2).position t)
      (t - ((coeffs x1 x2).position t - x) / (coeffs x1 x2).velocity t) := rfl

private theorem turned_search (x1 y1 x2 y2 e x : ℚ) : ∀ (n : ℕ) (y t : ℚ),
    (EaseCurve.new (1 - x2) (1 - y2) (1 - x1) (1 - y1)).search e (1 - x) n (1 - y) (1 - t) =
      ((EaseCurve.new x1 y1 x2 y2).search e x n y t).map (1 - ·) := by
  intro n
  induction n with
  | zero => intro y t; rfl
  | succ n ih =>
    intro y t
    have e1 : 1 - (coeffs x1 x2).position t - (1 - x) = -((coeffs x1 x2).position t - x) := by ring
    rw [search_new, search_new, turned, turned, turned_velocity, e1, abs_neg]
    by_cases h1 : |(coeffs x1 x2).position t - x| ≤ e
    · rw [if_pos h1, if_pos h1]; rfl
    · rw [if_neg h1, if_neg h1]
      by_cases h2 : (coeffs x1 x2).velocity t = 0
      · rw [if_pos h2, if_pos h2]
        split <;> rfl
      · rw [if_neg h2, if_neg h2]
        have e2 : 1 - t - -((coeffs x1 x2).position t - x) / (coeffs x1 x2).velocity t =
            1 - (t - ((coeffs x1 x2).position t - x) / (coeffs x1 x2).velocity t) := by ring
        rw [e2]
        exact ih _ _

private theorem turned_height {x1 y1 x2 y2 d x y : ℚ} (h : HeightNear x1 y1 x2 y2 d x y) :
    HeightNear (1 - x2) (1 - y2) (1 - x1) (1 - y1) d (1 - x) (1 - y) := by
  intro s h0 h1
  have := h (1 - s) (by linarith) (by linarith)
  have e : ∀ a b : ℚ, bezierAt (1 - b) (1 - a) s = 1 - bezierAt a b (1 - s) := by
    intro a b; simp only [bezierAt]; ring
  rw [e, e]
  exact ⟨fun h => by have := this.2 (by linarith); linarith, fun h => by have := this.1 (by linarith); linarith⟩

private theorem height_weaken {x1 y1 x2 y2 d d' x y : ℚ} (hd : d ≤ d') (h : HeightNear x1 y1 x2 y2 d x y) :
    HeightNear x1 y1 x2 y2 d' x y := fun s h0 h1 =>
  ⟨fun h' => ((h s h0 h1).1 h').trans (by linarith), fun h' => le_trans (by linarith) ((h s h0 h1).2 h')⟩

private theorem out_height {maxError : ℚ} (he : 1 / 10 ^ 7 ≤ maxError) {t : ℚ} (h0 : 0 ≤ t) (h1 : t ≤ 1) :
    ∃ y, (EaseCurve.new 0 0 (29 / 50) 1).search maxError t maxIters 0 t = some y ∧
      HeightNear 0 0 (29 / 50) 1 (3 * max maxError (1 / 30000)) t y := by
  obtain ⟨s, s0, s1, hr, hf⟩ := easeOut_finds he h0 h1
  refine ⟨_, hf, height_near (fun u => 0 ≤ u ∧ u ≤ 5 / 4) (fun u a b => ⟨a, by linarith⟩) ?_ ?_ ⟨h0, h1⟩ ⟨s0, s1⟩ hr⟩
  · rintro a b ⟨a0, a1⟩ ⟨b0, b1⟩
    simp only [chord, coeffs]
    rw [abs_le]
    constructor <;> nlinarith [mul_nonneg a0 (sub_nonneg.2 a1), mul_nonneg b0 (sub_nonneg.2 b1), mul_nonneg a0 b0,
      mul_nonneg a0 (sub_nonneg.2 b1), mul_nonneg b0 (sub_nonneg.2 a1)]
  · intro a b a0 a1 b0 b1
    simp only [chord, coeffs]
    nlinarith [mul_nonneg a0 (sub_nonneg.2 a1), mul_nonneg b0 (sub_nonneg.2 b1), mul_nonneg a0 b0,
      mul_nonneg (sub_nonneg.2 a1) (sub_nonneg.2 b1), mul_nonneg a0 (sub_nonneg.2 b1), mul_nonneg b0 (sub_nonneg.2 a1)]

private theorem start_any (c : EaseCurve) (e x y y' t : ℚ) (n : ℕ) : c.search e x (n + 1) y t = c.search e x (n + 1) y' t := by
  rw [EaseCurve.search, EaseCurve.search]

/-- C98 (partial: for the four keywords; `MAX_ERROR` of at least a tenth of a millionth): at every time the value is the
height of the curve of CSS, up to three times the error that is allowed, or one ten thousandth. -/
theorem C98_curve_partial {maxError : ℚ} (he : 1 / 10 ^ 7 ≤ maxError) {t : ℚ} (h0 : 0 ≤ t) (h1 : t ≤ 1) {w : String}
    {x1 y1 x2 y2 : ℚ} (h : (w, x1, y1, x2, y2) ∈ easeKeywords) :
    ∃ f y, timing (.ident w) = .ok f ∧ sampleTiming maxError f t = some y ∧
      HeightNear x1 y1 x2 y2 (3 * max maxError (1 / 30000)) t y := by
  have hle : 3 * maxError ≤ 3 * max maxError (1 / 30000) := by have := le_max_left maxError (1 / 30000); linarith
  have near : ∀ u : ℚ, 0 ≤ u → u ≤ 1 → |u - 1 / 2| ≤ 3 / 4 := by
    intro u h0 h1; rw [abs_le]; constructor <;> linarith
  simp only [easeKeywords, List.mem_cons, Prod.mk.injEq, List.not_mem_nil, or_false] at h
  rcases h with ⟨rfl, rfl, rfl, rfl, rfl⟩ | ⟨rfl, rfl, rfl, rfl, rfl⟩ | ⟨rfl, rfl, rfl, rfl, rfl⟩ | ⟨rfl, rfl, rfl, rfl, rfl⟩
  · obtain ⟨s, hs, hr, hf⟩ := ease_finds he h0 h1
    refine ⟨.ease, ease.y.position s, by decide, ?_, height_weaken hle ?_⟩
    · simp only [sampleTiming, EaseCurve.sample, clamp_mid h0 h1]
      exact hf
    · have := height_near (x1 := 1 / 4) (x2 := 1 / 4) (y1 := 1 / 10) (y2 := 1) (e := maxError)
        (x := t) (s := s) (fun u => |u - 1 / 2| ≤ 3 / 4) near ?_ ?_ ⟨h0, h1⟩ hs hr
      · have e : (0.25 : ℚ) = 1 / 4 ∧ (0.1 : ℚ) = 1 / 10 := by constructor <;> norm_num
        rw [e.1, e.2]
        exact this
      · intro a b ha hb
        have := ease_chord a b
        refine le_trans (b := 27 / 16) ?_ (by exact (by linarith : (27 : ℚ) / 16 ≤ 3 * chord ease.x a b))
        simp only [chord, coeffs]
        rw [abs_le] at ha hb ⊢
        constructor <;> nlinarith [sq_nonneg (a - b), sq_nonneg (a + b - 24 / 17)]
      · intro a b a0 a1 b0 b1
        simp only [chord, coeffs]
        nlinarith [mul_nonneg a0 (sub_nonneg.2 a1), mul_nonneg b0 (sub_nonneg.2 b1), mul_nonneg a0 b0,
          mul_nonneg (sub_nonneg.2 a1) (sub_nonneg.2 b1), mul_nonneg a0 (sub_nonneg.2 b1), mul_nonneg b0 (sub_nonneg.2 a1)]
  · obtain ⟨y, hf, hy⟩ := out_height he (t := 1 - t) (by linarith) (by linarith)
    refine ⟨.easeIn, 1 - y, by decide, ?_, ?_⟩
    · simp only [sampleTiming, EaseCurve.sample, clamp_mid h0 h1]
      have := turned_search 0 0 (29 / 50) 1 maxError (1 - t) maxIters 0 (1 - t)
      rw [hf] at this
      have e : easeIn = EaseCurve.new (1 - 29 / 50) (1 - 1) (1 - 0) (1 - 0) := by
        rw [easeIn]; norm_num
      rw [e]
      rw [show (1 : ℚ) - (1 - t) = t by ring] at this
      exact (start_any _ _ _ _ _ _ _).trans this
    · have := turned_height hy
      have e : (0.42 : ℚ) = 1 - 29 / 50 := by norm_num
      rw [e]
      simpa using this
  · obtain ⟨y, hf, hy⟩ := out_height he h0 h1
    refine ⟨.easeOut, y, by decide, ?_, ?_⟩
    · simp only [sampleTiming, EaseCurve.sample, clamp_mid h0 h1]
      exact hf
    · have e : (0.58 : ℚ) = 29 / 50 := by norm_num
      rw [e]
      exact hy
  · obtain ⟨s, hs, hr, hf⟩ := easeInOut_finds he h0 h1
    refine ⟨.easeInOut, easeInOut.y.position s, by decide, ?_, height_weaken hle ?_⟩
    · simp only [sampleTiming, EaseCurve.sample, clamp_mid h0 h1]
      exact hf
    · have := height_near (x1 := 21 / 50) (x2 := 29 / 50) (y1 := 0) (y2 := 1) (e := maxError)
        (x := t) (s := s) (fun u => |u - 1 / 2| ≤ 3 / 4) near ?_ ?_ ⟨h0, h1⟩ hs hr
      · have e : (0.42 : ℚ) = 21 / 50 ∧ (0.58 : ℚ) = 29 / 50 := by constructor <;> norm_num
        rw [e.1, e.2]
        exact this
      · intro a b ha hb
        have h3 : 87 / 100 ≤ chord (coeffs (21 / 50) (29 / 50)) a b := by
          simp only [chord, coeffs]
          nlinarith [sq_nonneg (a - b), sq_nonneg (a + b - 1)]
        refine le_trans (b := 15 / 8) ?_ (by linarith)
        simp only [chord, coeffs]
        rw [abs_le] at ha hb ⊢
        constructor <;> nlinarith [sq_nonneg (a - b), sq_nonneg (a + b - 1)]
      · intro a b a0 a1 b0 b1
        simp only [chord, coeffs]
        nlinarith [mul_nonneg a0 (sub_nonneg.2 a1), mul_nonneg b0 (sub_nonneg.2 b1), mul_nonneg a0 b0,
          mul_nonneg (sub_nonneg.2 a1) (sub_nonneg.2 b1), mul_nonneg a0 (sub_nonneg.2 b1), mul_nonneg b0 (sub_nonneg.2 a1)]

example : ("ease", 0.25, 0.1, 0.25, 1) ∈ easeKeywords := by simp [easeKeywords]

/-- So the value never leaves the range of the curve by more than that. -/
example {x1 y1 x2 y2 d x y : ℚ} (hx : 0 ≤ x ∧ x ≤ 1) (h : HeightNear x1 y1 x2 y2 d x y) : -d ≤ y ∧ y ≤ 1 + d := by
  have a := (h 0 le_rfl (by norm_num)).1 (by simpa [bezierAt] using hx.1)
  have b := (h 1 (by norm_num) le_rfl).2 (by simpa [bezierAt] using hx.2)
  norm_num [bezierAt] at a b
  constructor <;> linarith

/-! ## Where it goes wrong -/

/-- All the guesses are farther off than `1 / 2000`. -/
private def allFar (c : EaseCurve) (x : ℚ) : ℕ → ℚ → Bool
  | 0, _ => true
  | n + 1, t => decide (1 / 2000 < |c.x.position t - x|) && decide (c.x.velocity t ≠ 0) &&
      allFar c x n (t - (c.x.position t - x) / c.x.velocity t)

private def lastY (c : EaseCurve) (x : ℚ) : ℕ → ℚ → ℚ → ℚ
  | 0, y, _ => y
  | n + 1, _, t => lastY c x n (c.y.position t) (t - (c.x.position t - x) / c.x.velocity t)

private theorem far_search {c : EaseCurve} {x e : ℚ} (he : e ≤ 1 / 2000) :
    ∀ n y t, allFar c x n t = true → c.search e x n y t = some (lastY c x n y t) := by
  intro n
  induction n with
  | zero => intro y t _; rfl
  | succ n ih =>
    intro y t h
    simp only [allFar, Bool.and_eq_true, decide_eq_true_eq] at h
    obtain ⟨⟨h1, h2⟩, h3⟩ := h
    rw [EaseCurve.search, lastY]
    simp only [if_neg (not_le.2 (lt_of_le_of_lt he h1)), if_neg h2]
    exact ih _ _ h3

/-- C98 is false: `cubic-bezier(1, 0, 0, 1)`, whose curve never leaves the range from 0 to 1, gives less than -700 just
behind the middle: the eight guesses do not come near. -/
theorem C98_wild {maxError : ℚ} (he : maxError ≤ 1 / 2000) :
    timing (.func "cubic-bezier" [.number 1, .comma, .number 0, .comma, .number 0, .comma, .number 1]) =
        .ok (.cubicBezier 1 0 0 1) ∧
      (∃ y, sampleTiming maxError (.cubicBezier 1 0 0 1) (501 / 1000) = some y ∧ y < -700) ∧
      ∀ s, 0 ≤ s → s ≤ 1 → 0 ≤ bezierAt 0 1 s ∧ bezierAt 0 1 s ≤ 1 := by
  refine ⟨C88_timing.1 _ |>.2 (.bezier (by decide)), ⟨lastY (.new 1 0 0 1) (501 / 1000) 8 0 (501 / 1000), ?_, ?_⟩, ?_⟩
  · simp only [sampleTiming, EaseCurve.sample, maxIters]
    rw [clamp_mid (by norm_num) (by norm_num)]
    exact far_search he 8 0 _ (by decide +kernel)
  · decide +kernel
  · intro s h0 h1
    simp only [bezierAt]
    constructor
    · nlinarith [mul_nonneg (mul_nonneg h0 h0) (sub_nonneg.2 h1), mul_nonneg (mul_nonneg h0 h0) h0]
    · nlinarith [mul_nonneg (mul_nonneg (sub_nonneg.2 h1) (sub_nonneg.2 h1)) h0, sq_nonneg (1 - s)]

/-- C98 is false: a curve that goes back in time, which CSS forbids, is accepted, and its value may be no number at all. -/
theorem C98_not_a_number {maxError : ℚ} (he : maxError ≤ 1 / 2000) :
    timing (.func "cubic-bezier" [.number 3, .comma, .number 0, .comma, .number (-2), .comma, .number 1]) =
        .ok (.cubicBezier 3 0 (-2) 1) ∧
      sampleTiming maxError (.cubicBezier 3 0 (-2) 1) (1 / 4) = none := by
  refine ⟨C88_timing.1 _ |>.2 (.bezier (by decide)), ?_⟩
  simp only [sampleTiming, EaseCurve.sample, maxIters]
  rw [clamp_mid (by norm_num) (by norm_num), EaseCurve.search]
  rw [if_neg, if_pos]
  · simp
  · simp only [EaseCurve.new, coeffs, Coeffs.velocity]; norm_num
  · simp only [EaseCurve.new, coeffs, Coeffs.position]
    rw [not_le]
    norm_num
    linarith

/-! ## Curves whose time is nearly even -/

/-- A sum with small weights -/
private theorem weigh {a b p q d M : ℚ} (ha : |a| ≤ d) (hb : |b| ≤ d) (h1 : |p + q| ≤ M) (h2 : |p - q| ≤ M) :
    |a * p + b * q| ≤ d * M := by
  have hd : 0 ≤ d := (abs_nonneg _).trans ha
  have hs : |p| + |q| ≤ M := by
    rw [abs_le] at h1 h2
    rcases abs_cases p with ⟨e, _⟩ | ⟨e, _⟩ <;> rcases abs_cases q with ⟨e', _⟩ | ⟨e', _⟩ <;> rw [e, e'] <;> linarith
  calc |a * p + b * q| ≤ |a * p| + |b * q| := abs_add_le _ _
    _ = |a| * |p| + |b| * |q| := by rw [abs_mul, abs_mul]
    _ ≤ d * |p| + d * |q| := add_le_add (mul_le_mul_of_nonneg_right ha (abs_nonneg _)) (mul_le_mul_of_nonneg_right hb (abs_nonneg _))
    _ = d * (|p| + |q|) := by ring
    _ ≤ d * M := mul_le_mul_of_nonneg_left hs hd

private theorem even_velocity (a b t : ℚ) :
    (coeffs (1 / 3 + a) (2 / 3 + b)).velocity t = 1 + 3 * (a * (1 - 4 * t + 3 * t ^ 2) + b * (2 * t - 3 * t ^ 2)) := by
  simp only [coeffs, Coeffs.velocity]; ring

private theorem even_bend (a b t u : ℚ) :
    (coeffs (1 / 3 + a) (2 / 3 + b)).c2 + 3 * (coeffs (1 / 3 + a) (2 / 3 + b)).c3 * t -
      (coeffs (1 / 3 + a) (2 / 3 + b)).c3 * u = a * (9 * t - 3 * u - 6) + b * (3 - 9 * t + 3 * u) := by
  simp only [coeffs]; ring

/-- The first guess -/
private theorem even_first {a b x : ℚ} (ha : |a| ≤ 1 / 8) (hb : |b| ≤ 1 / 8) (h0 : 0 ≤ x) (h1 : x ≤ 1) :
    let c := coeffs (1 / 3 + a) (2 / 3 + b)
    0 < c.velocity x ∧ |c.position (x - (c.position x - x) / c.velocity x) - x| ≤ 81 / 5000 ∧
      |x - (c.position x - x) / c.velocity x - 1 / 2| ≤ 1 / 2 := by
  intro c
  have hq0 : 0 ≤ x * (1 - x) := mul_nonneg h0 (sub_nonneg.2 h1)
  have hq1 : x * (1 - x) ≤ 1 / 4 := by nlinarith [sq_nonneg (x - 1 / 2)]
  -- the slope
  have hv : ∀ M : ℚ, |1 - 2 * x| ≤ M → |1 - 6 * (x * (1 - x))| ≤ M → 1 - 3 / 8 * M ≤ c.velocity x := by
    intro M e1 e2
    have := weigh (p := 1 - 4 * x + 3 * x ^ 2) (q := 2 * x - 3 * x ^ 2) ha hb
      (M := M) (by rw [show 1 - 4 * x + 3 * x ^ 2 + (2 * x - 3 * x ^ 2) = 1 - 2 * x by ring]; exact e1)
      (by rw [show 1 - 4 * x + 3 * x ^ 2 - (2 * x - 3 * x ^ 2) = 1 - 6 * (x * (1 - x)) by ring]; exact e2)
    rw [even_velocity]
    have := (abs_le.1 this).1
    linarith
  have hv1 : 5 / 8 ≤ c.velocity x := by
    have := hv 1 (by rw [abs_le]; constructor <;> linarith) (by rw [abs_le]; constructor <;> linarith)
    linarith
  have hvp : 0 < c.velocity x := by linarith
  -- the error of the first guess
  have he : |c.position x - x| ≤ 3 / 8 * (x * (1 - x)) := by
    have e : c.position x - x = (a * (1 - x) + b * x) * (3 * (x * (1 - x))) := by
      simp only [c, coeffs, Coeffs.position]; ring
    have := weigh (p := 1 - x) (q := x) ha hb (M := 1) (by rw [abs_le]; constructor <;> linarith)
      (by rw [abs_le]; constructor <;> linarith)
    rw [e, abs_mul, abs_of_nonneg (by linarith : (0 : ℚ) ≤ 3 * (x * (1 - x)))]
    nlinarith
  have hstep : 3 / 8 * (x * (1 - x)) ≤ 12 / 100 * c.velocity x := by
    have := hv (max |1 - 2 * x| |1 - 6 * (x * (1 - x))|) (le_max_left _ _) (le_max_right _ _)
    rcases max_cases |1 - 2 * x| |1 - 6 * (x * (1 - x))| with ⟨e, _⟩ | ⟨e, _⟩ <;> rw [e] at this
    · rcases abs_cases (1 - 2 * x) with ⟨e, _⟩ | ⟨e, _⟩ <;> rw [e] at this
      · nlinarith [sq_nonneg (x - 19 / 50)]
      · nlinarith [sq_nonneg (1 - x - 19 / 50)]
    · rcases abs_cases (1 - 6 * (x * (1 - x))) with ⟨e, _⟩ | ⟨e, _⟩ <;> rw [e] at this <;> linarith
  have hu : |(c.position x - x) / c.velocity x| ≤ 12 / 100 := by
    rw [abs_div, abs_of_pos hvp, div_le_iff₀ hvp]
    linarith
  have hlo : (c.position x - x) / c.velocity x ≤ x := by
    rw [div_le_iff₀ hvp]
    have := (abs_le.1 he).2
    nlinarith [mul_nonneg h0 (sub_nonneg.2 h1), mul_le_mul_of_nonneg_left hv1 h0]
  have hhi : -(1 - x) ≤ (c.position x - x) / c.velocity x := by
    rw [le_div_iff₀ hvp]
    have := (abs_le.1 he).1
    nlinarith [mul_nonneg h0 (sub_nonneg.2 h1), mul_le_mul_of_nonneg_left hv1 (sub_nonneg.2 h1)]
  refine ⟨hvp, ?_, by rw [abs_le]; constructor <;> linarith⟩
  rw [newton_step _ _ _ hvp.ne', even_bend]
  generalize (c.position x - x) / c.velocity x = u at hu hlo hhi
  have hbend := weigh (p := 9 * x - 3 * u - 6) (q := 3 - 9 * x + 3 * u) ha hb (M := 9)
    (by rw [abs_le]; constructor <;> linarith) (by rw [abs_le]; constructor <;> linarith)
  rw [abs_mul, abs_pow]
  have h2 : |u| ^ 2 ≤ (12 / 100) ^ 2 := pow_le_pow_left₀ (abs_nonneg _) hu 2
  calc |u| ^ 2 * |a * (9 * x - 3 * u - 6) + b * (3 - 9 * x + 3 * u)| ≤ (12 / 100) ^ 2 * (1 / 8 * 9) :=
        mul_le_mul h2 hbend (abs_nonneg _) (by norm_num)
    _ ≤ 81 / 5000 := by norm_num

/-- C98 (partial: for the curves whose control points are at about a third and two thirds of the time, `MAX_ERROR` of at
least a tenth of a millionth): at every time the value is the height of a point of the curve at that time, up to the
error that is allowed, also for curves that go below 0, above 1 or back. -/
theorem C98_even_partial {maxError : ℚ} (hmax : 1 / 10 ^ 7 ≤ maxError) {t : ℚ} (h0 : 0 ≤ t) (h1 : t ≤ 1)
    {x1 x2 : ℚ} (hx1 : |x1 - 1 / 3| ≤ 1 / 8) (hx2 : |x2 - 2 / 3| ≤ 1 / 8) (y1 y2 : ℚ) :
    ∃ y, sampleTiming maxError (.cubicBezier x1 y1 x2 y2) t = some y ∧ OnCurve x1 y1 x2 y2 maxError t y := by
  obtain ⟨a, rfl⟩ : ∃ a, x1 = 1 / 3 + a := ⟨x1 - 1 / 3, by ring⟩
  obtain ⟨b, rfl⟩ : ∃ b, x2 = 2 / 3 + b := ⟨x2 - 2 / 3, by ring⟩
  have ha : |a| ≤ 1 / 8 := by simpa using hx1
  have hb : |b| ≤ 1 / 8 := by simpa using hx2
  obtain ⟨hv, hr, hd⟩ := even_first ha hb h0 h1
  set c : EaseCurve := .new (1 / 3 + a) y1 (2 / 3 + b) y2 with hc
  have hcx : c.x = coeffs (1 / 3 + a) (2 / 3 + b) := rfl
  rw [← hcx] at hv hr hd
  have hpos : (0 : ℚ) ≤ maxError := le_trans (by norm_num) hmax
  -- the search finds a point
  have key : ∃ s, |s - 1 / 2| ≤ 27 / 50 ∧ |c.x.position s - t| ≤ maxError ∧
      c.search maxError t 8 0 t = some (c.y.position s) := by
    rw [EaseCurve.search]
    by_cases hce : |c.x.position t - t| ≤ maxError
    · exact ⟨t, by rw [abs_le]; constructor <;> linarith, hce, by simp only [hce, if_true]⟩
    · simp only [if_neg hce, if_neg hv.ne']
      refine enough_finds c (z := 1 / 2) (W := 27 / 50) (m := 53 / 100) (K := 3 / 2) (by norm_num) ?_ ?_ 7 _ _
        (81 / 5000) (1 / 2) ?_ hd hr
      · intro u hu
        rw [abs_le] at hu
        have hu2 : (u - 1 / 2) ^ 2 ≤ (27 / 50) ^ 2 := by nlinarith
        have := weigh (p := 1 - 4 * u + 3 * u ^ 2) (q := 2 * u - 3 * u ^ 2) ha hb (M := 5 / 4)
          (by rw [abs_le]; constructor <;> linarith)
          (by
            rw [show 1 - 4 * u + 3 * u ^ 2 - (2 * u - 3 * u ^ 2) = 6 * (u - 1 / 2) ^ 2 - 1 / 2 by ring, abs_le]
            constructor
            · nlinarith [sq_nonneg (u - 1 / 2)]
            · linarith)
        rw [hcx, even_velocity]
        have := (abs_le.1 this).1
        linarith
      · intro u w hu hw
        rw [hcx, even_bend]
        rw [abs_le] at hu hw
        refine (weigh ha hb (M := 12) ?_ ?_).trans (by norm_num) <;> rw [abs_le] <;> constructor <;> linarith
      · have hlast : ∀ R : ℚ, R ≤ 1 / 10 ^ 7 → R ≤ maxError := fun R h => h.trans hmax
        refine ⟨by norm_num, .inr ⟨by norm_num, by norm_num, .inr ⟨by norm_num, by norm_num, .inr ⟨by norm_num, by norm_num,
          .inl (hlast _ ?_)⟩⟩⟩⟩
        norm_num
  obtain ⟨s, hs, hn, hf⟩ := key
  refine ⟨c.y.position s, ?_, s, ?_, ?_, ?_, ?_⟩
  · simp only [sampleTiming, EaseCurve.sample, maxIters]
    rw [clamp_mid h0 h1]
    exact hf
  · -- the point is hardly before the beginning
    by_contra hlt
    have hs0 : s < 0 := by linarith
    rw [abs_le] at hs hn
    have e : c.x.position s = s * (1 + 3 * (a * (1 - s) ^ 2 + b * (s * (1 - s)))) := by
      rw [hcx]; simp only [coeffs, Coeffs.position]; ring
    have := weigh (p := (1 - s) ^ 2) (q := s * (1 - s)) ha hb (M := 4 / 3)
      (by rw [abs_le]; constructor <;> nlinarith) (by rw [abs_le]; constructor <;> nlinarith)
    have := (abs_le.1 this).1
    nlinarith
  · by_contra hlt
    have hs0 : 0 < s - 1 := by linarith
    rw [abs_le] at hs hn
    have e : c.x.position s = 1 + (s - 1) * (1 - 3 * (a * (s * (1 - s)) + b * s ^ 2)) := by
      rw [hcx]; simp only [coeffs, Coeffs.position]; ring
    have := weigh (p := s * (1 - s)) (q := s ^ 2) ha hb (M := 4 / 3)
      (by rw [abs_le]; constructor <;> nlinarith) (by rw [abs_le]; constructor <;> nlinarith)
    have := (abs_le.1 this).2
    nlinarith
  · rw [← position_eq]; exact hn
  · rw [← position_eq]; rfl

/-- `cubic-bezier(0.3, -0.5, 0.7, 1.5)`, which goes below 0 and above 1 -/
example : |(3 / 10 : ℚ) - 1 / 3| ≤ 1 / 8 ∧ |(7 / 10 : ℚ) - 2 / 3| ≤ 1 / 8 ∧ bezierAt (-1 / 2) (3 / 2) (1 / 10) < 0 ∧
    1 < bezierAt (-1 / 2) (3 / 2) (9 / 10) := by
  refine ⟨?_, ?_, ?_, ?_⟩ <;> norm_num [abs_le, bezierAt]

end Flair.Props
