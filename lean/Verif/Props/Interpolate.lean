import Verif.Spec.Interpolate
import Verif.Spec.Keyframes
import Verif.Tactics
import Mathlib.Data.List.Forall2
import Mathlib.Tactic.Linarith
import Mathlib.Tactic.Ring
import Mathlib.Tactic.FieldSimp
import Mathlib.Tactic.NormNum
import Mathlib.Algebra.Order.Field.Rat
import Mathlib.Data.Rat.Floor
/-! # Theorems about interpolation (C52, C70) -/
namespace Flair.Props
open Flair.Calc (Val LUnit wrap) 
open Flair.Interpolate Flair.Spec

private theorem lerp_eq (x y t : ℚ) : lerp x y t = between x y t := by unfold lerp between; ring
private theorem lerp_zero (x y : ℚ) : lerp x y 0 = x := by simp [lerp]
private theorem lerp_one (x y : ℚ) : lerp x y 1 = y := by simp [lerp]

/-! ## C52 -/

/-- **C52**: lengths of the same unit are interpolated linearly; zero takes the unit of the other length. -/
theorem C52_linear (u v : LUnit) (x y t : ℚ) :
    val (.len u x) (.len u y) t = .len u (between x y t) ∧
    SameVal (val (.len u 0) (.len v y) t) (.len v (between 0 y t)) ∧
    SameVal (val (.len u x) (.len v 0) t) (.len u (between x 0 t)) := by
  refine ⟨?_, ?_, ?_⟩
  · simp [val, sameVariant, lerp_eq]
  · by_cases h : u = v
    · subst h; simp [val, sameVariant, SameVal, lerp_eq]
    · simp [val, sameVariant, h, Val.isZero, Val.mul, SameVal, lerp_eq]
  · by_cases h : u = v
    · subst h; simp [val, sameVariant, SameVal, lerp_eq]
    · by_cases hx : x = 0
      · subst hx; simp [val, sameVariant, h, Val.isZero, Val.mul, SameVal, lerp, between]
      · simp [val, sameVariant, h, hx, Val.isZero, Val.mul, SameVal, lerp_eq]

/-- **C52**: two values that cannot be mixed: two lengths with different units, none of them zero, or a length other
than zero and `auto`.  The first one is shown until the end. -/
theorem C52_incompatible (a b : Val)
    (h : (∃ u v x y, a = .len u x ∧ b = .len v y ∧ u ≠ v ∧ x ≠ 0 ∧ y ≠ 0) ∨
      (∃ u x, x ≠ 0 ∧ (a = .len u x ∧ b = .auto ∨ a = .auto ∧ b = .len u x))) (t : ℚ) :
    (t < 1 → val a b t = a) ∧ (1 ≤ t → val a b t = b) := by
  have : val a b t = if 1 ≤ t then b else a := by
    rcases h with ⟨u, v, x, y, rfl, rfl, huv, hx, hy⟩ | ⟨u, x, hx, ⟨rfl, rfl⟩ | ⟨rfl, rfl⟩⟩
    · simp [val, sameVariant, huv, Val.isZero, hx, hy]
    · simp [val, sameVariant, Val.isZero, hx]
    · simp [val, sameVariant, Val.isZero, hx]
  rw [this]
  exact ⟨fun h => if_neg (not_le.mpr h), fun h => if_pos h⟩

/-- **C52**: the two ends, except between `auto` and zero. -/
theorem C52_ends_partial (a b : Val) (h : ¬ AutoZero a b) : HitsEnds SameVal val a b := by
  unfold AutoZero at h
  push Not at h
  unfold HitsEnds StartsAt EndsAt
  cases a with
  | auto =>
    cases b with
    | auto => exact ⟨trivial, trivial⟩
    | len v y =>
      have hy : y ≠ 0 := by rintro rfl; exact h.1 rfl v rfl
      obtain ⟨h1, h2⟩ := C52_incompatible .auto (.len v y) (.inr ⟨v, y, hy, .inr ⟨rfl, rfl⟩⟩) 0
      obtain ⟨h3, h4⟩ := C52_incompatible .auto (.len v y) (.inr ⟨v, y, hy, .inr ⟨rfl, rfl⟩⟩) 1
      rw [h1 (by norm_num), h4 le_rfl]
      exact ⟨trivial, rfl, .inl rfl⟩
  | len u x =>
    cases b with
    | auto =>
      have hx : x ≠ 0 := by rintro rfl; exact h.2 rfl u rfl
      obtain ⟨h1, h2⟩ := C52_incompatible (.len u x) .auto (.inr ⟨u, x, hx, .inl ⟨rfl, rfl⟩⟩) 0
      obtain ⟨h3, h4⟩ := C52_incompatible (.len u x) .auto (.inr ⟨u, x, hx, .inl ⟨rfl, rfl⟩⟩) 1
      rw [h1 (by norm_num), h4 le_rfl]
      exact ⟨⟨rfl, .inl rfl⟩, trivial⟩
    | len v y =>
      by_cases huv : u = v
      · subst huv
        simp [val, sameVariant, lerp, SameVal]
      by_cases hx : x = 0
      · subst hx
        simp [val, sameVariant, huv, Val.isZero, Val.mul, lerp, SameVal]
      by_cases hy : y = 0
      · subst hy
        simp [val, sameVariant, huv, hx, Val.isZero, Val.mul, lerp, SameVal]
      · have h10 : ¬ (1 : ℚ) ≤ 0 := by norm_num
        simp [val, sameVariant, huv, hx, hy, Val.isZero, SameVal, h10]

/-- a case: from 10px to zero, written as a percentage -/
example : HitsEnds SameVal val (.len .px 10) (.len .percent 0) ∧ val (.len .px 10) (.len .percent 0) (1/2) = .len .px 5 :=
  ⟨C52_ends_partial _ _ (by rintro (⟨h, -⟩ | ⟨h, -⟩) <;> cases h), by
    have : ¬ LUnit.px = LUnit.percent := by decide
    norm_num [val, sameVariant, Val.isZero, Val.mul, lerp, this]⟩

/-- Between `auto` and zero it fails: the way from zero starts at `auto`, the one to zero ends there. -/
theorem C52_auto_zero (u : LUnit) :
    ¬ StartsAt SameVal val (.len u 0) .auto ∧ ¬ EndsAt SameVal val .auto (.len u 0) :=
  ⟨by simp [StartsAt, val, sameVariant, Val.isZero, Val.mul, SameVal],
    by simp [EndsAt, val, sameVariant, Val.isZero, Val.mul, SameVal]⟩

/-- **C52**: interpolating on from a value in between stays on the way, so that C35 applies to lengths. -/
theorem C52_straight : Straight val := by
  intro a b s u hs hs1 hu hu1
  have lerp_lerp : ∀ x y : ℚ, lerp (lerp x y s) y u = lerp x y (s + (1 - s) * u) := by
    intro x y; unfold lerp; ring
  have h1 : ¬ (1 : ℚ) ≤ s := not_le.mpr hs1
  have h2 : (1 : ℚ) ≤ s + (1 - s) * u ↔ 1 ≤ u := by
    constructor
    · intro h; nlinarith
    · intro h; nlinarith
  cases a with
  | auto =>
    cases b with
    | auto => rfl
    | len v y =>
      by_cases hy : y = 0
      · subst hy; simp [val, sameVariant, Val.isZero, Val.mul]
      · simp [val, sameVariant, Val.isZero, hy, h1, h2]
  | len w x =>
    cases b with
    | auto =>
      by_cases hx : x = 0
      · subst hx; simp [val, sameVariant, Val.isZero, Val.mul]
      · simp [val, sameVariant, Val.isZero, hx, h1, h2]
    | len v y =>
      by_cases hwv : w = v
      · subst hwv; simp [val, sameVariant, lerp_lerp]
      by_cases hx : x = 0
      · subst hx
        simp [val, sameVariant, hwv, Val.isZero, Val.mul, lerp_lerp]
      by_cases hy : y = 0
      · subst hy
        have hne : lerp x 0 s ≠ 0 := by
          unfold lerp
          have : x + (0 - x) * s = x * (1 - s) := by ring
          rw [this]
          exact mul_ne_zero hx (by linarith)
        simp [val, sameVariant, hwv, hx, hne, Val.isZero, Val.mul, lerp_lerp]
      · simp [val, sameVariant, hwv, hx, hy, Val.isZero, h1, h2]

/-! ## C70 -/

/-- **C52**: a transition of a length starts at the old value — the default of the type (`auto`) if there was none —
and ends at the new one, except between `auto` and zero; outside of its time there is no value. -/
theorem C52_transition_partial (old : Option Val) (b : Val) (h : ¬ AutoZero (old.getD .auto) b) :
    (∃ x, transitionCurve val .auto old b 0 = some x ∧
      ((∀ a, old = some a → SameVal x a) ∧ (old = none → SameVal x .auto))) ∧
    (∃ x, transitionCurve val .auto old b 1 = some x ∧ SameVal x b) ∧
    ∀ t, t < 0 ∨ 1 < t → transitionCurve val .auto old b t = none := by
  obtain ⟨h0, h1⟩ := C52_ends_partial _ _ h
  refine ⟨⟨val (old.getD .auto) b 0, by simp [transitionCurve], ?_, ?_⟩,
    ⟨val (old.getD .auto) b 1, by simp [transitionCurve], h1⟩, ?_⟩
  · rintro a rfl; exact h0
  · rintro rfl; exact h0
  · intro t ht
    unfold transitionCurve
    rw [if_neg]
    rintro ⟨ha, hb⟩
    rcases ht with h | h <;> linarith

/-- from nothing to 10px: the first half shows `auto` -/
example : ¬ AutoZero ((none : Option Val).getD .auto) (.len .px 10) ∧
    transitionCurve val .auto none (.len .px 10) (1/4) = some .auto := by
  constructor
  · simp [AutoZero]
  · decide +kernel

private theorem color_ends (a b : Color) : color a b 0 = a ∧ color a b 1 = b := by
  cases a; cases b; simp [color, lerp]

private theorem vec2_ends (a b : Vec2) : vec2 a b 0 = a ∧ vec2 a b 1 = b := by
  cases a; cases b; simp [vec2, lerp]

/-- **C70**: colors, vectors and text shadows. -/
theorem C70_plain (a b : Color) (p q : Vec2) (s r : TextShadow) :
    HitsEnds Eq color a b ∧ HitsEnds Eq vec2 p q ∧ HitsEnds Eq textShadow s r := by
  refine ⟨color_ends a b, vec2_ends p q, ?_, ?_⟩
  · cases s; cases r
    simp [StartsAt, textShadow, (vec2_ends _ _).1, (color_ends _ _).1]
  · cases s; cases r
    simp [EndsAt, textShadow, (vec2_ends _ _).2, (color_ends _ _).2]

/-- **C70**: every component of a color, and of a vector, moves linearly. -/
theorem C70_plain_linear (a b : Color) (p q : Vec2) (t : ℚ) :
    color a b t = ⟨between a.l b.l t, between a.a b.a t, between a.b b.b t, between a.alpha b.alpha t⟩ ∧
      vec2 p q t = ⟨between p.x q.x t, between p.y q.y t⟩ := by
  simp [color, vec2, lerp_eq]

private theorem list_forall₂ {T : Type} {R S : T → T → Prop} {f : T → T → ℚ → T} {t : ℚ}
    {l m : List T} (h : List.Forall₂ R l m) (hf : ∀ a b, R a b → S (f a b t) a) :
    List.Forall₂ S (list f l m t) l := by
  unfold Flair.Interpolate.list
  rw [if_neg (not_not.mpr h.length_eq)]
  induction h with
  | nil => exact .nil
  | cons hab _ ih => exact .cons (hf _ _ hab) ih

private theorem list_forall₂' {T : Type} {R S : T → T → Prop} {f : T → T → ℚ → T} {t : ℚ}
    {l m : List T} (h : List.Forall₂ R l m) (hf : ∀ a b, R a b → S (f a b t) b) :
    List.Forall₂ S (list f l m t) m := by
  unfold Flair.Interpolate.list
  rw [if_neg (not_not.mpr h.length_eq)]
  induction h with
  | nil => exact .nil
  | cons hab _ ih => exact .cons (hf _ _ hab) ih

/-- **C70**: lists of shadows of the same length. -/
theorem C70_shadows_partial (a b : List ShadowStyle) (h : List.Forall₂ ShadowFits a b) :
    HitsEnds (List.Forall₂ SameShadow) boxShadow a b := by
  constructor
  · refine list_forall₂ h ?_
    rintro p q ⟨h1, h2, h3, h4⟩
    exact ⟨(color_ends _ _).1, (C52_ends_partial _ _ h1).1, (C52_ends_partial _ _ h2).1, (C52_ends_partial _ _ h3).1,
      (C52_ends_partial _ _ h4).1⟩
  · refine list_forall₂' h ?_
    rintro p q ⟨h1, h2, h3, h4⟩
    exact ⟨(color_ends _ _).2, (C52_ends_partial _ _ h1).2, (C52_ends_partial _ _ h2).2, (C52_ends_partial _ _ h3).2,
      (C52_ends_partial _ _ h4).2⟩

private theorem stop_ends {p q : ColorStop} (h : ¬ AutoZero p.point q.point) :
    SameStop (colorStop p q 0) p ∧ SameStop (colorStop p q 1) q :=
  ⟨⟨(color_ends _ _).1, (C52_ends_partial _ _ h).1, lerp_zero _ _⟩,
    ⟨(color_ends _ _).2, (C52_ends_partial _ _ h).2, lerp_one _ _⟩⟩

private theorem position_ends {p q : UiPosition} (h : PositionFits p q) :
    SamePosition (uiPosition p q 0) p ∧ SamePosition (uiPosition p q 1) q :=
  ⟨⟨(vec2_ends _ _).1, (C52_ends_partial _ _ h.1).1, (C52_ends_partial _ _ h.2).1⟩,
    ⟨(vec2_ends _ _).2, (C52_ends_partial _ _ h.1).2, (C52_ends_partial _ _ h.2).2⟩⟩

private theorem angular_ends {p q : AngularColorStop} (h : p.angle.isSome = q.angle.isSome) :
    angularColorStop p q 0 = p ∧ angularColorStop p q 1 = q := by
  obtain ⟨c, x, i⟩ := p
  obtain ⟨d, y, j⟩ := q
  cases x <;> cases y <;>
    simp [angularColorStop, Flair.Interpolate.option, (color_ends _ _).1, (color_ends _ _).2, lerp_zero, lerp_one] at h ⊢

/-- **C70**: gradients of the same kind. -/
theorem C70_gradient_partial {K H : Type} [DecidableEq K] [DecidableEq H] (a b : Gradient K H) (h : GradientFits a b) :
    HitsEnds SameGradient gradient a b := by
  unfold HitsEnds StartsAt EndsAt
  cases a with
  | linear a =>
    cases b with
    | linear b =>
      obtain ⟨h1, h2⟩ := h
      simp only [gradient, linearGradient, if_neg (not_not.mpr h1), SameGradient]
      exact ⟨⟨trivial, lerp_zero _ _, list_forall₂ h2 fun p q h => (stop_ends h).1⟩,
        ⟨h1, lerp_one _ _, list_forall₂' h2 fun p q h => (stop_ends h).2⟩⟩
    | radial b => exact h.elim
    | conic b => exact h.elim
  | radial a =>
    cases b with
    | radial b =>
      obtain ⟨h1, h2, h3, h4⟩ := h
      simp only [gradient, radialGradient, if_neg (not_not.mpr h1), if_neg (not_not.mpr h2), SameGradient]
      exact ⟨⟨trivial, (position_ends h3).1, trivial, list_forall₂ h4 fun p q h => (stop_ends h).1⟩,
        ⟨h1, (position_ends h3).2, h2, list_forall₂' h4 fun p q h => (stop_ends h).2⟩⟩
    | linear b => exact h.elim
    | conic b => exact h.elim
  | conic a =>
    cases b with
    | conic b =>
      obtain ⟨h1, h2, h3⟩ := h
      simp only [gradient, conicGradient, if_neg (not_not.mpr h1), SameGradient]
      refine ⟨⟨trivial, lerp_zero _ _, (position_ends h2).1, ?_⟩, ⟨h1, lerp_one _ _, (position_ends h2).2, ?_⟩⟩
      · exact List.forall₂_eq_eq_eq ▸ list_forall₂ (S := Eq) h3 fun p q h => (angular_ends h).1
      · exact List.forall₂_eq_eq_eq ▸ list_forall₂' (S := Eq) h3 fun p q h => (angular_ends h).2
    | linear b => exact h.elim
    | radial b => exact h.elim

/-- **C70**: lists of gradients (`background-image`, `border-image`). -/
theorem C70_gradients_partial {K H : Type} [DecidableEq K] [DecidableEq H] (a b : List (Gradient K H))
    (h : List.Forall₂ GradientFits a b) : HitsEnds (List.Forall₂ SameGradient) gradients a b :=
  ⟨list_forall₂ h fun p q h => (C70_gradient_partial p q h).1, list_forall₂' h fun p q h => (C70_gradient_partial p q h).2⟩

/-! ### in between -/

/-- **C52**: at every time, the length is where it should be, except between `auto` and zero. -/
theorem C52_on_partial (a b : Val) (h : ¬ AutoZero a b) (t : ℚ) : LengthOn t a b (val a b t) := by
  unfold AutoZero at h
  push Not at h
  cases a with
  | auto =>
    cases b with
    | auto => exact .auto
    | len w y =>
      have hy : y ≠ 0 := by rintro rfl; exact h.1 rfl w rfl
      refine .fromAuto _ _ _ hy ?_
      simp [val, sameVariant, Val.isZero, hy]
  | len u x =>
    cases b with
    | auto =>
      have hx : x ≠ 0 := by rintro rfl; exact h.2 rfl u rfl
      refine .toAuto _ _ _ hx ?_
      simp [val, sameVariant, Val.isZero, hx]
    | len w y =>
      by_cases huw : u = w
      · subst huw
        rw [(C52_linear u u x y t).1]
        exact .same _ _ _
      · by_cases hx : x = 0
        · subst hx
          exact .fromZero _ _ _ _ (C52_linear u w 0 y t).2.1
        · by_cases hy : y = 0
          · subst hy
            exact .toZero _ _ _ _ (C52_linear u w x 0 t).2.2
          · refine .units _ _ _ _ _ huw hx hy ?_
            simp [val, sameVariant, huw, Val.isZero, hx, hy]

private theorem color_on (a b : Color) (t : ℚ) : ColorOn t a b (color a b t) := by
  simp [ColorOn, color, lerp_eq]

private theorem all_on {T : Type} {R : T → T → Prop} {on : T → T → T → Prop} {f : T → T → ℚ → T} {t : ℚ} {l m : List T}
    (h : List.Forall₂ R l m) (hf : ∀ a b, R a b → on a b (f a b t)) : AllOn on l m (list f l m t) := by
  unfold Flair.Interpolate.list
  rw [if_neg (not_not.mpr h.length_eq)]
  induction h with
  | nil => exact .nil
  | cons hab _ ih => exact .cons _ _ _ _ _ _ (hf _ _ hab) ih

private theorem position_on {a b : UiPosition} (h : PositionFits a b) (t : ℚ) : PositionOn t a b (uiPosition a b t) :=
  ⟨by simp [VecOn, uiPosition, vec2, lerp_eq], C52_on_partial _ _ h.1 t, C52_on_partial _ _ h.2 t⟩

private theorem stop_on {a b : ColorStop} (h : ¬ AutoZero a.point b.point) (t : ℚ) : StopOn t a b (colorStop a b t) :=
  ⟨color_on _ _ t, C52_on_partial _ _ h t, by simp [colorStop, lerp_eq]⟩

private theorem angular_on (a b : AngularColorStop) (t : ℚ) : AngularOn t a b (angularColorStop a b t) := by
  refine ⟨color_on _ _ t, by simp [angularColorStop, lerp_eq], ?_, ?_⟩
  · intro x y hx hy
    simp [angularColorStop, Flair.Interpolate.option, hx, hy, lerp_eq]
  · rintro ⟨hx, hy⟩
    simp [angularColorStop, Flair.Interpolate.option, hx, hy]

/-- **C70**: at every time, every member of two shadows, of pairs of lengths (`Val2`), of text shadows, and of lists of
shadows of the same length is where it should be. -/
theorem C70_members_partial (t : ℚ) :
    (∀ a b, List.Forall₂ ShadowFits a b → AllOn (ShadowOn t) a b (boxShadow a b t)) ∧
    (∀ a b : Val2, ¬ AutoZero a.x b.x → ¬ AutoZero a.y b.y →
      LengthOn t a.x b.x (val2 a b t).x ∧ LengthOn t a.y b.y (val2 a b t).y) ∧
    ∀ a b : TextShadow, VecOn t a.offset b.offset (textShadow a b t).offset ∧ ColorOn t a.color b.color (textShadow a b t).color :=
  ⟨fun _ _ h => all_on h fun _ _ h => ⟨color_on _ _ t, C52_on_partial _ _ h.1 t, C52_on_partial _ _ h.2.1 t,
      C52_on_partial _ _ h.2.2.1 t, C52_on_partial _ _ h.2.2.2 t⟩,
    fun _ _ h1 h2 => ⟨C52_on_partial _ _ h1 t, C52_on_partial _ _ h2 t⟩,
    fun a b => ⟨by simp [VecOn, textShadow, vec2, lerp_eq], color_on _ _ t⟩⟩

/-- **C70**: the same for gradients of the same kind, and lists of them. -/
theorem C70_gradient_members_partial {K H : Type} [DecidableEq K] [DecidableEq H] (t : ℚ) :
    (∀ a b : Gradient K H, GradientFits a b → GradientOn t a b (gradient a b t)) ∧
    ∀ a b : List (Gradient K H), List.Forall₂ GradientFits a b → AllOn (GradientOn t) a b (gradients a b t) := by
  have h1 : ∀ a b : Gradient K H, GradientFits a b → GradientOn t a b (gradient a b t) := by
    intro a b h
    cases a with
    | linear a =>
      cases b with
      | linear b =>
        obtain ⟨h1, h2⟩ := h
        simp only [gradient, linearGradient, if_neg (not_not.mpr h1), GradientOn]
        exact ⟨trivial, lerp_eq _ _ _, all_on h2 fun p q h => stop_on h t⟩
      | _ => exact h.elim
    | radial a =>
      cases b with
      | radial b =>
        obtain ⟨h1, h2, h3, h4⟩ := h
        simp only [gradient, radialGradient, if_neg (not_not.mpr h1), if_neg (not_not.mpr h2), GradientOn]
        exact ⟨trivial, trivial, position_on h3 t, all_on h4 fun p q h => stop_on h t⟩
      | _ => exact h.elim
    | conic a =>
      cases b with
      | conic b =>
        obtain ⟨h1, h3, h4⟩ := h
        simp only [gradient, conicGradient, if_neg (not_not.mpr h1), GradientOn]
        exact ⟨trivial, lerp_eq _ _ _, position_on h3 t, all_on h4 fun p q _ => angular_on p q t⟩
      | _ => exact h.elim
  exact ⟨h1, fun _ _ h => all_on h h1⟩

/-- Gradients that cannot be interpolated (another color space, another shape), or a stop that has an angle on one side
only: the gradient stays as it is, also at the end; the stop has no angle on the way, not even at the start. -/
theorem C70_stays {K H : Type} [DecidableEq K] [DecidableEq H] (t : ℚ) :
    (∀ a b : LinearGradient K, a.space ≠ b.space → gradient (H := H) (.linear a) (.linear b) t = .linear a) ∧
    (∀ a b : RadialGradient K H, a.space ≠ b.space ∨ a.shape ≠ b.shape → gradient (.radial a) (.radial b) t = .radial a) ∧
    (∀ a b : ConicGradient K, a.space ≠ b.space → gradient (H := H) (.conic a) (.conic b) t = .conic a) ∧
    ∀ a b : ConicGradient K, a.space = b.space → a.stops.length = b.stops.length →
      ∀ (i : Nat) (p q : AngularColorStop), a.stops[i]? = some p → b.stops[i]? = some q → p.angle.isSome ≠ q.angle.isSome →
        ∃ (g : ConicGradient K) (r : AngularColorStop), gradient (H := H) (.conic a) (.conic b) t = .conic g ∧ g.stops[i]? = some r ∧ r.angle = none := by
  refine ⟨?_, ?_, ?_, ?_⟩
  · intro a b h; simp [gradient, linearGradient, h]
  · rintro a b (h | h) <;> simp [gradient, radialGradient, h]
  · intro a b h; simp [gradient, conicGradient, h]
  · intro a b h hl i p q hp hq hne
    refine ⟨_, angularColorStop p q t, rfl, ?_, ?_⟩
    · simp only [conicGradient, h, Flair.Interpolate.list, hl, ne_eq, not_true_eq_false, if_false, List.getElem?_map,
        List.getElem?_zip_eq_some.mpr (⟨hp, hq⟩ : _ = some (p, q).1 ∧ _ = some (p, q).2), Option.map_some]
    · unfold angularColorStop Flair.Interpolate.option
      cases hx : p.angle <;> cases hy : q.angle <;> simp [hx, hy] at hne ⊢

private def red : Color := ⟨1/2, 1/5, 1/10, 1⟩
private def shadow (x : ℚ) : ShadowStyle := ⟨red, .len .px x, .len .px 0, .len .percent 0, .len .px 2⟩

/-- a case -/
example : HitsEnds (List.Forall₂ SameShadow) boxShadow [shadow 1, shadow 2] [shadow 5, shadow 6] :=
  C70_shadows_partial _ _ (by
    have : ∀ x y, ShadowFits (shadow x) (shadow y) := by
      intro x y
      refine ⟨?_, ?_, ?_, ?_⟩ <;> rintro (⟨h, -⟩ | ⟨h, -⟩) <;> cases h
    exact .cons (this _ _) (.cons (this _ _) .nil))

/-- a case: two linear gradients with two stops each -/
example : HitsEnds (List.Forall₂ SameGradient) gradients
    ([.linear ⟨(), 0, [⟨red, .auto, 1/2⟩, ⟨red, .len .percent 50, 1/2⟩]⟩] : List (Gradient Unit Unit))
    [.linear ⟨(), 1, [⟨red, .len .px 3, 1/2⟩, ⟨red, .len .percent 70, 1/2⟩]⟩] :=
  C70_gradients_partial _ _ (.cons ⟨rfl, .cons (by
    rintro (⟨-, u, h⟩ | ⟨h, -⟩)
    · cases h
    · cases h) (.cons (by rintro (⟨h, -⟩ | ⟨h, -⟩) <;> cases h) .nil)⟩ .nil)

/-- Lists of different lengths never arrive: the first value is shown, even at the end. -/
theorem C70_lengths_differ (a b : List ShadowStyle) (h : a.length ≠ b.length) (t : ℚ) :
    boxShadow a b t = a ∧ ¬ EndsAt (List.Forall₂ SameShadow) boxShadow a b := by
  have e : ∀ t, boxShadow a b t = a := fun t => if_pos h
  refine ⟨e t, ?_⟩
  unfold EndsAt
  rw [e]
  exact fun hf => h hf.length_eq

/-- The same for two gradients of different kinds. -/
theorem C70_kinds_differ {K H : Type} [DecidableEq K] [DecidableEq H] (a : LinearGradient K) (b : RadialGradient K H) (t : ℚ) :
    gradient (.linear a) (.radial b) t = .linear a ∧ ¬ EndsAt SameGradient gradient (.linear a) (.radial b) :=
  ⟨rfl, id⟩

private theorem wrap_int (x : ℚ) (n : ℤ) : wrap (x + n) = wrap x := by
  unfold wrap
  rw [show x + n - 1 / 2 = (x - 1 / 2) + (n : ℚ) by ring, Int.ceil_add_intCast]
  push_cast; ring

private theorem wrap_id {x : ℚ} (h : -(1/2) < x ∧ x ≤ 1/2) : wrap x = x := by
  unfold wrap
  have : ⌈x - 1 / 2⌉ = 0 := by
    rw [Int.ceil_eq_iff]
    push_cast
    constructor <;> linarith [h.1, h.2]
  rw [this]; simp

/-- **C70**: rotations (angles in turns, kept in `(-1/2, 1/2]`): the two ends, and the way is the shorter one: the angle
turned so far is `t` of one that is no more than half a turn. -/
theorem C70_rotation (a b : ℚ) (ha : -(1/2) < a ∧ a ≤ 1/2) (hb : -(1/2) < b ∧ b ≤ 1/2) :
    HitsEnds Eq rot2 a b ∧ ∃ d : ℚ, |d| ≤ 1/2 ∧ (∃ n : ℤ, a + d = b + n) ∧ ∀ t, ∃ n : ℤ, rot2 a b t = a + d * t + n := by
  refine ⟨⟨?_, ?_⟩, wrap (b - a), ?_, ?_, ?_⟩
  · show wrap (a + wrap (b - a) * 0) = a
    rw [mul_zero, add_zero, wrap_id ha]
  · show wrap (a + wrap (b - a) * 1) = b
    rw [mul_one]
    have : a + wrap (b - a) = b + ((-⌈b - a - 1 / 2⌉ : ℤ) : ℚ) := by unfold wrap; push_cast; ring
    rw [this, wrap_int, wrap_id hb]
  · unfold wrap
    have h1 := Int.le_ceil (b - a - 1 / 2)
    have h2 := Int.ceil_lt_add_one (b - a - 1 / 2)
    rw [abs_le]
    constructor <;> linarith
  · exact ⟨-⌈b - a - 1 / 2⌉, by unfold wrap; push_cast; ring⟩
  · intro t
    exact ⟨-⌈a + wrap (b - a) * t - 1 / 2⌉, by
      show wrap (a + wrap (b - a) * t) = _
      conv => lhs; unfold wrap
      push_cast; unfold wrap; ring⟩

/-- a case: from 350° to 10° the way leads through 0° -/
example : rot2 (-1/36) (1/36) (1/2) = 0 := by
  have h : wrap (1/36 - -1/36) = 1/18 := by rw [wrap_id] <;> norm_num
  unfold rot2
  rw [h, wrap_id] <;> norm_num

end Flair.Props
