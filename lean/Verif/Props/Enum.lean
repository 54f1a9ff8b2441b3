import Verif.Spec.Enum
import Verif.Tactics
/-!
# The keywords of enumerations (C76)
-/
namespace Flair.Props
open Flair.Longhand Flair.Spec

private theorem upper_iff (c : Char) : c.isUpper = true ↔ 65 ≤ c.toNat ∧ c.toNat ≤ 90 := by
  simp only [Char.isUpper, Bool.and_eq_true, decide_eq_true_eq, Char.toNat, ge_iff_le, UInt32.le_iff_toNat_le]
  exact Iff.rfl

private theorem lower_upper {c : Char} (h : c.isUpper = true) : (lower c).toNat = c.toNat + 32 := by
  have h' : c.val ≥ 'A'.val ∧ c.val ≤ 'Z'.val := by simpa [Char.isUpper] using h
  have h2 := (upper_iff c).1 h
  simp only [lower, Char.toLower, dif_pos h', Char.toNat, UInt32.toNat_add] at h2 ⊢
  have h1 : ('a'.val - 'A'.val : UInt32).toNat = 32 := rfl
  rw [h1]
  omega

private theorem lower_not {c : Char} (h : ¬ c.isUpper = true) : lower c = c := by
  have h' : ¬ (c.val ≥ 'A'.val ∧ c.val ≤ 'Z'.val) := by simpa [Char.isUpper] using h
  simp only [lower, Char.toLower, dif_neg h']

private theorem lower_not_upper (c : Char) : ¬ (lower c).isUpper = true := by
  by_cases h : c.isUpper = true
  · rw [upper_iff, lower_upper h]
    have := (upper_iff c).1 h
    omega
  · rw [lower_not h]; exact h

private theorem toNat_inj {a b : Char} (h : a.toNat = b.toNat) : a = b := by
  have := Char.ofNat_toNat a
  rw [← Char.ofNat_toNat a, h, Char.ofNat_toNat]

private theorem same_iff (a b : Char) : SameLetter a b ↔ lower a = lower b := by
  constructor
  · rintro (rfl | ⟨h, e⟩ | ⟨h, e⟩)
    · rfl
    · have h' := (upper_iff a).1 h
      have hb : ¬ b.isUpper = true := by rw [upper_iff]; omega
      rw [lower_not hb]
      exact toNat_inj (by rw [lower_upper h, e])
    · have h' := (upper_iff b).1 h
      have hb : ¬ a.isUpper = true := by rw [upper_iff]; omega
      rw [lower_not hb]
      exact toNat_inj (by rw [lower_upper h, e])
  · intro h
    by_cases ha : a.isUpper = true
    · by_cases hb : b.isUpper = true
      · left
        apply toNat_inj
        have h1 := lower_upper ha
        have h2 := lower_upper hb
        rw [h] at h1
        omega
      · right; left
        refine ⟨ha, ?_⟩
        rw [← lower_upper ha, h, lower_not hb]
    · by_cases hb : b.isUpper = true
      · right; right
        refine ⟨hb, ?_⟩
        rw [← lower_upper hb, ← h, lower_not ha]
      · left
        rwa [lower_not ha, lower_not hb] at h

private theorem spells_iff (s v : List Char) : SpellsName s v ↔ (s.filter (· ≠ '-')).map lower = v.map lower := by
  constructor
  · intro h
    induction h with
    | nil => rfl
    | hyphen _ ih => simpa using ih
    | letter ha hs _ ih =>
      rw [List.filter_cons_of_pos (by simpa using ha)]
      simp only [List.map_cons, (same_iff _ _).1 hs]
      rw [ih]
  · intro h
    induction s generalizing v with
    | nil =>
      cases v with
      | nil => exact .nil
      | cons => simp at h
    | cons a s ih =>
      by_cases ha : a = '-'
      · subst ha
        exact .hyphen (ih v (by simpa using h))
      · rw [List.filter_cons_of_pos (by simpa using ha)] at h
        cases v with
        | nil => simp at h
        | cons b v =>
          simp only [List.map_cons, List.cons.injEq] at h
          exact .letter ha ((same_iff _ _).2 h.1) (ih v h.2)

private theorem eqIgnore_iff (s v : List Char) : eqIgnoreCase v (s.filter (· ≠ '-')) = true ↔ SpellsName s v := by
  rw [spells_iff]
  unfold eqIgnoreCase
  rw [decide_eq_true_eq]
  exact eq_comm

/-- C76: the accepted keywords of an enumeration are the names of its unit variants, up to hyphens and case, and each
gives the variant of its name. -/
theorem C76_keywords {vs : List (List Char × Bool)} (hv : Variants vs) (s v : List Char) :
    enumOf vs s = some v ↔ (v, true) ∈ vs ∧ SpellsName s v := by
  unfold enumOf
  constructor
  · intro h
    obtain ⟨⟨w, b⟩, hf, he⟩ := Option.bind_eq_some_iff.1 h
    cases b with
    | false => cases he
    | true =>
      cases he
      have h1 := List.find?_some hf
      exact ⟨List.mem_of_find?_eq_some hf, (eqIgnore_iff _ _).1 h1⟩
  · rintro ⟨hm, hs⟩
    cases hf : vs.find? fun w => eqIgnoreCase w.1 (s.filter (· ≠ '-')) with
    | none =>
      have := List.find?_eq_none.1 hf _ hm
      exact absurd ((eqIgnore_iff _ _).2 hs) this
    | some w =>
      have h1 := List.find?_some hf
      have h2 := List.mem_of_find?_eq_some hf
      have := hv.distinct _ h2 _ hm ⟨s, (eqIgnore_iff _ _).1 h1, hs⟩
      subst this
      rfl

private theorem tail_kebab (v : List Char) : Kebab false v (cssCaseTail v) := by
  induction v with
  | nil => exact .nil
  | cons c v ih =>
    simp only [cssCaseTail]
    split
    · rename_i h; exact .upper h (lower_upper h) ih
    · rename_i h; exact .lower h ih

/-- C76: the keywords that are listed in the error message are the names in the case of CSS. -/
theorem C76_listed (v s : List Char) : cssCase v = s ↔ Kebab true v s := by
  have h : ∀ b v s s', Kebab b v s → Kebab b v s' → s = s' := by
    intro b v s s' h
    induction h generalizing s' with
    | nil => intro h'; cases h'; rfl
    | first hu hc _ ih =>
      intro h'
      cases h' with
      | first _ hc' h'' => rw [ih _ h'', toNat_inj (hc.trans hc'.symm)]
      | lower hn _ => exact absurd hu hn
    | upper hu hc _ ih =>
      intro h'
      cases h' with
      | upper _ hc' h'' => rw [ih _ h'', toNat_inj (hc.trans hc'.symm)]
      | lower hn _ => exact absurd hu hn
    | lower hn _ ih =>
      intro h'
      cases h' with
      | first hu _ _ => exact absurd hu hn
      | upper hu _ _ => exact absurd hu hn
      | lower _ h'' => rw [ih _ h'']
  have h2 : Kebab true v (cssCase v) := by
    cases v with
    | nil => exact .nil
    | cons c v =>
      simp only [cssCase]
      split
      · rename_i h; exact .first h (lower_upper h) (tail_kebab v)
      · rename_i h; exact .lower h (tail_kebab v)
  constructor
  · rintro rfl; exact h2
  · exact fun hk => h _ _ _ _ h2 hk

private theorem kebab_spells {b : Bool} {v s : List Char} (h : Kebab b v s) (hn : '-' ∉ v) : SpellsName s v := by
  have key : ∀ {a c : Char}, a.isUpper = true → c.toNat = a.toNat + 32 → c ≠ '-' ∧ SameLetter c a := by
    intro a c hu hc
    refine ⟨?_, .inr (.inr ⟨hu, hc⟩)⟩
    rintro rfl
    have := (upper_iff a).1 hu
    have h45 : ('-' : Char).toNat = 45 := rfl
    omega
  induction h with
  | nil => exact .nil
  | first hu hc _ ih =>
    simp only [List.mem_cons, not_or] at hn
    exact .letter (key hu hc).1 (key hu hc).2 (ih hn.2)
  | upper hu hc _ ih =>
    simp only [List.mem_cons, not_or] at hn
    exact .hyphen (.letter (key hu hc).1 (key hu hc).2 (ih hn.2))
  | lower _ _ ih =>
    simp only [List.mem_cons, not_or] at hn
    exact .letter (fun h => hn.1 h.symm) (.inl rfl) (ih hn.2)

/-- C76: every keyword that is listed is accepted, and gives the variant it is listed for. -/
theorem C76_listed_accepted {vs : List (List Char × Bool)} (hv : Variants vs) {v s : List Char} (hm : (v, true) ∈ vs)
    (hk : Kebab true v s) : enumOf vs s = some v :=
  (C76_keywords hv s v).2 ⟨hm, kebab_spells hk (hv.noHyphen _ hm)⟩

/-- Some variants of `JustifyContent`. -/
private def some3 : List (List Char × Bool) :=
  [("FlexStart".toList, true), ("FlexEnd".toList, true), ("SpaceBetween".toList, true)]

private theorem some3_variants : Variants some3 where
  distinct a ha b hb h := by
    obtain ⟨s, h1, h2⟩ := h
    rw [spells_iff] at h1 h2
    have h := h1.symm.trans h2
    simp only [some3, List.mem_cons, List.not_mem_nil, or_false] at ha hb
    rcases ha with rfl | rfl | rfl <;> rcases hb with rfl | rfl | rfl <;> first | rfl | (revert h; decide)
  noHyphen a ha := by
    simp only [some3, List.mem_cons, List.not_mem_nil, or_false] at ha
    rcases ha with rfl | rfl | rfl <;> decide

example : enumOf some3 "space-between".toList = some "SpaceBetween".toList :=
  C76_listed_accepted some3_variants (by simp [some3]) ((C76_listed _ _).1 (by decide))

/-- Hyphens may be anywhere. -/
example : enumOf some3 "spac-eb-etWeen-".toList = some "SpaceBetween".toList := by decide

end Flair.Props
