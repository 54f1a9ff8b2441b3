import Verif.Tactics
import Mathlib.Data.List.Dedup
/-! Facts about the stable sort `List.mergeSort` and about "last write wins". -/
namespace Flair
set_option linter.unusedSectionVars false

/-- splitting a list in a part where `q` is false and a part where it is true is unique. -/
theorem split_unique {α} (q : α → Bool) : ∀ (a b c d : List α), a ++ b = c ++ d →
    (∀ x ∈ a, q x = false) → (∀ x ∈ b, q x = true) → (∀ x ∈ c, q x = false) →
    (∀ x ∈ d, q x = true) → a = c ∧ b = d := by
  intro a
  induction a with
  | nil =>
    intro b c d h _ hb hc _
    cases c with
    | nil => exact ⟨rfl, by simpa using h⟩
    | cons x c =>
      simp at h
      have h1 := hc x (by simp)
      have h2 := hb x (by simp [h])
      simp [h1] at h2
  | cons x a ih =>
    intro b c d h ha hb hc hd
    cases c with
    | nil =>
      simp at h
      have h1 := ha x (by simp)
      have h2 := hd x (by simp [← h])
      simp [h1] at h2
    | cons y c =>
      simp at h
      obtain ⟨rfl, h⟩ := h
      obtain ⟨h1, h2⟩ := ih b c d h (fun z hz => ha z (by simp [hz])) hb
        (fun z hz => hc z (by simp [hz])) hd
      exact ⟨by rw [h1], h2⟩

/-- filtering commutes with the stable sort. -/
theorem filter_mergeSort {α} (le : α → α → Bool) (trans : ∀ a b c, le a b → le b c → le a c)
    (total : ∀ a b, le a b || le b a) (p : α → Bool) :
    ∀ l : List α, (l.mergeSort le).filter p = (l.filter p).mergeSort le := by
  intro l
  induction l with
  | nil => simp
  | cons a l ih =>
    obtain ⟨l1, l2, h1, h2, h3⟩ := List.mergeSort_cons trans total a l
    have hs := List.pairwise_mergeSort trans total (a :: l)
    rw [h1] at hs
    have hle : ∀ x ∈ l2, le a x = true := by
      intro x hx
      have := (List.pairwise_append.mp hs).2.1
      exact (List.pairwise_cons.mp this).1 x hx
    rw [h2, List.filter_append] at ih
    rw [h1]
    by_cases hp : p a = true
    · rw [List.filter_append, List.filter_cons_of_pos hp, List.filter_cons_of_pos hp]
      obtain ⟨m1, m2, g1, g2, g3⟩ := List.mergeSort_cons trans total a (l.filter p)
      have gs := List.pairwise_mergeSort trans total (a :: l.filter p)
      rw [g1] at gs
      have gle : ∀ x ∈ m2, le a x = true := by
        intro x hx
        have := (List.pairwise_append.mp gs).2.1
        exact (List.pairwise_cons.mp this).1 x hx
      rw [g2] at ih
      rw [g1]
      obtain ⟨e1, e2⟩ := split_unique (le a) _ _ _ _ ih
        (fun x hx => by have := h3 x (List.mem_filter.mp hx).1; simpa using this)
        (fun x hx => hle x (List.mem_filter.mp hx).1)
        (fun x hx => by have := g3 x hx; simpa using this) gle
      rw [e1, e2]
    · rw [List.filter_append, List.filter_cons_of_neg hp, List.filter_cons_of_neg hp, ih]

/-- the stable sort of a list on which `r` is increasing is increasing for `r` on ties. -/
theorem mergeSort_stable {α} (le : α → α → Bool) (trans : ∀ a b c, le a b → le b c → le a c)
    (total : ∀ a b, le a b || le b a) (r : α → α → Prop) :
    ∀ l : List α, l.Pairwise r →
      (l.mergeSort le).Pairwise (fun a b => le a b = true ∧ (le b a = true → r a b)) := by
  intro l
  induction l with
  | nil => intro _; simp
  | cons a l ih =>
    intro h
    obtain ⟨hr, hl⟩ := List.pairwise_cons.mp h
    have ih := ih hl
    obtain ⟨l1, l2, h1, h2, h3⟩ := List.mergeSort_cons trans total a l
    have hs := List.pairwise_mergeSort trans total (a :: l)
    have hmem : ∀ x, x ∈ l1 ++ l2 → x ∈ l := by
      intro x hx; rw [← h2] at hx; exact List.mem_mergeSort.mp hx
    rw [h1] at hs ⊢
    rw [h2] at ih
    obtain ⟨i1, i2, i3⟩ := List.pairwise_append.mp ih
    obtain ⟨s1, s2, s3⟩ := List.pairwise_append.mp hs
    refine List.pairwise_append.mpr ⟨i1, ?_, ?_⟩
    · refine List.pairwise_cons.mpr ⟨?_, i2⟩
      intro x hx
      exact ⟨(List.pairwise_cons.mp s2).1 x hx, fun _ => hr x (hmem x (by simp [hx]))⟩
    · intro x hx y hy
      rcases List.mem_cons.mp hy with rfl | hy
      · refine ⟨s3 x hx _ (by simp), fun h => ?_⟩
        have := h3 x hx
        simp [h] at this
      · exact i3 x hx y hy

section
variable {K W : Type} [DecidableEq K]

/-- the last value written for `k` in a list of writes. -/
def lastWrite (l : List (K × W)) (k : K) : Option W :=
  l.foldl (fun acc e => if e.1 = k then some e.2 else acc) none

theorem lastWrite_foldl (l : List (K × W)) (k : K) (acc : Option W) :
    l.foldl (fun acc e => if e.1 = k then some e.2 else acc) acc = (lastWrite l k).or acc := by
  induction l using List.reverseRecOn with
  | nil => simp [lastWrite]
  | append_singleton l e ih =>
    unfold lastWrite at ih ⊢
    rw [List.foldl_append, List.foldl_append, ih]
    simp only [List.foldl_cons, List.foldl_nil]
    split <;> simp

theorem lastWrite_nil (k : K) : lastWrite ([] : List (K × W)) k = none := rfl

theorem lastWrite_append (l m : List (K × W)) (k : K) :
    lastWrite (l ++ m) k = (lastWrite m k).or (lastWrite l k) := by
  conv => lhs; unfold lastWrite
  rw [List.foldl_append, lastWrite_foldl]
  rfl

theorem lastWrite_cons (e : K × W) (m : List (K × W)) (k : K) :
    lastWrite (e :: m) k = (lastWrite m k).or (if e.1 = k then some e.2 else none) := by
  rw [← List.singleton_append, lastWrite_append]
  rfl

theorem lastWrite_eq_none (l : List (K × W)) (k : K) :
    lastWrite l k = none ↔ ∀ e ∈ l, e.1 ≠ k := by
  induction l with
  | nil => simp [lastWrite_nil]
  | cons e l ih =>
    rw [lastWrite_cons]
    simp only [Option.or_eq_none_iff, ih, List.mem_cons, forall_eq_or_imp]
    constructor
    · rintro ⟨h1, h2⟩; refine ⟨?_, h1⟩; intro h; simp [h] at h2
    · rintro ⟨h1, h2⟩; exact ⟨h2, by simp [h1]⟩

theorem lastWrite_eq_some (l : List (K × W)) (k : K) (w : W) (h : lastWrite l k = some w) :
    ∃ l1 l2, l = l1 ++ (k, w) :: l2 ∧ ∀ e ∈ l2, e.1 ≠ k := by
  induction l with
  | nil => simp [lastWrite_nil] at h
  | cons e l ih =>
    rw [lastWrite_cons] at h
    cases hl : lastWrite l k with
    | some w' =>
      rw [hl] at h; simp at h; subst h
      obtain ⟨l1, l2, h1, h2⟩ := ih hl
      exact ⟨e :: l1, l2, by simp [h1], h2⟩
    | none =>
      rw [hl] at h
      simp only [Option.none_or, Option.ite_none_right_eq_some, Option.some.injEq] at h
      refine ⟨[], l, ?_, (lastWrite_eq_none l k).mp hl⟩
      obtain ⟨h1, h2⟩ := h
      simp [← h1, ← h2]

/-- earlier duplicates of a block of writes can be dropped. -/
theorem lastWrite_dedup {α : Type} [DecidableEq α] (f : α → List (K × W)) (l : List α) (k : K) :
    lastWrite (l.dedup.flatMap f) k = lastWrite (l.flatMap f) k := by
  induction l with
  | nil => simp
  | cons a l ih =>
    by_cases ha : a ∈ l
    · rw [List.dedup_cons_of_mem ha, ih, List.flatMap_cons, lastWrite_append]
      cases h : lastWrite (l.flatMap f) k with
      | some w => simp
      | none =>
        rw [lastWrite_eq_none] at h
        have : lastWrite (f a) k = none := by
          rw [lastWrite_eq_none]
          intro e he
          exact h e (List.mem_flatMap.mpr ⟨a, ha, he⟩)
        simp [this]
    · rw [List.dedup_cons_of_notMem ha, List.flatMap_cons, List.flatMap_cons, lastWrite_append,
        lastWrite_append, ih]
end

end Flair
