import Verif.Spec.Placeholder
import Verif.Proofs.SheetOps

import Verif.Tactics
set_option linter.unusedSectionVars false
/-!
# Lemmas for C81: font families and image paths
-/
namespace Flair.Proofs.Placeholder
open Flair.Sheet Flair.Values Flair.Placeholder Flair.Spec

variable {S M C N T V X Y H : Type}

theorem get_insert {K W : Type} [DecidableEq K] (m : HMap K W) (k k' : K) (w : W) :
    (m.insert k w).get? k' = if k' = k then some w else m.get? k' := by
  unfold HMap.get? HMap.insert
  rw [List.find?_append, List.find?_filter]
  by_cases h : k' = k
  · subst h
    rw [if_pos rfl]
    have : List.find? (fun a => decide (decide (a.1 ≠ k') = true ∧ decide (a.1 = k') = true)) m = none := by
      rw [List.find?_eq_none]; intro x _; simp
    rw [this]; simp
  · rw [if_neg h]
    have h2 : List.find? (fun e : K × W => decide (e.1 = k')) [(k, w)] = none := by
      rw [List.find?_eq_none]; intro x hx
      simp only [List.mem_singleton] at hx; subst hx; simpa using fun hh => h hh.symm
    rw [h2, Option.or_none]
    congr 2
    funext x
    by_cases hx : x.1 = k'
    · simp [hx, h]
    · simp [hx]

theorem LastFace_append (faces : List (String × String)) (x : String × String) (f p : String) :
    LastFace (faces ++ [x]) f p ↔ x = (f, p) ∨ (x.1 ≠ f ∧ LastFace faces f p) := by
  constructor
  · rintro ⟨pre, post, h, hp⟩
    rcases List.eq_nil_or_concat post with rfl | ⟨post', y, rfl⟩
    · have := List.append_inj' h rfl
      simp only [List.cons.injEq, and_true] at this
      exact Or.inl this.2
    · rw [List.concat_eq_append] at h hp
      have h' : faces ++ [x] = (pre ++ (f, p) :: post') ++ [y] := by rw [h]; simp
      have := List.append_inj' h' rfl
      simp only [List.cons.injEq, and_true] at this
      obtain ⟨rfl, rfl⟩ := this
      exact Or.inr ⟨hp x (by simp), pre, post', rfl, fun e he => hp e (by simp [he])⟩
  · rintro (rfl | ⟨hx, pre, post, rfl, hp⟩)
    · exact ⟨faces, [], rfl, by simp⟩
    · refine ⟨pre, post ++ [x], by simp, ?_⟩
      intro e he
      rcases List.mem_append.mp he with he | he
      · exact hp e he
      · simp only [List.mem_singleton] at he; subst he; exact hx

theorem resolveFaces_append (a : Assets H) (faces : List (String × String)) (x : String × String) :
    resolveFaces a (faces ++ [x]) = (resolveFaces a faces).bind fun m =>
      match a.font x.2 with
      | none => .error (.invalidAssetPath x.2)
      | some h => .ok (m.insert x.1 h) := by
  unfold resolveFaces
  rw [List.foldlM_append]
  simp only [List.foldlM_cons, List.foldlM_nil]
  show Except.bind _ _ = Except.bind _ _
  congr 1
  funext m
  cases a.font x.2 <;> rfl

theorem resolveFaces_ok {a : Assets H} {faces : List (String × String)} {m : HMap String H}
    (h : resolveFaces a faces = .ok m) :
    (∀ e ∈ faces, a.font e.2 ≠ none) ∧
    (∀ f h, m.get? f = some h ↔ ∃ p, LastFace faces f p ∧ a.font p = some h) ∧
    (∀ f, m.get? f = none ↔ ∀ p, (f, p) ∉ faces) := by
  induction faces using List.reverseRecOn generalizing m with
  | nil =>
    cases h
    refine ⟨by simp, ?_, by simp [HMap.get?]⟩
    intro f h
    simp [HMap.get?, LastFace]
  | append_singleton faces x ih =>
    rw [resolveFaces_append] at h
    cases hr : resolveFaces a faces with
    | error e => rw [hr] at h; cases h
    | ok m' =>
      rw [hr] at h
      simp only [Except.bind] at h
      cases hx : a.font x.2 with
      | none => rw [hx] at h; cases h
      | some hh =>
        rw [hx] at h
        cases h
        obtain ⟨i1, i2, i3⟩ := ih hr
        refine ⟨?_, ?_, ?_⟩
        · intro e he
          rcases List.mem_append.mp he with he | he
          · exact i1 e he
          · simp only [List.mem_singleton] at he; subst he; simp [hx]
        · intro f h
          rw [get_insert]
          simp only [LastFace_append]
          split
          · rename_i hf
            subst hf
            constructor
            · rintro h; cases h
              exact ⟨x.2, Or.inl rfl, hx⟩
            · rintro ⟨p, hp | hp, hfp⟩
              · rw [hp] at hx; simp only at hx; rw [hx] at hfp; exact hfp
              · exact absurd rfl hp.1
          · rename_i hf
            rw [i2]
            constructor
            · rintro ⟨p, h1, h2⟩; exact ⟨p, Or.inr ⟨fun h => hf h.symm, h1⟩, h2⟩
            · rintro ⟨p, hp | hp, hfp⟩
              · exact absurd (by rw [hp]) hf
              · exact ⟨p, hp.2, hfp⟩
        · intro f
          rw [get_insert]
          split
          · rename_i hf
            subst hf
            simp only [reduceCtorEq, false_iff, not_forall, not_not]
            exact ⟨x.2, by simp⟩
          · rename_i hf
            rw [i3]
            constructor
            · intro h p hp
              rcases List.mem_append.mp hp with hp | hp
              · exact h p hp
              · simp only [List.mem_singleton] at hp; exact hf (by rw [← hp])
            · intro h p hp
              exact h p (by simp [hp])

theorem resolveFaces_err {a : Assets H} {faces : List (String × String)} {e : FBuildError} :
    resolveFaces a faces = .error e ↔
      ∃ pre f p post, faces = pre ++ (f, p) :: post ∧ (∀ x ∈ pre, a.font x.2 ≠ none) ∧ a.font p = none ∧
        e = .invalidAssetPath p := by
  have gen : ∀ (m : HMap String H), faces.foldlM (init := m) (fun m ff =>
      match a.font ff.2 with
      | none => (Except.error (FBuildError.invalidAssetPath ff.2) : Except FBuildError (HMap String H))
      | some h => .ok (m.insert ff.1 h)) = .error e ↔
      ∃ pre f p post, faces = pre ++ (f, p) :: post ∧ (∀ x ∈ pre, a.font x.2 ≠ none) ∧ a.font p = none ∧
        e = .invalidAssetPath p := by
    induction faces with
    | nil => intro m; simp [pure, Except.pure]
    | cons x faces ih =>
      intro m
      rw [List.foldlM_cons]
      cases hx : a.font x.2 with
      | none =>
        simp only [bind, Except.bind]
        constructor
        · intro h; cases h
          exact ⟨[], x.1, x.2, faces, rfl, by simp, hx, rfl⟩
        · rintro ⟨pre, f, p, post, h, hpre, hp, rfl⟩
          cases pre with
          | nil => simp only [List.nil_append, List.cons.injEq] at h; rw [h.1]
          | cons y pre =>
            simp only [List.cons_append, List.cons.injEq] at h
            exact absurd (h.1 ▸ hx) (hpre y (by simp))
      | some hh =>
        simp only [bind, Except.bind]
        rw [ih]
        constructor
        · rintro ⟨pre, f, p, post, rfl, hpre, hp, rfl⟩
          refine ⟨x :: pre, f, p, post, rfl, ?_, hp, rfl⟩
          intro y hy
          rcases List.mem_cons.mp hy with rfl | hy
          · simp [hx]
          · exact hpre y hy
        · rintro ⟨pre, f, p, post, h, hpre, hp, rfl⟩
          cases pre with
          | nil =>
            simp only [List.nil_append, List.cons.injEq] at h
            rw [h.1] at hx; rw [hx] at hp; cases hp
          | cons y pre =>
            simp only [List.cons_append, List.cons.injEq] at h
            exact ⟨pre, f, p, post, h.2, fun z hz => hpre z (by simp [hz]), hp, rfl⟩
  exact gen []

theorem resolveDirect_denotes {a : Assets H} {faces : List (String × String)} {m : HMap String H}
    (h : resolveFaces a faces = .ok m) (v : AssetValue V H) (w : PropertyValue (AssetValue V H)) :
    resolveDirect a m v = w ↔ Denotes a faces v w := by
  obtain ⟨h1, h2, h3⟩ := resolveFaces_ok h
  constructor
  · rintro rfl
    cases v with
    | plain v => exact .plain v
    | handle h => exact .loaded h
    | imagePath p =>
      cases hp : a.image p with
      | none => simp only [resolveDirect, tryResolve, hp]; exact .noImage p hp
      | some i => simp only [resolveDirect, tryResolve, hp]; exact .image p i hp
    | fontName f =>
      cases hf : m.get? f with
      | none => simp only [resolveDirect, tryResolve, hf]; exact .noFamily f ((h3 f).mp hf)
      | some i =>
        simp only [resolveDirect, tryResolve, hf]
        obtain ⟨p, hp, hi⟩ := (h2 f i).mp hf
        exact .family f p i hp hi
  · intro hd
    cases hd with
    | plain v => rfl
    | loaded h => rfl
    | family f p i hp hi =>
      have := (h2 f i).mpr ⟨p, hp, hi⟩
      simp only [resolveDirect, tryResolve, this]
    | noFamily f hf =>
      have := (h3 f).mpr hf
      simp only [resolveDirect, tryResolve, this]
    | image p i hp => simp only [resolveDirect, tryResolve, hp]
    | noImage p hp => simp only [resolveDirect, tryResolve, hp]

end Flair.Proofs.Placeholder
