import Verif.Tactics
import Verif.Spec.Vars
namespace Flair.Vars
open Flair.Spec
variable {Name Tok : Type} {env : Name → Option (VarTokens Name Tok)}

theorem Subst_functional {ts : VarTokens Name Tok} {o o'} (h : Subst env ts o) (h' : Subst env ts o') : o = o' := by
  induction h generalizing o' with
  | nil => cases h'; rfl
  | token t ts out _ ih => cases h' with | token _ _ out' h2 => rw [ih h2]
  | var v ts inner o1 o2 he _ _ ih1 ih2 =>
    cases h' with
    | var _ _ inner' p1 p2 he' h1 h2 =>
      rw [he] at he'; cases he'
      rw [ih1 h1, ih2 h2]

theorem RefChain_mono {ts ts' : VarTokens Name Tok} (h : ts ⊆ ts') : ∀ vs, RefChain env ts vs → RefChain env ts' vs := by
  intro vs; cases vs with
  | nil => simp [RefChain]
  | cons v vs => rintro ⟨h1, h2⟩; exact ⟨h h1, h2⟩

/-- the fold of one level, in characterised form. -/
theorem resolveInner_ok_iff : ∀ (n : Nat) (ts : VarTokens Name Tok) (out r : List Tok),
    resolveInner env n ts out = .ok r ↔
      ∃ o, r = out ++ o ∧ Subst env ts o ∧ ∀ vs, RefChain env ts vs → vs.length < n := by
  intro n
  induction n with
  | zero =>
    intro ts out r
    simp only [resolveInner, reduceCtorEq, Nat.not_lt_zero, imp_false, false_iff]
    rintro ⟨o, _, _, h⟩
    exact h [] (by simp [RefChain])
  | succ n ih =>
    intro ts
    induction ts with
    | nil =>
      intro out r
      simp only [resolveInner, List.foldlM_nil, pure, Except.pure, Except.ok.injEq]
      constructor
      · intro h
        refine ⟨[], by simp [h], Subst.nil, ?_⟩
        intro vs hvs
        cases vs with
        | nil => simp
        | cons v vs => simp [RefChain] at hvs
      · rintro ⟨o, h1, h2, _⟩
        cases h2; simp [h1]
    | cons t ts ihts =>
      intro out r
      have unf : ∀ out, resolveInner env (n+1) (t :: ts) out =
          (match t with
            | .token t => Except.ok (out ++ [t])
            | .var v => match env v with
              | none => .error (.unknownVarName v)
              | some inner => resolveInner env n inner out) >>= fun o => resolveInner env (n+1) ts o := by
        intro out
        rw [resolveInner, List.foldlM_cons]
        cases t <;> rfl
      rw [unf]
      cases t with
      | token t =>
        show resolveInner env (n+1) ts (out ++ [t]) = .ok r ↔ _
        rw [ihts]
        constructor
        · rintro ⟨o, h1, h2, h3⟩
          refine ⟨t :: o, by simp [h1], Subst.token t ts o h2, ?_⟩
          intro vs hvs
          cases vs with
          | nil => simp
          | cons v vs =>
            apply h3
            obtain ⟨hm, hrest⟩ := hvs
            simp only [List.mem_cons, reduceCtorEq, false_or] at hm
            exact ⟨hm, hrest⟩
        · rintro ⟨o, h1, h2, h3⟩
          cases h2 with
          | token _ _ o' h2 =>
            exact ⟨o', by simp [h1], h2, fun vs hvs => h3 vs (RefChain_mono (by simp) vs hvs)⟩
      | var v =>
        simp only
        cases hv : env v with
        | none =>
          simp only [bind, Except.bind, reduceCtorEq, false_iff]
          rintro ⟨o, _, h2, _⟩
          cases h2 with
          | var _ _ inner _ _ he => rw [hv] at he; cases he
        | some inner =>
          simp only
          constructor
          · intro h
            cases hin : resolveInner env n inner out with
            | error e => rw [hin] at h; simp [bind, Except.bind] at h
            | ok r1 =>
              rw [hin] at h
              have h' : resolveInner env (n+1) ts r1 = .ok r := h
              obtain ⟨o1, e1, s1, c1⟩ := (ih _ _ _).mp hin
              obtain ⟨o2, e2, s2, c2⟩ := (ihts _ _).mp h'
              refine ⟨o1 ++ o2, by simp [e1, e2], Subst.var v ts inner o1 o2 hv s1 s2, ?_⟩
              intro vs hvs
              cases vs with
              | nil => simp
              | cons w vs =>
                obtain ⟨hm, hrest⟩ := hvs
                simp only [List.mem_cons, VarOrToken.var.injEq] at hm
                rcases hm with hm | hm
                · subst hm
                  rcases hrest with hr | ⟨inner', he, hc⟩
                  · subst hr
                    have := c1 [] (by simp [RefChain])
                    simp; exact this
                  · rw [hv] at he; cases he
                    have := c1 vs hc
                    simp; exact this
                · exact c2 (w :: vs) ⟨hm, hrest⟩
          · rintro ⟨o, h1, h2, h3⟩
            cases h2 with
            | var _ _ inner' o1 o2 he s1 s2 =>
              rw [hv] at he; cases he
              have hin : resolveInner env n inner out = .ok (out ++ o1) := by
                rw [ih]
                refine ⟨o1, rfl, s1, ?_⟩
                intro vs hvs
                have := h3 (v :: vs) ⟨by simp, Or.inr ⟨inner, hv, hvs⟩⟩
                simpa using this
              rw [hin]
              show resolveInner env (n+1) ts (out ++ o1) = .ok r
              rw [ihts]
              exact ⟨o2, by simp [h1], s2, fun vs hvs => h3 vs (RefChain_mono (by simp) vs hvs)⟩

/-- soundness of the two errors. -/
theorem resolveInner_error : ∀ (n : Nat) (ts : VarTokens Name Tok) (out : List Tok) (e),
    resolveInner env n ts out = .error e →
      (∃ vs v, e = .unknownVarName v ∧ RefChain env ts (vs ++ [v]) ∧ env v = none) ∨
      (e = .maxRecursionReached ∧ ∃ vs, RefChain env ts vs ∧ vs.length = n) := by
  intro n
  induction n with
  | zero =>
    intro ts out e h
    simp only [resolveInner, Except.error.injEq] at h
    exact Or.inr ⟨h.symm, [], by simp [RefChain], rfl⟩
  | succ n ih =>
    intro ts
    induction ts with
    | nil => intro out e h; simp [resolveInner, pure, Except.pure] at h
    | cons t ts ihts =>
      intro out e h
      rw [resolveInner, List.foldlM_cons] at h
      have lift : ((∃ vs v, e = .unknownVarName v ∧ RefChain env ts (vs ++ [v]) ∧ env v = none) ∨
          (e = .maxRecursionReached ∧ ∃ vs, RefChain env ts vs ∧ vs.length = n + 1)) →
          ((∃ vs v, e = .unknownVarName v ∧ RefChain env (t :: ts) (vs ++ [v]) ∧ env v = none) ∨
          (e = .maxRecursionReached ∧ ∃ vs, RefChain env (t :: ts) vs ∧ vs.length = n + 1)) := by
        rintro (⟨vs, v, h1, h2, h3⟩ | ⟨h1, vs, h2, h3⟩)
        · exact Or.inl ⟨vs, v, h1, RefChain_mono (by simp) _ h2, h3⟩
        · exact Or.inr ⟨h1, vs, RefChain_mono (by simp) _ h2, h3⟩
      cases t with
      | token t => exact lift (ihts _ _ h)
      | var v =>
        simp only at h
        cases hv : env v with
        | none =>
          rw [hv] at h
          simp only [bind, Except.bind, Except.error.injEq] at h
          exact Or.inl ⟨[], v, h.symm, ⟨by simp, Or.inl rfl⟩, hv⟩
        | some inner =>
          rw [hv] at h
          simp only at h
          cases hin : resolveInner env n inner out with
          | ok r => rw [hin] at h; exact lift (ihts _ _ h)
          | error e' =>
            rw [hin] at h
            simp only [bind, Except.bind, Except.error.injEq] at h
            subst h
            rcases ih _ _ _ hin with ⟨vs, w, h1, h2, h3⟩ | ⟨h1, vs, h2, h3⟩
            · exact Or.inl ⟨v :: vs, w, h1, ⟨by simp, Or.inr ⟨inner, hv, h2⟩⟩, h3⟩
            · exact Or.inr ⟨h1, v :: vs, ⟨by simp, Or.inr ⟨inner, hv, h2⟩⟩, by simp [h3]⟩

theorem RefChain_append : ∀ (ts : VarTokens Name Tok) (vs : List Name) (v : Name) (inner) (ws : List Name),
    RefChain env ts (vs ++ [v]) → env v = some inner → RefChain env inner ws →
    RefChain env ts (vs ++ v :: ws) := by
  intro ts vs
  induction vs generalizing ts with
  | nil =>
    intro v inner ws h he hw
    exact ⟨h.1, Or.inr ⟨inner, he, hw⟩⟩
  | cons u vs ih =>
    intro v inner ws h he hw
    obtain ⟨h1, h2⟩ := h
    rcases h2 with h2 | ⟨i, hi, hc⟩
    · simp at h2
    · exact ⟨h1, Or.inr ⟨i, hi, ih i v inner ws hc he hw⟩⟩

end Flair.Vars
