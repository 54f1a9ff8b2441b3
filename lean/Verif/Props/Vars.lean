import Verif.Proofs.Vars
/-! # C07 : `var()` substitution -/
namespace Flair.Props
open Flair.Spec Flair.Vars
variable {Name Tok : Type} (env : Name → Option (VarTokens Name Tok))

/-- C07.  For every environment (cyclic or not) and token list, resolution succeeds with `out`
exactly when `out` is the full substitution and references nest less than 8 deep.  (The function is
total, so it terminates on every environment.) -/
theorem C07_resolve_exact (ts : VarTokens Name Tok) (out : List Tok) :
    resolve env ts = .ok out ↔
      Subst env ts out ∧ ∀ vs, RefChain env ts vs → vs.length < 8 := by
  unfold resolve
  rw [resolveInner_ok_iff]
  simp [maxDefaultRecursion]

/-- C07, success condition without mentioning the output: every used variable is defined and
nesting is below 8. -/
theorem C07_resolve_succeeds_iff (ts : VarTokens Name Tok) :
    (∃ out, resolve env ts = .ok out) ↔
      (∀ v, Uses env ts v → env v ≠ none) ∧ ∀ vs, RefChain env ts vs → vs.length < 8 := by
  constructor
  · rintro ⟨out, h⟩
    have h' := (C07_resolve_exact env ts out).mp h
    refine ⟨?_, h'.2⟩
    rintro v ⟨vs, hvs⟩ hv
    have key : ∀ (vs : List Name) (ts : VarTokens Name Tok) (o : List Tok), Subst env ts o →
        RefChain env ts (vs ++ [v]) → False := by
      have mem_def : ∀ (ts : VarTokens Name Tok) (o : List Tok) (w), Subst env ts o → .var w ∈ ts →
          ∃ inner o', env w = some inner ∧ Subst env inner o' := by
        intro ts o w hs
        induction hs with
        | nil => simp
        | token t ts out _ ih => intro h; simp at h; exact ih h
        | var u ts inner o1 o2 he h1 _ _ ih2 =>
          intro h
          simp only [List.mem_cons, VarOrToken.var.injEq] at h
          rcases h with h | h
          · subst h; exact ⟨inner, o1, he, h1⟩
          · exact ih2 h
      intro vs
      induction vs with
      | nil =>
        intro ts o hs hc
        obtain ⟨inner, _, he, _⟩ := mem_def ts o v hs hc.1
        rw [hv] at he; cases he
      | cons w vs ih =>
        intro ts o hs hc
        obtain ⟨inner, o', he, hs'⟩ := mem_def ts o w hs hc.1
        rcases hc.2 with h | ⟨i, hi, hc'⟩
        · simp at h
        · rw [he] at hi; cases hi
          exact ih inner o' hs' hc'
    exact key vs ts out h'.1 hvs
  · rintro ⟨h1, h2⟩
    cases hr : resolve env ts with
    | ok out => exact ⟨out, rfl⟩
    | error e =>
      exfalso
      rcases resolveInner_error _ _ _ _ hr with ⟨vs, v, _, hc, hv⟩ | ⟨_, vs, hc, hl⟩
      · exact h1 v ⟨vs, hc⟩ hv
      · have := h2 vs hc
        simp only [maxDefaultRecursion] at hl; omega

/-- C07, errors are truthful: "unknown variable v" is reported only for a used and undefined `v`,
"maximum recursion" only when references really nest 8 deep. -/
theorem C07_resolve_errors_truthful (ts : VarTokens Name Tok) (e : ResolveError Name)
    (h : resolve env ts = .error e) :
    (∃ v, e = .unknownVarName v ∧ Uses env ts v ∧ env v = none) ∨
    (e = .maxRecursionReached ∧ ∃ vs, RefChain env ts vs ∧ vs.length = 8) := by
  rcases resolveInner_error _ _ _ _ h with ⟨vs, v, h1, hc, hv⟩ | ⟨h1, vs, hc, hl⟩
  · exact Or.inl ⟨v, h1, ⟨vs, hc⟩, hv⟩
  · exact Or.inr ⟨h1, vs, hc, hl⟩

/-- C07, cycles: if `ts` uses a variable whose definition uses itself again, resolution is an error. -/
theorem C07_cycle_is_error (ts : VarTokens Name Tok) (v : Name) (inner : VarTokens Name Tok)
    (huse : Uses env ts v) (hdef : env v = some inner) (hcyc : Uses env inner v) :
    ∃ e, resolve env ts = .error e := by
  cases hr : resolve env ts with
  | error e => exact ⟨e, rfl⟩
  | ok out =>
    exfalso
    have hb := ((C07_resolve_exact env ts out).mp hr).2
    obtain ⟨vs, hvs⟩ := huse
    obtain ⟨ws, hws⟩ := hcyc
    -- arbitrarily long chains inside `inner`
    have long : ∀ n, ∃ c, RefChain env inner (c ++ [v]) ∧ n ≤ c.length := by
      intro n
      induction n with
      | zero => exact ⟨ws, hws, by simp⟩
      | succ n ih =>
        obtain ⟨c, hc, hl⟩ := ih
        refine ⟨ws ++ v :: c, ?_, by simp; omega⟩
        have := RefChain_append inner ws v inner (c ++ [v]) hws hdef hc
        simpa using this
    obtain ⟨c, hc, hl⟩ := long 8
    have := hb _ (RefChain_append ts vs v inner (c ++ [v]) hvs hdef hc)
    simp at this; omega

/-- C07, the substitution is a function: at most one output. -/
theorem C07_subst_functional (ts : VarTokens Name Tok) (o o' : List Tok)
    (h : Subst env ts o) (h' : Subst env ts o') : o = o' := Subst_functional h h'

/-- `--a: 1 var(--b) 2; --b: 7` : a concrete environment where resolution succeeds, nesting 2. -/
example :
    let env : String → Option (VarTokens String Nat) := fun n =>
      if n = "a" then some [.token 1, .var "b", .token 2] else if n = "b" then some [.token 7] else none
    (resolve env [.token 0, .var "a"] = .ok [0, 1, 7, 2]) ∧ RefChain env [.token 0, .var "a"] ["a", "b"] := by
  refine ⟨by decide, ⟨by decide, Or.inr ⟨[.token 1, .var "b", .token 2], by decide, by decide, Or.inl rfl⟩⟩⟩

/-- `--a: var(--b); --b: var(--a)` : a concrete cycle meeting the hypotheses of the cycle theorem. -/
example :
    let env : String → Option (VarTokens String Nat) := fun n =>
      if n = "a" then some [.var "b"] else if n = "b" then some [.var "a"] else none
    Uses env [.var "a"] "a" ∧ env "a" = some [.var "b"] ∧ Uses env [.var "b"] "a" := by
  refine ⟨⟨[], by decide, Or.inl rfl⟩, by decide, ⟨["b"], by decide, Or.inr ⟨[.var "a"], by decide, by decide, Or.inl rfl⟩⟩⟩

/-- A chain of exactly 7 nested references still resolves, one of 8 does not: the limit is where the
theorem says (7 < 8). -/
example :
    let env : Nat → Option (VarTokens Nat Nat) := fun n => if n = 0 then some [.token 5] else some [.var (n - 1)]
    resolve env [.var 6] = .ok [5] ∧ resolve env [.var 7] = .error .maxRecursionReached := by
  refine ⟨by decide, by decide⟩

end Flair.Props
