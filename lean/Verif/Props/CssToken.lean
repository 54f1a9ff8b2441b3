import Verif.Proofs.CssToken
import Verif.Proofs.Vars
import Verif.Props.Vars
/-!
# C50: the text of a variable value
-/
namespace Flair.Props
open Flair.CssToken Flair.Spec Flair.Vars Flair.Proofs.CssToken
variable {Num : Type}

/-- C50, the part that holds.  A property's value and the variables it uses, directly or through each other, are written as
texts without backslash.  Let `ts` be the tokens after resolving all references.  The text that is handed to the property's
parser consists of exactly those tokens — provided no string among them contains a double quote and no unit begins like an
exponent. -/
theorem C50_resolved_text_partial (N : NumText Num) (hN : PrintsExactly N) (vars : Text → Option Text) (value : Text)
    (hb : '\\' ∉ value) (hbv : ∀ x t, vars x = some t → '\\' ∉ t) (vts : VarTokens Text (VarToken Num))
    (ts : List (VarToken Num)) (hv : parseVarTokens N value = some vts)
    (hr : resolve (fun x => (vars x).bind (parseVarTokens N)) vts = .ok ts) (hc : ∀ t ∈ ts, Carried t) :
    lex N (toCss N ts) = ts.map fun t => rereadPct N (asCss t) := by
  have hs := ((C07_resolve_exact _ vts ts).1 hr).1
  have parsed : ∀ (s : Text) (v : VarTokens Text (VarToken Num)), '\\' ∉ s → parseVarTokens N s = some v →
      (∀ t, VarOrToken.token t ∈ v → Plain t) ∧ UrlV v := by
    intro s v hs hv
    obtain ⟨o1, o2⟩ := lexAll_out N s.length s (Nat.le_refl _) hs
    have := parseTokens_out _ _ _ _ hv o1 o2
    exact ⟨this.1, this.2.1⟩
  obtain ⟨p1, p2⟩ := parsed value vts hb hv
  obtain ⟨h1, h2, _⟩ := subst_out (fun x v hx => by
    simp only [Option.bind_eq_some_iff] at hx
    obtain ⟨t, ht, hp⟩ := hx
    exact parsed t v (hbv x t ht) hp) hs p1 p2
  exact lexAll_toCss N hN ts h1 hc h2 _ (Nat.le_refl _)

end Flair.Props

namespace Flair.Proofs.CssToken
open Flair.CssToken Flair.Spec Flair.Vars
variable {Num : Type}

theorem parseTokens_literal (n depth : Nat) (l : List (CTok Num)) (ts : List (VarToken Num))
    (hp : ∀ t ∈ l, ∀ v, varToken t = some v → asCss v = t)
    (h : parseTokens n depth l = some (ts.map .token)) :
    ∃ k, ts.map asCss = l ++ List.replicate k .closeParen := by
  induction n generalizing depth l ts with
  | zero => cases h
  | succ n ih =>
    cases l with
    | nil =>
      simp only [parseTokens, Option.some.injEq] at h
      refine ⟨depth, ?_⟩
      rw [List.nil_append]
      have : (ts.map fun t => (VarOrToken.token t : VarOrToken Text (VarToken Num))).length = depth := by
        rw [← h]; simp
      rw [List.length_map] at this
      subst this
      rw [List.eq_replicate_iff]
      refine ⟨by simp, ?_⟩
      intro b hb
      obtain ⟨t, ht, rfl⟩ := List.mem_map.1 hb
      have hm : (VarOrToken.token t : VarOrToken Text (VarToken Num)) ∈ List.replicate ts.length (.token .endFunction) := by
        rw [h]; exact List.mem_map_of_mem ht
      have := (List.mem_replicate.1 hm).2
      cases this
      rfl
    | cons t l =>
      have hp' : ∀ t ∈ l, ∀ v, varToken t = some v → asCss v = t := fun x hx => hp x (List.mem_cons_of_mem _ hx)
      rw [parseTokens.eq_def] at h
      dsimp only at h
      have cons : ∀ (v : VarToken Num) (d' : Nat) (vs), parseTokens n d' l = some vs →
          .token v :: vs = ts.map VarOrToken.token → asCss v = t →
          ∃ k, ts.map asCss = t :: l ++ List.replicate k .closeParen := by
        intro v d' vs hvs he hv
        cases ts with
        | nil => cases he
        | cons w ts =>
          simp only [List.map_cons, List.cons.injEq, VarOrToken.token.injEq] at he
          obtain ⟨rfl, rfl⟩ := he
          obtain ⟨k, hk⟩ := ih d' l ts hp' hvs
          exact ⟨k, by rw [List.map_cons, hv, hk]; rfl⟩
      split at h
      · cases h
      · split at h
        · split at h
          · cases h
          · simp only [Option.map_eq_some_iff] at h
            obtain ⟨vs, hvs, he⟩ := h
            exact cons .endFunction _ vs hvs he rfl
        · split at h
          · simp only [Option.bind_eq_some_iff, Option.map_eq_some_iff] at h
            obtain ⟨p, _, vs, _, he⟩ := h
            cases ts with
            | nil => cases he
            | cons w ts => simp at he
          · simp only [Option.map_eq_some_iff] at h
            obtain ⟨vs, hvs, he⟩ := h
            exact cons _ _ vs hvs he rfl
        · simp only [Option.bind_eq_some_iff, Option.map_eq_some_iff] at h
          obtain ⟨v, hv, vs, hvs, he⟩ := h
          exact cons v _ vs hvs he (hp _ List.mem_cons_self v hv)

theorem written_ends (k : Nat) : Written (List.replicate k (.token (.endFunction : VarToken Num)))
    (List.replicate k CTok.closeParen) := by
  induction k with
  | zero => exact .nil
  | succ k ih => exact .token ih

theorem parseTokens_written (n depth : Nat) (l : List (CTok Num)) (vts)
    (hp : ∀ t ∈ l, ∀ v, varToken t = some v → asCss v = t) (h : parseTokens n depth l = some vts) :
    ∃ k, Written vts (l ++ List.replicate k .closeParen) := by
  induction n generalizing depth l vts with
  | zero => cases h
  | succ n ih =>
    cases l with
    | nil =>
      simp only [parseTokens, Option.some.injEq] at h
      exact ⟨depth, h ▸ written_ends depth⟩
    | cons t l =>
      have hp' : ∀ t ∈ l, ∀ v, varToken t = some v → asCss v = t := fun x hx => hp x (List.mem_cons_of_mem _ hx)
      rw [parseTokens.eq_def] at h
      dsimp only at h
      have cons : ∀ (v : VarToken Num) (d' : Nat) (vs), parseTokens n d' l = some vs →
          .token v :: vs = vts → asCss v = t → ∃ k, Written vts (t :: l ++ List.replicate k .closeParen) := by
        rintro v d' vs hvs rfl rfl
        obtain ⟨k, hk⟩ := ih d' l vs hp' hvs
        exact ⟨k, .token hk⟩
      split at h
      · cases h
      · split at h
        · split at h
          · cases h
          · simp only [Option.map_eq_some_iff] at h
            obtain ⟨vs, hvs, he⟩ := h
            exact cons .endFunction _ vs hvs he rfl
        · split at h
          · rename_i f _ hf
            simp only [Option.bind_eq_some_iff, Option.map_eq_some_iff] at h
            obtain ⟨p, hpf, vs, hvs, rfl⟩ := h
            have hf' : f.map lower = ['v', 'a', 'r'] := by
              have := hf
              simpa [eqCi] using this
            have split2 : ∀ t : Text, t.take 2 = ['-', '-'] ∧ 3 ≤ t.length → t = '-' :: '-' :: t.drop 2 ∧ t.drop 2 ≠ [] := by
              rintro t ⟨h1, h2⟩
              match t, h1, h2 with
              | a :: b :: c :: r, h1, _ =>
                simp only [List.take_succ_cons, List.take_zero, List.cons.injEq, and_true] at h1
                obtain ⟨rfl, rfl⟩ := h1
                simp
            unfold varFn at hpf
            split at hpf
            · rename_i w _
              split at hpf
              · rename_i hw
                cases hpf
                obtain ⟨e, hne⟩ := split2 w hw
                obtain ⟨k, hk⟩ := ih depth [] vs (by simp) hvs
                refine ⟨k + 1, ?_⟩
                rw [show ([CTok.function f, .ident w] ++ List.replicate (k + 1) CTok.closeParen : List (CTok Num)) =
                  .function f :: .ident w :: .closeParen :: ([] ++ List.replicate k .closeParen) from rfl, e]
                exact .var hf' hne hk
              · cases hpf
            · rename_i w r _
              split at hpf
              · rename_i hw
                cases hpf
                obtain ⟨e, hne⟩ := split2 w hw
                obtain ⟨k, hk⟩ := ih depth r vs (fun x hx => hp' x (by simp [hx])) hvs
                refine ⟨k, ?_⟩
                rw [e]
                exact .var hf' hne hk
              · cases hpf
            · cases hpf
          · simp only [Option.map_eq_some_iff] at h
            obtain ⟨vs, hvs, he⟩ := h
            exact cons _ _ vs hvs he rfl
        · simp only [Option.bind_eq_some_iff, Option.map_eq_some_iff] at h
          obtain ⟨v, hv, vs, hvs, he⟩ := h
          exact cons v _ vs hvs he (hp _ List.mem_cons_self v hv)

/-- no delimiter token is a colon, semicolon or comma -/
theorem lexAll_delim (N : NumText Num) (n : Nat) (s : Text) :
    ∀ t ∈ lexAll N n s, ∀ v, varToken t = some v → asCss v = t := by
  have tok : ∀ c cs v, varToken (token N c cs).1 = some v → asCss v = (token N c cs).1 := by
    intro c cs v
    have sane : ∀ t : CTok Num, (∀ c, t = .delim c → c ≠ ':' ∧ c ≠ ';' ∧ c ≠ ',') →
        varToken t = some v → asCss v = t := by
      intro t ht hv
      cases t <;> simp only [varToken, Option.some.injEq, reduceCtorEq] at hv <;> subst hv
      case delim c => obtain ⟨h1, h2, h3⟩ := ht c rfl; simp [asCss, h1, h2, h3]
      all_goals rfl
    apply sane
    intro d
    unfold token
    by_cases h1 : c = '"' ∨ c = '\''
    · rw [if_pos h1]; unfold strTok; split <;> intro h <;> cases h
    rw [if_neg h1]
    by_cases h2 : c = '#'
    · rw [if_pos h2]
      split
      · intro h; cases h
      · intro h; cases h; decide
    rw [if_neg h2]
    by_cases h3 : c = ')'
    · rw [if_pos h3]; intro h; cases h
    rw [if_neg h3]
    by_cases h4 : c = ','
    · rw [if_pos h4]; intro h; cases h
    rw [if_neg h4]
    by_cases h5 : c = ':'
    · rw [if_pos h5]; intro h; cases h
    rw [if_neg h5]
    by_cases h6 : c = ';'
    · rw [if_pos h6]; intro h; cases h
    rw [if_neg h6]
    by_cases h7 : c = '(' ∨ c = '[' ∨ c = ']' ∨ c = '{' ∨ c = '}'
    · rw [if_pos h7]; intro h; cases h
    rw [if_neg h7]
    by_cases h8 : startsNumber (c :: cs) = true
    · rw [if_pos h8]
      unfold numeric
      split
      · intro h; cases h
      · split
        · intro h; cases h
        · split <;> intro h <;> cases h
    rw [if_neg h8]
    by_cases h9 : c = '-' ∧ cs.take 2 = ['-', '>']
    · rw [if_pos h9]; intro h; cases h
    rw [if_neg h9]
    by_cases h10 : c = '<' ∧ cs.take 3 = ['!', '-', '-']
    · rw [if_pos h10]; intro h; cases h
    rw [if_neg h10]
    by_cases h11 : c = '@'
    · rw [if_pos h11]
      split
      · intro h; cases h
      · intro h; cases h; decide
    rw [if_neg h11]
    by_cases h12 : (c = '$' ∨ c = '*' ∨ c = '^' ∨ c = '|' ∨ c = '~') ∧ cs.head? = some '='
    · rw [if_pos h12]; intro h; cases h
    rw [if_neg h12]
    by_cases h13 : startsIdent (c :: cs) = true
    · rw [if_pos h13]
      unfold identLike
      split
      · intro h; cases h
      · split
        · split <;> intro h <;> cases h
        · intro h; cases h
    rw [if_neg h13]
    intro h
    cases h
    exact ⟨h5, h6, h4⟩
  induction n generalizing s with
  | zero => intro t ht; simp [lexAll] at ht
  | succ n ih =>
    cases s with
    | nil => intro t ht; simp [lexAll] at ht
    | cons c cs =>
      rw [lexAll]
      split
      · exact ih cs
      · split
        · exact ih _
        · intro t ht
          rcases List.mem_cons.1 ht with rfl | ht
          · exact tok c cs
          · exact ih _ t ht

end Flair.Proofs.CssToken

namespace Flair.Props
open Flair.CssToken Flair.Spec Flair.Vars Flair.Proofs.CssToken
variable {Num : Type}

/-- C50, the first half: what a value is read as stands in its text — the references as `var(--name)`, everything else
as itself, in the same order (what is left open at the end of the text is closed). -/
theorem C50_read (N : NumText Num) (s : Text) (vts : VarTokens Text (VarToken Num)) (h : parseVarTokens N s = some vts) :
    ∃ k, Written vts (lex N s ++ List.replicate k CTok.closeParen) :=
  parseTokens_written _ _ _ vts (lexAll_delim N _ s) h

/-- C50, the part that holds, for one text.  Turning a value without references into tokens, printing them and reading the
print gives the tokens of the original text (closing what was left open at its end). -/
theorem C50_literal_partial (N : NumText Num) (hN : PrintsExactly N) (s : Text) (hb : '\\' ∉ s)
    (ts : List (VarToken Num)) (hv : parseVarTokens N s = some (ts.map .token)) (hc : ∀ t ∈ ts, Carried t) :
    ∃ k, lex N (toCss N ts) = (lex N s ++ List.replicate k CTok.closeParen).map (rereadPct N) := by
  obtain ⟨k, hk⟩ := parseTokens_literal _ _ _ ts (lexAll_delim N _ s) hv
  refine ⟨k, ?_⟩
  have hr : resolve (fun x => ((fun _ => none : Text → Option Text) x).bind (parseVarTokens N)) (ts.map .token)
      = .ok ts := by
    rw [C07_resolve_exact]
    constructor
    · clear hv hc hk
      induction ts with
      | nil => exact .nil
      | cons t ts ih => exact .token _ _ _ ih
    · intro vs hvs
      cases vs with
      | nil => simp
      | cons v vs =>
        obtain ⟨t, _, ht⟩ := List.mem_map.1 hvs.1
        cases ht
  rw [C50_resolved_text_partial N hN (fun _ => none) s hb (by intro x t h; cases h) _ ts hv hr hc]
  show _ = (lex N s ++ _).map _
  unfold lex
  rw [← hk, List.map_map]
  rfl

/-! ## Witnesses and counterexamples -/

/-- a decimal digit -/
private def dig (n : Nat) : Char := Char.ofNat (48 + n)

/-- decimal notation -/
private def decimal (n : Nat) : Text := if n < 10 then [dig n] else decimal (n / 10) ++ [dig (n % 10)]
termination_by n
decreasing_by omega

/-- the value of a decimal notation (anything after the digits is ignored) -/
private def readNat (t : Text) : Nat := (t.takeWhile isDigit).foldl (fun n c => n * 10 + (c.toNat - 48)) 0

/-- natural numbers in decimal notation; here a percentage is its number -/
private def natText : NumText Nat := ⟨readNat, readNat, decimal, decimal⟩

private theorem dig_ok : ∀ n, n < 10 → isDigit (dig n) = true ∧ (dig n).toNat - 48 = n := by decide

private theorem decimal_digits (n : Nat) : decimal n ≠ [] ∧ ∀ c ∈ decimal n, isDigit c = true := by
  induction n using Nat.strongRecOn with
  | _ n ih =>
    rw [decimal]
    split
    · next h => exact ⟨by simp, by intro c hc; rw [List.mem_singleton.1 hc]; exact (dig_ok n h).1⟩
    · next h =>
      refine ⟨by simp, ?_⟩
      intro c hc
      rcases List.mem_append.1 hc with hc | hc
      · exact (ih (n / 10) (by omega)).2 c hc
      · rw [List.mem_singleton.1 hc]; exact (dig_ok _ (by omega)).1

/-- the assumption about numbers can be met -/
private theorem natText_exact : PrintsExactly natText := by
  have num : ∀ n, Numeral (decimal n) := fun n =>
    ⟨[], decimal n, [], Or.inl rfl, (decimal_digits n).1, (decimal_digits n).2, Or.inl rfl, by simp⟩
  refine ⟨num, num, ?_⟩
  intro n
  show readNat (decimal n) = n
  unfold readNat
  have : (decimal n).takeWhile isDigit = decimal n := by
    have := takeWhile_digits (decimal n) [] (decimal_digits n).2 (by intro c hc; cases hc)
    simpa using this.1
  rw [this]
  clear this
  induction n using Nat.strongRecOn with
  | _ n ih =>
    rw [decimal]
    split
    · next h => simp [(dig_ok n h).2]
    · next h =>
      rw [List.foldl_append, ih (n / 10) (by omega)]
      simp only [List.foldl_cons, List.foldl_nil, (dig_ok (n % 10) (by omega)).2]
      omega

private def txt50 (s : String) : Text := s.toList

/-- `border: var(--w) solid rgb(1, 2, 3)` with `--w: 5px`: the hypotheses of the theorem hold -/
example : parseVarTokens natText (txt50 "var(--w) solid rgb(1,2") =
      some [.var ['w'], .token (.ident (txt50 "solid")), .token (.function (txt50 "rgb")), .token (.number 1),
        .token (.delim ','), .token (.number 2), .token .endFunction] ∧
    resolve (fun x => (if x = ['w'] then some (txt50 "5px") else none).bind (parseVarTokens natText))
        [.var ['w'], .token (.ident (txt50 "solid")), .token (.function (txt50 "rgb")), .token (.number 1),
          .token (.delim ','), .token (.number 2), .token .endFunction] =
      .ok [.dimension 5 (txt50 "px"), .ident (txt50 "solid"), .function (txt50 "rgb"), .number 1, .delim ',', .number 2,
        .endFunction] ∧
    toCss natText [.dimension 5 (txt50 "px"), .ident (txt50 "solid"), .function (txt50 "rgb"), .number 1, .delim ',',
      .number 2, .endFunction] = txt50 "5px solid rgb( 1 , 2 )" := by
  refine ⟨by decide +kernel, by decide +kernel, ?_⟩
  simp only [toCss, tokenText, natText, show decimal 5 = ['5'] from by rw [decimal]; rfl,
    show decimal 1 = ['1'] from by rw [decimal]; rfl, show decimal 2 = ['2'] from by rw [decimal]; rfl]
  decide

/-- C50 fails for strings that contain a double quote: `'a"b'` comes back as a string, an identifier and another string. -/
theorem C50_quote_lost :
    parseVarTokens natText (txt50 "'a\"b'") = some [.token (.string (txt50 "a\"b"))] ∧
    lex natText (toCss natText [.string (txt50 "a\"b")]) = [.string ['a'], .ident ['b'], .string []] := by
  decide +kernel

/-- C50 fails for identifiers written with escapes: `\31 a`, the identifier "1a", comes back as a number with unit. -/
theorem C50_escape_lost :
    parseVarTokens natText (txt50 "\\31 a") = some [.token (.ident (txt50 "1a"))] ∧
    lex natText (toCss natText [.ident (txt50 "1a")]) = [.dimension 1 ['a']] := by
  decide +kernel

/-- C50 fails for units that begin like an exponent: `1e3e4` comes back as a number. (The exponent's value is cut off by the
toy number reader; the kind of the token is what matters.) -/
theorem C50_exponent_unit_lost :
    parseVarTokens natText (txt50 "1e3e4") = some [.token (.dimension 1 (txt50 "e4"))] ∧
    ∃ x, lex natText (toCss natText [.dimension 1 (txt50 "e4")]) = [.number x] := by
  refine ⟨by decide +kernel, 1, ?_⟩
  simp only [toCss, tokenText, natText, show decimal 1 = ['1'] from by rw [decimal]; rfl]
  decide +kernel

end Flair.Props
