import Verif.Spec.ToCss
import Verif.Proofs.CssToken
import Mathlib.Tactic.Linarith
import Mathlib.Tactic.NormNum
import Mathlib.Tactic.FieldSimp
import Mathlib.Tactic.Ring
/-!
# C105: values written as CSS read back
-/
namespace Flair.Props
open Flair.ToCss Flair.CssToken Flair.Calc Flair.Spec Flair.Proofs.CssToken

private theorem digit_ok : ∀ n, n < 10 → isDigit (digit n) = true ∧ (digit n).toNat - 48 = n := by decide

private theorem decimal_digits (n : Nat) : decimal n ≠ [] ∧ ∀ c ∈ decimal n, isDigit c = true := by
  induction n using Nat.strongRecOn with
  | _ n ih =>
    rw [decimal]
    split
    · next h => exact ⟨by simp, by intro c hc; rw [List.mem_singleton.1 hc]; exact (digit_ok n h).1⟩
    · next h =>
      refine ⟨by simp, ?_⟩
      intro c hc
      rcases List.mem_append.1 hc with hc | hc
      · exact (ih (n / 10) (by omega)).2 c hc
      · rw [List.mem_singleton.1 hc]; exact (digit_ok _ (by omega)).1

private theorem decimal_value (n : Nat) : digitsValue (decimal n) = n := by
  induction n using Nat.strongRecOn with
  | _ n ih =>
    rw [decimal]
    split
    · next h => simp [digitsValue, (digit_ok n h).2]
    · next h =>
      have := ih (n / 10) (by omega)
      unfold digitsValue at this ⊢
      rw [List.foldl_append, this]
      simp only [List.foldl_cons, List.foldl_nil, (digit_ok (n % 10) (by omega)).2]
      have h2 : n = (n / 10) * 10 + n % 10 := by omega
      exact_mod_cast h2.symm

private theorem tenths_numeral (n : ℤ) : Numeral (tenths n) := by
  refine ⟨if n < 0 then ['-'] else [], decimal (n.natAbs / 10),
    if n.natAbs % 10 = 0 then [] else ['.', digit (n.natAbs % 10)], ?_, (decimal_digits _).1, (decimal_digits _).2, ?_, rfl⟩
  · split
    · exact Or.inr rfl
    · exact Or.inl rfl
  · split
    · exact Or.inl rfl
    · exact Or.inr ⟨[digit (n.natAbs % 10)], by simp,
        by intro c hc; rw [List.mem_singleton.1 hc]; exact (digit_ok _ (by omega)).1, rfl⟩

/-- what follows the integer part -/
private theorem read_rest (k : Nat) (hk : k < 10) :
    let f : Text := if k = 0 then [] else ['.', digit k]
    (∀ c, f.head? = some c → isDigit c = false) ∧ digitsValue (fraction f).1.tail / 10 ^ (fraction f).1.tail.length = k / 10 ∧
      (fraction f).2 = [] := by
  intro f
  by_cases h : k = 0
  · subst h
    refine ⟨by simp [f], ?_, ?_⟩ <;> simp [f, fraction, digitsValue]
  · have hf : f = ['.', digit k] := if_neg h
    rw [hf]
    refine ⟨by intro c hc; simp at hc; subst hc; decide, ?_, ?_⟩ <;>
      simp [fraction, (digit_ok k hk).1, digitsValue, (digit_ok k hk).2]

private theorem sign_decimal (n : Nat) (r : Text) : sign (decimal n ++ r) = ([], decimal n ++ r) := by
  cases hd : decimal n with
  | nil => exact absurd hd (decimal_digits n).1
  | cons c cs =>
    rw [List.cons_append]
    exact sign_digit c _ ((decimal_digits n).2 c (by rw [hd]; exact List.mem_cons_self))

private theorem read_tenths (n : ℤ) : readNumber (tenths n) = n / 10 := by
  obtain ⟨h1, h2, h3⟩ := read_rest (n.natAbs % 10) (by omega)
  have hsign : sign (tenths n) = (if n < 0 then ['-'] else [], decimal (n.natAbs / 10) ++
      if n.natAbs % 10 = 0 then [] else ['.', digit (n.natAbs % 10)]) := by
    unfold tenths
    split
    · simp [sign]
    · simp only [List.nil_append]; exact sign_decimal _ _
  obtain ⟨ht, hd⟩ := takeWhile_digits (decimal (n.natAbs / 10)) _ (decimal_digits _).2 h1
  unfold readNumber
  rw [hsign]
  dsimp only
  rw [ht, hd, h2, h3, decimal_value]
  have hc : ((n.natAbs / 10 : ℕ) : ℚ) + ((n.natAbs % 10 : ℕ) : ℚ) / 10 = (n.natAbs : ℚ) / 10 := by
    have h : n.natAbs = (n.natAbs / 10) * 10 + n.natAbs % 10 := by omega
    have h' : (n.natAbs : ℚ) = ((n.natAbs / 10 : ℕ) : ℚ) * 10 + ((n.natAbs % 10 : ℕ) : ℚ) := by exact_mod_cast h
    rw [h']; ring
  rw [hc]
  have hn : ((n.natAbs : ℕ) : ℚ) = |(n : ℚ)| := by
    rw [← Int.cast_natCast, Int.natCast_natAbs, Int.cast_abs]
  rw [hn]
  simp only [exponent, exponentValue, mul_one]
  by_cases hneg : n < 0
  · have : (n : ℚ) < 0 := by exact_mod_cast hneg
    rw [if_pos hneg, if_pos rfl, abs_of_neg this]; ring
  · have : (0 : ℚ) ≤ n := by exact_mod_cast (not_lt.1 hneg)
    rw [if_neg hneg, if_neg (by simp), abs_of_nonneg this]; ring

private theorem num_tenth (n : ℤ) : ((n : ℚ) / 10 * 10).num = n := by
  rw [div_mul_cancel₀ _ (by norm_num)]; exact Rat.num_intCast n

private theorem round_near (x : ℚ) : |x - roundEven x| ≤ 1 / 2 := by
  have h1 := Int.floor_le x
  have h2 := Int.lt_floor_add_one x
  unfold roundEven
  split
  · rw [abs_le]; constructor <;> linarith
  · split
    · push_cast; rw [abs_le]; constructor <;> linarith
    · split
      · rw [abs_le]; constructor <;> linarith
      · push_cast; rw [abs_le]; constructor <;> linarith

private theorem round_int (n : ℤ) : roundEven n = n := by
  unfold roundEven
  rw [Int.floor_intCast, if_pos (by norm_num)]

private theorem display_round (q : ℚ) : display (roundFloat (.num q)) = tenths (roundEven (q * 10)) := by
  simp only [roundFloat, display, num_tenth]

/-- A piece of text that is one token when the end or a space follows -/
private def Lexes (t : Text) (k : CTok ℚ) : Prop :=
  ∃ c cs, t = c :: cs ∧ isWs c = false ∧ c ≠ '/' ∧ ∀ r, Stop r → token decimals c (cs ++ r) = (k, r)

private theorem lexAll_nil (n : Nat) : lexAll decimals n [] = [] := by cases n <;> rfl

private theorem lexes_slice (ts : List Text) (ks : List (CTok ℚ)) (h : List.Forall₂ Lexes ts ks) (n : Nat)
    (hn : (sliceText ts).length ≤ n) : lexAll decimals n (sliceText ts) = ks := by
  induction h generalizing n with
  | nil => exact lexAll_nil n
  | @cons t k ts ks ht hts ih =>
    obtain ⟨c, cs, rfl, hw, hs, htok⟩ := ht
    obtain ⟨r, hr, hre, hst⟩ : ∃ r, sliceText ((c :: cs) :: ts) = c :: (cs ++ r) ∧
        (r = [] ∧ ts = [] ∨ r = ' ' :: sliceText ts) ∧ Stop r := by
      cases ts with
      | nil => exact ⟨[], by simp [sliceText], Or.inl ⟨rfl, rfl⟩, Or.inl rfl⟩
      | cons t' ts => exact ⟨' ' :: sliceText (t' :: ts), by simp [sliceText], Or.inr rfl, Or.inr ⟨_, rfl⟩⟩
    rw [hr] at hn ⊢
    cases n with
    | zero => simp at hn
    | succ n =>
      rw [lexAll, if_neg (by rw [hw]; decide), if_neg (by tauto), htok r hst]
      dsimp only
      congr 1
      rcases hre with ⟨rfl, rfl⟩ | rfl
      · cases hts; exact lexAll_nil n
      · simp only [List.length_cons, List.length_append] at hn
        cases n with
        | zero => omega
        | succ n => rw [lexAll, if_pos (by decide)]; exact ih n (by omega)

private theorem lexes_one {t : Text} {k : CTok ℚ} (h : Lexes t k) : lex decimals t = [k] :=
  lexes_slice [t] [k] (.cons h .nil) _ le_rfl

private theorem numeral_char {c : Char} (h : isDigit c = true ∨ c = '-') : isWs c = false ∧ c ≠ '/' := by
  rcases h with h | rfl
  · exact ⟨isWs_of_name (isName_digit (Or.inl h)), by rintro rfl; revert h; decide⟩
  · decide

private theorem lexes_number (n : ℤ) : Lexes (tenths n) (.number (n / 10)) := by
  obtain ⟨c, cs, hc, hd, _⟩ := lex_number decimals (tenths n) [] (tenths_numeral n) (Or.inl rfl)
  refine ⟨c, cs, hc, (numeral_char hd).1, (numeral_char hd).2, fun r hr => ?_⟩
  obtain ⟨c', cs', hc', _, h⟩ := lex_number decimals (tenths n) r (tenths_numeral n) hr
  rw [hc] at hc'
  obtain ⟨rfl, rfl⟩ := List.cons.inj hc'
  rw [h]; exact congrArg (fun q => (CTok.number q, r)) (read_tenths n)

private theorem lexes_percent (n : ℤ) : Lexes (tenths n ++ ['%']) (.percentage (n / 10 / 100)) := by
  obtain ⟨c, cs, hc, hd, _⟩ := lex_percentage decimals (tenths n) [] (tenths_numeral n)
  refine ⟨c, cs ++ ['%'], by rw [hc]; rfl, (numeral_char hd).1, (numeral_char hd).2, fun r _ => ?_⟩
  obtain ⟨c', cs', hc', _, h⟩ := lex_percentage decimals (tenths n) r (tenths_numeral n)
  rw [hc] at hc'
  obtain ⟨rfl, rfl⟩ := List.cons.inj hc'
  rw [List.append_assoc, List.singleton_append, h]
  exact congrArg (fun q => (CTok.percentage (q / 100), r)) (read_tenths n)

private theorem lexes_dim (n : ℤ) (u : Text) (hu : IdentOk u) (he : ¬ExponentLike u) :
    Lexes (tenths n ++ u) (.dimension (n / 10) u) := by
  obtain ⟨c, cs, hc, hd, _⟩ := lex_dimension decimals (tenths n) u [] (tenths_numeral n) hu he (Or.inl rfl)
  refine ⟨c, cs ++ u, by rw [hc]; rfl, (numeral_char hd).1, (numeral_char hd).2, fun r hr => ?_⟩
  obtain ⟨c', cs', hc', _, h⟩ := lex_dimension decimals (tenths n) u r (tenths_numeral n) hu he hr
  rw [hc] at hc'
  obtain ⟨rfl, rfl⟩ := List.cons.inj hc'
  rw [List.append_assoc, h]
  exact congrArg (fun q => (CTok.dimension q u, r)) (read_tenths n)

private theorem lexes_ident (c : Char) (cs : Text) (h : IdentOk (c :: cs)) : Lexes (c :: cs) (.ident (c :: cs)) := by
  have hc : isName c = true := (h.2.2 c List.mem_cons_self).1
  exact ⟨c, cs, rfl, isWs_of_name hc, by rintro rfl; revert hc; decide, fun r hr => lex_ident decimals c cs r h hr⟩

/-- the token of a length -/
private def tokOf : Val → CTok ℚ
  | .auto => .ident ['a', 'u', 't', 'o']
  | .len .percent q => .percentage (roundEven (q * 10) / 10 / 100)
  | .len u q => .dimension (roundEven (q * 10) / 10) (unitText u)

/-- what is read back -/
private def rounded : Val → Val
  | .auto => .auto
  | .len u q => .len u (roundEven (q * 10) / 10)

private theorem unit_ok : ∀ u : LUnit, u ≠ .percent → IdentOk (unitText u) ∧ ¬ExponentLike (unitText u) := by
  intro u hu
  refine ⟨?_, ?_⟩
  · cases u <;> first | exact absurd rfl hu | (unfold IdentOk unitText; decide)
  · rintro ⟨c, d, s, r, hc, _, _, h⟩
    cases u <;> first | exact absurd rfl hu | (simp only [unitText, List.cons_append, List.cons.injEq] at h; rw [← h.1] at hc; revert hc; decide)

private theorem lexes_val (v : Val) : Lexes (valText v) (tokOf v) := by
  cases v with
  | auto => exact lexes_ident _ _ (by unfold IdentOk; decide)
  | len u q =>
    simp only [valText, lengthText, display_round]
    by_cases hu : u = .percent
    · subst hu; exact lexes_percent _
    · have := lexes_dim (roundEven (q * 10)) (unitText u) (unit_ok u hu).1 (unit_ok u hu).2
      cases u <;> first | exact absurd rfl hu | exact this

private theorem val_read (v : Val) : Shorthand.valTok (asTok (tokOf v)) = some (rounded v) := by
  cases v with
  | auto => rfl
  | len u q =>
    cases u
    case percent =>
      simp only [tokOf, asTok, Shorthand.valTok, rounded]
      rw [div_mul_cancel₀ _ (by norm_num)]
    all_goals
      simp only [tokOf, asTok, Shorthand.valTok, rounded, unitText]
      rfl

private theorem rounded_close (v : Val) : CloseVal v (rounded v) := by
  cases v with
  | auto => trivial
  | len u q =>
    refine ⟨rfl, ?_⟩
    have h := round_near (q * 10)
    rw [abs_le] at h ⊢
    constructor <;> linarith [h.1, h.2]

private theorem rounded_tenths (v : Val) : ValInTenths (rounded v) := by
  cases v with
  | auto => trivial
  | len u q => exact ⟨_, rfl⟩

private theorem rounded_id (v : Val) (h : ValInTenths v) : rounded v = v := by
  cases v with
  | auto => rfl
  | len u q =>
    obtain ⟨n, rfl⟩ := h
    simp only [rounded]
    rw [div_mul_cancel₀ _ (by norm_num), round_int]

/-- **C105**: the text of a length is read by the parser of lengths as one value of the same unit, a multiple of a tenth that is
at most half a tenth away; a length that is such a multiple comes back as itself. -/
theorem C105_length_partial (v : Val) :
    ∃ w, ReadsAs Shorthand.valP (valText v) w ∧ CloseVal v w ∧ ValInTenths w ∧ (ValInTenths v → w = v) := by
  refine ⟨rounded v, ?_, rounded_close v, rounded_tenths v, rounded_id v⟩
  unfold ReadsAs tokens
  rw [lexes_one (lexes_val v)]
  simp only [List.map_cons, List.map_nil, Shorthand.valP, Shorthand.tok1, val_read]

example : ValInTenths (.len .vmin (-43 / 2)) := ⟨-215, by norm_num⟩

/-- `75.28%` is written `75.3%` and comes back as that -/
example : valText (.len .percent (7528 / 100)) = "75.3%".toList := by
  have r : roundEven ((7528 / 100 : ℚ) * 10) = 753 := by decide +kernel
  simp only [valText, lengthText, display_round, r, tenths]
  have d : decimal 75 = ['7', '5'] := by
    rw [decimal, if_neg (by decide), decimal, if_pos (by decide)]
    decide
  rw [show (753 : ℤ).natAbs / 10 = 75 from rfl, d]
  decide

/-- **C105**: the same for numbers. -/
theorem C105_number_partial (q : ℚ) :
    ∃ p, ReadsAs (Shorthand.tok1 Shorthand.f32Tok) (numberText (.num q)) p ∧ |q - p| ≤ 1 / 20 ∧ IsTenths p ∧
      (IsTenths q → p = q) := by
  refine ⟨roundEven (q * 10) / 10, ?_, ?_, ⟨_, rfl⟩, ?_⟩
  · unfold ReadsAs tokens numberText
    rw [display_round, lexes_one (lexes_number _)]
    rfl
  · have h := round_near (q * 10)
    rw [abs_le] at h ⊢
    constructor <;> linarith [h.1, h.2]
  · rintro ⟨n, rfl⟩
    rw [div_mul_cancel₀ _ (by norm_num), round_int]

/-- **C105**: a slice of lengths is read as as many lengths, in the same order. -/
theorem C105_lengths_partial (l : List Val) :
    ∃ l', ReadsAsAll Shorthand.valTok (sliceText (l.map valText)) l' ∧ List.Forall₂ CloseVal l l' ∧
      ((∀ v ∈ l, ValInTenths v) → l' = l) := by
  refine ⟨l.map rounded, ?_, ?_, ?_⟩
  · unfold ReadsAsAll tokens lex
    rw [lexes_slice (l.map valText) (l.map tokOf) ?_ _ le_rfl]
    · simp only [List.map_map]
      exact List.map_congr_left fun v _ => val_read v
    · induction l with
      | nil => exact .nil
      | cons v l ih => exact .cons (lexes_val v) ih
  · induction l with
    | nil => exact .nil
    | cons v l ih => exact .cons (rounded_close v) ih
  · intro h
    exact (List.map_congr_left fun v hv => rounded_id v (h v hv)).trans (List.map_id l)

/-- **C105**: a slice of numbers is read as as many numbers, in the same order. -/
theorem C105_numbers_partial (l : List ℚ) :
    ∃ l', ReadsAsAll Shorthand.f32Tok (sliceText (l.map fun q => numberText (.num q))) l' ∧
      List.Forall₂ (fun p q => |p - q| ≤ 1 / 20) l l' ∧ ((∀ q ∈ l, IsTenths q) → l' = l) := by
  refine ⟨l.map fun q => roundEven (q * 10) / 10, ?_, ?_, ?_⟩
  · unfold ReadsAsAll tokens lex
    rw [lexes_slice (l.map fun q => numberText (.num q)) (l.map fun q => .number (roundEven (q * 10) / 10)) ?_ _ le_rfl]
    · simp only [List.map_map]
      exact List.map_congr_left fun v _ => rfl
    · induction l with
      | nil => exact .nil
      | cons v l ih => exact .cons (by show Lexes (display (roundFloat (.num v))) _; rw [display_round]; exact lexes_number _) ih
  · induction l with
    | nil => exact .nil
    | cons q l ih =>
      refine .cons ?_ ih
      have h := round_near (q * 10)
      rw [abs_le] at h ⊢
      constructor <;> linarith [h.1, h.2]
  · intro h
    refine (List.map_congr_left fun q hq => ?_).trans (List.map_id l)
    obtain ⟨n, rfl⟩ := h q hq
    rw [div_mul_cancel₀ _ (by norm_num), round_int]
    rfl

/-- **C105**: what was read back is written as the same text. -/
theorem C105_stable (v w : Val) (h : ReadsAs Shorthand.valP (valText v) w) : valText w = valText v := by
  have hw : w = rounded v := by
    unfold ReadsAs tokens at h
    rw [lexes_one (lexes_val v)] at h
    simp only [List.map_cons, List.map_nil, Shorthand.valP, Shorthand.tok1, val_read] at h
    injection h with h
    exact (congrArg Prod.fst h).symm
  rw [hw]
  cases v with
  | auto => rfl
  | len u q =>
    simp only [rounded, valText, lengthText, display_round]
    rw [div_mul_cancel₀ _ (by norm_num), round_int]

/-- **C105** is false for what has more than one decimal: 0.04px is written as `0px` (and comes back as nothing at all),
different lengths get the same text. -/
theorem C105_lossy : ReadsAs Shorthand.valP (valText (.len .px (1 / 25))) (.len .px 0) ∧
    valText (.len .vw (101 / 4)) = valText (.len .vw (63 / 2 - 63 / 10)) ∧ (101 / 4 : ℚ) ≠ 63 / 2 - 63 / 10 := by
  have r1 : roundEven ((1 / 25 : ℚ) * 10) = 0 := by decide +kernel
  refine ⟨?_, ?_, by norm_num⟩
  · unfold ReadsAs tokens
    rw [lexes_one (lexes_val _)]
    simp only [List.map_cons, List.map_nil, Shorthand.valP, Shorthand.tok1, val_read]
    simp only [rounded, r1]
    norm_num
  · have a : roundEven ((101 / 4 : ℚ) * 10) = 252 := by decide +kernel
    have b : roundEven ((63 / 2 - 63 / 10 : ℚ) * 10) = 252 := by decide +kernel
    simp only [valText, lengthText, display_round, a, b]

/-- **C105** is false for numbers that are not finite: the text is not read as a length at all. -/
theorem C105_not_finite (u : LUnit) (x : F32) (hx : ∀ q, x ≠ .num q) :
    ¬∃ w ts, Shorthand.valP (tokens (lengthText u x)) = .ok (w, ts) := by
  rintro ⟨w, ts, h⟩
  cases x with
  | num q => exact hx q rfl
  | pinf => cases u <;> revert h <;> simp only [show ∀ u, Shorthand.valP (tokens (lengthText u .pinf)) = .err from by
      intro u; cases u <;> rfl] <;> intro h <;> cases h
  | ninf => cases u <;> revert h <;> simp only [show ∀ u, Shorthand.valP (tokens (lengthText u .ninf)) = .err from by
      intro u; cases u <;> rfl] <;> intro h <;> cases h
  | nan => cases u <;> revert h <;> simp only [show ∀ u, Shorthand.valP (tokens (lengthText u .nan)) = .err from by
      intro u; cases u <;> rfl] <;> intro h <;> cases h

/-- **C105**: the text of a state is a pseudo class that is read as this state, that of a pseudo element is read as it. -/
theorem C105_states (s : Selector.StateSel) :
    ∃ n, lex decimals (stateText s) = [.colon, .ident n] ∧ Selector.stateNamed (String.ofList n) = some s := by
  cases s
  · exact ⟨"active".toList, by decide +kernel, by decide +kernel⟩
  · exact ⟨"hover".toList, by decide +kernel, by decide +kernel⟩
  · exact ⟨"focus".toList, by decide +kernel, by decide +kernel⟩
  · exact ⟨"focus-visible".toList, by decide +kernel, by decide +kernel⟩
  · exact ⟨"disabled".toList, by decide +kernel, by decide +kernel⟩
  · exact ⟨"checked".toList, by decide +kernel, by decide +kernel⟩

@[inherit_doc C105_states] theorem C105_elements (s : Selector.PseudoElem) :
    ∃ n, lex decimals (elementText s) = [.colon, .colon, .ident n] ∧ Selector.pseudoNamed (String.ofList n) = some s := by
  cases s
  · exact ⟨"before".toList, by decide +kernel, by decide +kernel⟩
  · exact ⟨"after".toList, by decide +kernel, by decide +kernel⟩

end Flair.Props
