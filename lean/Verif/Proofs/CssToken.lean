import Verif.Spec.CssToken
import Verif.Spec.Vars
/-!
# Lemmas about the tokenizer
-/
namespace Flair.Proofs.CssToken
open Flair.CssToken Flair.Spec
variable {Num : Type}

/-- An identifier that is written as itself -/
def IdentOk (t : Text) : Prop := startsIdent t = true ∧ '\\' ∉ t ∧ ∀ c ∈ t, isName c = true ∧ c ≠ '\x00'

/-- A character that is a delimiter token when a space follows -/
def DelimOk (c : Char) : Prop :=
  isWs c = false ∧ isNameStart c = false ∧ isDigit c = false ∧ c ∉ ['"', '\'', '(', ')', '[', ']', '{', '}', '\\']

/-- A token of a variable that is written as itself -/
def Plain {Num : Type} : VarToken Num → Prop
  | .ident t => IdentOk t
  | .hash t => t ≠ [] ∧ ∀ c ∈ t, isName c = true ∧ c ≠ '\x00'
  | .string t => ∀ c ∈ t, isNl c = false ∧ c ≠ '\\' ∧ c ≠ '\x00'
  | .delim c => DelimOk c
  | .dimension _ u => IdentOk u
  | .function f => IdentOk f
  | _ => True

/-- `url(` is followed by a string -/
def isUrl {Num : Type} : VarToken Num → Bool
  | .function f => eqCi f "url"
  | _ => false

/-- `url(` is always followed by a string -/
def UrlOk {Num : Type} : List (VarToken Num) → Prop
  | [] => True
  | t :: ts => (isUrl t = true → ∃ s ts', ts = .string s :: ts') ∧ UrlOk ts

/-- The rest of the text after a token -/
def Stop (r : Text) : Prop := r = [] ∨ ∃ r', r = ' ' :: r'

theorem Stop.head {r : Text} (h : Stop r) : ∀ c, r.head? = some c → c = ' ' := by
  rcases h with rfl | ⟨r', rfl⟩
  · intro c hc; cases hc
  · intro c hc; simpa using hc.symm

theorem name_plain (t r : Text) (n : Nat) (hn : t.length ≤ n) (ht : ∀ c ∈ t, isName c = true ∧ c ≠ '\x00')
    (hr : ∀ c, r.head? = some c → isName c = false ∧ c ≠ '\\') : name n (t ++ r) = (t, r) := by
  induction t generalizing n with
  | nil =>
    cases n with
    | zero => rfl
    | succ n =>
      cases r with
      | nil => rfl
      | cons c r =>
        have := hr c rfl
        rw [List.nil_append, name, if_neg (by rw [this.1]; simp), if_neg (by simp [this.2])]
  | cons c t ih =>
    cases n with
    | zero => simp at hn
    | succ n =>
      rw [List.cons_append, name, if_pos (ht c List.mem_cons_self).1,
        ih n (by simpa using hn) fun x hx => ht x (List.mem_cons_of_mem _ hx)]
      simp [fixNul, (ht c List.mem_cons_self).2]

theorem str_plain (t r : Text) (n : Nat) (hn : t.length < n)
    (ht : ∀ c ∈ t, c ≠ '"' ∧ isNl c = false ∧ c ≠ '\\' ∧ c ≠ '\x00') : str '"' n (t ++ '"' :: r) = (some t, r) := by
  induction t generalizing n with
  | nil =>
    cases n with
    | zero => simp at hn
    | succ n => simp [str]
  | cons c t ih =>
    cases n with
    | zero => simp at hn
    | succ n =>
      obtain ⟨h1, h2, h3, h4⟩ := ht c List.mem_cons_self
      rw [List.cons_append, str, if_neg h1, if_neg (by rw [h2]; simp), if_neg h3,
        ih n (by simpa using hn) fun x hx => ht x (List.mem_cons_of_mem _ hx)]
      simp [fixNul, h4]

theorem takeWhile_digits (ds r : Text) (h : ∀ c ∈ ds, isDigit c = true)
    (hr : ∀ c, r.head? = some c → isDigit c = false) :
    (ds ++ r).takeWhile isDigit = ds ∧ (ds ++ r).dropWhile isDigit = r := by
  induction ds with
  | nil =>
    cases r with
    | nil => exact ⟨rfl, rfl⟩
    | cons c r => simp [hr c rfl]
  | cons c ds ih =>
    have := ih fun x hx => h x (List.mem_cons_of_mem _ hx)
    have hc := h c List.mem_cons_self
    simp [hc, this]

theorem sign_digit (c : Char) (s : Text) (h : isDigit c = true) : sign (c :: s) = ([], c :: s) := by
  rw [sign, if_neg]
  rintro (rfl | rfl) <;> revert h <;> decide

theorem fraction_none (r : Text) (h : ∀ c, r.head? = some c → c ≠ '.') : fraction r = ([], r) := by
  match r, h with
  | [], _ => rfl
  | [c], h => unfold fraction; split <;> simp_all
  | c :: d :: r, h =>
    have hc := h c rfl
    unfold fraction
    split
    · simp_all
    · rfl

theorem lexeme_numeral (t r : Text) (ht : Numeral t) (h1 : ∀ c, r.head? = some c → isDigit c = false ∧ c ≠ '.')
    (h2 : exponent r = ([], r)) : lexeme (t ++ r) = (t, r) := by
  obtain ⟨sgn, int, frac, hs, hi0, hi, hf, rfl⟩ := ht
  obtain ⟨i, is, rfl⟩ : ∃ i is, int = i :: is := by
    cases int with
    | nil => exact absurd rfl hi0
    | cons i is => exact ⟨i, is, rfl⟩
  have hsg : sign (sgn ++ (i :: is) ++ frac ++ r) = (sgn, (i :: is) ++ (frac ++ r)) := by
    rcases hs with rfl | rfl
    · rw [List.nil_append, List.append_assoc]
      exact sign_digit _ _ (hi i List.mem_cons_self)
    · simp [sign]
  have hfr : ∀ c, (frac ++ r).head? = some c → isDigit c = false := by
    intro c hc
    rcases hf with rfl | ⟨ds, hd0, hd, rfl⟩
    · exact (h1 c hc).1
    · simp only [List.cons_append, List.head?_cons, Option.some.injEq] at hc
      subst hc
      decide
  have htd := takeWhile_digits (i :: is) (frac ++ r) hi hfr
  have hfrac : fraction (frac ++ r) = (frac, r) := by
    rcases hf with rfl | ⟨ds, hd0, hd, rfl⟩
    · exact fraction_none r fun c hc => (h1 c hc).2
    · cases ds with
      | nil => exact absurd rfl hd0
      | cons d ds =>
        have := takeWhile_digits ds r (fun x hx => hd x (List.mem_cons_of_mem _ hx)) fun c hc => (h1 c hc).1
        simp only [List.cons_append, fraction, if_pos (hd d List.mem_cons_self), this.1, this.2]
  unfold lexeme
  rw [hsg]
  dsimp only
  rw [htd.1, htd.2, hfrac]
  dsimp only
  rw [h2]
  dsimp only
  rw [List.append_nil]

theorem numeral_start (t r : Text) (ht : Numeral t) : ∃ c cs, t = c :: cs ∧ (isDigit c = true ∨ c = '-') ∧
    startsNumber (t ++ r) = true := by
  obtain ⟨sgn, int, frac, hs, hi0, hi, hf, rfl⟩ := ht
  obtain ⟨i, is, rfl⟩ : ∃ i is, int = i :: is := by
    cases int with
    | nil => exact absurd rfl hi0
    | cons i is => exact ⟨i, is, rfl⟩
  have hid := hi i List.mem_cons_self
  have hdot : i ≠ '.' := by rintro rfl; revert hid; decide
  have key : ∀ s : Text, (match i :: s with
      | '.' :: d :: _ => isDigit d
      | d :: _ => isDigit d
      | [] => false) = true := by
    intro s
    split
    · next h => simp only [List.cons.injEq] at h; exact absurd h.1 hdot
    · next h => simp only [List.cons.injEq] at h; rw [← h.1]; exact hid
    · next h => cases h
  rcases hs with rfl | rfl
  · refine ⟨i, is ++ frac, rfl, Or.inl hid, ?_⟩
    unfold startsNumber
    rw [List.nil_append, List.append_assoc, List.cons_append, sign_digit _ _ hid]
    exact key _
  · refine ⟨'-', i :: is ++ frac, rfl, Or.inr rfl, ?_⟩
    unfold startsNumber
    have : sign (['-'] ++ i :: is ++ frac ++ r) = (['-'], i :: (is ++ (frac ++ r))) := by simp [sign]
    rw [this]
    exact key _

/-- The characters that begin a numeral lead to the numeric branch -/
theorem token_numeric (N : NumText Num) (c : Char) (cs : Text) (h : isDigit c = true ∨ c = '-')
    (hs : startsNumber (c :: cs) = true) : token N c cs = numeric N (c :: cs) := by
  unfold token
  have hne : ∀ x : Char, isDigit x = false → x ≠ '-' → c ≠ x := by
    intro x hx hx' he
    subst he
    rcases h with h | h
    · rw [hx] at h; cases h
    · exact hx' h
  simp only [hne '"' (by decide) (by decide), hne '\'' (by decide) (by decide), hne '#' (by decide) (by decide),
    hne ')' (by decide) (by decide), hne ',' (by decide) (by decide), hne ':' (by decide) (by decide),
    hne ';' (by decide) (by decide), hne '(' (by decide) (by decide), hne '[' (by decide) (by decide),
    hne ']' (by decide) (by decide), hne '{' (by decide) (by decide), hne '}' (by decide) (by decide), hs,
    or_false, if_false, if_true]

theorem IdentOk.cases {t : Text} (h : IdentOk t) : ∃ c cs, t = c :: cs ∧
    (isNameStart c = true ∨ c = '-' ∧ ∃ d ds, cs = d :: ds ∧ (isNameStart d = true ∨ d = '-')) := by
  obtain ⟨h1, h2, h3⟩ := h
  cases t with
  | nil => cases h1
  | cons c cs =>
    refine ⟨c, cs, rfl, ?_⟩
    rw [startsIdent] at h1
    split at h1
    · next hc =>
      refine Or.inr ⟨hc, ?_⟩
      cases cs with
      | nil => cases h1
      | cons d ds =>
        refine ⟨d, ds, rfl, ?_⟩
        have hd : d ≠ '\\' := by
          rintro rfl
          exact h2 (by simp)
        simpa [startsIdent2, hd] using h1
    · next hc =>
      have hd : c ≠ '\\' := by
        rintro rfl
        exact h2 (by simp)
      left
      simpa [hd] using h1

theorem IdentOk.append {t : Text} (h : IdentOk t) (r : Text) : startsIdent (t ++ r) = true := by
  obtain ⟨c, cs, rfl, h' | ⟨rfl, d, ds, rfl, h'⟩⟩ := h.cases
  · rw [List.cons_append, startsIdent, if_neg (by rintro rfl; revert h'; decide), h']
    rfl
  · rw [List.cons_append, startsIdent, if_pos rfl]
    rcases h' with h' | h'
    · simp [startsIdent2, h']
    · simp [startsIdent2, h']

theorem startsNumber_ident {t : Text} (h : IdentOk t) (r : Text) : startsNumber (t ++ r) = false := by
  have key : ∀ (c : Char) (s : Text), isNameStart c = true ∨ c = '-' → (match c :: s with
      | '.' :: d :: _ => isDigit d
      | d :: _ => isDigit d
      | [] => false) = false := by
    intro c s hc
    have hd : isDigit c = false := by
      rcases hc with hc | rfl
      · by_contra hd
        simp only [Bool.not_eq_false] at hd
        simp only [isNameStart, isDigit, Bool.and_eq_true, decide_eq_true_eq, Bool.or_eq_true, beq_iff_eq,
          Char.le_def, UInt32.le_iff_toNat_le, Char.toNat] at hc hd
        rcases hc with (((hc | hc) | hc) | hc) | hc
        · have := hc.1; have := hd.2; simp at *; omega
        · have := hc.1; have := hd.2; simp at *; omega
        · subst hc; revert hd; decide
        · subst hc; revert hd; decide
        · have := hd.2; simp at *; omega
      · decide
    have hdot : c ≠ '.' := by
      rcases hc with hc | rfl
      · rintro rfl; revert hc; decide
      · decide
    split
    · next h => simp only [List.cons.injEq] at h; exact absurd h.1 hdot
    · next h => simp only [List.cons.injEq] at h; rw [← h.1]; exact hd
    · next h => cases h
  obtain ⟨c, cs, rfl, h' | ⟨rfl, d, ds, rfl, h'⟩⟩ := h.cases
  · unfold startsNumber
    have : sign (c :: cs ++ r) = ([], c :: (cs ++ r)) := by
      rw [List.cons_append, sign, if_neg]
      rintro (rfl | rfl) <;> revert h' <;> decide
    rw [this]
    exact key c _ (Or.inl h')
  · unfold startsNumber
    have : sign ('-' :: d :: ds ++ r) = (['-'], d :: (ds ++ r)) := by simp [sign]
    rw [this]
    exact key d _ h'

/-- The characters that begin an identifier lead to the ident-like branch -/
theorem token_ident (N : NumText Num) (c : Char) (cs r : Text) (h : IdentOk (c :: cs))
    (hr : ∀ c, r.head? = some c → c ≠ '>') : token N c (cs ++ r) = identLike (c :: cs ++ r) := by
  have hsn := startsNumber_ident h r
  have hsi := h.append r
  have hc := h.cases
  rw [List.cons_append] at hsn hsi
  unfold token
  have hne : ∀ x : Char, isNameStart x = false → x ≠ '-' → c ≠ x := by
    intro x hx hx' he
    subst he
    obtain ⟨c', cs', he, h | ⟨h, _⟩⟩ := hc
    · cases he; rw [hx] at h; cases h
    · cases he; exact hx' h
  have hcdc : ¬(c = '-' ∧ (cs ++ r).take 2 = ['-', '>']) := by
    rintro ⟨rfl, ht⟩
    obtain ⟨c', cs', he, h' | ⟨_, d, ds, hds, h'⟩⟩ := hc
    · cases he; revert h'; decide
    · cases he
      subst hds
      cases ds with
      | nil =>
        cases r with
        | nil => simp at ht
        | cons x r =>
          simp at ht
          exact hr x rfl ht.2
      | cons x ds =>
        simp at ht
        have := (h.2.2 x (by simp)).1
        rw [ht.2] at this
        revert this
        decide
  simp only [hne '"' (by decide) (by decide), hne '\'' (by decide) (by decide), hne '#' (by decide) (by decide),
    hne ')' (by decide) (by decide), hne ',' (by decide) (by decide), hne ':' (by decide) (by decide),
    hne ';' (by decide) (by decide), hne '(' (by decide) (by decide), hne '[' (by decide) (by decide),
    hne ']' (by decide) (by decide), hne '{' (by decide) (by decide), hne '}' (by decide) (by decide),
    hne '<' (by decide) (by decide), hne '@' (by decide) (by decide), hne '$' (by decide) (by decide),
    hne '*' (by decide) (by decide), hne '^' (by decide) (by decide), hne '|' (by decide) (by decide),
    hne '~' (by decide) (by decide), hsn, hsi, hcdc, or_false, false_and, Bool.false_eq_true,
    if_false, if_true, List.cons_append]

theorem Stop.notName {r : Text} (h : Stop r) : ∀ c, r.head? = some c → isName c = false ∧ c ≠ '\\' := by
  intro c hc
  rw [h.head c hc]
  decide

theorem lex_ident (N : NumText Num) (c : Char) (cs r : Text) (h : IdentOk (c :: cs)) (hr : Stop r) :
    token N c (cs ++ r) = (.ident (c :: cs), r) := by
  rw [token_ident N c cs r h fun x hx => by rw [hr.head x hx]; decide]
  unfold identLike
  rw [name_plain _ _ _ (by simp) h.2.2 hr.notName]
  dsimp only
  rcases hr with rfl | ⟨r', rfl⟩
  · rfl
  · dsimp only
    rw [if_neg (by decide)]

theorem lex_function (N : NumText Num) (c : Char) (cs r : Text) (h : IdentOk (c :: cs))
    (hu : eqCi (c :: cs) "url" = true → quoteAhead r = true) :
    token N c (cs ++ '(' :: r) = (.function (c :: cs), r) := by
  rw [token_ident N c cs _ h fun x hx => by simp at hx; rw [← hx]; decide]
  unfold identLike
  rw [name_plain _ _ _ (by simp) h.2.2 fun x hx => by simp at hx; rw [← hx]; decide]
  dsimp only
  rw [if_pos rfl, if_neg]
  intro hh
  rw [Bool.and_eq_true] at hh
  rw [hu hh.1] at hh
  simp at hh

theorem lex_hash (N : NumText Num) (t r : Text) (h0 : t ≠ []) (h : ∀ c ∈ t, isName c = true ∧ c ≠ '\x00')
    (hr : Stop r) : token N '#' (t ++ r) = (.hash t, r) := by
  have hh : ((t ++ r).head?.map isName).getD false = true := by
    cases t with
    | nil => exact absurd rfl h0
    | cons c t => simp [(h c List.mem_cons_self).1]
  unfold token
  rw [if_neg (by decide), if_pos rfl, if_pos (by rw [hh, Bool.or_true]),
    name_plain t r _ (by simp) h hr.notName]

theorem lex_string (N : NumText Num) (t r : Text)
    (h : ∀ c ∈ t, c ≠ '"' ∧ isNl c = false ∧ c ≠ '\\' ∧ c ≠ '\x00') :
    token N '"' (t ++ '"' :: r) = (.string t, r) := by
  unfold token
  rw [if_pos (Or.inl rfl), str_plain t r _ (by simp) h]
  rfl

theorem exponent_none_of (r : Text) (h : ¬ExponentLike r) : exponent r = ([], r) := by
  cases r with
  | nil => rfl
  | cons c cs =>
    rw [exponent]
    split
    · next hc =>
      split
      · next d ds hd =>
        rw [if_neg]
        intro hdd
        refine h ⟨c, d, (sign cs).1, ds, hc, ?_, hdd, ?_⟩
        · cases cs with
          | nil => exact Or.inl rfl
          | cons x xs =>
            rw [sign]
            split
            · next hx =>
              rcases hx with rfl | rfl
              · exact Or.inr (Or.inl rfl)
              · exact Or.inr (Or.inr rfl)
            · exact Or.inl rfl
        · rw [← hd]
          cases cs with
          | nil => rfl
          | cons x xs =>
            rw [sign]
            split
            · rfl
            · rfl
      · rfl
    · rfl

theorem exponentLike_stop {u r : Text} (hu : u ≠ []) (hr : Stop r) (h : ¬ExponentLike u) : ¬ExponentLike (u ++ r) := by
  rintro ⟨c, d, s, r', hc, hs, hd, he⟩
  apply h
  rcases hr with rfl | ⟨r'', rfl⟩
  · rw [List.append_nil] at he
    exact ⟨c, d, s, r', hc, hs, hd, he⟩
  · obtain ⟨u0, us, rfl⟩ : ∃ a b, u = a :: b := by
      cases u with
      | nil => exact absurd rfl hu
      | cons a b => exact ⟨a, b, rfl⟩
    have hsp : isDigit ' ' = false := by decide
    simp only [List.cons_append, List.cons.injEq] at he
    obtain ⟨rfl, he⟩ := he
    rcases hs with rfl | rfl | rfl
    · cases us with
      | nil => simp at he; rw [← he.1, hsp] at hd; cases hd
      | cons x us =>
        simp at he
        obtain ⟨rfl, rfl⟩ := he
        exact ⟨u0, x, [], us, hc, Or.inl rfl, hd, rfl⟩
    · cases us with
      | nil => simp at he
      | cons x us =>
        simp at he
        obtain ⟨rfl, he⟩ := he
        cases us with
        | nil => simp at he; rw [← he.1, hsp] at hd; cases hd
        | cons y us =>
          simp at he
          obtain ⟨rfl, rfl⟩ := he
          exact ⟨u0, y, ['+'], us, hc, Or.inr (Or.inl rfl), hd, rfl⟩
    · cases us with
      | nil => simp at he
      | cons x us =>
        simp at he
        obtain ⟨rfl, he⟩ := he
        cases us with
        | nil => simp at he; rw [← he.1, hsp] at hd; cases hd
        | cons y us =>
          simp at he
          obtain ⟨rfl, rfl⟩ := he
          exact ⟨u0, y, ['-'], us, hc, Or.inr (Or.inr rfl), hd, rfl⟩

theorem exponent_stop {r : Text} (hr : Stop r) : exponent r = ([], r) := by
  rcases hr with rfl | ⟨r', rfl⟩
  · rfl
  · simp [exponent]

theorem lex_number (N : NumText Num) (t r : Text) (ht : Numeral t) (hr : Stop r) :
    ∃ c cs, t = c :: cs ∧ (isDigit c = true ∨ c = '-') ∧ token N c (cs ++ r) = (.number (N.read t), r) := by
  obtain ⟨c, cs, rfl, hc, hs⟩ := numeral_start t r ht
  refine ⟨c, cs, rfl, hc, ?_⟩
  have hl := lexeme_numeral (c :: cs) r ht (fun x hx => by rw [hr.head x hx]; decide) (exponent_stop hr)
  rw [List.cons_append] at hs
  rw [token_numeric N c _ hc hs, ← List.cons_append]
  unfold numeric
  rw [hl]
  dsimp only
  rcases hr with rfl | ⟨r', rfl⟩
  · rfl
  · rw [if_neg (by simp [startsIdent]; decide)]
    dsimp only
    rw [if_neg (by decide)]

theorem lex_percentage (N : NumText Num) (t r : Text) (ht : Numeral t) :
    ∃ c cs, t = c :: cs ∧ (isDigit c = true ∨ c = '-') ∧
      token N c (cs ++ ('%' :: r)) = (.percentage (N.readPct t), r) := by
  obtain ⟨c, cs, rfl, hc, hs⟩ := numeral_start t ('%' :: r) ht
  refine ⟨c, cs, rfl, hc, ?_⟩
  have hl := lexeme_numeral (c :: cs) ('%' :: r) ht (fun x hx => by simp at hx; rw [← hx]; decide)
    (by simp [exponent])
  rw [List.cons_append] at hs
  rw [token_numeric N c _ hc hs, ← List.cons_append]
  unfold numeric
  rw [hl]
  dsimp only
  rw [if_neg (by simp [startsIdent]; decide), if_pos rfl]

theorem lex_dimension (N : NumText Num) (t u r : Text) (ht : Numeral t) (hu : IdentOk u) (he : ¬ExponentLike u)
    (hr : Stop r) :
    ∃ c cs, t = c :: cs ∧ (isDigit c = true ∨ c = '-') ∧
      token N c (cs ++ (u ++ r)) = (.dimension (N.read t) u, r) := by
  obtain ⟨c, cs, rfl, hc, hs⟩ := numeral_start t (u ++ r) ht
  refine ⟨c, cs, rfl, hc, ?_⟩
  have hu0 : u ≠ [] := by rintro rfl; cases hu.1
  have hl := lexeme_numeral (c :: cs) (u ++ r) ht (by
    intro x hx
    obtain ⟨c', cs', rfl, h | ⟨rfl, _⟩⟩ := hu.cases
    · simp at hx
      subst hx
      have hn := (startsNumber_ident hu [])
      refine ⟨?_, by rintro rfl; revert h; decide⟩
      by_contra hd
      simp only [Bool.not_eq_false] at hd
      unfold startsNumber at hn
      rw [List.cons_append, sign_digit _ _ hd] at hn
      split at hn
      · next hh => simp only [List.cons.injEq] at hh; rw [hh.1] at hd; revert hd; decide
      · next hh => simp only [List.cons.injEq] at hh; rw [← hh.1, hd] at hn; cases hn
      · next hh => cases hh
    · simp at hx
      subst hx
      decide) (exponent_none_of _ (exponentLike_stop hu0 hr he))
  rw [List.cons_append] at hs
  rw [token_numeric N c _ hc hs, ← List.cons_append]
  unfold numeric
  rw [hl]
  dsimp only
  rw [if_pos (hu.append r), name_plain u r _ (by simp) hu.2.2 hr.notName]

theorem lex_delim (N : NumText Num) (c : Char) (r : Text) (h : DelimOk c) (hr : Stop r) :
    token N c r = (asCss (.delim c), r) := by
  obtain ⟨h1, h2, h3, h4⟩ := h
  simp only [List.mem_cons, List.not_mem_nil, or_false, not_or] at h4
  obtain ⟨g1, g2, g3, g4, g5, g6, g7, g8, g9⟩ := h4
  have hsi : startsIdent r = false := by
    rcases hr with rfl | ⟨r', rfl⟩
    · rfl
    · simp [startsIdent]; decide
  have hsi2 : startsIdent2 r = false := by
    rcases hr with rfl | ⟨r', rfl⟩
    · rfl
    · simp [startsIdent2]; decide
  have hname : (r.head?.map isName).getD false = false := by
    rcases hr with rfl | ⟨r', rfl⟩
    · rfl
    · simp; decide
  have hsn : startsNumber (c :: r) = false := by
    unfold startsNumber
    by_cases hs : c = '+' ∨ c = '-'
    · rw [sign, if_pos hs]
      rcases hr with rfl | ⟨r', rfl⟩
      · rfl
      · rfl
    · rw [sign, if_neg hs]
      dsimp only
      rcases hr with rfl | ⟨r', rfl⟩
      · split
        · next h => simp at h
        · next h => simp at h; rw [← h.1]; exact h3
        · rfl
      · split
        · next h => simp at h; rw [← h.2.1]; decide
        · next h => simp at h; rw [← h.1]; exact h3
        · rfl
  have hcs : startsIdent (c :: r) = false := by
    rw [startsIdent]
    split
    · exact hsi2
    · simp [h2, g9]
  have ht2 : r.take 2 ≠ ['-', '>'] := by
    rcases hr with rfl | ⟨r', rfl⟩
    · simp
    · simp
  have ht3 : r.take 3 ≠ ['!', '-', '-'] := by
    rcases hr with rfl | ⟨r', rfl⟩
    · simp
    · simp
  have hh : r.head? ≠ some '=' := by
    rcases hr with rfl | ⟨r', rfl⟩
    · simp
    · simp
  unfold token asCss
  simp only [g1, g2, g3, g4, g5, g6, g7, g8, hsi, hsn, hcs, ht2, ht3, hh, hname, or_false, and_false, if_false,
    Bool.false_eq_true, Bool.or_false]
  by_cases e1 : c = '#'
  · subst e1; rfl
  by_cases e2 : c = ','
  · subst e2; rfl
  by_cases e3 : c = ':'
  · subst e3; rfl
  by_cases e4 : c = ';'
  · subst e4; rfl
  by_cases e5 : c = '@'
  · subst e5; rfl
  simp [e1, e2, e3, e4, e5]

theorem isWs_of_name {c : Char} (h : isName c = true) : isWs c = false := by
  by_contra hw
  simp only [Bool.not_eq_false, isWs, Bool.or_eq_true, beq_iff_eq] at hw
  rcases hw with (((rfl | rfl) | rfl) | rfl) | rfl <;> revert h <;> decide

theorem isName_digit {c : Char} (h : isDigit c = true ∨ c = '-') : isName c = true := by
  unfold isName
  rcases h with h | h
  · simp [h]
  · simp [h]

theorem tok_lex (N : NumText Num) (hN : PrintsExactly N) (t : VarToken Num) (r : Text) (hp : Plain t) (hc : Carried t)
    (hr : Stop r) (hu : isUrl t = true → quoteAhead r = true) :
    ∃ c cs, tokenText N t = c :: cs ∧ isWs c = false ∧ ¬(c = '/' ∧ (cs ++ r).head? = some '*') ∧
      token N c (cs ++ r) = (rereadPct N (asCss t), r) := by
  have hslash : ∀ c : Char, isName c = true → c ≠ '/' := by
    rintro c h rfl
    revert h
    decide
  cases t with
  | ident t =>
    obtain ⟨c, cs, rfl, _⟩ := IdentOk.cases hp
    have hn := (hp.2.2 c List.mem_cons_self).1
    exact ⟨c, cs, rfl, isWs_of_name hn, fun h => hslash c hn h.1, lex_ident N c cs r hp hr⟩
  | hash t => exact ⟨'#', t, rfl, by decide, (fun h => by cases h.1), lex_hash N t r hp.1 hp.2 hr⟩
  | string t =>
    refine ⟨'"', t ++ ['"'], rfl, by decide, (fun h => by cases h.1), ?_⟩
    rw [List.append_assoc]
    exact lex_string N t r fun c hm => ⟨fun he => hc (by rw [← he]; exact hm), hp c hm⟩
  | delim c =>
    refine ⟨c, [], rfl, hp.1, ?_, ?_⟩
    · rintro ⟨_, hh⟩
      have := hr.head _ hh
      cases this
    · rw [List.nil_append, lex_delim N c r hp hr]
      simp only [asCss]
      split
      · rfl
      · split
        · rfl
        · split <;> rfl
  | number x =>
    obtain ⟨c, cs, he, hd, ht⟩ := lex_number N (N.show x) r (hN.numeral x) hr
    have hn := isName_digit hd
    refine ⟨c, cs, he, isWs_of_name hn, fun h => hslash c hn h.1, ?_⟩
    rw [ht, hN.exact]
    rfl
  | percentage x =>
    obtain ⟨c, cs, he, hd, ht⟩ := lex_percentage N (N.showPct x) r (hN.numeralPct x)
    have hn := isName_digit hd
    refine ⟨c, cs ++ ['%'], by rw [tokenText, he]; rfl, isWs_of_name hn, fun h => hslash c hn h.1, ?_⟩
    rw [List.append_assoc]
    exact ht
  | dimension x u =>
    obtain ⟨c, cs, he, hd, ht⟩ := lex_dimension N (N.show x) u r (hN.numeral x) hp hc hr
    have hn := isName_digit hd
    refine ⟨c, cs ++ u, by rw [tokenText, he]; rfl, isWs_of_name hn, fun h => hslash c hn h.1, ?_⟩
    rw [List.append_assoc, ht, hN.exact]
    rfl
  | function f =>
    obtain ⟨c, cs, rfl, _⟩ := IdentOk.cases hp
    have hn := (hp.2.2 c List.mem_cons_self).1
    refine ⟨c, cs ++ ['('], rfl, isWs_of_name hn, fun h => hslash c hn h.1, ?_⟩
    rw [List.append_assoc]
    exact lex_function N c cs r hp hu
  | endFunction => exact ⟨')', [], rfl, by decide, (fun h => by cases h.1), rfl⟩

theorem quoteAhead_string (N : NumText Num) (s : Text) (ts : List (VarToken Num)) :
    quoteAhead (' ' :: toCss N (.string s :: ts)) = true := by
  unfold quoteAhead
  have : ∃ r, toCss N (.string s :: ts) = '"' :: r := by
    cases ts with
    | nil => exact ⟨_, rfl⟩
    | cons t ts => exact ⟨_, rfl⟩
  obtain ⟨r, hr⟩ := this
  rw [hr, List.dropWhile_cons_of_pos (by decide), List.dropWhile_cons_of_neg (by decide)]
  rfl

theorem lexAll_toCss (N : NumText Num) (hN : PrintsExactly N) (ts : List (VarToken Num)) (hp : ∀ t ∈ ts, Plain t)
    (hc : ∀ t ∈ ts, Carried t) (hu : UrlOk ts) (n : Nat) (hn : (toCss N ts).length ≤ n) :
    lexAll N n (toCss N ts) = ts.map fun t => rereadPct N (asCss t) := by
  induction ts generalizing n with
  | nil => cases n <;> rfl
  | cons t ts ih =>
    obtain ⟨r, hr, hre, hq, hst⟩ : ∃ r, toCss N (t :: ts) = tokenText N t ++ r ∧
        (r = [] ∧ ts = [] ∨ r = ' ' :: toCss N ts) ∧ (isUrl t = true → quoteAhead r = true) ∧ Stop r := by
      cases ts with
      | nil =>
        refine ⟨[], by simp [toCss], Or.inl ⟨rfl, rfl⟩, fun h => ?_, Or.inl rfl⟩
        obtain ⟨s, ts', he⟩ := hu.1 h
        cases he
      | cons t' ts =>
        refine ⟨' ' :: toCss N (t' :: ts), rfl, Or.inr rfl, fun h => ?_, Or.inr ⟨_, rfl⟩⟩
        obtain ⟨s, ts', he⟩ := hu.1 h
        cases he
        exact quoteAhead_string N s _
    obtain ⟨c, cs, he, hw, hcm, ht⟩ := tok_lex N hN t r (hp t List.mem_cons_self) (hc t List.mem_cons_self) hst hq
    rw [hr, he, List.cons_append] at hn ⊢
    cases n with
    | zero => simp at hn
    | succ n =>
      rw [lexAll, if_neg (by rw [hw]; simp), if_neg hcm, ht, List.map_cons]
      dsimp only
      congr 1
      have ih := ih (fun t h => hp t (List.mem_cons_of_mem _ h)) (fun t h => hc t (List.mem_cons_of_mem _ h)) hu.2
      rcases hre with ⟨rfl, rfl⟩ | rfl
      · cases n <;> rfl
      · simp only [List.length_cons, List.length_append] at hn
        cases n with
        | zero => omega
        | succ n =>
          rw [lexAll, if_pos (by decide)]
          exact ih n (by omega)

/-! ### What the tokenizer produces from texts without backslash -/

theorem isName_fixNul {c : Char} (h : isName c = true) : isName (fixNul c) = true ∧ fixNul c ≠ '\x00' := by
  unfold fixNul
  split
  · exact ⟨by decide, by decide⟩
  · next hc => exact ⟨h, hc⟩

theorem name_out (n : Nat) (s : Text) (hb : '\\' ∉ s) :
    (∀ c ∈ (name n s).1, isName c = true ∧ c ≠ '\x00') ∧ (name n s).2 <:+ s := by
  induction n generalizing s with
  | zero => exact ⟨by intro c hc; simp [name] at hc, List.suffix_refl _⟩
  | succ n ih =>
    cases s with
    | nil => exact ⟨by intro c hc; simp [name] at hc, List.suffix_refl _⟩
    | cons c cs =>
      have hb' : '\\' ∉ cs := fun h => hb (List.mem_cons_of_mem _ h)
      rw [name]
      split
      · next hc =>
        refine ⟨?_, (ih cs hb').2.trans (List.suffix_cons _ _)⟩
        intro x hx
        rcases List.mem_cons.1 hx with rfl | hx
        · exact isName_fixNul hc
        · exact (ih cs hb').1 x hx
      · split
        · next hc =>
          simp only [Bool.and_eq_true, decide_eq_true_eq] at hc
          exact absurd (by rw [hc.1]; exact List.mem_cons_self) hb
        · exact ⟨(by intro x hx; cases hx), List.suffix_refl _⟩

theorem not_backslash_of_names {t : Text} (h : ∀ c ∈ t, isName c = true ∧ c ≠ '\x00') : '\\' ∉ t := by
  intro hm
  have := (h _ hm).1
  revert this
  decide

theorem isNameStart_isName {c : Char} (h : isNameStart c = true) : isName c = true := by
  unfold isName
  simp [h]

theorem isNameStart_fixNul {c : Char} (h : isNameStart c = true) : isNameStart (fixNul c) = true := by
  unfold fixNul
  split
  · decide
  · exact h

theorem name_ident (s : Text) (h : startsIdent s = true) (hb : '\\' ∉ s) : IdentOk (name s.length s).1 := by
  have hout := name_out s.length s hb
  refine ⟨?_, not_backslash_of_names hout.1, hout.1⟩
  cases s with
  | nil => cases h
  | cons c cs =>
    have hbc : c ≠ '\\' := by rintro rfl; exact hb List.mem_cons_self
    rw [startsIdent] at h
    split at h
    · next hc =>
      subst hc
      cases cs with
      | nil => cases h
      | cons d ds =>
        have hbd : d ≠ '\\' := by rintro rfl; exact hb (by simp)
        have hd : isNameStart d = true ∨ d = '-' := by simpa [startsIdent2, hbd] using h
        have hdn : isName d = true := by
          rcases hd with hd | rfl
          · exact isNameStart_isName hd
          · decide
        rw [List.length_cons, List.length_cons, name, if_pos (by decide), name, if_pos hdn]
        rw [show fixNul '-' = '-' by decide, startsIdent, if_pos rfl, startsIdent2]
        rcases hd with hd | rfl
        · simp [isNameStart_fixNul hd]
        · simp [fixNul]
    · next hc =>
      have hn : isNameStart c = true := by simpa [hbc] using h
      rw [List.length_cons, name, if_pos (isNameStart_isName hn)]
      have := isNameStart_fixNul hn
      rw [startsIdent, if_neg, this]
      · rfl
      · intro he
        rw [he] at this
        revert this
        decide

theorem startsIdent_head {c : Char} {cs : Text} (h : startsIdent (c :: cs) = true) (hb : '\\' ∉ c :: cs) :
    isName c = true := by
  have hbc : c ≠ '\\' := by rintro rfl; exact hb List.mem_cons_self
  rw [startsIdent] at h
  split at h
  · next hc => subst hc; decide
  · exact isNameStart_isName (by simpa [hbc] using h)

theorem str_out (q : Char) (n : Nat) (s : Text) (hb : '\\' ∉ s) :
    (∀ t, (str q n s).1 = some t → ∀ c ∈ t, isNl c = false ∧ c ≠ '\\' ∧ c ≠ '\x00') ∧ (str q n s).2 <:+ s := by
  induction n generalizing s with
  | zero => exact ⟨by intro t ht; simp [str] at ht; subst ht; simp, List.suffix_refl _⟩
  | succ n ih =>
    cases s with
    | nil => exact ⟨by intro t ht; simp [str] at ht; subst ht; simp, List.suffix_refl _⟩
    | cons c cs =>
      have hb' : '\\' ∉ cs := fun h => hb (List.mem_cons_of_mem _ h)
      have hbc : c ≠ '\\' := by rintro rfl; exact hb List.mem_cons_self
      rw [str]
      split
      · exact ⟨by intro t ht; simp at ht; subst ht; simp, List.suffix_cons _ _⟩
      · split
        · exact ⟨by intro t ht; simp at ht, List.suffix_refl _⟩
        · next hnl =>
          refine ⟨?_, (ih cs hb').2.trans (List.suffix_cons _ _)⟩
          intro t ht
          simp only [Option.map_eq_some_iff] at ht
          obtain ⟨t', ht', rfl⟩ := ht
          intro x hx
          rcases List.mem_cons.1 hx with rfl | hx
          · unfold fixNul
            split
            · exact ⟨by decide, by decide, by decide⟩
            · next h0 => exact ⟨by simpa using hnl, hbc, h0⟩
          · exact (ih cs hb').1 t' ht' x hx

theorem sign_suffix (s : Text) : (sign s).2 <:+ s := by
  cases s with
  | nil => exact List.suffix_refl _
  | cons c cs =>
    rw [sign]
    split
    · exact List.suffix_cons _ _
    · exact List.suffix_refl _

theorem fraction_suffix (s : Text) : (fraction s).2 <:+ s := by
  unfold fraction
  split
  · split
    · exact (List.dropWhile_suffix _).trans ((List.suffix_cons _ _).trans (List.suffix_cons _ _))
    · exact List.suffix_refl _
  · exact List.suffix_refl _

theorem exponent_suffix (s : Text) : (exponent s).2 <:+ s := by
  cases s with
  | nil => exact List.suffix_refl _
  | cons c cs =>
    rw [exponent]
    split
    · split
      · next d ds hd =>
        split
        · have h1 : ds <:+ (sign cs).2 := by rw [hd]; exact List.suffix_cons _ _
          exact (List.dropWhile_suffix _).trans (h1.trans ((sign_suffix cs).trans (List.suffix_cons _ _)))
        · exact List.suffix_refl _
      · exact List.suffix_refl _
    · exact List.suffix_refl _

theorem lexeme_snd (s : Text) :
    (lexeme s).2 = (exponent (fraction ((sign s).2.dropWhile isDigit)).2).2 := rfl

theorem lexeme_suffix (c : Char) (cs : Text) (h : startsNumber (c :: cs) = true) : (lexeme (c :: cs)).2 <:+ cs := by
  rw [lexeme_snd]
  refine (exponent_suffix _).trans ?_
  by_cases hs : c = '+' ∨ c = '-'
  · rw [sign, if_pos hs]
    exact (fraction_suffix _).trans (List.dropWhile_suffix _)
  · unfold startsNumber at h
    rw [sign, if_neg hs] at h ⊢
    dsimp only at h ⊢
    by_cases hd : isDigit c = true
    · rw [List.dropWhile_cons_of_pos hd]
      exact (fraction_suffix _).trans (List.dropWhile_suffix _)
    · rw [List.dropWhile_cons_of_neg (by simpa using hd)]
      split at h
      · next d ds he =>
        simp only [List.cons.injEq] at he
        obtain ⟨rfl, rfl⟩ := he
        simp only [fraction, h, if_true]
        exact (List.dropWhile_suffix _).trans (List.suffix_cons _ _)
      · next he =>
        simp only [List.cons.injEq] at he
        rw [he.1] at hd
        exact absurd h hd
      · cases h

theorem not_mem_suffix {c : Char} {a b : Text} (h : a <:+ b) (hb : c ∉ b) : c ∉ a := fun hm => hb (h.subset hm)

/-- What a token of the tokenizer becomes is plain -/
def PlainC (t : CTok Num) : Prop := ∀ v, varToken t = some v → Plain v

/-- The token is `url(` -/
def isUrlC : CTok Num → Bool
  | .function f => eqCi f "url"
  | _ => false

/-- What is known of a token and the rest of the text -/
def Out (cs : Text) (p : CTok Num × Text) : Prop :=
  p.2 <:+ cs ∧ PlainC p.1 ∧ (isUrlC p.1 = true → quoteAhead p.2 = true)

theorem out_ite (cs : Text) (c : Prop) [Decidable c] (a b : CTok Num × Text) (h1 : c → Out cs a) (h2 : ¬c → Out cs b) :
    Out cs (if c then a else b) := by
  by_cases h : c
  · rw [if_pos h]; exact h1 h
  · rw [if_neg h]; exact h2 h

theorem token_out (N : NumText Num) (c : Char) (cs : Text) (hb : '\\' ∉ c :: cs) (hw : isWs c = false) :
    Out cs (token N c cs) := by
  have hb' : '\\' ∉ cs := fun h => hb (List.mem_cons_of_mem _ h)
  have hbc : c ≠ '\\' := by rintro rfl; exact hb List.mem_cons_self
  have other : ∀ r : Text, r <:+ cs → Out cs ((CTok.other : CTok Num), r) :=
    fun r hr => ⟨hr, (by intro v hv; cases hv), (by intro h; cases h)⟩
  have punct : ∀ (t : CTok Num) (v : VarToken Num), varToken t = some v → Plain v → isUrlC t = false →
      Out cs (t, cs) := by
    intro t v ht hp hu
    refine ⟨List.suffix_refl _, ?_, by dsimp only; rw [hu]; intro h; cases h⟩
    intro v' hv'
    rw [ht] at hv'
    cases hv'
    exact hp
  have dok : ∀ x : Char, x ∈ [':', ';', ',', '#', '@'] → DelimOk x := by
    intro x hx
    simp only [List.mem_cons, List.not_mem_nil, or_false] at hx
    rcases hx with rfl | rfl | rfl | rfl | rfl <;> exact ⟨by decide, by decide, by decide, by decide⟩
  unfold token
  refine out_ite cs _ _ _ (fun _ => ?_) (fun _ => ?_)
  · next hq =>
    have := str_out c cs.length cs hb'
    unfold strTok
    split
    · next t ht =>
      refine ⟨this.2, ?_, by intro h; cases h⟩
      intro v hv
      cases hv
      exact this.1 t ht
    · exact other _ this.2
  · refine out_ite cs _ _ _ (fun _ => ?_) (fun _ => ?_)
    · refine out_ite cs _ _ _ (fun _ => ?_) (fun _ => ?_)
      · next hc =>
        have hout := name_out cs.length cs hb'
        refine ⟨hout.2, ?_, by intro h; cases h⟩
        intro v hv
        cases hv
        refine ⟨?_, hout.1⟩
        cases cs with
        | nil => simp [startsIdent] at hc
        | cons d ds =>
          have hd : isName d = true := by
            rw [Bool.or_eq_true] at hc
            rcases hc with hc | hc
            · exact startsIdent_head hc hb'
            · simpa using hc
          rw [List.length_cons, name, if_pos hd]
          simp
      · exact punct _ _ rfl (dok _ (by simp)) rfl
    · refine out_ite cs _ _ _ (fun _ => ?_) (fun _ => ?_)
      · refine ⟨List.suffix_refl _, ?_, by intro h; cases h⟩
        intro v hv
        cases hv
      · refine out_ite cs _ _ _ (fun _ => ?_) (fun _ => ?_)
        · exact punct _ _ rfl (dok _ (by simp)) rfl
        · refine out_ite cs _ _ _ (fun _ => ?_) (fun _ => ?_)
          · exact punct _ _ rfl (dok _ (by simp)) rfl
          · refine out_ite cs _ _ _ (fun _ => ?_) (fun _ => ?_)
            · exact punct _ _ rfl (dok _ (by simp)) rfl
            · refine out_ite cs _ _ _ (fun _ => ?_) (fun _ => ?_)
              · exact other _ (List.suffix_refl _)
              · refine out_ite cs _ _ _ (fun _ => ?_) (fun _ => ?_)
                · next hsn =>
                  have hl := lexeme_suffix c cs hsn
                  have hbl := not_mem_suffix hl hb'
                  unfold numeric
                  refine out_ite cs _ _ _ (fun _ => ?_) (fun _ => ?_)
                  · next hsi =>
                    refine ⟨(name_out _ _ hbl).2.trans hl, ?_, by intro h; cases h⟩
                    intro v hv
                    cases hv
                    exact name_ident _ hsi hbl
                  · split
                    · exact ⟨List.nil_suffix, by intro v hv; cases hv; trivial, by intro h; cases h⟩
                    · next d r hd =>
                      rw [hd] at hl
                      refine out_ite cs _ _ _ (fun _ => ?_) (fun _ => ?_)
                      · exact ⟨(List.suffix_cons _ _).trans hl, by intro v hv; cases hv; trivial,
                          by intro h; cases h⟩
                      · exact ⟨hl, by intro v hv; cases hv; trivial, by intro h; cases h⟩
                · next hsn =>
                  refine out_ite cs _ _ _ (fun _ => ?_) (fun _ => ?_)
                  · exact other _ (List.drop_suffix _ _)
                  · refine out_ite cs _ _ _ (fun _ => ?_) (fun _ => ?_)
                    · exact other _ (List.drop_suffix _ _)
                    · refine out_ite cs _ _ _ (fun _ => ?_) (fun _ => ?_)
                      · refine out_ite cs _ _ _ (fun _ => ?_) (fun _ => ?_)
                        · exact other _ (name_out _ _ hb').2
                        · exact punct _ _ rfl (dok _ (by simp)) rfl
                      · refine out_ite cs _ _ _ (fun _ => ?_) (fun _ => ?_)
                        · exact other _ (List.tail_suffix _)
                        · refine out_ite cs _ _ _ (fun _ => ?_) (fun _ => ?_)
                          · next hsi =>
                            have hid := name_ident _ hsi hb
                            have hout := name_out (c :: cs).length (c :: cs) hb
                            have hsuf : (name (c :: cs).length (c :: cs)).2 <:+ cs := by
                              rw [List.length_cons, name, if_pos (startsIdent_head hsi hb)]
                              exact (name_out _ _ hb').2
                            unfold identLike
                            split
                            · refine ⟨List.nil_suffix, ?_, by intro h; cases h⟩
                              intro v hv
                              cases hv
                              exact hid
                            · next d r hd =>
                              rw [hd] at hsuf
                              have hr : r <:+ cs := (List.suffix_cons _ _).trans hsuf
                              refine out_ite cs _ _ _ (fun _ => ?_) (fun _ => ?_)
                              · refine out_ite cs _ _ _ (fun _ => ?_) (fun _ => ?_)
                                · exact other _ ((List.tail_suffix _).trans ((List.dropWhile_suffix _).trans hr))
                                · next hq =>
                                  refine ⟨hr, ?_, ?_⟩
                                  · intro v hv
                                    cases hv
                                    exact hid
                                  · intro hu
                                    by_contra hqa
                                    apply hq
                                    rw [Bool.and_eq_true]
                                    exact ⟨hu, by simpa using hqa⟩
                              · refine ⟨hsuf, ?_, by intro h; cases h⟩
                                intro v hv
                                cases hv
                                exact hid
                          · next hsi =>
                            refine punct _ _ rfl ⟨hw, ?_, ?_, ?_⟩ rfl
                            · by_contra hns
                              simp only [Bool.not_eq_false] at hns
                              apply hsi
                              rw [startsIdent, if_neg (by rintro rfl; revert hns; decide), hns]
                              rfl
                            · by_contra hd
                              simp only [Bool.not_eq_false] at hd
                              apply hsn
                              unfold startsNumber
                              rw [sign_digit _ _ hd]
                              dsimp only
                              split
                              · next he =>
                                simp only [List.cons.injEq] at he
                                rw [he.1] at hd
                                exact absurd hd (by decide)
                              · next he =>
                                simp only [List.cons.injEq] at he
                                rw [← he.1]
                                exact hd
                              · next he => cases he
                            · simp only [List.mem_cons, List.not_mem_nil, or_false, not_or]
                              simp_all

/-- `url(` is followed by a string or by something that is rejected -/
def UrlC : List (CTok Num) → Prop
  | [] => True
  | t :: ts => (isUrlC t = true → ∃ x ts', ts = x :: ts' ∧ ((∃ s, x = .string s) ∨ x = .other)) ∧ UrlC ts

theorem lexAll_quote (N : NumText Num) (n : Nat) (s : Text) (hn : s.length ≤ n) (hq : quoteAhead s = true) :
    ∃ x ts, lexAll N n s = x :: ts ∧ ((∃ t, x = .string t) ∨ x = .other) := by
  induction n generalizing s with
  | zero =>
    cases s with
    | nil => simp [quoteAhead] at hq
    | cons c cs => simp at hn
  | succ n ih =>
    cases s with
    | nil => simp [quoteAhead] at hq
    | cons c cs =>
      rw [lexAll]
      by_cases hw : isWs c = true
      · rw [if_pos hw]
        refine ih cs (by simpa using hn) ?_
        unfold quoteAhead at hq ⊢
        rwa [List.dropWhile_cons_of_pos hw] at hq
      · rw [if_neg hw]
        have hc : c = '"' ∨ c = '\'' := by
          unfold quoteAhead at hq
          rw [List.dropWhile_cons_of_neg hw] at hq
          simpa using hq
        rw [if_neg (by rintro ⟨rfl, _⟩; revert hc; decide)]
        refine ⟨_, _, rfl, ?_⟩
        unfold token
        rw [if_pos hc]
        unfold strTok
        split
        · next t _ => exact Or.inl ⟨t, rfl⟩
        · exact Or.inr rfl

theorem dropComment_suffix (s : Text) : dropComment s <:+ s := by
  induction s using dropComment.induct with
  | case1 r => exact (List.suffix_cons _ _).trans (List.suffix_cons _ _)
  | case2 c r _ ih =>
    rw [dropComment]
    · exact ih.trans (List.suffix_cons _ _)
    · assumption
  | case3 => exact List.suffix_refl _

theorem lexAll_out (N : NumText Num) (n : Nat) (s : Text) (hn : s.length ≤ n) (hb : '\\' ∉ s) :
    (∀ t ∈ lexAll N n s, PlainC t) ∧ UrlC (lexAll N n s) := by
  induction n generalizing s with
  | zero => exact ⟨by intro t ht; simp [lexAll] at ht, trivial⟩
  | succ n ih =>
    cases s with
    | nil => exact ⟨by intro t ht; simp [lexAll] at ht, trivial⟩
    | cons c cs =>
      have hb' : '\\' ∉ cs := fun h => hb (List.mem_cons_of_mem _ h)
      have hn' : cs.length ≤ n := by simpa using hn
      rw [lexAll]
      by_cases hw : isWs c = true
      · rw [if_pos hw]
        exact ih cs hn' hb'
      · rw [if_neg hw]
        by_cases hcm : c = '/' ∧ cs.head? = some '*'
        · rw [if_pos hcm]
          have hs : dropComment cs.tail <:+ cs := (dropComment_suffix _).trans (List.tail_suffix _)
          exact ih _ (Nat.le_trans hs.length_le hn') (not_mem_suffix hs hb')
        · rw [if_neg hcm]
          obtain ⟨h1, h2, h3⟩ := token_out N c cs hb (by simpa using hw)
          have hlen := Nat.le_trans h1.length_le hn'
          have := ih _ hlen (not_mem_suffix h1 hb')
          refine ⟨?_, ?_, this.2⟩
          · intro t ht
            rcases List.mem_cons.1 ht with rfl | ht
            · exact h2
            · exact this.1 t ht
          · intro hu
            exact lexAll_quote N n _ hlen (h3 hu)

open Flair.Vars in
/-- `url(` is followed by a string, in an unresolved value -/
def UrlV : VarTokens Text (VarToken Num) → Prop
  | [] => True
  | t :: ts => (∀ v, t = .token v → isUrl v = true → ∃ s ts', ts = .token (.string s) :: ts') ∧ UrlV ts

theorem varFn_suffix (ts : List (CTok Num)) (p) (h : varFn ts = some p) : p.2 <:+ ts := by
  unfold varFn at h
  split at h
  · split at h
    · cases h; exact List.nil_suffix
    · cases h
  · split at h
    · cases h; exact (List.suffix_cons _ _).trans (List.suffix_cons _ _)
    · cases h
  · cases h

theorem UrlC_suffix {a b : List (CTok Num)} (h : a <:+ b) (hb : UrlC b) : UrlC a := by
  obtain ⟨l, rfl⟩ := h
  induction l with
  | nil => exact hb
  | cons x l ih => exact ih hb.2

open Flair.Vars in
theorem parseTokens_out (n depth : Nat) (ts : List (CTok Num)) (vts) (h : parseTokens n depth ts = some vts)
    (hp : ∀ t ∈ ts, PlainC t) (hu : UrlC ts) :
    (∀ v, VarOrToken.token v ∈ vts → Plain v) ∧ UrlV vts ∧
      ∀ s ts', ts = CTok.string s :: ts' → ∃ vts', vts = .token (.string s) :: vts' := by
  induction n generalizing depth ts vts with
  | zero => cases h
  | succ n ih =>
    cases ts with
    | nil =>
      simp only [parseTokens, Option.some.injEq] at h
      subst h
      refine ⟨?_, ?_, by intro s ts' h; cases h⟩
      · intro v hv
        have := (List.mem_replicate.1 hv).2
        cases this
        trivial
      · induction depth with
        | zero => trivial
        | succ d ih' =>
          refine ⟨?_, ih'⟩
          intro v hv hu
          cases hv
          cases hu
    | cons t ts =>
      rw [parseTokens.eq_def] at h
      dsimp only at h
      split at h
      · cases h
      · have hp' : ∀ t ∈ ts, PlainC t := fun x hx => hp x (List.mem_cons_of_mem _ hx)
        have cons : ∀ (v : VarToken Num) (d' : Nat) (vs), parseTokens n d' ts = some vs → Plain v →
            (isUrl v = true → ∃ s ts', vs = .token (.string s) :: ts') →
            (∀ w, VarOrToken.token w ∈ (.token v :: vs : VarTokens Text (VarToken Num)) → Plain w) ∧
              UrlV (.token v :: vs) := by
          intro v d' vs hvs hv hcond
          obtain ⟨i1, i2, _⟩ := ih d' ts vs hvs hp' hu.2
          refine ⟨?_, ?_, i2⟩
          · intro w hw
            rcases List.mem_cons.1 hw with hw | hw
            · cases hw; exact hv
            · exact i1 w hw
          · intro v' he hu'
            cases he
            exact hcond hu'
        split at h
        · -- closing parenthesis
          split at h
          · cases h
          · next d =>
            simp only [Option.map_eq_some_iff] at h
            obtain ⟨vs, hvs, rfl⟩ := h
            obtain ⟨c1, c2⟩ := cons .endFunction d vs hvs trivial (by intro h; cases h)
            exact ⟨c1, c2, by intro s ts' h; cases h⟩
        · next f _ =>
          split at h
          · simp only [Option.bind_eq_some_iff, Option.map_eq_some_iff] at h
            obtain ⟨p, hvf, vs, hvs, rfl⟩ := h
            have hsuf := varFn_suffix ts p hvf
            obtain ⟨i1, i2, _⟩ := ih depth p.2 vs hvs (fun x hx => hp' x (hsuf.subset hx)) (UrlC_suffix hsuf hu.2)
            refine ⟨?_, ⟨?_, i2⟩, by intro s ts' h; cases h⟩
            · intro w hw
              rcases List.mem_cons.1 hw with hw | hw
              · cases hw
              · exact i1 w hw
            · intro v hv
              cases hv
          · simp only [Option.map_eq_some_iff] at h
            obtain ⟨vs, hvs, rfl⟩ := h
            obtain ⟨c1, c2⟩ := cons (.function f) (depth + 1) vs hvs (hp _ List.mem_cons_self _ rfl) (by
              intro hurl
              obtain ⟨x, ts', hx, hx'⟩ := hu.1 hurl
              rcases hx' with ⟨s, rfl⟩ | rfl
              · obtain ⟨vts', hvts'⟩ := (ih _ ts vs hvs hp' hu.2).2.2 s ts' hx
                exact ⟨s, vts', hvts'⟩
              · subst hx
                cases n with
                | zero => cases hvs
                | succ n =>
                  rw [parseTokens.eq_def] at hvs
                  dsimp only at hvs
                  split at hvs
                  · cases hvs
                  · cases hvs)
            exact ⟨c1, c2, by intro s ts' h; cases h⟩
        · next t' hnc hnf =>
          simp only [Option.bind_eq_some_iff, Option.map_eq_some_iff] at h
          obtain ⟨v, hv, vs, hvs, rfl⟩ := h
          obtain ⟨c1, c2⟩ := cons v depth vs hvs (hp _ List.mem_cons_self v hv) (by
            intro hurl
            exfalso
            cases t <;> cases hv
            all_goals first | cases hurl | exact hnf _ rfl)
          refine ⟨c1, c2, ?_⟩
          intro s ts' he
          cases he
          cases hv
          exact ⟨_, rfl⟩

theorem UrlOk_append {a b : List (VarToken Num)} (ha : UrlOk a) (hb : UrlOk b) : UrlOk (a ++ b) := by
  induction a with
  | nil => exact hb
  | cons t a ih =>
    refine ⟨?_, ih ha.2⟩
    intro hurl
    obtain ⟨s, ts', he⟩ := ha.1 hurl
    exact ⟨s, ts' ++ b, by rw [he]; rfl⟩

open Flair.Vars in
theorem subst_out {env : Text → Option (VarTokens Text (VarToken Num))}
    (henv : ∀ x vts, env x = some vts → (∀ v, VarOrToken.token v ∈ vts → Plain v) ∧ UrlV vts)
    {vts : VarTokens Text (VarToken Num)} {ts : List (VarToken Num)} (h : Subst env vts ts)
    (hp : ∀ v, VarOrToken.token v ∈ vts → Plain v) (hu : UrlV vts) :
    (∀ v ∈ ts, Plain v) ∧ UrlOk ts ∧ ∀ s vts', vts = .token (.string s) :: vts' → ∃ ts', ts = .string s :: ts' := by
  induction h with
  | nil => exact ⟨(by intro v hv; cases hv), trivial, (by intro s vts' h; cases h)⟩
  | token t vts out _ ih =>
    obtain ⟨i1, i2, i3⟩ := ih (fun v hv => hp v (List.mem_cons_of_mem _ hv)) hu.2
    refine ⟨?_, ⟨?_, i2⟩, ?_⟩
    · intro v hv
      rcases List.mem_cons.1 hv with rfl | hv
      · exact hp v List.mem_cons_self
      · exact i1 v hv
    · intro hurl
      obtain ⟨s, vts', he⟩ := hu.1 t rfl hurl
      obtain ⟨ts', ht⟩ := i3 s vts' he
      exact ⟨s, ts', ht⟩
    · intro s vts' he
      cases he
      exact ⟨out, rfl⟩
  | var v vts inner o1 o2 hv _ _ ih1 ih2 =>
    obtain ⟨e1, e2⟩ := henv v inner hv
    obtain ⟨i1, i2, _⟩ := ih1 e1 e2
    obtain ⟨j1, j2, _⟩ := ih2 (fun v hv => hp v (List.mem_cons_of_mem _ hv)) hu.2
    refine ⟨?_, ?_, by intro s vts' h; cases h⟩
    · intro w hw
      rcases List.mem_append.1 hw with hw | hw
      · exact i1 w hw
      · exact j1 w hw
    · exact UrlOk_append i2 j2

end Flair.Proofs.CssToken
