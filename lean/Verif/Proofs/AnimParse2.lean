import Verif.Proofs.AnimParse
/-!
# Lemmas for C88: lists and declarations
-/
namespace Flair.Proofs.AnimParse
open Flair.Shorthand Flair.AnimParse Flair.AnimProps Flair.Animation Flair.Spec Flair.Proofs.Parse Flair.Proofs.Gradient
open Flair.Calc (Res)
open Flair.Gradient (commaLoop commaSep commaRounds)

variable {α : Type}

theorem commaLoop_sound {p : P α} {Form : List Tok → α → Prop}
    (hs : ∀ ts a rest, p ts = .ok (a, rest) → ∃ us, ts = us ++ rest ∧ Form us a) {n : Nat} {ts rest : List Tok} {as : List α}
    (h : commaLoop p n ts = .ok (as, rest)) : ∃ us, ts = us ++ rest ∧ Commas Form us as := by
  induction n generalizing ts as with
  | zero =>
    obtain ⟨rfl, rfl⟩ := pure_ok_iff.1 h
    exact ⟨[], rfl, .nil⟩
  | succ n ih =>
    simp only [commaLoop, bind_ok_iff, tryP_ok_iff] at h
    obtain ⟨o, ts', ⟨_, rfl, hq⟩ | ⟨rfl, rfl, _⟩, hf⟩ := h
    · obtain rfl := comma_iff.1 hq
      simp only [bind_ok_iff, pure_ok_iff] at hf
      obtain ⟨a, _, ha, as', _, hl, rfl, rfl⟩ := hf
      obtain ⟨us, rfl, hu⟩ := hs _ _ _ ha
      obtain ⟨vs, rfl, hv⟩ := ih hl
      exact ⟨.comma :: (us ++ vs), by simp, .cons hu hv⟩
    · obtain ⟨rfl, rfl⟩ := pure_ok_iff.1 hf
      exact ⟨[], rfl, .nil⟩

theorem commaLoop_complete {p : P α} {Form : List Tok → α → Prop} {imp : Bool}
    (hc : ∀ us a rest, Form us a → Stop imp rest → p (us ++ rest) = .ok (a, rest)) {n : Nat} {us : List Tok} {as : List α}
    (h : Commas Form us as) (hn : us.length ≤ n) : commaLoop p n (us ++ declEnd imp) = .ok (as, declEnd imp) := by
  induction h generalizing n with
  | nil =>
    cases n with
    | zero => rfl
    | succ n =>
      simp only [commaLoop, List.nil_append]
      rw [bind_run, tryP_err (comma_end imp)]
      rfl
  | @cons us a vs as hu hv ih =>
    cases n with
    | zero => simp at hn
    | succ n =>
      have h1 : comma (.comma :: (us ++ vs) ++ declEnd imp) = .ok ((), us ++ (vs ++ declEnd imp)) := by simp [comma, tok1, commaTok]
      have hst : Stop imp (vs ++ declEnd imp) := by
        cases hv with
        | nil => exact .inl rfl
        | cons => exact .inr ⟨_, rfl⟩
      have h2 := hc us a _ hu hst
      have h3 := ih (n := n) (by simp at hn; omega)
      simp only [commaLoop]
      rw [bind_run, tryP_ok h1]
      simp [bind_run, pure_run, h2, h3]

theorem values_sound {p : P α} {Form : List Tok → α → Prop}
    (hs : ∀ ts a rest, p ts = .ok (a, rest) → ∃ us, ts = us ++ rest ∧ Form us a) {ts : List Tok} {vs : List α}
    (h : values p ts = .ok vs) : ∃ imp us, ts = us ++ declEnd imp ∧ CommaSep Form us vs := by
  have := entirely_ok h
  simp only [bind_ok_iff, pure_ok_iff, commaSep, commaRounds] at this
  obtain ⟨vs', rest, ⟨a, r1, ha, as, r2, hl, rfl, rfl⟩, i, r3, hi, rfl, rfl⟩ := this
  obtain rfl := important_nil hi
  obtain ⟨us, rfl, hu⟩ := hs _ _ _ ha
  obtain ⟨ws, rfl, hw⟩ := commaLoop_sound hs hl
  exact ⟨i, us ++ ws, by simp, commaSep_commas.2 ⟨us, ws, rfl, hu, hw⟩⟩

theorem values_complete {p : P α} {Form : List Tok → α → Prop} {imp : Bool}
    (hc : ∀ us a rest, Form us a → Stop imp rest → p (us ++ rest) = .ok (a, rest)) {us : List Tok} {vs : List α}
    (h : CommaSep Form us vs) : values p (us ++ declEnd imp) = .ok vs := by
  unfold values
  apply entirely_of
  cases vs with
  | nil => cases h
  | cons a as =>
    obtain ⟨u, v, rfl, hu, hv⟩ := commaSep_commas.1 h
    have hst : Stop imp (v ++ declEnd imp) := by
      cases hv with
      | nil => exact .inl rfl
      | cons => exact .inr ⟨_, rfl⟩
    have h1 := hc u a _ hu hst
    have h2 : commaRounds p (v ++ declEnd imp) = .ok (as, declEnd imp) :=
      commaLoop_complete hc hv (by simp)
    simp [commaSep, bind_run, pure_run, h1, h2, important_end]

theorem one_ok {f : Tok → Res α} {ts rest : List Tok} {a : α} :
    one f ts = .ok (a, rest) ↔ ∃ t, ts = t :: rest ∧ f t = .ok a := by
  cases ts with
  | nil => simp [one]
  | cons t ts =>
    simp only [one]
    cases h : f t <;> simp [Calc.Res.bind, h]
    constructor
    · rintro ⟨rfl, rfl⟩; exact ⟨rfl, rfl⟩
    · rintro ⟨rfl, rfl⟩; exact ⟨rfl, rfl⟩

theorem values_one {f : Tok → Res α} {ts : List Tok} {vs : List α} :
    values (one f) ts = .ok vs ↔ ListText (fun v t => f t = .ok v) ts vs := by
  constructor
  · intro h
    obtain ⟨imp, us, rfl, hu⟩ := values_sound (Form := fun us v => ∃ t, us = [t] ∧ f t = .ok v) (by
      intro ts a rest h
      obtain ⟨t, rfl, ht⟩ := one_ok.1 h
      exact ⟨[t], rfl, t, rfl, ht⟩) h
    exact ⟨imp, us, rfl, hu⟩
  · rintro ⟨imp, us, rfl, hu⟩
    refine values_complete (Form := fun us v => ∃ t, us = [t] ∧ f t = .ok v) ?_ hu
    rintro us a rest ⟨t, rfl, ht⟩ _
    exact one_ok.2 ⟨t, rfl, ht⟩

theorem bind_panic_iff {β : Type} {p : P α} {f : α → P β} {ts : List Tok} :
    (p >>= f) ts = .panic ↔ p ts = .panic ∨ ∃ a rest, p ts = .ok (a, rest) ∧ f a rest = .panic := by
  rw [bind_run]
  cases h : p ts with
  | panic => simp
  | err => simp
  | ok r => obtain ⟨a, rest⟩ := r; simp

theorem nested_panic {p : P α} {ts : List Tok} (h : nested p ts = .panic) : p ts = .panic := by
  unfold nested at h
  cases hp : p ts with
  | panic => rfl
  | err => simp [hp, Calc.Res.bind] at h
  | ok r => simp only [hp, Calc.Res.bind] at h; split at h <;> simp at h

theorem tryP_panic {p : P α} {ts : List Tok} (h : tryP p ts = .panic) : p ts = .panic := by
  unfold tryP at h
  split at h <;> simp_all

/-- Panics come from tokens of the text. -/
theorem values_panic {p : P α} {Bad : Tok → Prop} (hp : ∀ ts, p ts = .panic → ∃ t ∈ ts, Bad t)
    (hs : ∀ ts a rest, p ts = .ok (a, rest) → ∃ us, ts = us ++ rest) {ts : List Tok} (h : values p ts = .panic) :
    ∃ t ∈ ts, Bad t := by
  have hloop : ∀ n ts, commaLoop p n ts = .panic → ∃ t ∈ ts, Bad t := by
    intro n
    induction n with
    | zero => intro ts h; cases h
    | succ n ih =>
      intro ts h
      simp only [commaLoop, bind_panic_iff] at h
      rcases h with h | ⟨o, rest, ho, h⟩
      · exact absurd (tryP_panic h) (calm_tok1 _ _)
      · rcases tryP_ok_iff.1 ho with ⟨_, rfl, hq⟩ | ⟨rfl, rfl, _⟩
        · obtain rfl := comma_iff.1 hq
          simp only [bind_panic_iff] at h
          rcases h with h | ⟨a, r1, ha, h | ⟨_, _, _, h⟩⟩
          · obtain ⟨t, h1, h2⟩ := hp _ h; exact ⟨t, by simp [h1], h2⟩
          · obtain ⟨us, rfl⟩ := hs _ _ _ ha
            obtain ⟨t, h1, h2⟩ := ih _ h; exact ⟨t, by simp [h1], h2⟩
          · cases h
        · cases h
  have h' := nested_panic h
  clear h
  simp only [commaSep, bind_panic_iff] at h'
  rcases h' with (h | ⟨a, r1, ha, h | ⟨_, _, _, h⟩⟩) | ⟨_, _, _, h | ⟨_, _, _, h⟩⟩
  · exact hp _ h
  · obtain ⟨us, rfl⟩ := hs _ _ _ ha
    obtain ⟨t, h1, h2⟩ := hloop _ _ h; exact ⟨t, by simp [h1], h2⟩
  · cases h
  · exact absurd h (important_no_panic _)
  · cases h

theorem one_panic {f : Tok → Res α} {ts : List Tok} (h : one f ts = .panic) : ∃ t ∈ ts, f t = .panic := by
  cases ts with
  | nil => cases h
  | cons t ts =>
    simp only [one] at h
    refine ⟨t, by simp, ?_⟩
    cases hf : f t <;> simp [hf, Calc.Res.bind] at h ⊢

theorem early_panic {r : List (AId × Value)} {t : Tok} (h : firstOf t (early r) = .panic) : HugeTime t := by
  obtain ⟨f, hf, hc⟩ := firstOf_panic h
  simp only [early, List.mem_cons, Prod.mk.injEq, List.not_mem_nil, or_false] at hf
  rcases hf with ⟨hb, rfl⟩ | ⟨hb, rfl⟩ | ⟨hb, rfl⟩ | ⟨hb, rfl⟩ | ⟨hb, rfl⟩ <;> have hc := comp_panic hc
  · exact duration_panic.1 hc
  · exact duration_panic.1 hc
  · exact absurd hc keywordOf_panic
  · exact absurd hc keywordOf_panic
  · exact absurd hc count_panic

theorem name_panic {t : Tok} : name t ≠ .panic := by unfold name; split <;> simp
theorem property_panic {t : Tok} : property t ≠ .panic := by unfold property; split <;> simp

theorem play_panic {r : List (AId × Value)} {t : Tok} : firstOf t (play r) ≠ .panic := by
  intro h
  obtain ⟨f, hf, hc⟩ := firstOf_panic h
  simp only [play, List.mem_cons, Prod.mk.injEq, List.not_mem_nil, or_false] at hf
  obtain ⟨hb, rfl⟩ := hf
  exact absurd (comp_panic hc) keywordOf_panic

theorem late_panic {r : List (AId × Value)} {t : Tok} : firstOf t (late r) ≠ .panic := by
  intro h
  obtain ⟨f, hf, hc⟩ := firstOf_panic h
  simp only [late, List.mem_cons, Prod.mk.injEq, List.not_mem_nil, or_false] at hf
  rcases hf with ⟨hb, rfl⟩ | ⟨hb, rfl⟩
  · exact absurd (comp_panic hc) (timing_panic _)
  · exact absurd (comp_panic hc) name_panic

theorem tComps_panic {r : List (TId × Value)} {t : Tok} (h : firstOf t (tComps r) = .panic) : HugeTime t := by
  obtain ⟨f, hf, hc⟩ := firstOf_panic h
  simp only [tComps, List.mem_cons, Prod.mk.injEq, List.not_mem_nil, or_false] at hf
  rcases hf with ⟨hb, rfl⟩ | ⟨hb, rfl⟩ | ⟨hb, rfl⟩ | ⟨hb, rfl⟩ <;> have hc := comp_panic hc
  · exact duration_panic.1 hc
  · exact duration_panic.1 hc
  · exact absurd hc (timing_panic _)
  · exact absurd hc property_panic

theorem aLoop_panic {ts : List Tok} {played : Bool} {r : List (AId × Value)} (h : aLoop played r ts = .panic) :
    ∃ t ∈ ts, HugeTime t := by
  induction ts generalizing played r with
  | nil => cases h
  | cons t ts ih =>
    have up : ∀ b r', aLoop b r' ts = .panic → ∃ x ∈ t :: ts, HugeTime x := by
      intro b r' hl
      obtain ⟨x, h1, h2⟩ := ih hl
      exact ⟨x, by simp [h1], h2⟩
    rw [aLoop] at h
    have last : ∀ r1 : Res (Option (AId × Value)), r1 = firstOf t (late r) → (r1.bind fun
        | some c => aLoop false (r ++ [c]) ts
        | none => .ok (r, t :: ts)) = .panic → ∃ x ∈ t :: ts, HugeTime x := by
      intro r1 hr1 hl
      cases r1 with
      | err => cases hl
      | panic => exact absurd hr1.symm late_panic
      | ok o =>
        cases o with
        | none => cases hl
        | some c => exact up _ _ hl
    cases played with
    | true =>
      simp only [if_true, Calc.Res.bind] at h
      exact last _ rfl h
    | false =>
      simp only [Bool.false_eq_true, if_false] at h
      cases he : firstOf t (early r) with
      | err => rw [he] at h; cases h
      | panic => exact ⟨t, by simp, early_panic he⟩
      | ok o =>
        rw [he] at h
        cases o with
        | some c => exact up _ _ h
        | none =>
          simp only [Calc.Res.bind] at h
          cases hp : firstOf t (play r) with
          | err => rw [hp] at h; cases h
          | panic => exact absurd hp play_panic
          | ok o =>
            rw [hp] at h
            cases o with
            | some c => exact up _ _ h
            | none => exact last _ rfl h

theorem tLoop_panic {ts : List Tok} {r : List (TId × Value)} (h : tLoop r ts = .panic) : ∃ t ∈ ts, HugeTime t := by
  induction ts generalizing r with
  | nil => cases h
  | cons t ts ih =>
    rw [tLoop] at h
    cases he : firstOf t (tComps r) with
    | err => rw [he] at h; cases h
    | panic => exact ⟨t, by simp, tComps_panic he⟩
    | ok o =>
      rw [he] at h
      cases o with
      | none => cases h
      | some c =>
        obtain ⟨x, h1, h2⟩ := ih h
        exact ⟨x, by simp [h1], h2⟩

theorem helper_specific {vt : List Tok → Option (List Tok)} {p : P α} {ts : List Tok} {vs : List α} :
    helper vt p ts = .ok (.specific vs) ↔ values p ts = .ok vs := by
  unfold helper
  cases h : values p ts with
  | ok a => simp
  | panic => simp
  | err =>
    simp only [reduceCtorEq, iff_false]
    split
    · rw [orErr_ok]; cases vt ts <;> simp
    · simp

theorem helper_panic {vt : List Tok → Option (List Tok)} {p : P α} {ts : List Tok} (h : helper vt p ts = .panic) :
    values p ts = .panic := by
  unfold helper at h
  split at h
  · cases h
  · split at h
    · exact absurd h orErr_panic
    · cases h
  · assumption

theorem bind_ok {β : Type} {r : Res α} {f : α → Res β} {b : β} : r.bind f = .ok b ↔ ∃ a, r = .ok a ∧ f a = .ok b := by
  cases r <;> simp [Calc.Res.bind]

theorem bind_panic {β : Type} {r : Res α} {f : α → Res β} : r.bind f = .panic ↔ r = .panic ∨ ∃ a, r = .ok a ∧ f a = .panic := by
  cases r <;> simp [Calc.Res.bind]

theorem longhand_specific {P : Type} {vt : List Tok → Option (List Tok)} {p p' : P} {mk : α → Value} {f : Tok → Res α}
    {ts : List Tok} {vs : List Value} : longhand vt p mk f ts = .ok (.single p' (.specific vs)) ↔
      p' = p ∧ ListText (fun v t => ∃ a, f t = .ok a ∧ v = mk a) ts vs := by
  have e : (fun (v : Value) t => ((f t).bind fun v => .ok (mk v)) = .ok v) = fun v t => ∃ a, f t = .ok a ∧ v = mk a := by
    funext v t
    refine propext ⟨fun h => ?_, fun ⟨a, h, e⟩ => bind_ok.2 ⟨a, h, by rw [e]⟩⟩
    obtain ⟨a, h, e⟩ := bind_ok.1 h
    exact ⟨a, h, by cases e; rfl⟩
  rw [← e, ← values_one]
  unfold longhand
  constructor
  · intro h
    obtain ⟨a, h, e⟩ := bind_ok.1 h
    cases e
    exact ⟨rfl, helper_specific.1 h⟩
  · rintro ⟨rfl, h⟩
    exact bind_ok.2 ⟨_, helper_specific.2 h, rfl⟩

theorem longhand_single {P : Type} {vt : List Tok → Option (List Tok)} {p : P} {mk : α → Value} {f : Tok → Res α}
    {ts : List Tok} {d : Flair.AnimParse.Decl P} (h : longhand vt p mk f ts = .ok d) : ∃ vs, d = .single p vs := by
  obtain ⟨a, h, e⟩ := bind_ok.1 h
  cases e
  exact ⟨_, rfl⟩

theorem longhand_panic {P : Type} {vt : List Tok → Option (List Tok)} {p : P} {mk : α → Value} {f : Tok → Res α}
    {ts : List Tok} (h : longhand vt p mk f ts = .panic) : ∃ t ∈ ts, f t = .panic := by
  rcases bind_panic.1 h with h | ⟨_, _, h⟩
  · refine values_panic (Bad := fun t => f t = .panic) ?_ ?_ (helper_panic h)
    · intro ts h
      obtain ⟨t, ht, h⟩ := one_panic h
      refine ⟨t, ht, ?_⟩
      rcases bind_panic.1 h with h | ⟨_, _, h⟩
      · exact h
      · cases h
    · intro ts a rest h
      obtain ⟨t, rfl, _⟩ := one_ok.1 h
      exact ⟨[t], rfl⟩
  · cases h

theorem noneAlone_some {P : Type} {p : P} {ts : List Tok} (h : BeginsNone ts) : ∃ rest, ts.tail = rest ∧
    noneAlone p ts = some ((nested important rest).bind fun _ => .ok (.single p (.specific []))) := by
  obtain ⟨s, rest, rfl, hs⟩ := h
  refine ⟨rest, rfl, ?_⟩
  simp [noneAlone, lower_iff.2 hs]

theorem noneAlone_none {P : Type} {p : P} {ts : List Tok} (h : ¬ BeginsNone ts) : noneAlone p ts = none := by
  unfold noneAlone
  split
  · rename_i s rest
    rw [if_neg]
    intro hs
    exact h ⟨s, rest, rfl, lower_iff.1 hs⟩
  · rfl

theorem nested_important {ts : List Tok} {b : Bool} : nested important ts = .ok b ↔ ts = declEnd b := by
  constructor
  · intro h
    exact important_nil (entirely_ok h)
  · rintro rfl
    exact entirely_of (important_end b)

theorem namesDecl_specific {P : Type} {vt : List Tok → Option (List Tok)} {p p' : P} {f : Tok → Res String}
    {ts : List Tok} {vs : List Value} : namesDecl vt p f ts = .ok (.single p' (.specific vs)) ↔
      p' = p ∧ NamesText (fun v t => ∃ a, f t = .ok a ∧ v = .name a) ts vs := by
  unfold namesDecl
  by_cases hb : BeginsNone ts
  · obtain ⟨rest, hr, e⟩ := noneAlone_some (p := p) hb
    rw [e, Option.getD_some]
    obtain ⟨s, rest', rfl, hs⟩ := hb
    obtain rfl : rest' = rest := hr
    constructor
    · intro h
      obtain ⟨b, hb, e⟩ := bind_ok.1 h
      cases e
      exact ⟨rfl, .inr ⟨rfl, b, s, by rw [nested_important.1 hb], hs⟩⟩
    · rintro ⟨rfl, ⟨_, h⟩ | ⟨rfl, imp, s', e, h⟩⟩
      · exact absurd ⟨s, _, rfl, hs⟩ h
      · cases e
        exact bind_ok.2 ⟨imp, nested_important.2 rfl, rfl⟩
  · rw [noneAlone_none hb, Option.getD_none, longhand_specific]
    constructor
    · rintro ⟨rfl, h⟩; exact ⟨rfl, .inl ⟨h, hb⟩⟩
    · rintro ⟨rfl, ⟨h, _⟩ | ⟨_, imp, s, rfl, hs⟩⟩
      · exact ⟨rfl, h⟩
      · exact absurd ⟨s, _, rfl, hs⟩ hb

theorem namesDecl_single {P : Type} {vt : List Tok → Option (List Tok)} {p : P} {f : Tok → Res String}
    {ts : List Tok} {d : Flair.AnimParse.Decl P} (h : namesDecl vt p f ts = .ok d) : ∃ vs, d = .single p vs := by
  unfold namesDecl at h
  by_cases hb : BeginsNone ts
  · obtain ⟨rest, hr, e⟩ := noneAlone_some (p := p) hb
    rw [e, Option.getD_some] at h
    obtain ⟨b, hb, e⟩ := bind_ok.1 h
    cases e
    exact ⟨_, rfl⟩
  · rw [noneAlone_none hb, Option.getD_none] at h
    exact longhand_single h

theorem namesDecl_panic {P : Type} {vt : List Tok → Option (List Tok)} {p : P} {f : Tok → Res String}
    {ts : List Tok} (h : namesDecl vt p f ts = .panic) : ∃ t ∈ ts, f t = .panic := by
  unfold namesDecl at h
  by_cases hb : BeginsNone ts
  · obtain ⟨rest, hr, e⟩ := noneAlone_some (p := p) hb
    rw [e, Option.getD_some] at h
    rcases bind_panic.1 h with h | ⟨_, _, h⟩
    · exact absurd (nested_panic h) (important_no_panic _)
    · cases h
  · rw [noneAlone_none hb, Option.getD_none] at h
    exact longhand_panic h

theorem ListText.congr {V : Type} {A B : V → Tok → Prop} (h : ∀ v t, A v t ↔ B v t) {ts : List Tok} {vs : List V} :
    ListText A ts vs ↔ ListText B ts vs := by
  have : A = B := by funext v t; exact propext (h v t)
  rw [this]

theorem NamesText.congr {A B : Value → Tok → Prop} (h : ∀ v t, A v t ↔ B v t) {ts : List Tok} {vs : List Value} :
    NamesText A ts vs ↔ NamesText B ts vs := by
  have : A = B := by funext v t; exact propext (h v t)
  rw [this]

theorem hasVars_iff {ts : List Tok} : hasVars ts = true ↔ ∃ t ∈ ts, hasVar t = true := by
  induction ts with
  | nil => simp [hasVars]
  | cons t ts ih => simp [hasVars, ih]

theorem hasVar_of {t : Tok} (h : UsesVar t) : hasVar t = true := by
  induction h with
  | var h => simp [hasVar, lower_iff.2 h]
  | env h => simp [hasVar, lower_iff.2 h]
  | inFunction h _ ih => simp only [hasVar, hasVars_iff.2 ⟨_, h, ih⟩, Bool.or_true]
  | inParens h _ ih => simp only [hasVar, hasVars_iff.2 ⟨_, h, ih⟩]

mutual
theorem hasVar_uses {t : Tok} (h : hasVar t = true) : UsesVar t := by
  match t with
  | .func f args =>
    simp only [hasVar, Bool.or_eq_true, decide_eq_true_eq] at h
    rcases h with (h | h) | h
    · exact .var (lower_iff.1 h)
    · exact .env (lower_iff.1 h)
    · obtain ⟨t, ht, h⟩ := hasVars_uses h
      exact .inFunction ht h
  | .paren ts =>
    simp only [hasVar] at h
    obtain ⟨t, ht, h⟩ := hasVars_uses h
    exact .inParens ht h
theorem hasVars_uses {ts : List Tok} (h : hasVars ts = true) : ∃ t ∈ ts, UsesVar t := by
  match ts with
  | t :: ts =>
    simp only [hasVars, Bool.or_eq_true] at h
    rcases h with h | h
    · exact ⟨t, by simp, hasVar_uses h⟩
    · obtain ⟨t', ht, h⟩ := hasVars_uses h
      exact ⟨t', by simp [ht], h⟩
end

theorem uses_iff {ts : List Tok} : hasVars ts = true ↔ ∃ t ∈ ts, UsesVar t := by
  refine ⟨hasVars_uses, fun ⟨t, ht, h⟩ => hasVars_iff.2 ⟨t, ht, hasVar_of h⟩⟩

end Flair.Proofs.AnimParse
