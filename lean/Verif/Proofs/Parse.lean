import Verif.Spec.Longhand
import Verif.Props.Shorthand2
/-!
# Lemmas on parsers that read one token, and on loops
-/
namespace Flair.Proofs.Parse
open Flair.Calc Flair.Values Flair.Shorthand Flair.Longhand Flair.Spec

variable {α β K X : Type}

/-- The parser reads one token. -/
def OneTok (p : P α) (R : Tok → α → Prop) : Prop :=
  ∀ ts v rest, p ts = .ok (v, rest) ↔ ∃ t, ts = t :: rest ∧ R t v

theorem one_number : OneTok calcF32 IsNumberTok := by
  intro ts v rest
  constructor
  · exact Props.calcP_ok
  · rintro ⟨t, rfl, h⟩; exact Props.calcP_head h

theorem one_length : OneTok calcVal IsLengthTok := by
  intro ts v rest
  constructor
  · exact Props.calcP_ok
  · rintro ⟨t, rfl, h⟩; exact Props.calcP_head h

theorem one_angle : OneTok calcAngle IsAngleTok := by
  intro ts v rest
  constructor
  · exact Props.calcP_ok
  · rintro ⟨t, rfl, h⟩; exact Props.calcP_head h

theorem one_tok1 (f : Tok → Option α) : OneTok (tok1 f) fun t v => f t = some v := by
  intro ts v rest
  cases ts with
  | nil => simp [tok1_nil]
  | cons t ts =>
    rw [tok1_cons]
    cases h : f t with
    | none => simp [h]
    | some a => simp [h]; grind

theorem tok1_err_iff {f : Tok → Option α} {ts : List Tok} : tok1 f ts = .err ↔ ∀ t ∈ ts.head?, f t = none := by
  cases ts with
  | nil => simp [tok1_nil]
  | cons t ts => rw [tok1_cons]; cases h : f t <;> simp [h]

theorem calcP_head_err {T : Type} {value : Tok → Option T} {o : Ops T} {t : Tok}
    (h : calcP value o [t] = .err) (ts : List Tok) : calcP value o (t :: ts) = .err := by
  simp only [calcP] at h ⊢
  cases hr : parseCalcValue (onCalc value) o (toCalc t) with
  | ok w => rw [hr] at h; cases h
  | err => rfl
  | panic => rw [hr] at h; cases h

theorem tryP_ok_iff {p : P α} {ts rest : List Tok} {o : Option α} :
    tryP p ts = .ok (o, rest) ↔ (∃ a, o = some a ∧ p ts = .ok (a, rest)) ∨ (o = none ∧ rest = ts ∧ p ts = .err) := by
  constructor
  · exact tryP_cases
  · rintro (⟨a, rfl, h⟩ | ⟨rfl, rfl, h⟩)
    · exact tryP_ok h
    · exact tryP_err h

theorem pure_ok_iff {a b : α} {ts rest : List Tok} : (pure a : P α) ts = .ok (b, rest) ↔ a = b ∧ ts = rest := by
  simp [pure_run]

theorem noneOr_ok_iff {v w : α} {p : P α} {ts rest : List Tok} :
    noneOr v p ts = .ok (w, rest) ↔ (ts = .ident "none" :: rest ∧ w = v) ∨
      ((∀ rest, ts ≠ .ident "none" :: rest) ∧ p ts = .ok (w, rest)) := by
  have key : identIs "none" ts = .err ↔ ∀ rest, ts ≠ .ident "none" :: rest := by
    unfold identIs
    rw [tok1_err_iff]
    cases ts with
    | nil => simp
    | cons t ts => cases t <;> simp [identTok]
  simp only [noneOr, bind_ok_iff, tryP_ok_iff]
  constructor
  · rintro ⟨o, ts', ⟨a, rfl, h⟩ | ⟨rfl, rfl, h⟩, hf⟩
    · obtain ⟨t, rfl, ht⟩ := (one_tok1 _ _ _ _).1 h
      cases hf
      cases t <;> simp [identTok] at ht
      subst ht
      exact .inl ⟨rfl, rfl⟩
    · exact .inr ⟨key.1 h, hf⟩
  · rintro (⟨rfl, rfl⟩ | ⟨h, hf⟩)
    · exact ⟨some (), rest, .inl ⟨(), rfl, rfl⟩, rfl⟩
    · exact ⟨none, ts, .inr ⟨rfl, rfl, key.2 h⟩, hf⟩

theorem number_ident {s : String} {q : ℚ} (h : IsNumberTok (.ident s) q) : False := by
  unfold IsNumberTok calcF32 at h
  rw [calcP_plain _ _ (by simp [Plain1]) (by intros; rfl)] at h
  cases h

theorem length_ident {s : String} {v : Val} (h : IsLengthTok (.ident s) v) : s = "auto" ∧ v = .auto := by
  unfold IsLengthTok calcVal at h
  rw [calcP_plain _ _ (by simp [Plain1]) (by intros; rfl)] at h
  simp only [valTok] at h
  split at h
  · rename_i hs
    split at hs
    · cases hs; cases h; exact ⟨by assumption, rfl⟩
    · cases hs
  · cases h

theorem number_value : ValueParser calcF32 where
  empty := rfl
  bang ts := by unfold calcF32; rw [calcP_plain _ _ (by simp [Plain1]) (by intros; rfl)]; rfl
  global k hk ts := by unfold calcF32; rw [calcP_plain _ _ (by simp [Plain1]) (by intros; rfl)]; rfl

theorem length_value : ValueParser calcVal where
  empty := rfl
  bang ts := by unfold calcVal; rw [calcP_plain _ _ (by simp [Plain1]) (by intros; rfl)]; rfl
  global k hk ts := by
    unfold calcVal; rw [calcP_plain _ _ (by simp [Plain1]) (by intros; rfl)]
    simp only [List.mem_cons, List.not_mem_nil, or_false] at hk
    rcases hk with rfl | rfl | rfl <;> rfl

theorem length_comma (ts : List Tok) : calcVal (.comma :: ts) = .err := by
  unfold calcVal; rw [calcP_plain _ _ (by simp [Plain1]) (by intros; rfl)]; rfl

theorem number_comma (ts : List Tok) : calcF32 (.comma :: ts) = .err := by
  unfold calcF32; rw [calcP_plain _ _ (by simp [Plain1]) (by intros; rfl)]; rfl

theorem number_slash (ts : List Tok) : calcF32 (.delim '/' :: ts) = .err := by
  unfold calcF32; rw [calcP_plain _ _ (by simp [Plain1]) (by intros; rfl)]; rfl

/-- A declaration is a global keyword, or a value and the end. -/
theorem declareP_iff {p : P (RV X)} (hp : ValueParser p) {Form : List Tok → RV X → Prop}
    (h : ∀ ts imp v, p ts = .ok (v, declEnd imp) ↔ ∃ us, ts = us ++ declEnd imp ∧ Form us v) {ts : List Tok}
    {pv : PropertyValue (RV X)} {imp : Bool} : declareP p ts = .ok (pv, imp) ↔ DeclaredAs Form ts pv imp := by
  unfold declareP
  constructor
  · intro hd
    have := entirely_ok hd
    simp only [bind_ok_iff, pure_ok_iff] at this
    obtain ⟨v, ts', hv, i, ts'', hi, he, rfl⟩ := this
    cases he
    obtain rfl := important_nil hi
    cases (propValue_iff hp).1 hv with
    | keyword hk => exact .keyword hk
    | value hv =>
      obtain ⟨us, rfl, hu⟩ := (h _ _ _).1 hv
      exact .value hu
  · intro hd
    refine entirely_of ?_
    simp only [bind_ok_iff, pure_ok_iff]
    cases hd with
    | keyword hk => exact ⟨_, _, propValue_keyword hk _, _, _, important_end _, rfl, rfl⟩
    | value hu => exact ⟨_, _, propValue_value hp ((h _ _ _).2 ⟨_, rfl, hu⟩), _, _, important_end _, rfl, rfl⟩

/-! ## Loops -/

/-- The parser takes at least one token, and fails without one. -/
structure Takes (p : P α) : Prop where
  empty : p [] = .err
  takes : ∀ ts v rest, p ts = .ok (v, rest) → rest.length < ts.length

theorem manyLoop_of {p : P α} {n : Nat} {ts rest : List Tok} {vs : List α} (hp : Takes p) (h : ReadsAll p ts vs rest)
    (hn : ts.length ≤ n) (he : p rest = .err) : manyLoop p n ts = .ok (vs, rest) := by
  induction h generalizing n with
  | done rest =>
    cases n with
    | zero => cases List.eq_nil_of_length_eq_zero (Nat.le_zero.1 hn); rfl
    | succ n => simp [manyLoop, bind_run, tryP_err he, pure_run]
  | more h hs ih =>
    have := hp.takes _ _ _ h
    cases n with
    | zero => omega
    | succ n => simp [manyLoop, bind_run, tryP_ok h, ih (n := n) (by omega) he, pure_run]

theorem manyLoop_ok {p : P α} {n : Nat} {ts rest : List Tok} {vs : List α} (hp : Takes p) (hn : ts.length ≤ n)
    (h : manyLoop p n ts = .ok (vs, rest)) : ReadsAll p ts vs rest ∧ p rest = .err := by
  induction n generalizing ts vs with
  | zero =>
    cases List.eq_nil_of_length_eq_zero (Nat.le_zero.1 hn)
    cases h
    exact ⟨.done _, hp.empty⟩
  | succ n ih =>
    simp only [manyLoop, bind_ok_iff] at h
    obtain ⟨o, ts', ho, hf⟩ := h
    rcases tryP_cases ho with ⟨a, rfl, h'⟩ | ⟨rfl, rfl, h'⟩
    · simp only [bind_ok_iff, pure_ok_iff] at hf
      obtain ⟨vs', ts'', hv, rfl, rfl⟩ := hf
      have := hp.takes _ _ _ h'
      obtain ⟨h1, h2⟩ := ih (by omega) hv
      exact ⟨.more h' h1, h2⟩
    · cases hf
      exact ⟨.done _, h'⟩

theorem loop_iff {p : P α} (hp : Takes p) {ts rest : List Tok} {vs : List α} :
    loop p ts = .ok (vs, rest) ↔ ReadsAll p ts vs rest ∧ p rest = .err :=
  ⟨fun h => manyLoop_ok hp (Nat.le_refl _) h, fun h => manyLoop_of hp h.1 (Nat.le_refl _) h.2⟩

theorem many_iff {p : P α} (hp : Takes p) {ts rest : List Tok} {vs : List α} :
    many p ts = .ok (vs, rest) ↔ vs ≠ [] ∧ ReadsAll p ts vs rest ∧ p rest = .err := by
  simp only [many, bind_ok_iff, loop_iff hp, pure_ok_iff]
  constructor
  · rintro ⟨v, ts', hv, vs', ts'', ⟨h1, h2⟩, rfl, rfl⟩
    exact ⟨by simp, .more hv h1, h2⟩
  · rintro ⟨hn, h1, h2⟩
    cases h1 with
    | done => exact absurd rfl hn
    | more h hs => exact ⟨_, _, h, _, _, ⟨hs, h2⟩, rfl, rfl⟩

theorem takes_one {p : P α} {R : Tok → α → Prop} (h : OneTok p R) (he : p [] = .err) : Takes p where
  empty := he
  takes ts v rest hv := by obtain ⟨t, rfl, _⟩ := (h _ _ _).1 hv; simp

theorem readsAll_one {p : P α} {R : Tok → α → Prop} (h : OneTok p R) {ts rest : List Tok} {vs : List α} :
    ReadsAll p ts vs rest ↔ ∃ us, ts = us ++ rest ∧ List.Forall₂ R us vs := by
  constructor
  · intro hr
    induction hr with
    | done rest => exact ⟨[], rfl, .nil⟩
    | more h' _ ih =>
      obtain ⟨t, rfl, ht⟩ := (h _ _ _).1 h'
      obtain ⟨us, rfl, hu⟩ := ih
      exact ⟨t :: us, rfl, .cons ht hu⟩
  · rintro ⟨us, rfl, hu⟩
    induction hu with
    | nil => exact .done _
    | cons ht _ ih => exact .more ((h _ _ _).2 ⟨_, rfl, ht⟩) ih

theorem readsAll_length {p : P α} {R : Tok → α → Prop} (h : OneTok p R) {ts rest : List Tok} {vs ws : List α}
    (hv : ReadsAll p ts vs rest) (hw : ReadsAll p ts ws rest) : vs.length = ws.length := by
  obtain ⟨us, rfl, hu⟩ := (readsAll_one h).1 hv
  obtain ⟨us', e, hu'⟩ := (readsAll_one h).1 hw
  have := List.append_cancel_right e
  rw [← hu.length_eq, ← hu'.length_eq, this]

theorem moreValues_stops {p : P α} {n : Nat} {ts rest : List Tok} {vs : List α} (h : moreValues p n ts = .ok (vs, rest))
    (hn : vs.length < n) : p rest = .err := by
  induction n generalizing ts vs with
  | zero => simp at hn
  | succ n ih =>
    simp only [moreValues, bind_ok_iff] at h
    obtain ⟨o, ts', ho, hf⟩ := h
    rcases tryP_cases ho with ⟨a, rfl, h'⟩ | ⟨rfl, rfl, h'⟩
    · simp only [bind_ok_iff, pure_ok_iff] at hf
      obtain ⟨vs', ts'', hv, rfl, rfl⟩ := hf
      exact ih hv (by simpa using hn)
    · cases hf
      exact h'

theorem moreValues_full {p : P α} {n : Nat} {ts rest : List Tok} {vs : List α} (h : ReadsAll p ts vs rest)
    (hn : vs.length = n) : moreValues p n ts = .ok (vs, rest) := by
  induction h generalizing n with
  | done rest => subst hn; rfl
  | more h hs ih =>
    subst hn
    simp [moreValues, bind_run, tryP_ok h, ih rfl, pure_run]

theorem fourValues_four {p : P α} {ts rest : List Tok} {vs : List α} (h : ReadsAll p ts vs rest) (h4 : vs.length = 4) :
    ∃ q, expand vs = some q ∧ fourValues p ts = .ok (q, rest) := by
  obtain ⟨q, hq⟩ := expand_some (vs := vs) (by omega) (by omega)
  refine ⟨q, hq, ?_⟩
  cases h with
  | done => simp at h4
  | more h hs =>
    have := moreValues_full hs (n := 3) (by simpa using h4)
    simp [fourValues, h, this, hq]

/-- Where a part of a list with commas can stop: at the end or at a comma. -/
def Stop (imp : Bool) (rest : List Tok) : Prop := rest = declEnd imp ∨ ∃ ts, rest = .comma :: ts

theorem comma_iff {ts rest : List Tok} : comma ts = .ok ((), rest) ↔ ts = .comma :: rest := by
  unfold comma
  rw [one_tok1]
  constructor
  · rintro ⟨t, rfl, h⟩
    cases t <;> simp_all [commaTok]
  · rintro rfl; exact ⟨_, rfl, rfl⟩

theorem comma_end (imp : Bool) : comma (declEnd imp) = .err := by cases imp <;> rfl

theorem commaSep_iff {p : P α} {imp : Bool} {Form : List Tok → α → Prop}
    (h : ∀ ts rest a, Stop imp rest → (p ts = .ok (a, rest) ↔ ∃ us, ts = us ++ rest ∧ Form us a))
    (hlt : ∀ ts a rest, p ts = .ok (a, rest) → rest.length ≤ ts.length) {ts : List Tok} {vs : List α} :
    (do let s ← p; let ss ← loop (do comma; p); pure (s :: ss) : P (List α)) ts = .ok (vs, declEnd imp) ↔
      ∃ us, ts = us ++ declEnd imp ∧ CommaSep Form us vs := by
  have htake : Takes (do comma; p : P α) := by
    refine ⟨rfl, ?_⟩
    intro ts v rest hv
    simp only [bind_ok_iff] at hv
    obtain ⟨_, ts', hc, hp⟩ := hv
    obtain rfl := comma_iff.1 hc
    have := hlt _ _ _ hp
    simp; omega
  have hend : (do comma; p : P α) (declEnd imp) = .err := by
    rw [bind_run, comma_end]; rfl
  have hmain : ∀ vs ts, (∃ v ts', p ts = .ok (v, ts') ∧ ∃ vs', vs = v :: vs' ∧ ReadsAll (do comma; p : P α) ts' vs' (declEnd imp)) ↔
      ∃ us, ts = us ++ declEnd imp ∧ CommaSep Form us vs := by
    intro vs
    induction vs with
    | nil =>
      intro ts
      constructor
      · rintro ⟨_, _, _, _, h, _⟩; cases h
      · rintro ⟨_, _, h⟩; cases h
    | cons v vs ih =>
      intro ts
      constructor
      · rintro ⟨v', ts', hv, vs', he, hr⟩
        cases he
        cases hr with
        | done =>
          obtain ⟨us, rfl, hu⟩ := (h _ _ _ (.inl rfl)).1 hv
          exact ⟨us, rfl, .one hu⟩
        | @more _ ts'' _ w ws hc hs =>
          simp only [bind_ok_iff] at hc
          obtain ⟨_, ts3, hc, hw⟩ := hc
          obtain rfl := comma_iff.1 hc
          obtain ⟨us, rfl, hu⟩ := (h _ _ _ (.inr ⟨_, rfl⟩)).1 hv
          obtain ⟨us', rfl, hu'⟩ := (ih ts3).1 ⟨w, ts'', hw, ws, rfl, hs⟩
          exact ⟨us ++ .comma :: us', by simp, .more hu hu'⟩
      · rintro ⟨us, rfl, hc⟩
        cases hc with
        | one hu => exact ⟨v, _, (h _ _ _ (.inl rfl)).2 ⟨us, rfl, hu⟩, [], rfl, .done _⟩
        | @more us _ us' _ hu hc =>
          obtain ⟨w, ts', hw, ws, rfl, hr⟩ := (ih (us' ++ declEnd imp)).2 ⟨us', rfl, hc⟩
          refine ⟨v, .comma :: (us' ++ declEnd imp), (h _ _ _ (.inr ⟨_, rfl⟩)).2 ⟨us, by simp, hu⟩, _, rfl, ?_⟩
          refine .more (ts' := ts') ?_ hr
          simp only [bind_ok_iff]
          exact ⟨(), _, comma_iff.2 rfl, hw⟩
  rw [← hmain]
  simp only [bind_ok_iff, loop_iff htake, pure_ok_iff]
  constructor
  · rintro ⟨v, ts', hv, vs', ts'', ⟨h1, _⟩, rfl, rfl⟩
    exact ⟨_, _, hv, _, rfl, h1⟩
  · rintro ⟨v, ts', hv, vs', rfl, h1⟩
    exact ⟨_, _, hv, _, _, ⟨h1, hend⟩, rfl, rfl⟩

end Flair.Proofs.Parse
