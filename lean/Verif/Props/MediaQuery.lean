import Verif.Spec.MediaQuery
import Verif.Proofs.Gradient
/-!
# C79: the grammar of `@media`
-/
namespace Flair.Props
open Flair.Calc Flair.Shorthand Flair.Longhand Flair.Media Flair.MediaQuery Flair.Spec Flair.Proofs.Parse Flair.Proofs.Gradient

variable {α β : Type}

private theorem nested_ok {p : P α} {ts : List Tok} {a : α} : nested p ts = .ok a ↔ p ts = .ok (a, []) := by
  unfold nested
  cases h : p ts with
  | ok r =>
    obtain ⟨b, rest⟩ := r
    cases rest <;> simp [Res.bind]
  | err => simp [Res.bind]
  | panic => simp [Res.bind]

private theorem delim_ok {c : Char} {u : Unit} {ts rest : List Tok} : delimIs c ts = .ok (u, rest) ↔ ts = .delim c :: rest := by
  unfold delimIs
  rw [one_tok1]
  constructor
  · rintro ⟨t, rfl, h⟩
    cases t <;> simp_all [delimTok]
  · rintro rfl; exact ⟨_, rfl, by simp [delimTok]⟩

private theorem wholeOf_iff {q : ℚ} {n : Nat} : wholeOf q = some n ↔ ∃ m : Nat, q = m ∧ n = min m 2147483647 := by
  unfold wholeOf
  split
  · rename_i h
    obtain ⟨h1, h2⟩ := h
    have hq : q = (q.num.toNat : ℚ) := by
      rw [← Int.cast_natCast, Int.toNat_of_nonneg h2]
      exact (Rat.den_eq_one_iff q).1 h1 |>.symm
    constructor
    · intro h
      refine ⟨q.num.toNat, hq, ?_⟩
      simp only [Option.some.injEq] at h
      omega
    · rintro ⟨m, rfl, rfl⟩
      simp only [Option.some.injEq, Rat.num_natCast]
      omega
  · rename_i h
    constructor
    · intro h; cases h
    · rintro ⟨m, rfl, rfl⟩
      exact absurd ⟨by simp, by simp⟩ h

private theorem wholeTok_iff {t : Tok} {n : Nat} : wholeTok t = some n ↔ SizeWord t n := by
  constructor
  · intro h
    cases t with
    | number q => obtain ⟨m, rfl, rfl⟩ := wholeOf_iff.1 h; exact .plain m
    | dimension q u =>
      simp only [wholeTok] at h
      split at h
      · rename_i e; subst e; obtain ⟨m, rfl, rfl⟩ := wholeOf_iff.1 h; exact .px m
      · cases h
    | _ => simp [wholeTok] at h
  · rintro (m | m)
    · exact wholeOf_iff.2 ⟨m, rfl, rfl⟩
    · simpa [wholeTok] using wholeOf_iff.2 ⟨m, rfl, rfl⟩

private theorem resolutionTok_iff {t : Tok} {q : ℚ} : resolutionTok t = some q ↔ ResolutionWord t q := by
  constructor
  · intro h
    cases t with
    | dimension q u =>
      simp only [resolutionTok] at h
      split at h
      · rename_i e; subst e; cases h; exact .dppx _
      · split at h
        · rename_i e; subst e; cases h; exact .x _
        · cases h
    | _ => simp [resolutionTok] at h
  · rintro (m | m) <;> simp [resolutionTok]

private theorem ratio_number {t : Tok} {q : ℚ} : numberTok t = some q ↔ t = .number q := by
  cases t <;> simp [numberTok]

private theorem ratio_iff {ts : List Tok} {b : Bound} : ratioP ts = .ok (b, []) ↔ RatioWords ts b := by
  constructor
  · simp only [ratioP, bind_ok_iff, pure_ok_iff, tryP_ok_iff, one_tok1 _ _ _ _, ratio_number, delim_ok]
    rintro ⟨n, ts', ⟨t, rfl, rfl⟩, o, ts'', h, rfl, rfl⟩
    rcases h with ⟨d, h⟩ | h
    · obtain ⟨rfl, h⟩ := h
      obtain ⟨_, _, rfl, t, rfl, rfl⟩ := h
      simp only [Option.elim, divide]
      split
      · exact .quotient _ _ (by assumption)
      · rename_i h
        obtain rfl : d = 0 := by simpa using h
        split
        · rename_i h; subst h; exact .undefined
        · split
          · exact .infinite _ (by assumption)
          · exact .minus _ (lt_of_le_of_ne (not_lt.1 (by assumption)) (by assumption))
    · obtain ⟨rfl, rfl, h⟩ := h
      exact .number _
  · have key : ∀ n d : ℚ, ratioP [.number n, .delim '/', .number d] = .ok (divide n d, []) := fun n d => by
      simp [ratioP, bind_run, tryP, tok1, numberTok, delimIs, delimTok, pure_run, Res.bind]
    rintro (q | ⟨n, d, h⟩ | ⟨n, h⟩ | ⟨n, h⟩ | _)
    · rfl
    · have := key n d
      rwa [show divide n d = .fin (n / d) by simp [divide, h]] at this
    · have := key n 0
      rwa [show divide n 0 = .posInf by simp [divide, h, h.ne']] at this
    · have := key n 0
      rwa [show divide n 0 = .negInf by simp [divide, h.ne, h.le]] at this
    · have := key 0 0
      rwa [show divide 0 0 = .nan by simp [divide]] at this

private theorem scheme_iff {t : Tok} {s : Scheme} :
    schemeTok t = some s ↔ (t = .ident "light" ∧ s = .light) ∨ (t = .ident "dark" ∧ s = .dark) := by
  constructor
  · intro h
    cases t with
    | ident w =>
      simp only [schemeTok] at h
      split at h
      · rename_i e; subst e; cases h; exact .inl ⟨rfl, rfl⟩
      · split at h
        · rename_i e; subst e; cases h; exact .inr ⟨rfl, rfl⟩
        · cases h
    | _ => simp [schemeTok] at h
  · rintro (⟨rfl, rfl⟩ | ⟨rfl, rfl⟩) <;> rfl

private theorem rangeOf_iff {name : String} {a : α} {r : Range α} (f : String) (h : name = f ∨ name = "min-" ++ f ∨ name = "max-" ++ f)
    (h1 : f.toList.take 3 ≠ ['m', 'i', 'n']) (h2 : f.toList.take 3 ≠ ['m', 'a', 'x']) :
    rangeOf name a = r ↔ BoundName f a name r := by
  have hmin : ("min-" ++ f).toList.take 3 = ['m', 'i', 'n'] := by simp
  have hmax : ("max-" ++ f).toList.take 3 = ['m', 'a', 'x'] := by simp
  have hne1 : "min-" ++ f ≠ f := fun e => h1 (e ▸ hmin)
  have hne2 : "max-" ++ f ≠ f := fun e => h2 (e ▸ hmax)
  have hne3 : "min-" ++ f ≠ "max-" ++ f := fun e => by rw [e, hmax] at hmin; simp at hmin
  constructor
  · rintro rfl
    rcases h with rfl | rfl | rfl
    · simp only [rangeOf, h1, h2, if_false]; exact .exact
    · simp only [rangeOf, hmin, if_true]; exact .min
    · simp only [rangeOf, hmax, if_true]; exact .max
  · intro hb
    generalize hn : name = w at hb
    cases hb with
    | exact => subst hn; simp only [rangeOf, h1, h2, if_false]
    | min => subst hn; simp only [rangeOf, hmin, if_true]
    | max => subst hn; simp only [rangeOf, hmax, if_true]; simp

private theorem range_iff {name : String} {p : P α} {ts : List Tok} {r : Range α} :
    rangeP name p ts = .ok (r, []) ↔ ∃ a, p ts = .ok (a, []) ∧ rangeOf name a = r := by
  simp only [rangeP, bind_ok_iff, pure_ok_iff]
  constructor
  · rintro ⟨a, ts', h, rfl, rfl⟩; exact ⟨a, h, rfl⟩
  · rintro ⟨a, h, rfl⟩; exact ⟨a, [], h, rfl, rfl⟩

private theorem mapped_iff {p : P α} {g : α → β} {ts : List Tok} {b : β} :
    (do let a ← p; pure (g a) : P β) ts = .ok (b, []) ↔ ∃ a, p ts = .ok (a, []) ∧ g a = b := by
  simp only [bind_ok_iff, pure_ok_iff]
  constructor
  · rintro ⟨a, ts', h, rfl, rfl⟩; exact ⟨a, h, rfl⟩
  · rintro ⟨a, h, rfl⟩; exact ⟨a, [], h, rfl, rfl⟩

private theorem one_end {f : Tok → Option α} {ts : List Tok} {a : α} : tok1 f ts = .ok (a, []) ↔ ∃ t, ts = [t] ∧ f t = some a :=
  one_tok1 f ts a []

private theorem bound_names {f : String} {a : α} {name : String} {r : Range α} (h : BoundName f a name r) :
    name = f ∨ name = "min-" ++ f ∨ name = "max-" ++ f := by
  cases h with
  | exact => exact .inl rfl
  | min => exact .inr (.inl rfl)
  | max => exact .inr (.inr rfl)

private theorem value_iff {name : String} {ts : List Tok} {s : Parsed} :
    valueP name ts = .ok (s, []) ↔ MediaFeature (.ident name :: .delim ':' :: ts) s := by
  constructor
  · intro h
    unfold valueP at h
    split at h
    · rename_i e; subst e
      obtain ⟨s', h', rfl⟩ := mapped_iff.1 h
      obtain ⟨t, rfl, h3⟩ := one_end.1 h'
      rcases scheme_iff.1 h3 with ⟨rfl, rfl⟩ | ⟨rfl, rfl⟩
      · exact .light
      · exact .dark
    split at h
    · rename_i e
      obtain ⟨r, h', rfl⟩ := mapped_iff.1 h
      obtain ⟨n, h2, hr⟩ := range_iff.1 h'
      obtain ⟨t, rfl, h3⟩ := one_end.1 h2
      exact .width (wholeTok_iff.1 h3) ((rangeOf_iff "width" e (by decide) (by decide)).1 hr)
    split at h
    · rename_i e
      obtain ⟨r, h', rfl⟩ := mapped_iff.1 h
      obtain ⟨n, h2, hr⟩ := range_iff.1 h'
      obtain ⟨t, rfl, h3⟩ := one_end.1 h2
      exact .height (wholeTok_iff.1 h3) ((rangeOf_iff "height" e (by decide) (by decide)).1 hr)
    split at h
    · rename_i e
      obtain ⟨r, h', rfl⟩ := mapped_iff.1 h
      obtain ⟨n, h, hr⟩ := range_iff.1 h'
      exact .aspectRatio (ratio_iff.1 h) ((rangeOf_iff "aspect-ratio" e (by decide) (by decide)).1 hr)
    split at h
    · rename_i e
      obtain ⟨r, h', rfl⟩ := mapped_iff.1 h
      obtain ⟨n, h2, hr⟩ := range_iff.1 h'
      obtain ⟨t, rfl, h3⟩ := one_end.1 h2
      exact .resolution (resolutionTok_iff.1 h3) ((rangeOf_iff "resolution" e (by decide) (by decide)).1 hr)
    · cases h
  · intro h
    cases h with
    | light => rfl
    | dark => rfl
    | width h1 h2 =>
      have e := bound_names h2
      have hr := (rangeOf_iff "width" e (by decide) (by decide)).2 h2
      have : valueP name = (do let r ← rangeP name (tok1 wholeTok); pure (.viewportWidth r)) := by
        rcases e with rfl | rfl | rfl <;> rfl
      rw [this, mapped_iff]
      exact ⟨_, range_iff.2 ⟨_, one_end.2 ⟨_, rfl, wholeTok_iff.2 h1⟩, hr⟩, rfl⟩
    | height h1 h2 =>
      have e := bound_names h2
      have hr := (rangeOf_iff "height" e (by decide) (by decide)).2 h2
      have : valueP name = (do let r ← rangeP name (tok1 wholeTok); pure (.viewportHeight r)) := by
        rcases e with rfl | rfl | rfl <;> rfl
      rw [this, mapped_iff]
      exact ⟨_, range_iff.2 ⟨_, one_end.2 ⟨_, rfl, wholeTok_iff.2 h1⟩, hr⟩, rfl⟩
    | resolution h1 h2 =>
      have e := bound_names h2
      have hr := (rangeOf_iff "resolution" e (by decide) (by decide)).2 h2
      have : valueP name = (do let r ← rangeP name (tok1 resolutionTok); pure (.resolution r)) := by
        rcases e with rfl | rfl | rfl <;> rfl
      rw [this, mapped_iff]
      exact ⟨_, range_iff.2 ⟨_, one_end.2 ⟨_, rfl, resolutionTok_iff.2 h1⟩, hr⟩, rfl⟩
    | aspectRatio h1 h2 =>
      have e := bound_names h2
      have hr := (rangeOf_iff "aspect-ratio" e (by decide) (by decide)).2 h2
      have : valueP name = (do let r ← rangeP name ratioP; pure (.aspectRatio r)) := by
        rcases e with rfl | rfl | rfl <;> rfl
      rw [this, mapped_iff]
      exact ⟨_, range_iff.2 ⟨_, ratio_iff.2 h1, hr⟩, rfl⟩

private theorem feature_shape {ts : List Tok} {s : Parsed} (h : MediaFeature ts s) :
    ∃ name ts', ts = .ident name :: .delim ':' :: ts' := by cases h <;> exact ⟨_, _, rfl⟩

private theorem atom_iff {ts : List Tok} {s : Parsed} : nested atomP ts = .ok s ↔ MediaFeature ts s := by
  rw [nested_ok]
  simp only [atomP, bind_ok_iff, delim_ok, one_tok1 _ _ _ _]
  constructor
  · rintro ⟨name, ts', ⟨t, rfl, ht⟩, _, ts'', rfl, h⟩
    obtain rfl : t = .ident name := by cases t <;> simp_all [nameTok]
    exact value_iff.1 h
  · intro h
    obtain ⟨name, ts', rfl⟩ := feature_shape h
    exact ⟨name, _, ⟨_, rfl, rfl⟩, (), _, rfl, value_iff.2 h⟩

private theorem block_iff {ts rest : List Tok} {s : Parsed} :
    blockP ts = .ok (s, rest) ↔ ∃ us, ts = .paren us :: rest ∧ MediaFeature us s := by
  constructor
  · intro h
    match ts, h with
    | .paren us :: rest', h =>
      simp only [blockP] at h
      cases hn : nested atomP us with
      | ok x => rw [hn] at h; cases h; exact ⟨us, rfl, atom_iff.1 hn⟩
      | err => rw [hn] at h; cases h
      | panic => rw [hn] at h; cases h
  · rintro ⟨us, rfl, h⟩
    simp [blockP, atom_iff.2 h, Res.bind]

private theorem and_iff' {ts rest : List Tok} {s : Parsed} :
    andP ts = .ok (s, rest) ↔ ∃ us, ts = .ident "and" :: .paren us :: rest ∧ MediaFeature us s := by
  simp only [andP, bind_ok_iff, ident_ok_iff, block_iff]
  constructor
  · rintro ⟨_, _, rfl, us, rfl, h⟩; exact ⟨us, rfl, h⟩
  · rintro ⟨us, rfl, h⟩; exact ⟨(), _, rfl, us, rfl, h⟩

private theorem and_takes : Takes andP where
  empty := rfl
  takes := by
    intro ts v rest h
    obtain ⟨us, rfl, _⟩ := and_iff'.1 h
    simp
    omega

private theorem andAll {ts : List Tok} {ss : List Parsed} (h : ReadsAll andP ts ss []) (us : List Tok) (s : Parsed)
    (hs : MediaFeature us s) : MediaCondition (.paren us :: ts) (s :: ss) := by
  generalize hr : ([] : List Tok) = rest at h
  induction h generalizing us s with
  | done rest => subst hr; exact .one hs
  | more h _ ih =>
    obtain ⟨us', rfl, h'⟩ := and_iff'.1 h
    exact .and hs (ih us' _ h' hr)

/-- C79: what follows `@media` is accepted exactly when it is a list of features in parentheses joined by `and`, and gives
the conditions it spells, in their order. -/
theorem C79_media_query (ts : List Tok) (ss : List Parsed) : preludeP ts = .ok ss ↔ MediaCondition ts ss := by
  unfold preludeP entirely
  rw [nested_ok]
  simp only [selectorsP, bind_ok_iff, pure_ok_iff, block_iff, loop_iff and_takes]
  constructor
  · rintro ⟨s, ts', ⟨us, rfl, h⟩, ss', ts'', ⟨hr, _⟩, rfl, rfl⟩
    exact andAll hr us s h
  · intro h
    have key : ∃ us s ts' ss', ts = .paren us :: ts' ∧ ss = s :: ss' ∧ MediaFeature us s ∧ ReadsAll andP ts' ss' [] := by
      induction h with
      | one h => exact ⟨_, _, [], [], rfl, rfl, h, .done _⟩
      | and h _ ih =>
        obtain ⟨us, s, ts', ss', rfl, rfl, h1, h2⟩ := ih
        exact ⟨_, _, _, _, rfl, rfl, h, .more (and_iff'.2 ⟨us, rfl, h1⟩) h2⟩
    obtain ⟨us, s, ts', ss', rfl, rfl, h1, h2⟩ := key
    exact ⟨s, ts', ⟨us, rfl, h1⟩, ss', [], ⟨h2, rfl⟩, rfl, rfl⟩

/-- `(min-width: 500px) and (aspect-ratio: 4/3)` -/
example : preludeP [.paren [.ident "min-width", .delim ':', .dimension 500 "px"], .ident "and",
    .paren [.ident "aspect-ratio", .delim ':', .number 4, .delim '/', .number 3]] =
    .ok [.viewportWidth (.greaterOrEqual 500), .aspectRatio (.exact (.fin (4 / 3)))] := by
  rw [C79_media_query]
  have hw := MediaFeature.width (SizeWord.px 500) (.min (feature := "width"))
  have ha := MediaFeature.aspectRatio (.quotient 4 3 (by norm_num)) (.exact (feature := "aspect-ratio"))
  simpa using MediaCondition.and hw (.one ha)

/-- C79: media types and `not` at the beginning, `or` and commas between conditions are not accepted. -/
theorem C79_no_types (w : String) (ts : List Tok) (c : List Tok) (ss : List Parsed) :
    preludeP (.ident w :: ts) ≠ .ok ss ∧ preludeP (.paren c :: .comma :: ts) ≠ .ok ss ∧
    (w ≠ "and" → preludeP (.paren c :: .ident w :: ts) ≠ .ok ss) := by
  simp only [ne_eq, C79_media_query]
  refine ⟨(fun h => by cases h), (fun h => by cases h), fun hw h => ?_⟩
  generalize he : (Tok.paren c :: .ident w :: ts : List Shorthand.Tok) = us at h
  cases h <;> simp_all

/-- C79: nor are comparisons (`(width >= 300px)`), features without a value (`(width)`) and sizes with a part of a pixel. -/
theorem C79_no_comparison (w : String) (c : Char) (hc : c ≠ ':') (ts rest : List Tok) (ss : List Parsed) (q : ℚ) (hq : q.den ≠ 1)
    (name : String) (hn : name = "width" ∨ name = "min-width" ∨ name = "max-width") :
    preludeP (.paren (.ident w :: .delim c :: ts) :: rest) ≠ .ok ss ∧ preludeP (.paren [.ident w] :: rest) ≠ .ok ss ∧
    preludeP (.paren [.ident name, .delim ':', .dimension q "px"] :: rest) ≠ .ok ss := by
  have inner : ∀ us, preludeP (.paren us :: rest) = .ok ss → ∃ s, MediaFeature us s := by
    intro us h
    rw [C79_media_query] at h
    cases h with
    | one h => exact ⟨_, h⟩
    | and h _ => exact ⟨_, h⟩
  refine ⟨fun h => ?_, fun h => ?_, fun h => ?_⟩
  · obtain ⟨s, h⟩ := inner _ h
    obtain ⟨name, ts', e⟩ := feature_shape h
    simp_all
  · obtain ⟨s, h⟩ := inner _ h
    obtain ⟨name, ts', e⟩ := feature_shape h
    simp_all
  · obtain ⟨s, h⟩ := inner _ h
    have h' := value_iff.2 h
    have hv : valueP name = (do let r ← rangeP name (tok1 wholeTok); pure (.viewportWidth r)) := by
      rcases hn with rfl | rfl | rfl <;> rfl
    rw [hv, mapped_iff] at h'
    obtain ⟨r, h', _⟩ := h'
    obtain ⟨n, h', _⟩ := range_iff.1 h'
    obtain ⟨t, e, h'⟩ := one_end.1 h'
    cases e
    simp only [wholeTok, if_true, wholeOf, hq, false_and, if_false] at h'
    cases h'

end Flair.Props
