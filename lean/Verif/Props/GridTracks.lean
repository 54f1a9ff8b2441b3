import Verif.Proofs.Parse
/-!
# Grid tracks and placements (C75)
-/
namespace Flair.Props
open Flair.Calc Flair.Values Flair.Shorthand Flair.Longhand Flair.Spec Flair.Proofs.Parse

variable {K X : Type}

private theorem nested_iff {α : Type} {p : P α} {args : List Tok} {a : α} : nested p args = .ok a ↔ p args = .ok (a, []) :=
  ⟨entirely_ok, entirely_of⟩

private theorem res_ok {α β : Type} {r : Res α} {f : α → Res β} {b : β} : r.bind f = .ok b ↔ ∃ a, r = .ok a ∧ f a = .ok b := by
  cases r <;> simp

private theorem sizeTok_iff (fl : Bool) (t : Tok) (s : Size) : sizeTok fl t = some s ↔ SizeIs fl t s := by
  constructor
  · intro h
    cases t with
    | ident k =>
      simp only [sizeTok] at h
      split at h
      · subst k; cases h; exact .auto
      · split at h
        · subst k; cases h; exact .minContent
        · split at h
          · subst k; cases h; exact .maxContent
          · cases h
    | percentage q => cases h; exact .percent q
    | dimension q u =>
      simp only [sizeTok] at h
      by_cases hf : u = "fr" ∧ fl = false
      · rw [if_pos hf] at h; cases h
      rw [if_neg hf] at h
      simp only [sizeUnits, List.lookup] at h
      by_cases h1 : u = "px"
      · subst h1; cases h; exact .px q
      by_cases h2 : u = "fr"
      · subst h2
        cases h
        exact .fr q (by simpa using hf)
      by_cases h3 : u = "vmin"
      · subst h3; cases h; exact .vmin q
      by_cases h4 : u = "vmax"
      · subst h4; cases h; exact .vmax q
      by_cases h5 : u = "vh"
      · subst h5; cases h; exact .vh q
      by_cases h6 : u = "vw"
      · subst h6; cases h; exact .vw q
      rw [beq_false_of_ne h1, beq_false_of_ne h2, beq_false_of_ne h3, beq_false_of_ne h4, beq_false_of_ne h5,
        beq_false_of_ne h6] at h
      cases h
    | _ => cases h
  · intro h
    cases h with
    | fr q hf => subst hf; rfl
    | _ => cases fl <;> rfl

private theorem one_track : OneTok trackP TrackIs := by
  intro ts v rest
  constructor
  · intro h
    cases ts with
    | nil => cases h
    | cons t ts =>
      by_cases hfun : ∃ name args, t = .func name args
      · obtain ⟨name, args, rfl⟩ := hfun
        simp only [trackP] at h
        split at h
        · subst name
          obtain ⟨a, ha, he⟩ := res_ok.1 h
          cases he
          obtain ⟨u, rfl, hu⟩ := (one_tok1 _ _ _ _).1 (nested_iff.1 ha)
          refine ⟨_, rfl, ?_⟩
          cases u with
          | percentage q => cases hu; exact .fitPercent q
          | number q => cases hu; exact .fitNumber q
          | dimension q w =>
            simp only [fitTok] at hu
            split at hu
            · subst w; cases hu; exact .fitPx q
            · cases hu
          | _ => cases hu
        · split at h
          · subst name
            obtain ⟨a, ha, he⟩ := res_ok.1 h
            cases he
            have := nested_iff.1 ha
            simp only [minmaxArgs, bind_ok_iff, pure_ok_iff, one_tok1 _ _ _ _, sizeTok_iff] at this
            obtain ⟨x, _, ⟨t1, rfl, h1⟩, _, _, hc, y, _, ⟨t2, rfl, h2⟩, rfl, rfl⟩ := this
            obtain rfl := comma_iff.1 hc
            exact ⟨_, rfl, .minmax h1 h2⟩
          · cases h
      · have : trackP (t :: ts) = match sizeTok true t with | some s => .ok (.size s, ts) | none => .err := by
          cases t <;> first | rfl | exact absurd ⟨_, _, rfl⟩ hfun
        rw [this] at h
        cases hs : sizeTok true t with
        | none => rw [hs] at h; cases h
        | some s =>
          rw [hs] at h
          cases h
          exact ⟨_, rfl, .size ((sizeTok_iff _ _ _).1 hs)⟩
  · rintro ⟨t, rfl, h⟩
    cases h with
    | @size _ s hs =>
      have hnf : ∀ name args, t ≠ .func name args := by rintro name args rfl; cases hs
      have : trackP (t :: rest) = match sizeTok true t with | some s => .ok (.size s, rest) | none => .err := by
        cases t <;> first | rfl | exact absurd rfl (hnf _ _)
      rw [this, (sizeTok_iff _ _ _).2 hs]
    | fitPercent q => rfl
    | fitNumber q => rfl
    | fitPx q => rfl
    | minmax h1 h2 =>
      have h1 := (sizeTok_iff _ _ _).2 h1
      have h2 := (sizeTok_iff _ _ _).2 h2
      simp [trackP, nested, minmaxArgs, bind_run, tok1_some h1, tok1_some h2, comma_iff.2, pure_run]

private theorem track_end (imp : Bool) : trackP (declEnd imp) = .err := by cases imp <;> rfl

private theorem track_ident {s : String} (h : s ∉ ["auto", "min-content", "max-content"]) (ts : List Tok) :
    trackP (.ident s :: ts) = .err := by
  simp only [List.mem_cons, List.not_mem_nil, or_false, not_or] at h
  simp [trackP, sizeTok, h]

private theorem track_not_none {v : Track} (h : TrackIs (.ident "none") v) : False := by
  have := (one_track [.ident "none"] v []).2 ⟨_, rfl, h⟩
  rw [track_ident (by decide)] at this
  cases this

private theorem track_not_repeat {args : List Tok} {v : Track} (h : TrackIs (.func "repeat" args) v) : False := by
  have := (one_track [.func "repeat" args] v []).2 ⟨_, rfl, h⟩
  cases this

private theorem value_none {α : Type} {v : α} {p : P α} (hp : ValueParser p) : ValueParser (noneOr v p) where
  empty := by simp [noneOr, bind_run, tryP, identIs, tok1_nil, hp.empty]
  bang ts := by simp [noneOr, bind_run, tryP, identIs, tok1_cons, identTok, hp.bang]
  global k hk ts := by
    have : ¬ k = "none" := by rintro rfl; simp at hk
    simp [noneOr, bind_run, tryP, identIs, tok1_cons, identTok, this, hp.global k hk]

private theorem value_first {α β : Type} {p : P α} {f : α → P β} (hp : ValueParser p) : ValueParser (p >>= f) where
  empty := by simp [bind_run, hp.empty]
  bang ts := by simp [bind_run, hp.bang]
  global k hk ts := by simp [bind_run, hp.global k hk]

private theorem value_many {α : Type} {p : P α} (hp : ValueParser p) : ValueParser (many p) := value_first hp

private theorem track_value : ValueParser trackP where
  empty := rfl
  bang ts := rfl
  global k hk ts := track_ident (by
    intro h
    simp only [List.mem_cons, List.not_mem_nil, or_false] at hk
    rcases hk with rfl | rfl | rfl <;> simp at h) ts

private theorem tracks_iff {ts rest : List Tok} {vs : List Track} (he : trackP rest = .err) :
    many trackP ts = .ok (vs, rest) ↔ ∃ us, ts = us ++ rest ∧ TracksAre us vs := by
  rw [many_iff (takes_one one_track rfl), readsAll_one one_track]
  constructor
  · rintro ⟨hn, ⟨us, rfl, hu⟩, _⟩
    refine ⟨us, rfl, ?_, hu⟩
    rintro rfl
    cases hu
    exact hn rfl
  · rintro ⟨us, rfl, hn, hu⟩
    refine ⟨?_, ⟨us, rfl, hu⟩, he⟩
    rintro rfl
    cases hu
    exact hn rfl

/-- C75: `grid-auto-rows` and `grid-auto-columns` are `none` or a list of tracks. -/
theorem C75_auto_tracks (ts : List Tok) (pv : PropertyValue (RV (LV K))) (imp : Bool) : declareP tracksP ts = .ok (pv, imp) ↔
    DeclaredAs (fun us v => ∃ w, v = .other w ∧ TracksForm us w) ts pv imp := by
  refine declareP_iff (value_none (value_first (value_many track_value))) ?_
  intro ts imp v
  simp only [noneOr_ok_iff, bind_ok_iff, pure_ok_iff]
  constructor
  · rintro (⟨rfl, rfl⟩ | ⟨_, vs, _, hv, rfl, rfl⟩)
    · exact ⟨[_], rfl, _, rfl, .none⟩
    · obtain ⟨us, rfl, hu⟩ := (tracks_iff (track_end imp)).1 hv
      exact ⟨us, rfl, _, rfl, .some hu⟩
  · rintro ⟨us, rfl, w, rfl, h⟩
    cases h with
    | none => exact .inl ⟨rfl, rfl⟩
    | @some us vs hu =>
      refine .inr ⟨?_, vs, _, (tracks_iff (track_end imp)).2 ⟨us, rfl, hu⟩, rfl, rfl⟩
      rintro rest h
      obtain ⟨hn, hu⟩ := hu
      cases hu with
      | nil => exact hn rfl
      | cons h1 _ =>
        cases h
        exact track_not_none h1

private theorem asU16_iff (n : Int) (m : Nat) : asU16 n = m ↔ m < 65536 ∧ ∃ k : Int, n = m + 65536 * k := by
  unfold asU16
  constructor
  · rintro rfl
    refine ⟨by omega, n / 65536, by omega⟩
  · rintro ⟨h, k, rfl⟩
    omega

private theorem intTok_some (t : Tok) (n : Int) : intTok t = some n ↔
    ∃ m : Int, t = .number m ∧ n = max (-2147483648) (min 2147483647 m) := by
  constructor
  · intro h
    cases t with
    | number q =>
      simp only [intTok] at h
      split at h
      · rename_i hd
        cases h
        exact ⟨q.num, by rw [Rat.den_eq_one_iff] at hd; rw [hd], rfl⟩
      · cases h
    | _ => cases h
  · rintro ⟨m, rfl, rfl⟩
    simp [intTok]

private theorem repetitionTok_iff (t : Tok) (r : Repetition) : repetitionTok t = some r ↔ RepetitionIs t r := by
  constructor
  · intro h
    cases t with
    | number q =>
      simp only [repetitionTok, Option.map_eq_some_iff] at h
      obtain ⟨n, hn, rfl⟩ := h
      obtain ⟨a, hq, hn'⟩ := (intTok_some _ _).1 hn
      cases hq
      obtain ⟨h1, h2⟩ := (asU16_iff n _).1 rfl
      exact .count a n _ hn' h1 h2
    | ident s =>
      simp only [repetitionTok] at h
      split at h
      · subst s; cases h; exact .autoFill
      · split at h
        · subst s; cases h; exact .autoFit
        · cases h
    | _ => cases h
  · intro h
    cases h with
    | count a n m hn hm hk =>
      simp only [repetitionTok, Option.map_eq_some_iff]
      exact ⟨n, (intTok_some _ _).2 ⟨a, rfl, hn⟩, by rw [(asU16_iff n m).2 ⟨hm, hk⟩]⟩
    | autoFill => rfl
    | autoFit => rfl

private theorem one_repeated : OneTok repeatedTrackP RepeatedIs := by
  intro ts v rest
  constructor
  · intro h
    have once : ∀ {ts'}, (trackP ts').bind (fun r => .ok ((⟨.count 1, [r.1]⟩ : Repeated), r.2)) = .ok (v, rest) →
        ∃ t, ts' = t :: rest ∧ RepeatedIs t v := by
      intro ts' h
      obtain ⟨⟨a, rs⟩, ha, he⟩ := res_ok.1 h
      cases he
      obtain ⟨t, rfl, ht⟩ := (one_track _ _ _).1 ha
      exact ⟨_, rfl, .once ht⟩
    cases ts with
    | nil => cases h
    | cons t ts =>
      cases t with
      | func name args =>
        simp only [repeatedTrackP] at h
        split at h
        · subst name
          obtain ⟨a, ha, he⟩ := res_ok.1 h
          cases he
          have := nested_iff.1 ha
          simp only [repeatArgs, bind_ok_iff, pure_ok_iff, one_tok1 _ _ _ _, repetitionTok_iff] at this
          obtain ⟨r, _, ⟨t1, rfl, h1⟩, _, _, hc, vs, _, hv, rfl, rfl⟩ := this
          obtain rfl := comma_iff.1 hc
          obtain ⟨us, hus, hu⟩ := (tracks_iff (rest := []) rfl).1 hv
          simp only [List.append_nil] at hus
          subst hus
          exact ⟨_, rfl, .many h1 hu⟩
        · exact once h
      | _ => exact once h
  · rintro ⟨t, rfl, h⟩
    cases h with
    | @once _ v ht =>
      have h1 := (one_track (t :: rest) v rest).2 ⟨t, rfl, ht⟩
      have h2 : repeatedTrackP (t :: rest) = (trackP (t :: rest)).bind (fun r => .ok (⟨.count 1, [r.1]⟩, r.2)) := by
        cases t with
        | func name args =>
          simp only [repeatedTrackP]
          rw [if_neg]
          rintro rfl
          exact track_not_repeat ht
        | _ => rfl
      rw [h2, h1]
      rfl
    | @many r n us vs hr hu =>
      simp only [repeatedTrackP, if_true]
      have : nested repeatArgs (r :: .comma :: us) = .ok ⟨n, vs⟩ := by
        refine nested_iff.2 ?_
        simp only [repeatArgs, bind_ok_iff, pure_ok_iff, one_tok1 _ _ _ _, repetitionTok_iff]
        exact ⟨n, _, ⟨r, rfl, hr⟩, (), _, comma_iff.2 rfl, vs, _, (tracks_iff (rest := []) rfl).2 ⟨us, by simp, hu⟩, rfl, rfl⟩
      rw [this]
      rfl

private theorem repeated_end (imp : Bool) : repeatedTrackP (declEnd imp) = .err := by cases imp <;> rfl

private theorem repeated_ident {s : String} (h : s ∉ ["auto", "min-content", "max-content"]) (ts : List Tok) :
    repeatedTrackP (.ident s :: ts) = .err := by
  simp [repeatedTrackP, track_ident h]

private theorem repeated_value : ValueParser repeatedTrackP where
  empty := rfl
  bang ts := rfl
  global k hk ts := repeated_ident (by
    intro h
    simp only [List.mem_cons, List.not_mem_nil, or_false] at hk
    rcases hk with rfl | rfl | rfl <;> simp at h) ts

/-- C75: `grid-template-rows` and `grid-template-columns` are `none` or a list of tracks and `repeat()`s. -/
theorem C75_template_tracks (ts : List Tok) (pv : PropertyValue (RV (LV K))) (imp : Bool) :
    declareP repeatedP ts = .ok (pv, imp) ↔
      DeclaredAs (fun us v => ∃ w, v = .other w ∧ RepeatedForm us w) ts pv imp := by
  refine declareP_iff (value_none (value_first (value_many repeated_value))) ?_
  intro ts imp v
  simp only [noneOr_ok_iff, bind_ok_iff, pure_ok_iff, many_iff (takes_one one_repeated rfl), readsAll_one one_repeated]
  constructor
  · rintro (⟨rfl, rfl⟩ | ⟨_, vs, _, ⟨hn, ⟨us, rfl, hu⟩, _⟩, rfl, rfl⟩)
    · exact ⟨[_], rfl, _, rfl, .none⟩
    · refine ⟨us, rfl, _, rfl, .some ?_ hu⟩
      rintro rfl
      cases hu
      exact hn rfl
  · rintro ⟨us, rfl, w, rfl, h⟩
    cases h with
    | none => exact .inl ⟨rfl, rfl⟩
    | @some us vs hn hu =>
      refine .inr ⟨?_, vs, _, ⟨?_, ⟨us, rfl, hu⟩, repeated_end imp⟩, rfl, rfl⟩
      · rintro rest h
        cases hu with
        | nil => exact hn rfl
        | cons h1 _ =>
          cases h
          cases h1 with
          | once h => exact track_not_none h
      · rintro rfl
        cases hu
        exact hn rfl

/-- Two tracks, and three more repeated twice. -/
example : declareP (X := LV Nat) repeatedP [.dimension 1 "fr", .func "repeat" [.number 2, .comma, .dimension 10 "px", .ident "auto"]] =
    .ok (.value (.other (.repeated [⟨.count 1, [.size (.fr 1)]⟩, ⟨.count 2, [.size (.px 10), .size .auto]⟩])), false) := by
  refine (C75_template_tracks _ _ _).2 (DeclaredAs.value (imp := false) (us := [_, _]) ⟨_, rfl, .some (by simp) ?_⟩)
  refine .cons (.once (.size (.fr 1 rfl))) (.cons (.many ?_ ⟨by simp, .cons (.size (.px 10)) (.cons (.size .auto) .nil)⟩) .nil)
  exact RepetitionIs.count 2 2 2 rfl (by decide) ⟨0, rfl⟩

/-! ## The number of repetitions -/

private theorem wraps_aux (a : Int) (m : Nat) (h : asU16 (max (-2147483648) (min 2147483647 a)) = m) (imp : Bool) :
    declareP (repeatedP : P (RV (LV K))) (.func "repeat" [.number a, .comma, .ident "auto"] :: declEnd imp) =
      .ok (.value (.other (.repeated [⟨.count m, [.size .auto]⟩])), imp) := by
  obtain ⟨h1, h2⟩ := (asU16_iff _ _).1 h
  refine (C75_template_tracks _ _ _).2 (DeclaredAs.value (us := [_]) ⟨_, rfl, .some (by simp) ?_⟩)
  exact .cons (.many (.count a _ m rfl h1 h2) ⟨by simp, .cons (.size .auto) .nil⟩) .nil

/-- C75: CSS repeats the tracks as often as the number says, and has no zero or negative number; but only its low
sixteen bits are kept: `repeat(65537, auto)` is one track and `repeat(-1, auto)` is 65535 tracks. -/
theorem C75_repetitions_wrap (imp : Bool) :
    declareP (repeatedP : P (RV (LV K))) (.func "repeat" [.number 65537, .comma, .ident "auto"] :: declEnd imp) =
      .ok (.value (.other (.repeated [⟨.count 1, [.size .auto]⟩])), imp) ∧
    declareP (repeatedP : P (RV (LV K))) (.func "repeat" [.number (-1), .comma, .ident "auto"] :: declEnd imp) =
      .ok (.value (.other (.repeated [⟨.count 65535, [.size .auto]⟩])), imp) ∧
    declareP (repeatedP : P (RV (LV K))) (.func "repeat" [.number 0, .comma, .ident "auto"] :: declEnd imp) =
      .ok (.value (.other (.repeated [⟨.count 0, [.size .auto]⟩])), imp) := by
  have h1 := wraps_aux (K := K) 65537 1 (by decide) imp
  have h2 := wraps_aux (K := K) (-1) 65535 (by decide) imp
  have h3 := wraps_aux (K := K) 0 0 (by decide) imp
  push_cast at h1 h2 h3
  exact ⟨h1, h2, h3⟩

/-- C75: numbers from 1 to 65535 are kept as they are. -/
theorem C75_repetitions_partial {t : Tok} {a : Int} (ha : 1 ≤ a) (hb : a ≤ 65535) (ht : t = .number a) (r : Repetition) :
    RepetitionIs t r ↔ r = .count a.toNat := by
  subst ht
  rw [← repetitionTok_iff]
  have h1 : intTok (.number (a : ℚ)) = some a := (intTok_some _ _).2 ⟨a, rfl, by omega⟩
  have h2 : asU16 a = a.toNat := (asU16_iff _ _).2 ⟨by omega, 0, by omega⟩
  simp only [repetitionTok, h1, Option.map_some, h2, Option.some.injEq]
  exact eq_comm

/-! ## Placements -/

private theorem slash {ts rest : List Tok} {u : Unit} : delimIs '/' ts = .ok (u, rest) ↔ ts = .delim '/' :: rest := by
  unfold delimIs
  rw [one_tok1]
  constructor
  · rintro ⟨t, rfl, h⟩
    cases t <;> simp_all [delimTok]
  · rintro rfl; exact ⟨_, rfl, rfl⟩

private theorem line_iff (t : Tok) (n : Int) : (intTok t).bind toI16 = some n ↔ t = .number n ∧ IsLine n := by
  rw [Option.bind_eq_some_iff]
  unfold toI16 IsLine
  constructor
  · rintro ⟨a, ha, h⟩
    obtain ⟨m, rfl, rfl⟩ := (intTok_some _ _).1 ha
    split at h
    · rename_i hc
      cases h
      refine ⟨?_, hc⟩
      congr 2
      omega
    · cases h
  · rintro ⟨rfl, h⟩
    exact ⟨n, (intTok_some _ _).2 ⟨n, rfl, by omega⟩, by rw [if_pos h]⟩

private theorem span_iff (t : Tok) (n : Nat) : (intTok t).bind toU16 = some n ↔ t = .number n ∧ 0 < n ∧ n ≤ 65535 := by
  rw [Option.bind_eq_some_iff]
  unfold toU16
  constructor
  · rintro ⟨a, ha, h⟩
    obtain ⟨m, rfl, rfl⟩ := (intTok_some _ _).1 ha
    split at h
    · rename_i hc
      cases h
      refine ⟨?_, by omega⟩
      have : (m : ℚ) = (((max (-2147483648) (min 2147483647 m)).toNat : ℤ) : ℚ) := by congr 1; omega
      rw [this]; rfl
    · cases h
  · rintro ⟨rfl, h1, h2⟩
    refine ⟨n, (intTok_some _ _).2 ⟨n, rfl, by omega⟩, ?_⟩
    rw [if_pos (by omega)]
    simp

private theorem placementEnd_iff {s : Int} {ts rest : List Tok} {p : Placement} : placementEnd s ts = .ok (p, rest) ↔
    (∃ e : Int, ts = .number e :: rest ∧ IsLine e ∧ p = .startEnd s e) ∨
    (∃ n : Nat, ts = .ident "span" :: .number n :: rest ∧ (0 < n ∧ n ≤ 65535) ∧ p = .startSpan s n) := by
  constructor
  · intro h
    have other : (tok1 (fun t => (intTok t).bind toI16) ts).bind (fun r => .ok (Placement.startEnd s r.1, r.2)) = .ok (p, rest) →
        ∃ e : Int, ts = .number e :: rest ∧ IsLine e ∧ p = .startEnd s e := by
      intro h
      obtain ⟨⟨a, rs⟩, ha, he⟩ := res_ok.1 h
      cases he
      obtain ⟨t, rfl, ht⟩ := (one_tok1 _ _ _ _).1 ha
      obtain ⟨rfl, hl⟩ := (line_iff _ _).1 ht
      exact ⟨_, rfl, hl, rfl⟩
    cases ts with
    | nil => exact .inl (other h)
    | cons t ts =>
      cases t with
      | ident k =>
        simp only [placementEnd] at h
        split at h
        · subst k
          obtain ⟨⟨a, rs⟩, ha, he⟩ := res_ok.1 h
          cases he
          obtain ⟨t, rfl, ht⟩ := (one_tok1 _ _ _ _).1 ha
          obtain ⟨rfl, hl⟩ := (span_iff _ _).1 ht
          exact .inr ⟨_, rfl, hl, rfl⟩
        · cases h
      | _ => exact .inl (other h)
  · rintro (⟨e, rfl, he, rfl⟩ | ⟨n, rfl, hn, rfl⟩)
    · have := (line_iff (.number e) e).2 ⟨rfl, he⟩
      simp only [placementEnd]
      rw [tok1_some (f := fun t => (intTok t).bind toI16) this]
      rfl
    · have := (span_iff (.number n) n).2 ⟨rfl, hn⟩
      simp only [placementEnd, if_true]
      rw [tok1_some (f := fun t => (intTok t).bind toU16) this]
      rfl

/-- C75: `grid-row` and `grid-column` are a line, two lines, or a line and a span; lines are not zero. -/
theorem C75_placement (ts : List Tok) (pv : PropertyValue (RV (LV K))) (imp : Bool) :
    declareP placementP ts = .ok (pv, imp) ↔
      DeclaredAs (fun us v => ∃ p, v = .other (.placement p) ∧ PlacementForm us p) ts pv imp := by
  refine declareP_iff (value_first ⟨rfl, fun _ => rfl, fun k hk ts => rfl⟩) ?_
  intro ts imp v
  simp only [bind_ok_iff, pure_ok_iff, one_tok1 _ _ _ _, line_iff, tryP_ok_iff, placementEnd_iff, slash]
  constructor
  · rintro ⟨s, _, ⟨_, rfl, rfl, hs⟩, o, _, ⟨p, rfl, _, _, rfl, ⟨e, rfl, he, rfl⟩ | ⟨n, rfl, hn, rfl⟩⟩ | ⟨rfl, rfl, _⟩, rfl, rfl⟩
    · exact ⟨[_, _, _], rfl, _, rfl, .startEnd hs he⟩
    · exact ⟨[_, _, _, _], rfl, _, rfl, .span hs hn.1 hn.2⟩
    · exact ⟨[_], rfl, _, rfl, .start hs⟩
  · rintro ⟨us, rfl, p, rfl, h⟩
    cases h with
    | start hs =>
      refine ⟨_, _, ⟨_, rfl, rfl, hs⟩, none, _, .inr ⟨rfl, rfl, ?_⟩, rfl, rfl⟩
      cases imp <;> rfl
    | startEnd hs he => exact ⟨_, _, ⟨_, rfl, rfl, hs⟩, some _, _, .inl ⟨_, rfl, (), _, rfl, .inl ⟨_, rfl, he, rfl⟩⟩, rfl, rfl⟩
    | span hs h1 h2 => exact ⟨_, _, ⟨_, rfl, rfl, hs⟩, some _, _, .inl ⟨_, rfl, (), _, rfl, .inr ⟨_, rfl, ⟨h1, h2⟩, rfl⟩⟩, rfl, rfl⟩

/-- From the second line, over three tracks; and CSS has `span 3` without a line, which is rejected. -/
example : declareP (X := LV Nat) placementP [.number (2 : Int), .delim '/', .ident "span", .number (3 : Nat)] =
      .ok (.value (.other (.placement (.startSpan 2 3))), false) ∧
    declareP (X := LV Nat) placementP [.ident "span", .number (3 : Nat)] = .err := by
  refine ⟨?_, rfl⟩
  refine (C75_placement _ _ _).2 (DeclaredAs.value (imp := false) (us := [_, _, _, _]) ⟨_, rfl, .span ?_ (by decide) (by decide)⟩)
  unfold IsLine
  decide

/-! ## The parsers of tracks meet what the shorthands expect of them -/

/-- The contents of what is read with commas and functions do not matter: the parser reads tokens. -/
theorem harmless_one {α : Type} {p : P α} {R : Tok → α → Prop} (h : OneTok p R) (hn : ∀ ts, calcsTidy ts = true → p ts ≠ .panic) :
    Harmless p := by
  intro ts hc
  refine ⟨hn ts hc, ?_⟩
  rintro a rest ha
  obtain ⟨t, rfl, _⟩ := (h _ _ _).1 ha
  exact (calcsTidy_cons.1 hc).2

theorem res_no_panic {α β : Type} {r : Res α} {f : α → Res β} (h : r ≠ .panic) (hf : ∀ a, f a ≠ .panic) : r.bind f ≠ .panic := by
  cases r <;> simp_all

theorem harmless_manyLoop {α : Type} {p : P α} (hp : Harmless p) (n : Nat) : Harmless (manyLoop p n) := by
  induction n with
  | zero => exact harmless_pure _
  | succ n ih =>
    refine harmless_bind (harmless_tryP hp) fun o => ?_
    cases o with
    | none => exact harmless_pure _
    | some v => exact harmless_bind ih fun _ => harmless_pure _

theorem harmless_many {α : Type} {p : P α} (hp : Harmless p) : Harmless (many p) :=
  harmless_bind hp fun _ => harmless_bind (fun ts hc => harmless_manyLoop hp ts.length ts hc) fun _ => harmless_pure _

theorem track_no_panic (ts : List Tok) (hc : calcsTidy ts = true) : trackP ts ≠ .panic := by
  cases ts with
  | nil => simp [trackP]
  | cons t ts =>
    cases t with
    | func name args =>
      have ha : calcsTidy args = true := (calcTidy_func hc).1
      simp only [trackP]
      split
      · exact res_no_panic (nested_no_panic (harmless_tok1 _) ha) (by simp)
      · split
        · refine res_no_panic (nested_no_panic ?_ ha) (by simp)
          exact harmless_bind (harmless_tok1 _) fun _ => harmless_bind (harmless_tok1 _) fun _ =>
            harmless_bind (harmless_tok1 _) fun _ => harmless_pure _
        · simp
    | _ => simp only [trackP]; split <;> simp

theorem harmless_track : Harmless trackP := harmless_one one_track track_no_panic

theorem harmless_repeated : Harmless repeatedTrackP := by
  refine harmless_one one_repeated ?_
  intro ts hc
  cases ts with
  | nil => simp [repeatedTrackP, trackP]
  | cons t ts =>
    cases t with
    | func name args =>
      have ha : calcsTidy args = true := (calcTidy_func hc).1
      simp only [repeatedTrackP]
      split
      · refine res_no_panic (nested_no_panic ?_ ha) (by simp)
        exact harmless_bind (harmless_tok1 _) fun _ => harmless_bind (harmless_tok1 _) fun _ =>
          harmless_bind (harmless_many harmless_track) fun _ => harmless_pure _
      · exact res_no_panic (track_no_panic _ hc) (by simp)
    | _ =>
      refine res_no_panic (f := fun r => .ok ((⟨.count 1, [r.1]⟩ : Repeated), r.2)) (track_no_panic _ hc) ?_
      intro _ h
      cases h

theorem harmless_noneOr {α : Type} {v : α} {p : P α} (hp : Harmless p) : Harmless (noneOr v p) := by
  refine harmless_bind (harmless_tryP (harmless_tok1 _)) fun o => ?_
  cases o with
  | none => exact hp
  | some _ => exact harmless_pure _

/-- C75: the parsers of tracks are what the shorthands expect (C64 and C73): they are value parsers, they do not crash
on texts whose `calc()`s are tidy, and `auto-flow` is no track. -/
theorem C75_fits_shorthands : ValueParser (tracksP : P (RV (LV K))) ∧ ValueParser (repeatedP : P (RV (LV K))) ∧
    Harmless (tracksP : P (RV (LV K))) ∧ Harmless (repeatedP : P (RV (LV K))) ∧
    ∀ ts, (repeatedP : P (RV (LV K))) (.ident "auto-flow" :: ts) = .err := by
  refine ⟨value_none (value_first (value_many track_value)), value_none (value_first (value_many repeated_value)),
    harmless_noneOr (harmless_bind (harmless_many harmless_track) fun _ => harmless_pure _),
    harmless_noneOr (harmless_bind (harmless_many harmless_repeated) fun _ => harmless_pure _), ?_⟩
  intro ts
  have h := repeated_ident (s := "auto-flow") (by decide) ts
  simp [repeatedP, noneOr, bind_run, tryP, identIs, tok1_cons, identTok, many, h]

end Flair.Props
