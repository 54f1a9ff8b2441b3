import Verif.Proofs.Parse
/-!
# The values of longhands (C74)
-/
namespace Flair.Props
open Flair.Calc Flair.Values Flair.Shorthand Flair.Longhand Flair.Spec Flair.Proofs.Parse

variable {K X : Type}

/-- The parser is a value parser when it fails without a token, at `!` and at a keyword. -/
private theorem value_of {α : Type} {p : P α} (h : ∀ ts, (∀ t ∈ ts.head?, t = .delim '!' ∨ ∃ k ∈ ["unset", "inherit", "initial"], t = .ident k) →
    p ts = .err) : ValueParser p where
  empty := h _ (by simp)
  bang ts := h _ (by simp)
  global k hk ts := h _ (by
    intro t ht
    simp only [List.head?_cons, Option.mem_def, Option.some.injEq] at ht
    exact .inr ⟨k, hk, ht.symm⟩)

private theorem value_noneOr {α : Type} {v : α} {p : P α} (hp : ValueParser p) : ValueParser (noneOr v p) where
  empty := by simp [noneOr, bind_run, tryP, identIs, tok1_nil, hp.empty]
  bang ts := by simp [noneOr, bind_run, tryP, identIs, tok1_cons, identTok, hp.bang]
  global k hk ts := by
    have : ¬ k = "none" := by rintro rfl; simp at hk
    simp [noneOr, bind_run, tryP, identIs, tok1_cons, identTok, this, hp.global k hk]

private theorem value_bind {α β : Type} {p : P α} {f : α → P β} (hp : ValueParser p) : ValueParser (p >>= f) where
  empty := by simp [bind_run, hp.empty]
  bang ts := by simp [bind_run, hp.bang]
  global k hk ts := by simp [bind_run, hp.global k hk]

private theorem value_tok1 {α : Type} {f : Tok → Option α} (hb : f (.delim '!') = none)
    (hk : ∀ k ∈ ["unset", "inherit", "initial"], f (.ident k) = none) : ValueParser (tok1 f) where
  empty := rfl
  bang ts := tok1_none hb ts
  global k h ts := tok1_none (hk k h) ts

private theorem value_try {α β : Type} {p : P α} {q : Option α → P β} (hp : ValueParser p) (hq : ValueParser (q none)) :
    ValueParser (tryP p >>= q) where
  empty := by simp [bind_run, tryP, hp.empty, hq.empty]
  bang ts := by simp [bind_run, tryP, hp.bang, hq.bang]
  global k hk ts := by simp [bind_run, tryP, hp.global k hk, hq.global k hk]

/-! ## Pairs and rectangles -/

private theorem vec2P_iff (ts : List Tok) (imp : Bool) (v : RV X) : vec2P ts = .ok (v, declEnd imp) ↔
    ∃ us, ts = us ++ declEnd imp ∧ ∃ x y, v = .vec2 x y ∧ NumberPair us x y := by
  simp only [vec2P, noneOr_ok_iff, bind_ok_iff, pure_ok_iff, tryP_ok_iff, one_number _ _ _]
  constructor
  · rintro (⟨rfl, rfl⟩ | ⟨_, x, ts1, ⟨a, rfl, ha⟩, o, ts2, ho, rfl, rfl⟩)
    · exact ⟨[_], rfl, _, _, rfl, .none⟩
    · rcases ho with ⟨y, rfl, b, rfl, hb⟩ | ⟨rfl, rfl, _⟩
      · exact ⟨[a, b], rfl, _, _, rfl, .two ha hb⟩
      · exact ⟨[a], rfl, _, _, rfl, .one ha⟩
  · rintro ⟨us, rfl, x, y, rfl, h⟩
    cases h with
    | none => exact .inl ⟨rfl, rfl⟩
    | one ha =>
      refine .inr ⟨?_, _, _, ⟨_, rfl, ha⟩, none, _, .inr ⟨rfl, rfl, value_declEnd number_value _⟩, rfl, rfl⟩
      rintro rest h
      cases h
      exact number_ident ha
    | two ha hb =>
      refine .inr ⟨?_, _, _, ⟨_, rfl, ha⟩, some _, _, .inl ⟨_, rfl, _, rfl, hb⟩, rfl, rfl⟩
      rintro rest h
      cases h
      exact number_ident ha

private theorem vec2P_value : ValueParser (vec2P : P (RV X)) := value_noneOr (value_bind number_value)

private theorem val2P_iff (ts : List Tok) (imp : Bool) (v : RV X) : val2P ts = .ok (v, declEnd imp) ↔
    ∃ us, ts = us ++ declEnd imp ∧ ∃ x y, v = .val2 x y ∧ LengthPair us x y := by
  simp only [val2P, noneOr_ok_iff, bind_ok_iff, pure_ok_iff, tryP_ok_iff, one_length _ _ _]
  constructor
  · rintro (⟨rfl, rfl⟩ | ⟨_, x, ts1, ⟨a, rfl, ha⟩, o, ts2, ho, rfl, rfl⟩)
    · exact ⟨[_], rfl, _, _, rfl, .none⟩
    · rcases ho with ⟨y, rfl, b, rfl, hb⟩ | ⟨rfl, rfl, _⟩
      · exact ⟨[a, b], rfl, _, _, rfl, .two ha hb⟩
      · exact ⟨[a], rfl, _, _, rfl, .one ha⟩
  · rintro ⟨us, rfl, x, y, rfl, h⟩
    cases h with
    | none => exact .inl ⟨rfl, rfl⟩
    | one ha =>
      refine .inr ⟨?_, _, _, ⟨_, rfl, ha⟩, none, _, .inr ⟨rfl, rfl, value_declEnd length_value _⟩, rfl, rfl⟩
      rintro rest h
      cases h
      simpa using (length_ident ha).1
    | two ha hb =>
      refine .inr ⟨?_, _, _, ⟨_, rfl, ha⟩, some _, _, .inl ⟨_, rfl, _, rfl, hb⟩, rfl, rfl⟩
      rintro rest h
      cases h
      simpa using (length_ident ha).1

private theorem val2P_value : ValueParser (val2P : P (RV X)) := value_noneOr (value_bind length_value)

/-- C74: a pair of numbers (`scale`, ...) is one or two numbers, or `none`. -/
theorem C74_number_pair (ts : List Tok) (pv : PropertyValue (RV X)) (imp : Bool) : declareP vec2P ts = .ok (pv, imp) ↔
    DeclaredAs (fun us v => ∃ x y, v = .vec2 x y ∧ NumberPair us x y) ts pv imp :=
  declareP_iff vec2P_value vec2P_iff

/-- C74: a pair of lengths (`translate`, ...) is one or two lengths, or `none`. -/
theorem C74_length_pair (ts : List Tok) (pv : PropertyValue (RV X)) (imp : Bool) : declareP val2P ts = .ok (pv, imp) ↔
    DeclaredAs (fun us v => ∃ x y, v = .val2 x y ∧ LengthPair us x y) ts pv imp :=
  declareP_iff val2P_value val2P_iff

private theorem rectP_iff (ts : List Tok) (imp : Bool) (v : RV (LV K)) : rectP ts = .ok (v, declEnd imp) ↔
    ∃ us, ts = us ++ declEnd imp ∧ ∃ w, v = .other w ∧ RectForm us w := by
  simp only [rectP, noneOr_ok_iff, bind_ok_iff, pure_ok_iff, one_number _ _ _]
  constructor
  · rintro (⟨rfl, rfl⟩ | ⟨_, w, _, ⟨a, rfl, ha⟩, x, _, ⟨b, rfl, hb⟩, y, _, ⟨c, rfl, hc⟩, z, _, ⟨d, rfl, hd⟩, rfl, rfl⟩)
    · exact ⟨[_], rfl, _, rfl, .none⟩
    · exact ⟨[a, b, c, d], rfl, _, rfl, .four ha hb hc hd⟩
  · rintro ⟨us, rfl, w, rfl, h⟩
    cases h with
    | none => exact .inl ⟨rfl, rfl⟩
    | four ha hb hc hd =>
      refine .inr ⟨?_, _, _, ⟨_, rfl, ha⟩, _, _, ⟨_, rfl, hb⟩, _, _, ⟨_, rfl, hc⟩, _, _, ⟨_, rfl, hd⟩, rfl, rfl⟩
      rintro rest h
      cases h
      exact number_ident ha

/-- C74: a rectangle is four numbers or `none`. -/
theorem C74_rect (ts : List Tok) (pv : PropertyValue (RV (LV K))) (imp : Bool) : declareP rectP ts = .ok (pv, imp) ↔
    DeclaredAs (fun us v => ∃ w, v = .other w ∧ RectForm us w) ts pv imp :=
  declareP_iff (value_noneOr (value_bind number_value)) rectP_iff

/-! ## Ratios, margins, integers -/

private theorem slash_iff {ts rest : List Tok} : delimIs '/' ts = .ok ((), rest) ↔ ts = .delim '/' :: rest := by
  unfold delimIs
  rw [one_tok1]
  constructor
  · rintro ⟨t, rfl, h⟩
    cases t <;> simp_all [delimTok]
  · rintro rfl; exact ⟨_, rfl, rfl⟩

private theorem ident_ok_iff {s : String} {u : Unit} {ts rest : List Tok} : identIs s ts = .ok (u, rest) ↔ ts = .ident s :: rest := by
  unfold identIs
  rw [one_tok1]
  constructor
  · rintro ⟨t, rfl, h⟩
    cases t <;> simp_all [identTok]
  · rintro rfl; exact ⟨_, rfl, by simp [identTok]⟩

private theorem ident_err {s : String} {t : Tok} (h : t ≠ .ident s) (ts : List Tok) : identIs s (t :: ts) = .err := by
  refine tok1_none ?_ _
  cases t <;> simp_all [identTok]

private theorem value_ident {s : String} (h : s ∉ ["unset", "inherit", "initial"]) : ValueParser (identIs s) :=
  value_tok1 rfl (by
    intro k hk
    simp only [identTok]
    rw [if_neg]
    rintro rfl
    exact h hk)

private theorem aspectRatioP_iff (ts : List Tok) (imp : Bool) (v : RV (LV K)) : aspectRatioP ts = .ok (v, declEnd imp) ↔
    ∃ us, ts = us ++ declEnd imp ∧ ∃ w, v = .other w ∧ RatioForm us w := by
  simp only [aspectRatioP, bind_ok_iff, tryP_ok_iff]
  constructor
  · rintro ⟨o, ts1, ⟨u, rfl, hu⟩ | ⟨rfl, rfl, _⟩, hf⟩
    · obtain rfl := ident_ok_iff.1 hu
      cases hf
      exact ⟨[_], rfl, _, rfl, .auto⟩
    · simp only [bind_ok_iff, pure_ok_iff, tryP_ok_iff, one_number _ _ _] at hf
      obtain ⟨x, _, ⟨a, rfl, ha⟩, o, ts2, ⟨y, rfl, u, _, hu, b, rfl, hb⟩ | ⟨rfl, rfl, _⟩, rfl, rfl⟩ := hf
      · obtain rfl := slash_iff.1 hu
        exact ⟨[a, .delim '/', b], rfl, _, rfl, .two ha hb⟩
      · exact ⟨[a], rfl, _, rfl, .one ha⟩
  · rintro ⟨us, rfl, w, rfl, h⟩
    cases h with
    | auto => exact ⟨some (), _, .inl ⟨_, rfl, rfl⟩, rfl⟩
    | @one a x ha =>
      have hn : a ≠ .ident "auto" := by rintro rfl; exact number_ident ha
      refine ⟨none, _, .inr ⟨rfl, rfl, ident_err hn _⟩, ?_⟩
      simp only [bind_ok_iff, pure_ok_iff, tryP_ok_iff, one_number _ _ _]
      refine ⟨x, _, ⟨a, rfl, ha⟩, none, _, .inr ⟨rfl, rfl, ?_⟩, rfl, rfl⟩
      cases imp <;> rfl
    | @two a b x y ha hb =>
      have hn : a ≠ .ident "auto" := by rintro rfl; exact number_ident ha
      refine ⟨none, _, .inr ⟨rfl, rfl, ident_err hn _⟩, ?_⟩
      simp only [bind_ok_iff, pure_ok_iff, tryP_ok_iff, one_number _ _ _]
      exact ⟨x, _, ⟨a, rfl, ha⟩, some y, _, .inl ⟨_, rfl, (), _, slash_iff.2 rfl, b, rfl, hb⟩, rfl, rfl⟩

/-- C74: an aspect ratio is `auto`, a number, or two numbers with a slash between them. -/
theorem C74_aspect_ratio (ts : List Tok) (pv : PropertyValue (RV (LV K))) (imp : Bool) :
    declareP aspectRatioP ts = .ok (pv, imp) ↔ DeclaredAs (fun us v => ∃ w, v = .other w ∧ RatioForm us w) ts pv imp :=
  declareP_iff (value_try (value_ident (by decide)) (value_bind number_value)) aspectRatioP_iff

private theorem clipMarginP_iff (boxes : String → Option String) (ts : List Tok) (imp : Bool) (v : RV (LV K)) :
    clipMarginP boxes ts = .ok (v, declEnd imp) ↔
    ∃ us, ts = us ++ declEnd imp ∧ ∃ w, v = .other w ∧ ClipForm boxes us w := by
  simp only [clipMarginP, bind_ok_iff, tryP_ok_iff]
  constructor
  · rintro ⟨o, ts1, ⟨m, rfl, hm⟩ | ⟨rfl, rfl, _⟩, hf⟩
    · obtain ⟨a, rfl, ha⟩ := (one_number _ _ _).1 hm
      cases hf
      exact ⟨[a], rfl, _, rfl, .margin ha⟩
    · simp only [bind_ok_iff, pure_ok_iff, one_number _ _ _, one_tok1 _ _ _ _] at hf
      obtain ⟨b, _, ⟨t, rfl, ht⟩, m, _, ⟨a, rfl, ha⟩, rfl, rfl⟩ := hf
      cases t with
      | ident s => exact ⟨[.ident s, a], rfl, _, rfl, .both ht ha⟩
      | _ => simp at ht
  · rintro ⟨us, rfl, w, rfl, h⟩
    cases h with
    | @margin a x ha => exact ⟨some x, _, .inl ⟨_, rfl, (one_number _ _ _).2 ⟨a, rfl, ha⟩⟩, rfl⟩
    | @both s b a x hs ha =>
      refine ⟨none, _, .inr ⟨rfl, rfl, ?_⟩, ?_⟩
      · unfold calcF32
        rw [List.cons_append, calcP_plain _ _ (by simp [Plain1]) (by intros; rfl)]; rfl
      · simp only [bind_ok_iff, pure_ok_iff, one_number _ _ _, one_tok1 _ _ _ _]
        exact ⟨b, _, ⟨_, rfl, hs⟩, x, _, ⟨a, rfl, ha⟩, rfl, rfl⟩

/-- C74: a clip margin is a number, possibly after the name of a box. -/
theorem C74_clip_margin (boxes : String → Option String) (hb : ∀ k ∈ ["unset", "inherit", "initial"], boxes k = none)
    (ts : List Tok) (pv : PropertyValue (RV (LV K))) (imp : Bool) :
    declareP (clipMarginP boxes) ts = .ok (pv, imp) ↔
      DeclaredAs (fun us v => ∃ w, v = .other w ∧ ClipForm boxes us w) ts pv imp :=
  declareP_iff (value_try number_value (value_bind (value_tok1 rfl hb))) (clipMarginP_iff boxes)

private theorem intTok_iff (t : Tok) (n : Int) : intTok t = some n ↔
    ∃ m : Int, t = .number m ∧ n = max (-2147483648) (min 2147483647 m) := by
  constructor
  · intro h
    cases t with
    | number q =>
      simp only [intTok] at h
      split at h
      · rename_i hd
        cases h
        exact ⟨q.num, by rw [Rat.den_eq_one_iff] at hd; rw [hd], rfl⟩
      · cases h
    | _ => cases h
  · rintro ⟨m, rfl, rfl⟩
    simp [intTok]

/-- C74: a `z-index` is an integer (of 32 bits, so it is cut off there); `auto` is none. -/
theorem C74_z_index (ts : List Tok) (pv : PropertyValue (RV (LV K))) (imp : Bool) :
    declareP zIndexP ts = .ok (pv, imp) ↔
      DeclaredAs (fun us v => ∃ n, v = .other (.zIndex n) ∧ IntForm us n) ts pv imp := by
  refine declareP_iff (value_bind (value_tok1 rfl (by simp [intTok]))) ?_
  intro ts imp v
  simp only [zIndexP, bind_ok_iff, pure_ok_iff, one_tok1 _ _ _ _, intTok_iff]
  constructor
  · rintro ⟨n, _, ⟨_, rfl, m, rfl, hn⟩, rfl, rfl⟩
    exact ⟨[_], rfl, _, rfl, .mk m n hn⟩
  · rintro ⟨us, rfl, n, rfl, h⟩
    cases h with
    | mk m n hn => exact ⟨n, _, ⟨_, rfl, m, rfl, hn⟩, rfl, rfl⟩

/-- C74: `z-index: auto` is rejected. -/
theorem C74_z_index_auto (imp : Bool) : declareP (zIndexP : P (RV (LV K))) (.ident "auto" :: declEnd imp) = .err := by
  cases imp <;> rfl

/-! ## Shadows -/

private theorem color_length {color : Tok → Option K} (hc : ColorToks color) {t : Tok} {v : Val} (h : IsLengthTok t v) :
    color t = none := by
  cases hk : color t with
  | none => rfl
  | some k => have := hc.length t k hk; unfold IsLengthTok at h; rw [this] at h; cases h

private theorem color_number {color : Tok → Option K} (hc : ColorToks color) {t : Tok} {q : ℚ} (h : IsNumberTok t q) :
    color t = none := by
  cases hk : color t with
  | none => rfl
  | some k => have := hc.number t k hk; unfold IsNumberTok at h; rw [this] at h; cases h

private theorem color_stop {color : Tok → Option K} (hc : ColorToks color) {imp : Bool} {rest : List Tok} (h : Stop imp rest) :
    tok1 color rest = .err := by
  rcases h with rfl | ⟨ts, rfl⟩
  · cases imp
    · rfl
    · exact tok1_none hc.bang _
  · exact tok1_none hc.comma _

private theorem length_stop {imp : Bool} {rest : List Tok} (h : Stop imp rest) : calcVal rest = .err := by
  rcases h with rfl | ⟨ts, rfl⟩
  · exact value_declEnd length_value _
  · exact length_comma _

/-- An optional color, as it is read. -/
private theorem optColor_only {color : Tok → Option K} {ts rest : List Tok} {o : Option K} (h : tryP (tok1 color) ts = .ok (o, rest)) :
    ∃ us, ts = us ++ rest ∧ OptColor color us o := by
  rcases tryP_cases h with ⟨k, rfl, h'⟩ | ⟨rfl, rfl, h'⟩
  · obtain ⟨t, rfl, ht⟩ := (one_tok1 _ _ _ _).1 h'
    exact ⟨[t], rfl, .present ht⟩
  · exact ⟨[], rfl, .absent⟩

private theorem optColor_of {color : Tok → Option K} {us rest : List Tok} {o : Option K} (h : OptColor color us o)
    (hr : tok1 color rest = .err) : tryP (tok1 color) (us ++ rest) = .ok (o, rest) := by
  cases h with
  | absent => exact tryP_err hr
  | present hk => exact tryP_ok ((one_tok1 _ _ _ _).2 ⟨_, rfl, hk⟩)

private theorem shadow_of {color : Tok → Option K} {us : List Tok} {s : Shadow K} : ShadowForm color us s ↔
    ∃ us1 us2 us3 c d xs, us = us1 ++ us2 ++ us3 ∧ OptColor color us1 c ∧ List.Forall₂ IsLengthTok us2 xs ∧
      OptColor color us3 d ∧ shadowOf (d.or c) xs = some s := by
  constructor
  · intro h
    cases h with
    | two h1 h2 h3 => exact ⟨_, _, _, _, _, _, rfl, h1, h2, h3, rfl⟩
    | three h1 h2 h3 => exact ⟨_, _, _, _, _, _, rfl, h1, h2, h3, rfl⟩
    | four h1 h2 h3 => exact ⟨_, _, _, _, _, _, rfl, h1, h2, h3, rfl⟩
  · rintro ⟨us1, us2, us3, c, d, xs, rfl, h1, h2, h3, h4⟩
    match xs, h4 with
    | [x, y], h4 => cases h4; exact .two h1 h2 h3
    | [x, y, b], h4 => cases h4; exact .three h1 h2 h3
    | [x, y, b, s], h4 => cases h4; exact .four h1 h2 h3

private theorem shadowP_only {color : Tok → Option K} {ts rest : List Tok} {s : Shadow K}
    (h : shadowP color ts = .ok (s, rest)) : ∃ us, ts = us ++ rest ∧ ShadowForm color us s := by
  simp only [shadowP, bind_ok_iff] at h
  obtain ⟨c, ts1, hc, x, ts2, hx, y, ts3, hy, more, ts4, hm, d, ts5, hd, hs⟩ := h
  obtain ⟨us1, rfl, h1⟩ := optColor_only hc
  obtain ⟨us3, rfl, h3⟩ := optColor_only hd
  obtain ⟨a, rfl, ha⟩ := (one_length _ _ _).1 hx
  obtain ⟨b, rfl, hb⟩ := (one_length _ _ _).1 hy
  obtain ⟨us2, rfl, h2⟩ := (readsAll_one one_length).1 (moreValues_ok hm).1
  cases hf : shadowOf (d.or c) (x :: y :: more) with
  | none => rw [hf] at hs; cases hs
  | some s' =>
    rw [hf] at hs
    cases hs
    exact ⟨us1 ++ (a :: b :: us2) ++ us3, by simp,
      shadow_of.2 ⟨us1, a :: b :: us2, us3, c, d, _, rfl, h1, .cons ha (.cons hb h2), h3, hf⟩⟩

private theorem shadowP_of {color : Tok → Option K} (hc : ColorToks color) {imp : Bool} {us rest : List Tok} {s : Shadow K}
    (hr : Stop imp rest) (h : ShadowForm color us s) : shadowP color (us ++ rest) = .ok (s, rest) := by
  obtain ⟨us1, us2, us3, c, d, xs, rfl, h1, h2, h3, h4⟩ := shadow_of.1 h
  have hlen : 2 ≤ xs.length ∧ xs.length ≤ 4 := by
    unfold shadowOf at h4
    split at h4 <;> simp_all
  have herr : calcVal (us3 ++ rest) = .err := by
    cases h3 with
    | absent => exact length_stop hr
    | present hk => exact calcP_head_err (hc.length _ _ hk) _
  cases h2 with
  | nil => simp at hlen
  | @cons a x us2 xs ha h2 =>
    cases h2 with
    | nil => simp at hlen
    | @cons b y us2 xs hb h2 =>
      simp only [shadowP, bind_ok_iff]
      have e : us1 ++ a :: b :: us2 ++ us3 ++ rest = us1 ++ (a :: (b :: (us2 ++ (us3 ++ rest)))) := by simp
      rw [e]
      refine ⟨c, _, optColor_of h1 (tok1_none (color_length hc ha) _), x, _, (one_length _ _ _).2 ⟨a, rfl, ha⟩, y, _,
        (one_length _ _ _).2 ⟨b, rfl, hb⟩, xs, _, ?_, d, _, optColor_of h3 (color_stop hc hr), ?_⟩
      · exact moreValues_of ((readsAll_one one_length).2 ⟨us2, rfl, h2⟩) (by simp at hlen; omega) herr
      · rw [h4]; rfl

private theorem shadowP_value {color : Tok → Option K} (hc : ColorToks color) : ValueParser (shadowP color) :=
  value_try (value_tok1 hc.bang fun k hk => hc.ident k (List.mem_cons_of_mem _ hk)) (value_bind length_value)

private theorem boxShadowP_iff {color : Tok → Option K} (hc : ColorToks color) (ts : List Tok) (imp : Bool) (v : RV (LV K)) :
    boxShadowP color ts = .ok (v, declEnd imp) ↔
      ∃ us, ts = us ++ declEnd imp ∧ ∃ ss, v = .other (.shadows ss) ∧ CommaSep (ShadowForm color) us ss := by
  have h := fun ss => commaSep_iff (p := shadowP color) (imp := imp) (Form := ShadowForm color) (ts := ts) (vs := ss)
    (fun ts rest s hr => ⟨shadowP_only, fun ⟨us, e, hu⟩ => e ▸ shadowP_of hc hr hu⟩) (fun ts s rest h => by
      obtain ⟨us, rfl, _⟩ := shadowP_only h; simp)
  simp only [bind_ok_iff, pure_ok_iff] at h
  simp only [boxShadowP, bind_ok_iff, pure_ok_iff]
  constructor
  · rintro ⟨s, ts1, hs, ss, ts2, hss, rfl, rfl⟩
    obtain ⟨us, e, hu⟩ := (h (s :: ss)).1 ⟨_, _, hs, _, _, hss, rfl, rfl⟩
    exact ⟨us, e, _, rfl, hu⟩
  · rintro ⟨us, e, ss, rfl, hu⟩
    obtain ⟨s, ts1, hs, ss, ts2, hss, rfl, rfl⟩ := (h ss).2 ⟨us, e, hu⟩
    exact ⟨_, _, hs, _, _, hss, rfl, rfl⟩

/-- C74: `box-shadow` is one or more shadows with commas between them; each is two to four lengths (offset, blur and
spread), with a color before or after them. -/
theorem C74_box_shadow {color : Tok → Option K} (hc : ColorToks color) (ts : List Tok) (pv : PropertyValue (RV (LV K)))
    (imp : Bool) : declareP (boxShadowP color) ts = .ok (pv, imp) ↔
      DeclaredAs (fun us v => ∃ ss, v = .other (.shadows ss) ∧ CommaSep (ShadowForm color) us ss) ts pv imp :=
  declareP_iff (value_bind (shadowP_value hc)) (boxShadowP_iff hc)

/-- C74: CSS has `box-shadow: none`; it is rejected. -/
theorem C74_box_shadow_none {color : Tok → Option K} (hc : ColorToks color) (imp : Bool) :
    declareP (boxShadowP color) (.ident "none" :: declEnd imp) = .err := by
  refine entirely_err ?_
  rw [bind_run]
  have h1 : tok1 color (.ident "none" :: declEnd imp) = .err := tok1_none (hc.ident _ (by simp)) _
  have h2 : calcVal (.ident "none" :: declEnd imp) = .err := by
    unfold calcVal; rw [calcP_plain _ _ (by simp [Plain1]) (by intros; rfl)]; rfl
  have h3 : boxShadowP color (.ident "none" :: declEnd imp) = .err := by
    simp [boxShadowP, shadowP, bind_run, tryP_err h1, h2]
  rw [propValue_err_iff.2 ⟨by simp [NoKeyword], h3⟩]
  rfl

private theorem textShadowP_iff {color : Tok → Option K} (hc : ColorToks color) (ts : List Tok) (imp : Bool) (v : RV (LV K)) :
    textShadowP color ts = .ok (v, declEnd imp) ↔
      ∃ us, ts = us ++ declEnd imp ∧ ∃ w, v = .other w ∧ TextShadowForm color us w := by
  simp only [textShadowP, noneOr_ok_iff, bind_ok_iff]
  constructor
  · rintro (⟨rfl, rfl⟩ | ⟨_, o, ts1, ho, hf⟩)
    · exact ⟨[_], rfl, _, rfl, .none⟩
    · rcases tryP_cases ho with ⟨c, rfl, h'⟩ | ⟨rfl, rfl, h'⟩
      · obtain ⟨t, rfl, ht⟩ := (one_tok1 _ _ _ _).1 h'
        simp only [bind_ok_iff, pure_ok_iff, one_number _ _ _] at hf
        obtain ⟨x, _, ⟨a, rfl, ha⟩, y, _, ⟨b, rfl, hb⟩, rfl, rfl⟩ := hf
        exact ⟨[t, a, b], rfl, _, rfl, .before ht ha hb⟩
      · simp only [bind_ok_iff, pure_ok_iff, one_number _ _ _] at hf
        obtain ⟨x, _, ⟨a, rfl, ha⟩, y, _, ⟨b, rfl, hb⟩, c, _, hcol, rfl, rfl⟩ := hf
        obtain ⟨us, rfl, hu⟩ := optColor_only hcol
        exact ⟨a :: b :: us, rfl, _, rfl, .after ha hb hu⟩
  · rintro ⟨us, rfl, w, rfl, h⟩
    cases h with
    | none => exact .inl ⟨rfl, rfl⟩
    | @before t k a b x y ht ha hb =>
      refine .inr ⟨?_, some k, _, tryP_ok ((one_tok1 _ _ _ _).2 ⟨t, rfl, ht⟩), ?_⟩
      · rintro rest h
        cases h
        rw [hc.ident _ (by simp)] at ht
        cases ht
      · simp only [bind_ok_iff, pure_ok_iff, one_number _ _ _]
        exact ⟨x, _, ⟨a, rfl, ha⟩, y, _, ⟨b, rfl, hb⟩, rfl, rfl⟩
    | @after a b x y us c ha hb hu =>
      refine .inr ⟨?_, none, _, tryP_err (tok1_none (color_number hc ha) _), ?_⟩
      · rintro rest h
        cases h
        exact number_ident ha
      · simp only [bind_ok_iff, pure_ok_iff, one_number _ _ _]
        exact ⟨x, _, ⟨a, rfl, ha⟩, y, _, ⟨b, rfl, hb⟩, c, _, optColor_of hu (color_stop hc (.inl rfl)), rfl, rfl⟩

/-- C74: `text-shadow` is `none`, or two numbers with a color before or after them. -/
theorem C74_text_shadow {color : Tok → Option K} (hc : ColorToks color) (ts : List Tok) (pv : PropertyValue (RV (LV K)))
    (imp : Bool) : declareP (textShadowP color) ts = .ok (pv, imp) ↔
      DeclaredAs (fun us v => ∃ w, v = .other w ∧ TextShadowForm color us w) ts pv imp :=
  declareP_iff (value_noneOr (value_try (value_tok1 hc.bang fun k hk => hc.ident k (List.mem_cons_of_mem _ hk))
    (value_bind number_value))) (textShadowP_iff hc)

/-- A color for the examples. -/
private def gray : Tok → Option Nat
  | .other n => some n
  | _ => none

private theorem gray_color : ColorToks gray where
  length t k h := by cases t <;> first | cases h; done | (cases h; rfl)
  number t k h := by cases t <;> first | cases h; done | (cases h; rfl)
  comma := rfl
  bang := rfl
  ident k _ := rfl

/-- Two shadows: the first has its color in front, the second has a blur and no color. -/
example : declareP (boxShadowP gray) [.other 7, .number 1, .number 2, .comma, .number 3, .number 4, .number 5] =
    .ok (.value (.other (.shadows [⟨some 7, .len .px 1, .len .px 2, none, none⟩,
      ⟨none, .len .px 3, .len .px 4, some (.len .px 5), none⟩])), false) := by
  refine (C74_box_shadow gray_color _ _ _).2 ?_
  have h1 : ShadowForm gray [.other 7, .number 1, .number 2] ⟨some 7, .len .px 1, .len .px 2, none, none⟩ :=
    ShadowForm.two (us := [.other 7]) (vs := [.number 1, .number 2]) (ws := []) (d := none) (.present (t := .other 7) rfl)
      (.cons rfl (.cons rfl .nil)) .absent
  have h2 : ShadowForm gray [.number 3, .number 4, .number 5] ⟨none, .len .px 3, .len .px 4, some (.len .px 5), none⟩ :=
    ShadowForm.three (us := []) (vs := [.number 3, .number 4, .number 5]) (ws := []) (c := none) (d := none) .absent
      (.cons rfl (.cons rfl (.cons rfl .nil))) .absent
  have h3 := CommaSep.more h1 (.one h2)
  refine DeclaredAs.value (imp := false) (us := [.other 7, .number 1, .number 2] ++ .comma :: [.number 3, .number 4, .number 5])
    ?_
  exact ⟨_, rfl, h3⟩

/-! ## Line heights and image modes -/

/-- C74: a line height is `normal`, a factor (a number, `em` or a percentage), or a number of pixels. -/
theorem C74_line_height (ts : List Tok) (pv : PropertyValue (RV (LV K))) (imp : Bool) :
    declareP lineHeightP ts = .ok (pv, imp) ↔
      DeclaredAs (fun us v => ∃ h, v = .other (.lineHeight h) ∧ LineHeightForm us h) ts pv imp := by
  refine declareP_iff (value_bind (value_tok1 rfl (by
    intro k hk
    simp only [lineHeightTok]
    rw [if_neg]
    rintro rfl
    simp at hk))) ?_
  intro ts imp v
  simp only [bind_ok_iff, pure_ok_iff, one_tok1 _ _ _ _]
  constructor
  · rintro ⟨h, _, ⟨t, rfl, ht⟩, rfl, rfl⟩
    refine ⟨[t], rfl, _, rfl, ?_⟩
    cases t with
    | ident s =>
      simp only [lineHeightTok] at ht
      split at ht
      · subst s; cases ht; exact .normal
      · cases ht
    | number q => cases ht; exact .number _
    | percentage q => cases ht; exact .percent _
    | dimension q u =>
      simp only [lineHeightTok] at ht
      split at ht
      · subst u; cases ht; exact .px _
      · split at ht
        · subst u; cases ht; exact .em _
        · cases ht
    | _ => cases ht
  · rintro ⟨us, rfl, h, rfl, hf⟩
    cases hf <;> exact ⟨_, _, ⟨_, rfl, rfl⟩, rfl, rfl⟩

private theorem tiledArgs_iff {ts : List Tok} {x y : Bool} {q : ℚ} {m : ImageMode} : tiledArgs x y q ts = some m ↔
    ∃ x' y' q', m = .tiled x' y' q' ∧ TileWords ts (x, y, q) (x', y', q') := by
  induction ts generalizing x y q with
  | nil =>
    simp only [tiledArgs, Option.some.injEq]
    constructor
    · rintro rfl; exact ⟨_, _, _, rfl, .nil⟩
    · rintro ⟨x', y', q', rfl, h⟩; cases h; rfl
  | cons t ts ih =>
    constructor
    · intro h
      cases t with
      | ident s =>
        simp only [tiledArgs] at h
        split at h
        · subst s
          obtain ⟨x', y', q', rfl, hw⟩ := ih.1 h
          exact ⟨_, _, _, rfl, .cons .x hw⟩
        · split at h
          · subst s
            obtain ⟨x', y', q', rfl, hw⟩ := ih.1 h
            exact ⟨_, _, _, rfl, .cons .y hw⟩
          · cases h
      | number r =>
        simp only [tiledArgs] at h
        obtain ⟨x', y', q', rfl, hw⟩ := ih.1 h
        exact ⟨_, _, _, rfl, .cons (.stretch r) hw⟩
      | _ => simp [tiledArgs] at h
    · rintro ⟨x', y', q', rfl, h⟩
      cases h with
      | cons h1 h2 =>
        cases h1 with
        | x => simpa [tiledArgs] using ih.2 ⟨_, _, _, rfl, h2⟩
        | y => simpa [tiledArgs] using ih.2 ⟨_, _, _, rfl, h2⟩
        | stretch r => simpa [tiledArgs] using ih.2 ⟨_, _, _, rfl, h2⟩

private theorem nested_ok_iff {α : Type} {p : P α} {args : List Tok} {a : α} : nested p args = .ok a ↔ p args = .ok (a, []) :=
  ⟨entirely_ok, entirely_of⟩

private theorem res_bind_ok {α β : Type} {r : Res α} {f : α → Res β} {b : β} : r.bind f = .ok b ↔ ∃ a, r = .ok a ∧ f a = .ok b := by
  cases r <;> simp

private theorem one_slice : OneTok sliceP SliceIs := by
  intro ts v rest
  constructor
  · intro h
    cases ts with
    | nil => cases h
    | cons t ts =>
      cases t with
      | ident s =>
        simp only [sliceP] at h
        split at h
        · rename_i hs
          cases h
          rcases hs with rfl | rfl
          · exact ⟨_, rfl, .auto⟩
          · exact ⟨_, rfl, .stretch⟩
        · cases h
      | func name args =>
        simp only [sliceP] at h
        split at h
        · subst name
          obtain ⟨q, hq, he⟩ := res_bind_ok.1 h
          cases he
          obtain ⟨a, rfl, ha⟩ := (one_number _ _ _).1 (nested_ok_iff.1 hq)
          exact ⟨_, rfl, .tile ha⟩
        · cases h
      | _ => cases h
  · rintro ⟨t, rfl, h⟩
    cases h with
    | auto => rfl
    | stretch => rfl
    | tile ha => simp [sliceP, nested_ok_iff.2 ((one_number _ _ _).2 ⟨_, rfl, ha⟩)]

private theorem slice_number {t : Tok} {s : Slice} (h : SliceIs t s) (ts : List Tok) : calcF32 (t :: ts) = .err := by
  unfold calcF32
  cases h <;> (rw [calcP_plain _ _ (by simp [Plain1]) (by intros; rfl)]; rfl)

private theorem sliceP_err {ts : List Tok} (h : ∀ t ∈ ts.head?, (∀ s, t ≠ .ident s) ∧ ∀ args, t ≠ .func "tile" args) : sliceP ts = .err := by
  cases ts with
  | nil => rfl
  | cons t ts =>
    have := h t (by simp)
    cases t with
    | ident s => exact absurd rfl (this.1 s)
    | func name args =>
      simp only [sliceP]
      rw [if_neg]
      rintro rfl
      exact this.2 args rfl
    | _ => rfl

private theorem number_slice {t : Tok} {q : ℚ} (h : IsNumberTok t q) (ts : List Tok) : sliceP (t :: ts) = .err := by
  refine sliceP_err ?_
  intro t' ht
  simp only [List.head?_cons, Option.mem_def, Option.some.injEq] at ht
  subst ht
  constructor
  · rintro s rfl; exact number_ident h
  · rintro args rfl
    unfold IsNumberTok calcF32 at h
    rw [calcP_plain _ _ (by simp [Plain1]) (by intros; rfl)] at h
    cases h

private theorem slicedArgs_iff {args : List Tok} {m : ImageMode} : slicedArgs args = .ok (m, []) ↔
    ImageModeForm [.func "sliced" args] m := by
  constructor
  · intro h
    simp only [slicedArgs, bind_ok_iff] at h
    obtain ⟨⟨t, r, b, l⟩, ts1, h4, h⟩ := h
    simp only [bind_ok_iff, pure_ok_iff] at h
    obtain ⟨o1, ts2, ho1, o2, ts3, ho2, o3, ts4, ho3, rfl, rfl⟩ := h
    obtain ⟨vs, hr, hl1, hl4, he⟩ := fourValues_ok h4
    obtain ⟨us, rfl, hu⟩ := (readsAll_one one_number).1 hr
    obtain ⟨c1, c2, c3, c4⟩ := expand_css he
    have corner : ∃ q, CornerIs ts3 q ∧ o3.getD 1 = q ∧ (ts3 ≠ [] → ∃ a q, ts3 = [a] ∧ IsNumberTok a q) := by
      rcases tryP_cases ho3 with ⟨q, rfl, hq⟩ | ⟨rfl, rfl, _⟩
      · obtain ⟨a, rfl, ha⟩ := (one_number _ _ _).1 hq
        exact ⟨q, .some ha, rfl, fun _ => ⟨_, _, rfl, ha⟩⟩
      · exact ⟨1, .none, rfl, fun h => absurd rfl h⟩
    obtain ⟨q, hq, rfl, hcor⟩ := corner
    rcases tryP_cases ho1 with ⟨s, rfl, hs⟩ | ⟨rfl, rfl, hs1⟩
    · obtain ⟨a, rfl, ha⟩ := (one_slice _ _ _).1 hs
      rcases tryP_cases ho2 with ⟨s', rfl, hs'⟩ | ⟨rfl, rfl, hs'⟩
      · obtain ⟨b', rfl, hb⟩ := (one_slice _ _ _).1 hs'
        have := ImageModeForm.sliced (bs := us) (ms := [a, b']) (cs := ts3) hu hl4 c1 c2 c3 c4 (.two ha hb) hq (by simp)
        simpa using this
      · have := ImageModeForm.sliced (bs := us) (ms := [a]) hu hl4 c1 c2 c3 c4 (.one ha) hq (by simp)
        simpa using this
    · rcases tryP_cases ho2 with ⟨s', rfl, hs'⟩ | ⟨rfl, rfl, hs'⟩
      · rw [hs1] at hs'; cases hs'
      · suffices hc : ([] : List Tok) = [] → ts3 ≠ [] → vs.length = 4 by
          simpa using ImageModeForm.sliced (bs := us) (ms := []) hu hl4 c1 c2 c3 c4 .none hq hc
        intro _ hne
        obtain ⟨a, q', rfl, ha⟩ := hcor hne
        by_contra hlt
        have hlt : vs.length < 4 := by omega
        have hstop : calcF32 [a] = .err := by
          generalize us ++ [a] = tsx at hr h4
          cases hr with
          | done => simp at hl1
          | @more _ ts' _ v vs' hv hvs =>
            simp only [fourValues, hv, bind_ok] at h4
            cases hm : moreValues calcF32 3 ts' with
            | ok mm =>
              obtain ⟨ws, rs⟩ := mm
              rw [hm] at h4
              simp only [bind_ok] at h4
              cases hex : expand (v :: ws) with
              | none => rw [hex] at h4; cases h4
              | some qq =>
                rw [hex] at h4
                cases h4
                exact moreValues_stops hm (by
                  have : ReadsAll calcF32 ts' ws [a] := (moreValues_ok hm).1
                  have e := readsAll_length one_number this hvs
                  simp at hlt; omega)
            | err => rw [hm] at h4; cases h4
            | panic => rw [hm] at h4; cases h4
        unfold IsNumberTok at ha
        rw [hstop] at ha
        cases ha
  · intro h
    generalize hts : [Tok.func "sliced" args] = us at h
    cases h with
    | auto => cases hts
    | stretch => cases hts
    | tiled => simp at hts
    | @sliced bs ms cs vs a b q t r o l hb hl ct cr co cl hm hc hcond =>
      cases hts
      have h1 : 1 ≤ vs.length := by
        cases vs with
        | nil => simp [cssTop] at ct
        | cons => simp
      have hcs : sliceP cs = .err := by
        cases hc with
        | none => rfl
        | some h => exact number_slice h _
      have hc3 : tryP calcF32 cs = .ok (if cs = [] then none else some q, []) ∧ (if cs = [] then none else some q : Option ℚ).getD 1 = q := by
        cases hc with
        | none => exact ⟨rfl, rfl⟩
        | some h => exact ⟨tryP_ok ((one_number _ _ _).2 ⟨_, rfl, h⟩), rfl⟩
      have h4 : fourValues calcF32 (bs ++ (ms ++ cs)) = .ok ((t, r, o, l), ms ++ cs) := by
        by_cases hlen : vs.length = 4
        · obtain ⟨qq, hq, hf⟩ := fourValues_four ((readsAll_one one_number).2 ⟨bs, rfl, hb⟩) hlen (rest := ms ++ cs)
          rw [hf]
          obtain ⟨c1, c2, c3, c4⟩ := expand_css hq
          rw [ct] at c1; rw [cr] at c2; rw [co] at c3; rw [cl] at c4
          cases c1; cases c2; cases c3; cases c4
          rfl
        · have herr : calcF32 (ms ++ cs) = .err := by
            cases hm with
            | none =>
              have : cs = [] := by
                by_contra hne
                exact hlen (hcond rfl hne)
              rw [this]; rfl
            | one h => exact slice_number h _
            | two h _ => exact slice_number h _
          obtain ⟨qq, hq, hf⟩ := fourValues_of ((readsAll_one one_number).2 ⟨bs, rfl, hb⟩) h1 hl herr
          rw [hf]
          obtain ⟨c1, c2, c3, c4⟩ := expand_css hq
          rw [ct] at c1; rw [cr] at c2; rw [co] at c3; rw [cl] at c4
          cases c1; cases c2; cases c3; cases c4
          rfl
      simp only [slicedArgs, bind_ok_iff]
      rw [List.append_assoc]
      refine ⟨_, _, h4, ?_⟩
      simp only [bind_ok_iff, pure_ok_iff]
      cases hm with
      | none => exact ⟨none, _, tryP_err hcs, none, _, tryP_err hcs, _, _, hc3.1, by rw [hc3.2]; rfl, rfl⟩
      | one h => exact ⟨some a, _, tryP_ok ((one_slice _ _ _).2 ⟨_, rfl, h⟩), none, _, tryP_err hcs, _, _, hc3.1, by rw [hc3.2]; rfl, rfl⟩
      | two h h' => exact ⟨some a, _, tryP_ok ((one_slice _ _ _).2 ⟨_, rfl, h⟩), some b, _,
          tryP_ok ((one_slice _ _ _).2 ⟨_, rfl, h'⟩), _, _, hc3.1, by rw [hc3.2]; rfl, rfl⟩

/-- C74: the forms of the image mode. -/
theorem C74_image_mode (ts : List Tok) (pv : PropertyValue (RV (LV K))) (imp : Bool) :
    declareP imageModeP ts = .ok (pv, imp) ↔
      DeclaredAs (fun us v => ∃ m, v = .other (.imageMode m) ∧ ImageModeForm us m) ts pv imp := by
  refine declareP_iff ⟨rfl, fun _ => rfl, ?_⟩ ?_
  · intro k hk ts
    simp only [List.mem_cons, List.not_mem_nil, or_false] at hk
    rcases hk with rfl | rfl | rfl <;> rfl
  intro ts imp v
  constructor
  · intro h
    cases ts with
    | nil => cases h
    | cons t ts =>
      cases t with
      | ident s =>
        simp only [imageModeP] at h
        split at h
        · subst s; cases h; exact ⟨[_], rfl, _, rfl, .auto⟩
        · split at h
          · subst s; cases h; exact ⟨[_], rfl, _, rfl, .stretch⟩
          · cases h
      | func name args =>
        simp only [imageModeP] at h
        split at h
        · subst name
          cases ha : tiledArgs false false 1 args with
          | none => rw [ha] at h; cases h
          | some m =>
            rw [ha] at h
            cases h
            obtain ⟨x, y, q, rfl, hw⟩ := tiledArgs_iff.1 ha
            exact ⟨[_], rfl, _, rfl, .tiled hw⟩
        · split at h
          · subst name
            obtain ⟨m, hm, he⟩ := res_bind_ok.1 h
            cases he
            exact ⟨[_], rfl, _, rfl, slicedArgs_iff.1 (nested_ok_iff.1 hm)⟩
          · cases h
      | _ => cases h
  · rintro ⟨us, rfl, m, rfl, h⟩
    have h' := h
    cases h with
    | auto => rfl
    | stretch => rfl
    | tiled hw => simp [imageModeP, tiledArgs_iff.2 ⟨_, _, _, rfl, hw⟩]
    | sliced =>
      have := nested_ok_iff.2 (slicedArgs_iff.2 h')
      simp only [List.cons_append, List.nil_append, imageModeP]
      rw [this]
      rfl

end Flair.Props
