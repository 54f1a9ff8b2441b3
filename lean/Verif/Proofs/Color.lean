import Verif.Spec.Color
import Verif.Proofs.Parse
import Mathlib.Tactic.Linarith
import Mathlib.Tactic.Ring
import Mathlib.Tactic.NormNum
import Mathlib.Tactic.FieldSimp
/-!
# Proofs about colors
-/
namespace Flair.Proofs.Color
open Flair.Calc Flair.Shorthand Flair.Colors Flair.Spec Flair.Proofs.Parse

variable {α β γ : Type}

/-! ## Components -/

theorem part_iff (q a : ℚ) : Part q a ↔ a = unit q := by
  unfold unit
  constructor
  · rintro (h | ⟨h, h'⟩ | h)
    · rw [min_eq_right (by linarith), max_eq_left h.le]
    · rw [min_eq_right h', max_eq_right h]
    · rw [min_eq_left h.le, max_eq_right (by norm_num)]
  · rintro rfl
    rcases lt_or_ge q 0 with h | h
    · rw [min_eq_right (by linarith), max_eq_left h.le]; exact .below h
    · rcases lt_or_ge 1 q with h' | h'
      · rw [min_eq_left h'.le, max_eq_right (by norm_num)]; exact .above h'
      · rw [min_eq_right h', max_eq_right h]; exact .within h h'

theorem numOrPct_iff (ref : ℚ) (t : Tok) (q : ℚ) : NumOrPct ref t q ↔ ∃ v, numPctTok t = some v ∧ q = v.value ref := by
  constructor
  · rintro (_ | _)
    · exact ⟨_, rfl, rfl⟩
    · exact ⟨_, rfl, rfl⟩
  · rintro ⟨v, h, rfl⟩
    cases t <;> simp only [numPctTok, Option.some.injEq, reduceCtorEq] at h
    · subst h; exact .number _
    · subst h; exact .percentage _

theorem percent_iff (t : Tok) (q : ℚ) : Percent t q ↔ ∃ u, pctTok t = some u ∧ q = unit u := by
  constructor
  · rintro ⟨h⟩; exact ⟨_, rfl, (part_iff _ _).1 h⟩
  · rintro ⟨u, h, rfl⟩
    cases t <;> simp only [pctTok, Option.some.injEq, reduceCtorEq] at h
    subst h; exact .mk ((part_iff _ _).2 rfl)

theorem normHue_iff (q h : ℚ) : h = normHue q ↔ ∃ n : ℤ, q = h + 360 * n ∧ 0 ≤ h ∧ h < 360 := by
  unfold normHue
  constructor
  · rintro rfl
    refine ⟨⌊q / 360⌋, by ring, ?_, ?_⟩
    · have := Int.floor_le (q / 360); linarith [(le_div_iff₀ (by norm_num : (0:ℚ) < 360)).1 this]
    · have := Int.lt_floor_add_one (q / 360)
      have := (div_lt_iff₀ (by norm_num : (0:ℚ) < 360)).1 this; linarith
  · rintro ⟨n, rfl, h0, h1⟩
    have : ⌊(h + 360 * (n : ℚ)) / 360⌋ = n := by
      rw [Int.floor_eq_iff]
      constructor
      · rw [le_div_iff₀ (by norm_num)]; linarith
      · rw [div_lt_iff₀ (by norm_num)]; linarith
    rw [this]; ring

theorem degrees_iff (t : Tok) (q : ℚ) : Degrees t q ↔ hueTok t = some q := by
  constructor
  · rintro (_ | _ | _ | _)
    · rfl
    · simp [hueTok]
    · simp [hueTok]; ring
    · simp [hueTok]
  · intro h
    cases t <;> simp only [hueTok, Option.some.injEq, reduceCtorEq] at h
    · subst h; exact .number _
    · rename_i q' u
      split at h
      · simp only [Option.some.injEq] at h; subst h; subst u; exact .deg _
      · split at h
        · simp only [Option.some.injEq] at h; subst u
          have : q = q' * 9 / 10 := by rw [← h]; ring
          subst this; exact .grad _
        · split at h
          · simp only [Option.some.injEq] at h; subst h; subst u; exact .turn _
          · cases h

theorem hue_iff (t : Tok) (h : ℚ) : Hue t h ↔ ∃ q, hueTok t = some q ∧ h = normHue q := by
  constructor
  · rintro ⟨n, hd, e, h0, h1⟩
    exact ⟨_, (degrees_iff _ _).1 hd, (normHue_iff _ _).2 ⟨n, e, h0, h1⟩⟩
  · rintro ⟨q, hq, e⟩
    obtain ⟨n, e, h0, h1⟩ := (normHue_iff _ _).1 e
    exact ⟨n, (degrees_iff _ _).2 hq, e, h0, h1⟩

theorem alpha_iff (t : Tok) (a : ℚ) : AlphaValue t a ↔ ∃ v, numPctTok t = some v ∧ a = unit (v.value 1) := by
  constructor
  · rintro ⟨h, hp⟩
    obtain ⟨v, hv, rfl⟩ := (numOrPct_iff _ _ _).1 h
    exact ⟨v, hv, (part_iff _ _).1 hp⟩
  · rintro ⟨v, hv, e⟩
    exact .mk ((numOrPct_iff _ _ _).2 ⟨v, hv, rfl⟩) ((part_iff _ _).2 e)

/-! ## `none` -/

/-- What `noneOrP` reads -/
def Or (f : Tok → Option α) (t : Tok) (o : Option α) : Prop :=
  (t = .ident "none" ∧ o = none) ∨ (t ≠ .ident "none" ∧ ∃ v, f t = some v ∧ o = some v)

theorem ident_iff (s : String) (ts rest : List Tok) (u : Unit) :
    identIs s ts = .ok (u, rest) ↔ ts = .ident s :: rest := by
  rw [identIs, one_tok1]
  constructor
  · rintro ⟨t, rfl, h⟩
    cases t <;> simp only [identTok, reduceCtorEq] at h
    split at h
    · simp_all
    · cases h
  · rintro rfl; exact ⟨_, rfl, by simp [identTok]⟩

theorem delim_iff (c : Char) (ts rest : List Tok) (u : Unit) :
    delimIs c ts = .ok (u, rest) ↔ ts = .delim c :: rest := by
  rw [delimIs, one_tok1]
  constructor
  · rintro ⟨t, rfl, h⟩
    cases t <;> simp only [delimTok, reduceCtorEq] at h
    split at h
    · simp_all
    · cases h
  · rintro rfl; exact ⟨_, rfl, by simp [delimTok]⟩

theorem comma_iff' (ts rest : List Tok) (u : Unit) : comma ts = .ok (u, rest) ↔ ts = .comma :: rest := by
  rw [comma, one_tok1]
  constructor
  · rintro ⟨t, rfl, h⟩
    cases t <;> simp only [commaTok, reduceCtorEq] at h
    rfl
  · rintro rfl; exact ⟨_, rfl, rfl⟩

theorem none_or {p : P α} {R : Tok → α → Prop} (hp : OneTok p R) (ts rest : List Tok) (o : Option α) :
    noneOrP p ts = .ok (o, rest) ↔ ∃ t, ts = t :: rest ∧
      ((t = .ident "none" ∧ o = none) ∨ (t ≠ .ident "none" ∧ ∃ v, R t v ∧ o = some v)) := by
  simp only [noneOrP, bind_ok_iff]
  constructor
  · rintro ⟨a, ts', h, h'⟩
    rcases tryP_ok_iff.1 h with ⟨u, rfl, hu⟩ | ⟨rfl, rfl, he⟩
    · rw [ident_iff] at hu
      obtain ⟨rfl, rfl⟩ := pure_ok_iff.1 h'
      exact ⟨_, hu, .inl ⟨rfl, rfl⟩⟩
    · simp only [bind_ok_iff, pure_ok_iff] at h'
      obtain ⟨v, _, hv, rfl, rfl⟩ := h'
      obtain ⟨t, rfl, ht⟩ := (hp _ _ _).1 hv
      refine ⟨t, rfl, .inr ⟨?_, v, ht, rfl⟩⟩
      rintro rfl
      rw [(ident_iff "none" _ _ ()).2 rfl] at he
      cases he
  · rintro ⟨t, rfl, ⟨rfl, rfl⟩ | ⟨hn, v, hv, rfl⟩⟩
    · exact ⟨some (), rest, tryP_ok_iff.2 (.inl ⟨(), rfl, (ident_iff _ _ _ _).2 rfl⟩), pure_ok_iff.2 ⟨rfl, rfl⟩⟩
    · refine ⟨none, t :: rest, tryP_ok_iff.2 (.inr ⟨rfl, rfl, ?_⟩), ?_⟩
      · rw [identIs, tok1_err_iff]
        intro t' ht'
        simp only [List.head?_cons, Option.mem_def, Option.some.injEq] at ht'
        subst ht'
        cases t <;> simp_all [identTok]
      · simp only [bind_ok_iff, pure_ok_iff]
        exact ⟨v, rest, (hp _ _ _).2 ⟨t, rfl, hv⟩, rfl, rfl⟩

theorem none_or_tok (f : Tok → Option α) (ts rest : List Tok) (o : Option α) :
    noneOrP (tok1 f) ts = .ok (o, rest) ↔ ∃ t, ts = t :: rest ∧ Or f t o := none_or (one_tok1 f) ts rest o

theorem one_alpha : OneTok alphaValue AlphaValue := by
  intro ts v rest
  simp only [alphaValue, bind_ok_iff, pure_ok_iff, one_tok1 _ _ _ _, alpha_iff]
  constructor
  · rintro ⟨a, _, ⟨t, rfl, h⟩, rfl, rfl⟩; exact ⟨t, rfl, a, h, rfl⟩
  · rintro ⟨t, rfl, a, h, rfl⟩; exact ⟨a, rest, ⟨t, rfl, h⟩, rfl, rfl⟩

/-- `none` or a component, in the words of the specification -/
theorem or_iff {f : Tok → Option α} {g : α → ℚ} {R : Tok → ℚ → Prop} (hi : f (.ident "none") = none)
    (hR : ∀ t q, R t q ↔ ∃ v, f t = some v ∧ q = g v) (t : Tok) (x : Option ℚ) :
    OrMissing R t x ↔ ∃ o, Or f t o ∧ x = o.map g := by
  constructor
  · rintro (_ | h)
    · exact ⟨none, .inl ⟨rfl, rfl⟩, rfl⟩
    · obtain ⟨v, hv, rfl⟩ := (hR _ _).1 h
      refine ⟨some v, .inr ⟨?_, v, hv, rfl⟩, rfl⟩
      rintro rfl; rw [hi] at hv; cases hv
  · rintro ⟨o, ⟨rfl, rfl⟩ | ⟨_, v, hv, rfl⟩, rfl⟩
    · exact .missing
    · exact .given ((hR _ _).2 ⟨v, hv, rfl⟩)

theorem slash_iff (ts : List Tok) (a : Option ℚ) : modernAlpha ts = .ok (a, []) ↔ SlashAlpha ts a := by
  cases ts with
  | nil =>
    constructor
    · intro h; cases h; exact .absent
    · rintro ⟨_⟩; rfl
  | cons t ts =>
    have e : modernAlpha (t :: ts) = (do delimIs '/'; noneOrP alphaValue : P (Option ℚ)) (t :: ts) := rfl
    rw [e]
    simp only [bind_ok_iff, delim_iff, none_or one_alpha]
    constructor
    · rintro ⟨_, ts', h, t', rfl, h'⟩
      cases h
      refine .present ?_
      rcases h' with ⟨rfl, rfl⟩ | ⟨_, v, hv, rfl⟩
      · exact .missing
      · exact .given hv
    · rintro (_ | h)
      refine ⟨(), _, rfl, _, rfl, ?_⟩
      rcases h with _ | h
      · exact .inl ⟨rfl, rfl⟩
      · refine .inr ⟨?_, _, h, rfl⟩
        rintro rfl
        obtain ⟨v, hv, _⟩ := (alpha_iff _ _).1 h
        cases hv

theorem legacy_iff (ts : List Tok) (a : ℚ) : legacyAlpha ts = .ok (a, []) ↔ CommaAlpha ts a := by
  cases ts with
  | nil =>
    constructor
    · intro h; cases h; exact .absent
    · rintro ⟨_⟩; rfl
  | cons t ts =>
    have e : legacyAlpha (t :: ts) = (do comma; alphaValue : P ℚ) (t :: ts) := rfl
    rw [e]
    simp only [bind_ok_iff, comma_iff', one_alpha _ _ _]
    constructor
    · rintro ⟨_, ts', h, t', rfl, h'⟩
      cases h
      exact .present h'
    · rintro (_ | h)
      exact ⟨(), _, rfl, _, rfl, h⟩

/-- Three components and an alpha, as they are read -/
theorem components_iff (f : Tok → Option α) (g : Tok → Option β) (h : Tok → Option γ) (ts : List Tok)
    (x : Option α) (y : Option β) (z : Option γ) (al : Option ℚ) :
    componentsP (tok1 f) (tok1 g) (tok1 h) ts = .ok ((x, y, z, al), []) ↔
      ∃ a b c us, ts = a :: b :: c :: us ∧ Or f a x ∧ Or g b y ∧ Or h c z ∧ SlashAlpha us al := by
  simp only [componentsP, bind_ok_iff, pure_ok_iff, none_or_tok]
  constructor
  · rintro ⟨x', _, ⟨a, rfl, ha⟩, y', _, ⟨b, rfl, hb⟩, z', _, ⟨c, rfl, hc⟩, al', _, hal, e, rfl⟩
    cases e
    exact ⟨a, b, c, _, rfl, ha, hb, hc, (slash_iff _ _).1 hal⟩
  · rintro ⟨a, b, c, us, rfl, ha, hb, hc, hal⟩
    exact ⟨x, _, ⟨a, rfl, ha⟩, y, _, ⟨b, rfl, hb⟩, z, _, ⟨c, rfl, hc⟩, al, _, (slash_iff _ _).2 hal, rfl, rfl⟩

/-- ... and in the words of the specification -/
theorem components_spec {f : Tok → Option α} {g : Tok → Option β} {h : Tok → Option γ}
    {F : α → ℚ} {G : β → ℚ} {H : γ → ℚ} {A B C : Tok → ℚ → Prop}
    (fi : f (.ident "none") = none) (gi : g (.ident "none") = none) (hi : h (.ident "none") = none)
    (hA : ∀ t q, A t q ↔ ∃ v, f t = some v ∧ q = F v) (hB : ∀ t q, B t q ↔ ∃ v, g t = some v ∧ q = G v)
    (hC : ∀ t q, C t q ↔ ∃ v, h t = some v ∧ q = H v) (ts : List Tok) (x y z al : Option ℚ) :
    Components A B C ts x y z al ↔ ∃ x' y' z', componentsP (tok1 f) (tok1 g) (tok1 h) ts = .ok ((x', y', z', al), []) ∧
      x = x'.map F ∧ y = y'.map G ∧ z = z'.map H := by
  simp only [components_iff]
  constructor
  · rintro ⟨h1, h2, h3, h4⟩
    obtain ⟨o1, h1', rfl⟩ := (or_iff fi hA _ _).1 h1
    obtain ⟨o2, h2', rfl⟩ := (or_iff gi hB _ _).1 h2
    obtain ⟨o3, h3', rfl⟩ := (or_iff hi hC _ _).1 h3
    exact ⟨o1, o2, o3, ⟨_, _, _, _, rfl, h1', h2', h3', h4⟩, rfl, rfl, rfl⟩
  · rintro ⟨o1, o2, o3, ⟨a, b, c, us, rfl, h1, h2, h3, h4⟩, rfl, rfl, rfl⟩
    exact .mk ((or_iff fi hA _ _).2 ⟨o1, h1, rfl⟩) ((or_iff gi hB _ _).2 ⟨o2, h2, rfl⟩)
      ((or_iff hi hC _ _).2 ⟨o3, h3, rfl⟩) h4

/-- Three components with commas -/
theorem commas_spec {A B C : Tok → ℚ → Prop} (ts : List Tok) (x y z al : ℚ) :
    CommaComponents A B C ts x y z al ↔ ∃ a b c us, ts = a :: .comma :: b :: .comma :: c :: us ∧
      A a x ∧ B b y ∧ C c z ∧ CommaAlpha us al := by
  constructor
  · rintro ⟨h1, h2, h3, h4⟩; exact ⟨_, _, _, _, rfl, h1, h2, h3, h4⟩
  · rintro ⟨a, b, c, us, rfl, h1, h2, h3, h4⟩; exact .mk h1 h2 h3 h4

/-! ## Steps -/

theorem round_nonneg {q : ℚ} (h : 0 ≤ q) : roundAway q = ⌊q + 1 / 2⌋ := if_pos h

theorem round_near {q : ℚ} (h : 0 ≤ q) : |roundAway q - q| ≤ 1 / 2 := by
  rw [round_nonneg h, abs_le]
  have h1 := Int.floor_le (q + 1 / 2)
  have h2 := Int.lt_floor_add_one (q + 1 / 2)
  constructor <;> linarith

theorem unit_range (q : ℚ) : 0 ≤ unit q ∧ unit q ≤ 1 := by
  unfold unit; exact ⟨le_max_left _ _, max_le (by norm_num) (min_le_left _ _)⟩

theorem byte_eq (q : ℚ) : byte q = roundAway (255 * unit (q / 255)) := by
  unfold byte
  rcases lt_or_ge q 0 with h | h
  · have e1 : unit (q / 255) = 0 := ((part_iff _ _).1 (.below (by linarith))).symm
    have e2 : roundAway q ≤ 0 := by
      unfold roundAway; rw [if_neg (by linarith)]
      have : 0 ≤ ⌊-q + 1 / 2⌋ := Int.floor_nonneg.2 (by linarith)
      have : (0:ℚ) ≤ (⌊-q + 1 / 2⌋ : ℚ) := by exact_mod_cast this
      linarith
    rw [e1, min_eq_right (by linarith), max_eq_left e2]
    unfold roundAway; norm_num
  · rcases lt_or_ge 255 q with h' | h'
    · have e1 : unit (q / 255) = 1 := ((part_iff _ _).1 (.above (by linarith))).symm
      have e2 : 255 ≤ roundAway q := by
        rw [round_nonneg h]
        have : (255:ℤ) ≤ ⌊q + 1 / 2⌋ := Int.le_floor.2 (by push_cast; linarith)
        exact_mod_cast this
      rw [e1, min_eq_left e2, max_eq_right (by norm_num)]
      unfold roundAway; norm_num
    · have e1 : unit (q / 255) = q / 255 := ((part_iff _ _).1 (.within (by linarith) (by linarith))).symm
      have e2 : 0 ≤ roundAway q := by
        rw [round_nonneg h]
        have : (0:ℤ) ≤ ⌊q + 1 / 2⌋ := Int.floor_nonneg.2 (by linarith)
        exact_mod_cast this
      have e3 : roundAway q ≤ 255 := by
        rw [round_nonneg h]
        have : ⌊q + 1 / 2⌋ ≤ (255:ℤ) := by
          have : ⌊q + 1 / 2⌋ < (256:ℤ) := Int.floor_lt.2 (by push_cast; linarith)
          omega
        exact_mod_cast this
      rw [e1, min_eq_right e3, max_eq_right e2]
      congr 1; ring

/-- A component of `rgb()`, in steps -/
def stepOf (q : ℚ) : ℚ := roundAway (255 * q)

theorem rgbNumber_iff (t : Tok) (q : ℚ) : RgbNumber t q ↔ ∃ n, numTok t = some n ∧ q = unit (n / 255) := by
  constructor
  · rintro ⟨h⟩; exact ⟨_, rfl, (part_iff _ _).1 h⟩
  · rintro ⟨u, h, rfl⟩
    cases t <;> simp only [numTok, Option.some.injEq, reduceCtorEq] at h
    subst h; exact .mk ((part_iff _ _).2 rfl)

/-- The part of one a component of `rgb()` is -/
def rgbPart : NumPct → ℚ
  | .number q => unit (q / 255)
  | .percentage u => unit u

theorem byte_part (v : NumPct) : v.byte = stepOf (rgbPart v) := by
  cases v with
  | number q => exact byte_eq q
  | percentage u =>
    show Colors.byte (u * 255) = _
    have e : u * 255 / 255 = u := by ring
    rw [byte_eq, e]; rfl

theorem unitByte_part (u : ℚ) : unitByte u = stepOf (unit u) := byte_part (.percentage u)

theorem rgbComponent_iff (t : Tok) (q : ℚ) : RgbComponent t q ↔ ∃ v, numPctTok t = some v ∧ q = rgbPart v := by
  constructor
  · rintro (h | h)
    · rcases h with ⟨h⟩; exact ⟨_, rfl, (part_iff _ _).1 h⟩
    · rcases h with ⟨h⟩; exact ⟨_, rfl, (part_iff _ _).1 h⟩
  · rintro ⟨v, h, rfl⟩
    cases t <;> simp only [numPctTok, Option.some.injEq, reduceCtorEq] at h
    · subst h; exact .number (.mk ((part_iff _ _).2 rfl))
    · subst h; exact .percentage (.mk ((part_iff _ _).2 rfl))

/-! ## What is made of a color -/

/-- `rgb()` -/
def madeRgb (w : ColorValue) : Option Color :=
  fromRgba ((w.x.map stepOf).getD 0) ((w.y.map stepOf).getD 0) ((w.z.map stepOf).getD 0) (w.alpha.getD 0)

/-- The other functions -/
def made (w : ColorValue) : Option Color :=
  match w.space with
  | .srgb => fromSpace .srgb w.x w.y w.z w.alpha
  | .srgbLinear => fromSpace .srgbLinear w.x w.y w.z w.alpha
  | .xyz => fromSpace .xyzD65 w.x w.y w.z w.alpha
  | .hsl => fromHsl w.x w.y w.z w.alpha
  | .hwb => fromHwb w.x w.y w.z w.alpha
  | .lab => fromLab w.x w.y w.z w.alpha
  | .lch => fromLch w.x w.y w.z w.alpha
  | .oklab => fromOklab w.x w.y w.z w.alpha
  | .oklch => fromOklch w.x w.y w.z w.alpha
  | .unsupported => none

theorem comma_err {ts : List Tok} : comma ts = .err ↔ ∀ r, ts ≠ .comma :: r := by
  rw [comma, tok1_err_iff]
  cases ts with
  | nil => simp
  | cons t ts => cases t <;> simp [commaTok]

theorem or_none {f : Tok → Option α} {t : Tok} : Or f t none ↔ t = .ident "none" := by
  constructor
  · rintro (⟨h, _⟩ | ⟨_, v, _, h⟩)
    · exact h
    · cases h
  · intro h; exact .inl ⟨h, rfl⟩

theorem or_some {f : Tok → Option α} (hf : f (.ident "none") = none) {t : Tok} {v : α} : Or f t (some v) ↔ f t = some v := by
  constructor
  · rintro (⟨_, h⟩ | ⟨_, v, h, e⟩)
    · cases h
    · cases e; exact h
  · intro h
    refine .inr ⟨?_, v, h, rfl⟩
    rintro rfl; rw [hf] at h; cases h

theorem or_comma {f : Tok → Option α} (hf : f .comma = none) {o : Option α} : ¬ Or f .comma o := by
  rintro (⟨h, _⟩ | ⟨_, v, h, _⟩)
  · cases h
  · rw [hf] at h; cases h

/-- The remaining part of `rgb()` without commas -/
def rgbRest (r : Option NumPct) : P (Option Color) := do
  let g ← noneOrP (tok1 numPctTok)
  let b ← noneOrP (tok1 numPctTok)
  let a ← modernAlpha
  pure (fromRgba ((r.map NumPct.byte).getD 0) ((g.map NumPct.byte).getD 0) ((b.map NumPct.byte).getD 0) (a.getD 0))

theorem rgbRest_iff (r : Option NumPct) (ts : List Tok) (k : Option Color) : rgbRest r ts = .ok (k, []) ↔
    ∃ b c us y z al, ts = b :: c :: us ∧ Or numPctTok b y ∧ Or numPctTok c z ∧ SlashAlpha us al ∧
      k = fromRgba ((r.map NumPct.byte).getD 0) ((y.map NumPct.byte).getD 0) ((z.map NumPct.byte).getD 0) (al.getD 0) := by
  simp only [rgbRest, bind_ok_iff, pure_ok_iff, none_or_tok]
  constructor
  · rintro ⟨y, _, ⟨b, rfl, hb⟩, z, _, ⟨c, rfl, hc⟩, al, _, hal, rfl, rfl⟩
    exact ⟨b, c, _, y, z, al, rfl, hb, hc, (slash_iff _ _).1 hal, rfl⟩
  · rintro ⟨b, c, us, y, z, al, rfl, hb, hc, hal, rfl⟩
    exact ⟨y, _, ⟨b, rfl, hb⟩, z, _, ⟨c, rfl, hc⟩, al, _, (slash_iff _ _).2 hal, rfl, rfl⟩

/-- The remaining part of `rgb()` with commas -/
def rgbCommas (f : Tok → Option ℚ) (F : ℚ → ℚ) (r : ℚ) : P (Option Color) := do
  let g ← tok1 f
  comma
  let b ← tok1 f
  let a ← legacyAlpha
  pure (fromRgba r (F g) (F b) a)

theorem rgbCommas_iff (f : Tok → Option ℚ) (F : ℚ → ℚ) (r : ℚ) (ts : List Tok) (k : Option Color) :
    rgbCommas f F r ts = .ok (k, []) ↔
    ∃ b c us y z al, ts = b :: .comma :: c :: us ∧ f b = some y ∧ f c = some z ∧ CommaAlpha us al ∧
      k = fromRgba r (F y) (F z) al := by
  simp only [rgbCommas, bind_ok_iff, pure_ok_iff, one_tok1 _ _ _ _, comma_iff']
  constructor
  · rintro ⟨y, _, ⟨b, rfl, hb⟩, _, _, rfl, z, _, ⟨c, rfl, hc⟩, al, _, hal, rfl, rfl⟩
    exact ⟨b, c, _, y, z, al, rfl, hb, hc, (legacy_iff _ _).1 hal, rfl⟩
  · rintro ⟨b, c, us, y, z, al, rfl, hb, hc, hal, rfl⟩
    exact ⟨y, _, ⟨b, rfl, hb⟩, (), _, rfl, z, _, ⟨c, rfl, hc⟩, al, _, (legacy_iff _ _).2 hal, rfl, rfl⟩

theorem rgbP_iff (ts : List Tok) (k : Option Color) : rgbP ts = .ok (k, []) ↔
    ∃ a rest, ts = a :: rest ∧
      ((a = .ident "none" ∧ rgbRest none rest = .ok (k, [])) ∨
       (∃ v, numPctTok a = some v ∧ (∀ r, rest ≠ .comma :: r) ∧ rgbRest (some v) rest = .ok (k, [])) ∨
       (∃ q r, numPctTok a = some (.number q) ∧ rest = .comma :: r ∧ rgbCommas numTok byte (byte q) r = .ok (k, [])) ∨
       (∃ u r, numPctTok a = some (.percentage u) ∧ rest = .comma :: r ∧
          rgbCommas pctTok unitByte (unitByte u) r = .ok (k, []))) := by
  unfold rgbP
  rw [bind_ok_iff]
  simp only [none_or_tok]
  constructor
  · rintro ⟨o, rest, ⟨a, rfl, h⟩, h'⟩
    refine ⟨a, rest, rfl, ?_⟩
    rw [bind_ok_iff] at h'
    obtain ⟨l, ts', hl, h'⟩ := h'
    cases o with
    | none =>
      obtain ⟨rfl, rfl⟩ := pure_ok_iff.1 hl
      exact .inl ⟨or_none.1 h, h'⟩
    | some v =>
      have hv := (or_some rfl).1 h
      rcases tryP_ok_iff.1 hl with ⟨u, rfl, hu⟩ | ⟨rfl, rfl, he⟩
      · rw [comma_iff'] at hu
        cases v with
        | number q => exact .inr (.inr (.inl ⟨q, ts', hv, hu, h'⟩))
        | percentage q => exact .inr (.inr (.inr ⟨q, ts', hv, hu, h'⟩))
      · refine .inr (.inl ⟨v, hv, comma_err.1 he, ?_⟩)
        cases v <;> exact h'
  · rintro ⟨a, rest, rfl, ⟨rfl, h⟩ | ⟨v, hv, hn, h⟩ | ⟨q, r, hv, rfl, h⟩ | ⟨u, r, hv, rfl, h⟩⟩
    · exact ⟨none, rest, ⟨_, rfl, or_none.2 rfl⟩, bind_ok_iff.2 ⟨none, rest, pure_ok_iff.2 ⟨rfl, rfl⟩, h⟩⟩
    · refine ⟨some v, rest, ⟨_, rfl, (or_some rfl).2 hv⟩, bind_ok_iff.2 ⟨none, rest, ?_, ?_⟩⟩
      · exact tryP_ok_iff.2 (.inr ⟨rfl, rfl, comma_err.2 hn⟩)
      · cases v <;> exact h
    · exact ⟨some _, _, ⟨_, rfl, (or_some rfl).2 hv⟩, bind_ok_iff.2
        ⟨some (), r, tryP_ok_iff.2 (.inl ⟨(), rfl, (comma_iff' _ _ _).2 rfl⟩), h⟩⟩
    · exact ⟨some _, _, ⟨_, rfl, (or_some rfl).2 hv⟩, bind_ok_iff.2
        ⟨some (), r, tryP_ok_iff.2 (.inl ⟨(), rfl, (comma_iff' _ _ _).2 rfl⟩), h⟩⟩

theorem some_or {f : Tok → Option α} (hf : f (.ident "none") = none) {t : Tok} {o : Option α} (h : Or f t o)
    (hn : t ≠ .ident "none") : ∃ v, f t = some v ∧ o = some v := by
  rcases h with ⟨h, _⟩ | ⟨_, h⟩
  · exact absurd h hn
  · exact h

theorem number_of {t : Tok} {q : ℚ} : numPctTok t = some (.number q) ↔ numTok t = some q := by
  cases t <;> simp [numPctTok, numTok]

theorem percentage_of {t : Tok} {u : ℚ} : numPctTok t = some (.percentage u) ↔ pctTok t = some u := by
  cases t <;> simp [numPctTok, pctTok]

theorem map_byte (o : Option NumPct) : (o.map NumPct.byte).getD 0 = ((o.map rgbPart).map stepOf).getD 0 := by
  cases o with
  | none => rfl
  | some v => exact byte_part v

/-- `rgb()` -/
theorem rgb_iff (ts : List Tok) (k : Option Color) : rgbP ts = .ok (k, []) ↔
    (∃ x y z al, Components RgbComponent RgbComponent RgbComponent ts x y z al ∧ k = madeRgb ⟨.srgb, x, y, z, al⟩) ∨
    (∃ x y z al, CommaComponents RgbNumber RgbNumber RgbNumber ts x y z al ∧
      k = madeRgb ⟨.srgb, some x, some y, some z, some al⟩) ∨
    (∃ x y z al, CommaComponents Percent Percent Percent ts x y z al ∧
      k = madeRgb ⟨.srgb, some x, some y, some z, some al⟩) := by
  have hR := fun ts x y z al => components_spec (f := numPctTok) (g := numPctTok) (h := numPctTok) rfl rfl rfl
    rgbComponent_iff rgbComponent_iff rgbComponent_iff ts x y z al
  simp only [components_iff] at hR
  have three : ∀ o a rest, Or numPctTok a o → rgbRest o rest = .ok (k, []) →
      ∃ x y z al, Components RgbComponent RgbComponent RgbComponent (a :: rest) x y z al ∧ k = madeRgb ⟨.srgb, x, y, z, al⟩ := by
    intro o a rest ha h
    obtain ⟨b, c, us, y, z, al, rfl, hb, hc, hal, rfl⟩ := (rgbRest_iff _ _ _).1 h
    refine ⟨_, _, _, al, (hR _ _ _ _ _).2 ⟨o, y, z, ⟨a, b, c, us, rfl, ha, hb, hc, hal⟩, rfl, rfl, rfl⟩, ?_⟩
    simp only [madeRgb, map_byte]
  constructor
  · intro h0
    obtain ⟨a, rest, rfl, ⟨rfl, h⟩ | ⟨v, hv, hn, h⟩ | ⟨q, r, hv, rfl, h⟩ | ⟨u, r, hv, rfl, h⟩⟩ := (rgbP_iff _ _).1 h0
    · exact .inl (three _ _ _ (or_none.2 rfl) h)
    · exact .inl (three _ _ _ ((or_some rfl).2 hv) h)
    · obtain ⟨b, c, us, y, z, al, rfl, hb, hc, hal, rfl⟩ := (rgbCommas_iff _ _ _ _ _).1 h
      refine .inr (.inl ⟨unit (q / 255), unit (y / 255), unit (z / 255), al, (commas_spec _ _ _ _ _).2
        ⟨a, b, c, us, rfl, (rgbNumber_iff _ _).2 ⟨q, number_of.1 hv, rfl⟩, (rgbNumber_iff _ _).2 ⟨y, hb, rfl⟩,
          (rgbNumber_iff _ _).2 ⟨z, hc, rfl⟩, hal⟩, ?_⟩)
      simp only [madeRgb, stepOf, byte_eq, Option.map_some, Option.getD_some]
    · obtain ⟨b, c, us, y, z, al, rfl, hb, hc, hal, rfl⟩ := (rgbCommas_iff _ _ _ _ _).1 h
      refine .inr (.inr ⟨unit u, unit y, unit z, al, (commas_spec _ _ _ _ _).2
        ⟨a, b, c, us, rfl, (percent_iff _ _).2 ⟨u, percentage_of.1 hv, rfl⟩, (percent_iff _ _).2 ⟨y, hb, rfl⟩,
          (percent_iff _ _).2 ⟨z, hc, rfl⟩, hal⟩, ?_⟩)
      simp only [madeRgb, unitByte_part, Option.map_some, Option.getD_some]
  · rw [rgbP_iff]
    rintro (⟨x, y, z, al, h, rfl⟩ | ⟨x, y, z, al, h, rfl⟩ | ⟨x, y, z, al, h, rfl⟩)
    · obtain ⟨x', y', z', ⟨a, b, c, us, rfl, ha, hb, hc, hal⟩, rfl, rfl, rfl⟩ := (hR _ _ _ _ _).1 h
      have e : rgbRest x' (b :: c :: us) = .ok (madeRgb ⟨.srgb, x'.map rgbPart, y'.map rgbPart, z'.map rgbPart, al⟩, []) := by
        refine (rgbRest_iff _ _ _).2 ⟨b, c, us, y', z', al, rfl, hb, hc, hal, ?_⟩
        simp only [madeRgb, map_byte]
      refine ⟨a, _, rfl, ?_⟩
      cases x' with
      | none => exact .inl ⟨or_none.1 ha, e⟩
      | some v =>
        refine .inr (.inl ⟨v, (or_some rfl).1 ha, ?_, e⟩)
        rintro r ⟨⟩
        exact or_comma rfl hb
    · obtain ⟨a, b, c, us, rfl, ha, hb, hc, hal⟩ := (commas_spec _ _ _ _ _).1 h
      obtain ⟨q, hq, rfl⟩ := (rgbNumber_iff _ _).1 ha
      obtain ⟨y', hy, rfl⟩ := (rgbNumber_iff _ _).1 hb
      obtain ⟨z', hz, rfl⟩ := (rgbNumber_iff _ _).1 hc
      refine ⟨a, _, rfl, .inr (.inr (.inl ⟨q, _, number_of.2 hq, rfl, (rgbCommas_iff _ _ _ _ _).2
        ⟨b, c, us, y', z', al, rfl, hy, hz, hal, ?_⟩⟩))⟩
      simp only [madeRgb, stepOf, byte_eq, Option.map_some, Option.getD_some]
    · obtain ⟨a, b, c, us, rfl, ha, hb, hc, hal⟩ := (commas_spec _ _ _ _ _).1 h
      obtain ⟨u, hq, rfl⟩ := (percent_iff _ _).1 ha
      obtain ⟨y', hy, rfl⟩ := (percent_iff _ _).1 hb
      obtain ⟨z', hz, rfl⟩ := (percent_iff _ _).1 hc
      refine ⟨a, _, rfl, .inr (.inr (.inr ⟨u, _, percentage_of.2 hq, rfl, (rgbCommas_iff _ _ _ _ _).2
        ⟨b, c, us, y', z', al, rfl, hy, hz, hal, ?_⟩⟩))⟩
      simp only [madeRgb, unitByte_part, Option.map_some, Option.getD_some]

/-- The remaining part of `hsl()` without commas -/
def hslRest (hue : Option ℚ) : P (Option Color) := do
  let s ← noneOrP (tok1 pctTok)
  let l ← noneOrP (tok1 pctTok)
  let a ← modernAlpha
  pure (fromHsl (hue.map normHue) (s.map unit) (l.map unit) a)

theorem hslRest_iff (r : Option ℚ) (ts : List Tok) (k : Option Color) : hslRest r ts = .ok (k, []) ↔
    ∃ b c us y z al, ts = b :: c :: us ∧ Or pctTok b y ∧ Or pctTok c z ∧ SlashAlpha us al ∧
      k = fromHsl (r.map normHue) (y.map unit) (z.map unit) al := by
  simp only [hslRest, bind_ok_iff, pure_ok_iff, none_or_tok]
  constructor
  · rintro ⟨y, _, ⟨b, rfl, hb⟩, z, _, ⟨c, rfl, hc⟩, al, _, hal, rfl, rfl⟩
    exact ⟨b, c, _, y, z, al, rfl, hb, hc, (slash_iff _ _).1 hal, rfl⟩
  · rintro ⟨b, c, us, y, z, al, rfl, hb, hc, hal, rfl⟩
    exact ⟨y, _, ⟨b, rfl, hb⟩, z, _, ⟨c, rfl, hc⟩, al, _, (slash_iff _ _).2 hal, rfl, rfl⟩

/-- The remaining part of `hsl()` with commas -/
def hslCommas (hue : Option ℚ) : P (Option Color) := do
  let s ← tok1 pctTok
  comma
  let l ← tok1 pctTok
  let a ← legacyAlpha
  pure (fromHsl (hue.map normHue) (some (unit s)) (some (unit l)) (some a))

theorem hslCommas_iff (r : Option ℚ) (ts : List Tok) (k : Option Color) : hslCommas r ts = .ok (k, []) ↔
    ∃ b c us y z al, ts = b :: .comma :: c :: us ∧ pctTok b = some y ∧ pctTok c = some z ∧ CommaAlpha us al ∧
      k = fromHsl (r.map normHue) (some (unit y)) (some (unit z)) (some al) := by
  simp only [hslCommas, bind_ok_iff, pure_ok_iff, one_tok1 _ _ _ _, comma_iff']
  constructor
  · rintro ⟨y, _, ⟨b, rfl, hb⟩, _, _, rfl, z, _, ⟨c, rfl, hc⟩, al, _, hal, rfl, rfl⟩
    exact ⟨b, c, _, y, z, al, rfl, hb, hc, (legacy_iff _ _).1 hal, rfl⟩
  · rintro ⟨b, c, us, y, z, al, rfl, hb, hc, hal, rfl⟩
    exact ⟨y, _, ⟨b, rfl, hb⟩, (), _, rfl, z, _, ⟨c, rfl, hc⟩, al, _, (legacy_iff _ _).2 hal, rfl, rfl⟩

theorem hslP_iff (ts : List Tok) (k : Option Color) : hslP ts = .ok (k, []) ↔
    ∃ a rest, ts = a :: rest ∧
      ((a = .ident "none" ∧ hslRest none rest = .ok (k, [])) ∨
       (∃ v, hueTok a = some v ∧ (∀ r, rest ≠ .comma :: r) ∧ hslRest (some v) rest = .ok (k, [])) ∨
       (∃ v r, hueTok a = some v ∧ rest = .comma :: r ∧ hslCommas (some v) r = .ok (k, []))) := by
  unfold hslP
  rw [bind_ok_iff]
  simp only [none_or_tok]
  constructor
  · rintro ⟨o, rest, ⟨a, rfl, h⟩, h'⟩
    refine ⟨a, rest, rfl, ?_⟩
    rw [bind_ok_iff] at h'
    obtain ⟨l, ts', hl, h'⟩ := h'
    cases o with
    | none =>
      obtain ⟨rfl, rfl⟩ := pure_ok_iff.1 hl
      exact .inl ⟨or_none.1 h, h'⟩
    | some v =>
      have hv := (or_some rfl).1 h
      rcases tryP_ok_iff.1 hl with ⟨u, rfl, hu⟩ | ⟨rfl, rfl, he⟩
      · rw [comma_iff'] at hu
        exact .inr (.inr ⟨v, ts', hv, hu, h'⟩)
      · exact .inr (.inl ⟨v, hv, comma_err.1 he, h'⟩)
  · rintro ⟨a, rest, rfl, ⟨rfl, h⟩ | ⟨v, hv, hn, h⟩ | ⟨q, r, hv, rfl, h⟩⟩
    · exact ⟨none, rest, ⟨_, rfl, or_none.2 rfl⟩, bind_ok_iff.2 ⟨none, rest, pure_ok_iff.2 ⟨rfl, rfl⟩, h⟩⟩
    · exact ⟨some v, rest, ⟨_, rfl, (or_some rfl).2 hv⟩, bind_ok_iff.2 ⟨none, rest,
        tryP_ok_iff.2 (.inr ⟨rfl, rfl, comma_err.2 hn⟩), h⟩⟩
    · exact ⟨some _, _, ⟨_, rfl, (or_some rfl).2 hv⟩, bind_ok_iff.2
        ⟨some (), r, tryP_ok_iff.2 (.inl ⟨(), rfl, (comma_iff' _ _ _).2 rfl⟩), h⟩⟩

/-- `hsl()` -/
theorem hsl_iff (ts : List Tok) (k : Option Color) : hslP ts = .ok (k, []) ↔
    (∃ x y z al, Components Hue Percent Percent ts x y z al ∧ k = made ⟨.hsl, x, y, z, al⟩) ∨
    (∃ x y z al, CommaComponents Hue Percent Percent ts x y z al ∧
      k = made ⟨.hsl, some x, some y, some z, some al⟩) := by
  have hR := fun ts x y z al => components_spec (f := hueTok) (g := pctTok) (h := pctTok) rfl rfl rfl
    hue_iff percent_iff percent_iff ts x y z al
  simp only [components_iff] at hR
  have three : ∀ o a rest, Or hueTok a o → hslRest o rest = .ok (k, []) →
      ∃ x y z al, Components Hue Percent Percent (a :: rest) x y z al ∧ k = made ⟨.hsl, x, y, z, al⟩ := by
    intro o a rest ha h
    obtain ⟨b, c, us, y, z, al, rfl, hb, hc, hal, rfl⟩ := (hslRest_iff _ _ _).1 h
    exact ⟨_, _, _, al, (hR _ _ _ _ _).2 ⟨o, y, z, ⟨a, b, c, us, rfl, ha, hb, hc, hal⟩, rfl, rfl, rfl⟩, rfl⟩
  constructor
  · intro h0
    obtain ⟨a, rest, rfl, ⟨rfl, h⟩ | ⟨v, hv, hn, h⟩ | ⟨q, r, hv, rfl, h⟩⟩ := (hslP_iff _ _).1 h0
    · exact .inl (three _ _ _ (or_none.2 rfl) h)
    · exact .inl (three _ _ _ ((or_some rfl).2 hv) h)
    · obtain ⟨b, c, us, y, z, al, rfl, hb, hc, hal, rfl⟩ := (hslCommas_iff _ _ _).1 h
      exact .inr ⟨normHue q, unit y, unit z, al, (commas_spec _ _ _ _ _).2
        ⟨a, b, c, us, rfl, (hue_iff _ _).2 ⟨q, hv, rfl⟩, (percent_iff _ _).2 ⟨y, hb, rfl⟩,
          (percent_iff _ _).2 ⟨z, hc, rfl⟩, hal⟩, rfl⟩
  · rw [hslP_iff]
    rintro (⟨x, y, z, al, h, rfl⟩ | ⟨x, y, z, al, h, rfl⟩)
    · obtain ⟨x', y', z', ⟨a, b, c, us, rfl, ha, hb, hc, hal⟩, rfl, rfl, rfl⟩ := (hR _ _ _ _ _).1 h
      have e : hslRest x' (b :: c :: us) = .ok (made ⟨.hsl, x'.map normHue, y'.map unit, z'.map unit, al⟩, []) :=
        (hslRest_iff _ _ _).2 ⟨b, c, us, y', z', al, rfl, hb, hc, hal, rfl⟩
      refine ⟨a, _, rfl, ?_⟩
      cases x' with
      | none => exact .inl ⟨or_none.1 ha, e⟩
      | some v =>
        refine .inr (.inl ⟨v, (or_some rfl).1 ha, ?_, e⟩)
        rintro r ⟨⟩
        exact or_comma rfl hb
    · obtain ⟨a, b, c, us, rfl, ha, hb, hc, hal⟩ := (commas_spec _ _ _ _ _).1 h
      obtain ⟨q, hq, rfl⟩ := (hue_iff _ _).1 ha
      obtain ⟨y', hy, rfl⟩ := (percent_iff _ _).1 hb
      obtain ⟨z', hz, rfl⟩ := (percent_iff _ _).1 hc
      exact ⟨a, _, rfl, .inr (.inr ⟨q, _, hq, rfl, (hslCommas_iff _ _ _).2
        ⟨b, c, us, y', z', al, rfl, hy, hz, hal, rfl⟩⟩)⟩

/-- A function with three components and an alpha -/
theorem function_of {f : Tok → Option α} {g : Tok → Option β} {h : Tok → Option γ}
    {F : α → ℚ} {G : β → ℚ} {H : γ → ℚ} {A B C : Tok → ℚ → Prop}
    (fi : f (.ident "none") = none) (gi : g (.ident "none") = none) (hi : h (.ident "none") = none)
    (hA : ∀ t q, A t q ↔ ∃ v, f t = some v ∧ q = F v) (hB : ∀ t q, B t q ↔ ∃ v, g t = some v ∧ q = G v)
    (hC : ∀ t q, C t q ↔ ∃ v, h t = some v ∧ q = H v)
    (make : Option ℚ → Option ℚ → Option ℚ → Option ℚ → Option Color) (ts : List Tok) (k : Option Color) :
    (do let (x, y, z, al) ← componentsP (tok1 f) (tok1 g) (tok1 h)
        pure (make (x.map F) (y.map G) (z.map H) al) : P (Option Color)) ts = .ok (k, []) ↔
      ∃ x y z al, Components A B C ts x y z al ∧ k = make x y z al := by
  have hR := components_spec fi gi hi hA hB hC ts
  rw [bind_ok_iff]
  constructor
  · rintro ⟨⟨x, y, z, al⟩, ts', h1, h2⟩
    obtain ⟨rfl, rfl⟩ := pure_ok_iff.1 h2
    exact ⟨_, _, _, al, (hR _ _ _ _).2 ⟨x, y, z, h1, rfl, rfl, rfl⟩, rfl⟩
  · rintro ⟨_, _, _, al, hc, rfl⟩
    obtain ⟨x, y, z, h1, rfl, rfl, rfl⟩ := (hR _ _ _ _).1 hc
    exact ⟨(x, y, z, al), [], h1, pure_ok_iff.2 ⟨rfl, rfl⟩⟩

theorem hwb_iff (ts : List Tok) (k : Option Color) : hwbP ts = .ok (k, []) ↔
    ∃ x y z al, Components Hue Percent Percent ts x y z al ∧ k = fromHwb x y z al :=
  function_of rfl rfl rfl hue_iff percent_iff percent_iff fromHwb ts k

theorem lab_iff (l ab : ℚ) (make) (ts : List Tok) (k : Option Color) : labLike l ab make ts = .ok (k, []) ↔
    ∃ x y z al, Components (NumOrPct l) (NumOrPct ab) (NumOrPct ab) ts x y z al ∧ k = make x y z al :=
  function_of rfl rfl rfl (numOrPct_iff l) (numOrPct_iff ab) (numOrPct_iff ab) make ts k

theorem lch_iff (l c : ℚ) (make) (ts : List Tok) (k : Option Color) : lchLike l c make ts = .ok (k, []) ↔
    ∃ x y z al, Components (NumOrPct l) (NumOrPct c) Hue ts x y z al ∧ k = make x y z al :=
  function_of rfl rfl rfl (numOrPct_iff l) (numOrPct_iff c) hue_iff make ts k

theorem space_iff (t : Tok) (s : PSpace) : spaceTok t = some s ↔ ∃ n, t = .ident n ∧ (n, s) ∈ spaces := by
  cases t with
  | ident n =>
    simp only [spaceTok, Tok.ident.injEq, exists_eq_left']
    simp only [spaces, List.lookup_cons, List.lookup_nil]
    constructor
    · intro h
      repeat' split at h
      all_goals simp_all
    · intro h
      simp only [List.mem_cons, Prod.mk.injEq, List.not_mem_nil, or_false] at h
      rcases h with ⟨rfl, rfl⟩ | ⟨rfl, rfl⟩ | ⟨rfl, rfl⟩ | ⟨rfl, rfl⟩ | ⟨rfl, rfl⟩ | ⟨rfl, rfl⟩ | ⟨rfl, rfl⟩ | ⟨rfl, rfl⟩ |
        ⟨rfl, rfl⟩ <;> decide
  | _ => simp [spaceTok]

/-- The space of CSS -/
def cssSpace : PSpace → CssSpace
  | .srgb => .srgb
  | .srgbLinear => .srgbLinear
  | .xyzD65 => .xyz
  | _ => .unsupported

theorem spaceNamed_iff (n : String) (sp : CssSpace) : SpaceNamed n sp ↔ ∃ s, (n, s) ∈ spaces ∧ sp = cssSpace s := by
  constructor
  · rintro (_ | _ | _ | _ | _ | _ | _ | _ | _)
    · exact ⟨.srgb, by simp [spaces], rfl⟩
    · exact ⟨.srgbLinear, by simp [spaces], rfl⟩
    · exact ⟨.xyzD65, by simp [spaces], rfl⟩
    · exact ⟨.xyzD65, by simp [spaces], rfl⟩
    · exact ⟨.displayP3, by simp [spaces], rfl⟩
    · exact ⟨.a98, by simp [spaces], rfl⟩
    · exact ⟨.prophoto, by simp [spaces], rfl⟩
    · exact ⟨.rec2020, by simp [spaces], rfl⟩
    · exact ⟨.xyzD50, by simp [spaces], rfl⟩
  · rintro ⟨s, h, rfl⟩
    simp only [spaces, List.mem_cons, Prod.mk.injEq, List.not_mem_nil, or_false] at h
    rcases h with ⟨rfl, rfl⟩ | ⟨rfl, rfl⟩ | ⟨rfl, rfl⟩ | ⟨rfl, rfl⟩ | ⟨rfl, rfl⟩ | ⟨rfl, rfl⟩ | ⟨rfl, rfl⟩ | ⟨rfl, rfl⟩ |
      ⟨rfl, rfl⟩
    · exact .srgb
    · exact .srgbLinear
    · exact .displayP3
    · exact .a98
    · exact .prophoto
    · exact .rec2020
    · exact .xyzD50
    · exact .xyz
    · exact .xyzD65

theorem fromSpace_made (s : PSpace) (x y z al : Option ℚ) : fromSpace s x y z al = made ⟨cssSpace s, x, y, z, al⟩ := by
  cases s <;> rfl

theorem color_iff (ts : List Tok) (k : Option Color) : colorFunctionP ts = .ok (k, []) ↔
    ∃ n sp args x y z al, ts = .ident n :: args ∧ SpaceNamed n sp ∧
      Components (NumOrPct 1) (NumOrPct 1) (NumOrPct 1) args x y z al ∧ k = made ⟨sp, x, y, z, al⟩ := by
  have hf := fun s ts => function_of rfl rfl rfl (numOrPct_iff 1) (numOrPct_iff 1) (numOrPct_iff 1) (fromSpace s) ts k
  unfold colorFunctionP
  rw [bind_ok_iff]
  constructor
  · rintro ⟨s, ts', h1, h2⟩
    obtain ⟨t, rfl, h3⟩ := (one_tok1 _ _ _ _).1 h1
    obtain ⟨n, rfl, h4⟩ := (space_iff _ _).1 h3
    obtain ⟨x, y, z, al, hc, rfl⟩ := (hf s ts').1 h2
    exact ⟨n, _, ts', x, y, z, al, rfl, (spaceNamed_iff _ _).2 ⟨s, h4, rfl⟩, hc, fromSpace_made ..⟩
  · rintro ⟨n, sp, args, x, y, z, al, rfl, hn, hc, rfl⟩
    obtain ⟨s, hs, rfl⟩ := (spaceNamed_iff _ _).1 hn
    exact ⟨s, args, (one_tok1 _ _ _ _).2 ⟨_, rfl, (space_iff _ _).2 ⟨n, rfl, hs⟩⟩,
      (hf s args).2 ⟨x, y, z, al, hc, (fromSpace_made ..).symm⟩⟩

/-- What is made of a function -/
def madeBy (name : String) (w : ColorValue) : Option Color :=
  if name = "rgb" ∨ name = "rgba" then madeRgb w else made w

theorem function_iff (name : String) (args : List Tok) (k : Option Color) : functionP name args = .ok (k, []) ↔
    ∃ w, FunctionText name args w ∧ k = madeBy name w := by
  constructor
  · intro h0
    unfold functionP at h0
    have rgb : (name = "rgb" ∨ name = "rgba") → rgbP args = .ok (k, []) → ∃ w, FunctionText name args w ∧ k = madeBy name w := by
      intro hn h0
      simp only [madeBy, hn, if_true]
      rcases (rgb_iff _ _).1 h0 with ⟨x, y, z, al, h, rfl⟩ | ⟨x, y, z, al, h, rfl⟩ | ⟨x, y, z, al, h, rfl⟩
      · exact ⟨_, .rgb hn h, rfl⟩
      · exact ⟨_, .rgbNumbers hn h, rfl⟩
      · exact ⟨_, .rgbPercentages hn h, rfl⟩
    have hsl : (name = "hsl" ∨ name = "hsla") → hslP args = .ok (k, []) → ∃ w, FunctionText name args w ∧ k = madeBy name w := by
      intro hn h0
      have : ¬ (name = "rgb" ∨ name = "rgba") := by rcases hn with rfl | rfl <;> decide
      simp only [madeBy, this, if_false]
      rcases (hsl_iff _ _).1 h0 with ⟨x, y, z, al, h, rfl⟩ | ⟨x, y, z, al, h, rfl⟩
      · exact ⟨_, .hsl hn h, rfl⟩
      · exact ⟨_, .hslCommas hn h, rfl⟩
    split at h0
    · exact rgb (.inl ‹_›) h0
    split at h0
    · exact rgb (.inr ‹_›) h0
    split at h0
    · exact hsl (.inl ‹_›) h0
    split at h0
    · exact hsl (.inr ‹_›) h0
    split at h0
    · subst name; obtain ⟨x, y, z, al, h, rfl⟩ := (hwb_iff _ _).1 h0; exact ⟨_, .hwb h, rfl⟩
    split at h0
    · subst name; obtain ⟨x, y, z, al, h, rfl⟩ := (lab_iff _ _ _ _ _).1 h0; exact ⟨_, .lab h, rfl⟩
    split at h0
    · subst name; obtain ⟨x, y, z, al, h, rfl⟩ := (lch_iff _ _ _ _ _).1 h0; exact ⟨_, .lch h, rfl⟩
    split at h0
    · subst name; obtain ⟨x, y, z, al, h, rfl⟩ := (lab_iff _ _ _ _ _).1 h0; exact ⟨_, .oklab h, rfl⟩
    split at h0
    · subst name; obtain ⟨x, y, z, al, h, rfl⟩ := (lch_iff _ _ _ _ _).1 h0; exact ⟨_, .oklch h, rfl⟩
    split at h0
    · subst name
      obtain ⟨n, sp, args', x, y, z, al, rfl, hn, h, rfl⟩ := (color_iff _ _).1 h0
      exact ⟨_, .color hn h, rfl⟩
    · cases h0
  · rintro ⟨w, h, rfl⟩
    have e1 : ∀ (hn : name = "rgb" ∨ name = "rgba") (w : ColorValue), madeBy name w = madeRgb w := by
      intro hn w; simp only [madeBy, hn, if_true]
    have f1 : ∀ (hn : name = "rgb" ∨ name = "rgba"), functionP name = rgbP := by
      rintro (rfl | rfl) <;> rfl
    have e2 : ∀ (hn : name = "hsl" ∨ name = "hsla") (w : ColorValue), madeBy name w = made w := by
      rintro (rfl | rfl) w <;> rfl
    have f2 : ∀ (hn : name = "hsl" ∨ name = "hsla"), functionP name = hslP := by
      rintro (rfl | rfl) <;> rfl
    rcases h with ⟨hn, h⟩ | ⟨hn, h⟩ | ⟨hn, h⟩ | ⟨hn, h⟩ | ⟨hn, h⟩ | h | h | h | h | h | ⟨hn, h⟩
    · rw [f1 hn, e1 hn]; exact (rgb_iff _ _).2 (.inl ⟨_, _, _, _, h, rfl⟩)
    · rw [f1 hn, e1 hn]; exact (rgb_iff _ _).2 (.inr (.inl ⟨_, _, _, _, h, rfl⟩))
    · rw [f1 hn, e1 hn]; exact (rgb_iff _ _).2 (.inr (.inr ⟨_, _, _, _, h, rfl⟩))
    · rw [f2 hn, e2 hn]; exact (hsl_iff _ _).2 (.inl ⟨_, _, _, _, h, rfl⟩)
    · rw [f2 hn, e2 hn]; exact (hsl_iff _ _).2 (.inr ⟨_, _, _, _, h, rfl⟩)
    · exact (hwb_iff _ _).2 ⟨_, _, _, _, h, rfl⟩
    · exact (lab_iff _ _ _ _ _).2 ⟨_, _, _, _, h, rfl⟩
    · exact (lch_iff _ _ _ _ _).2 ⟨_, _, _, _, h, rfl⟩
    · exact (lab_iff _ _ _ _ _).2 ⟨_, _, _, _, h, rfl⟩
    · exact (lch_iff _ _ _ _ _).2 ⟨_, _, _, _, h, rfl⟩
    · exact (color_iff _ _).2 ⟨_, _, _, _, _, _, _, rfl, hn, h, rfl⟩

end Flair.Proofs.Color
