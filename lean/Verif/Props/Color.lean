import Verif.Proofs.Color
import Verif.Spec.Gradient
import Verif.Spec.Shorthand2
import Mathlib.Tactic.IntervalCases
/-!
# C93: colors
-/
namespace Flair.Props
open Flair.Calc Flair.Shorthand Flair.Colors Flair.Spec Flair.Proofs.Color Flair.Proofs.Parse

/-! ## Texts -/

private theorem hex_iff (c : Char) (q : ℚ) : hexDigit c = some q ↔ ∃ n : ℕ, HexIs c n ∧ q = n := by
  constructor
  · intro h
    have hc : c = Char.ofNat c.toNat := (Char.ofNat_toNat c).symm
    unfold hexDigit at h
    split at h
    · rename_i hr
      have h1 : 48 ≤ c.toNat := hr.1
      have h2 : c.toNat ≤ 57 := hr.2
      simp only [Option.some.injEq] at h
      refine ⟨_, .mk ?_, h.symm⟩
      rw [hc]
      generalize c.toNat = m at h1 h2
      interval_cases m <;> decide
    split at h
    · rename_i hr
      have h1 : 97 ≤ c.toNat := hr.1
      have h2 : c.toNat ≤ 102 := hr.2
      simp only [Option.some.injEq] at h
      refine ⟨_, .mk ?_, h.symm⟩
      rw [hc]
      generalize c.toNat = m at h1 h2
      interval_cases m <;> decide
    split at h
    · rename_i hr
      have h1 : 65 ≤ c.toNat := hr.1
      have h2 : c.toNat ≤ 70 := hr.2
      simp only [Option.some.injEq] at h
      refine ⟨_, .upper ?_, h.symm⟩
      rw [hc]
      generalize c.toNat = m at h1 h2
      interval_cases m <;> decide
    · cases h
  · rintro ⟨n, (h | h), rfl⟩
    · have e : "0123456789abcdef".toList.zip (List.range 16) =
        [('0', 0), ('1', 1), ('2', 2), ('3', 3), ('4', 4), ('5', 5), ('6', 6), ('7', 7), ('8', 8), ('9', 9), ('a', 10),
          ('b', 11), ('c', 12), ('d', 13), ('e', 14), ('f', 15)] := by decide
      rw [e] at h
      simp only [List.mem_cons, Prod.mk.injEq, List.not_mem_nil, or_false] at h
      rcases h with ⟨rfl, rfl⟩ | ⟨rfl, rfl⟩ | ⟨rfl, rfl⟩ | ⟨rfl, rfl⟩ | ⟨rfl, rfl⟩ | ⟨rfl, rfl⟩ | ⟨rfl, rfl⟩ | ⟨rfl, rfl⟩ |
        ⟨rfl, rfl⟩ | ⟨rfl, rfl⟩ | ⟨rfl, rfl⟩ | ⟨rfl, rfl⟩ | ⟨rfl, rfl⟩ | ⟨rfl, rfl⟩ | ⟨rfl, rfl⟩ | ⟨rfl, rfl⟩ <;> decide +kernel
    · have e : "ABCDEF".toList.zip [10, 11, 12, 13, 14, 15] =
        [('A', 10), ('B', 11), ('C', 12), ('D', 13), ('E', 14), ('F', 15)] := by decide
      rw [e] at h
      simp only [List.mem_cons, Prod.mk.injEq, List.not_mem_nil, or_false] at h
      rcases h with ⟨rfl, rfl⟩ | ⟨rfl, rfl⟩ | ⟨rfl, rfl⟩ | ⟨rfl, rfl⟩ | ⟨rfl, rfl⟩ | ⟨rfl, rfl⟩ <;> decide +kernel

private theorem mapM_forall {α β : Type} {f : α → Option β} {l : List α} {ds : List β} :
    l.mapM f = some ds ↔ List.Forall₂ (fun a b => f a = some b) l ds := by
  induction l generalizing ds with
  | nil => cases ds <;> simp
  | cons a l ih =>
    rw [List.mapM_cons]
    cases ha : f a with
    | none => cases ds <;> simp [ha]
    | some b =>
      cases hl : l.mapM f with
      | none =>
        cases ds with
        | nil => simp [hl]
        | cons d ds => have := (ih (ds := ds)); simp [ha, hl] at this ⊢; intro _; exact this
      | some bs =>
        cases ds with
        | nil => simp
        | cons d ds => have := (ih (ds := ds)); simp [ha, hl] at this ⊢; intro _; exact this

private theorem pair_iff (c d : Char) (x : ℚ) :
    HexPair c d x ↔ ∃ m n, hexDigit c = some m ∧ hexDigit d = some n ∧ x = (m * 16 + n) / 255 := by
  constructor
  · rintro ⟨h1, h2⟩
    refine ⟨_, _, (hex_iff _ _).2 ⟨_, h1, rfl⟩, (hex_iff _ _).2 ⟨_, h2, rfl⟩, ?_⟩
    push_cast; ring
  · rintro ⟨m, n, g1, g2, rfl⟩
    obtain ⟨m, h1, rfl⟩ := (hex_iff _ _).1 g1
    obtain ⟨n, h2, rfl⟩ := (hex_iff _ _).1 g2
    have := HexPair.mk h1 h2
    have e : (((16 * m + n : ℕ) : ℚ) / 255) = ((m : ℚ) * 16 + n) / 255 := by push_cast; ring
    rwa [e] at this

private theorem single_iff (c : Char) (x : ℚ) : HexPair c c x ↔ ∃ m, hexDigit c = some m ∧ x = (m * 17) / 255 := by
  rw [pair_iff]
  constructor
  · rintro ⟨m, n, h1, h2, rfl⟩
    rw [h1] at h2; cases h2
    exact ⟨m, h1, by ring⟩
  · rintro ⟨m, h1, rfl⟩
    exact ⟨m, m, h1, h1, by ring⟩

private theorem hash_iff (cs : List Char) (k : Color) :
    (cs.mapM hexDigit).bind hashDigits = some k ↔ ∃ w, HexText cs w ∧ made w = some k := by
  rw [Option.bind_eq_some_iff]
  simp only [mapM_forall]
  constructor
  · rintro ⟨ds, h, hk⟩
    unfold hashDigits at hk
    split at hk
    · rcases h with _ | ⟨h1, _ | ⟨h2, _ | ⟨h3, _ | ⟨h4, _ | ⟨h5, _ | ⟨h6, _ | ⟨h7, _ | ⟨h8, ⟨⟩⟩⟩⟩⟩⟩⟩⟩⟩
      exact ⟨_, .eight ((pair_iff ..).2 ⟨_, _, h1, h2, rfl⟩) ((pair_iff ..).2 ⟨_, _, h3, h4, rfl⟩)
        ((pair_iff ..).2 ⟨_, _, h5, h6, rfl⟩) ((pair_iff ..).2 ⟨_, _, h7, h8, rfl⟩), hk⟩
    · rcases h with _ | ⟨h1, _ | ⟨h2, _ | ⟨h3, _ | ⟨h4, _ | ⟨h5, _ | ⟨h6, ⟨⟩⟩⟩⟩⟩⟩⟩
      exact ⟨_, .six ((pair_iff ..).2 ⟨_, _, h1, h2, rfl⟩) ((pair_iff ..).2 ⟨_, _, h3, h4, rfl⟩)
        ((pair_iff ..).2 ⟨_, _, h5, h6, rfl⟩), hk⟩
    · rcases h with _ | ⟨h1, _ | ⟨h2, _ | ⟨h3, _ | ⟨h4, ⟨⟩⟩⟩⟩⟩
      exact ⟨_, .four ((single_iff ..).2 ⟨_, h1, rfl⟩) ((single_iff ..).2 ⟨_, h2, rfl⟩)
        ((single_iff ..).2 ⟨_, h3, rfl⟩) ((single_iff ..).2 ⟨_, h4, rfl⟩), hk⟩
    · rcases h with _ | ⟨h1, _ | ⟨h2, _ | ⟨h3, ⟨⟩⟩⟩⟩
      exact ⟨_, .three ((single_iff ..).2 ⟨_, h1, rfl⟩) ((single_iff ..).2 ⟨_, h2, rfl⟩)
        ((single_iff ..).2 ⟨_, h3, rfl⟩), hk⟩
    · cases hk
  · rintro ⟨w, h, hk⟩
    rcases h with ⟨g1, g2, g3⟩ | ⟨g1, g2, g3, g4⟩ | ⟨g1, g2, g3⟩ | ⟨g1, g2, g3, g4⟩
    · obtain ⟨m1, n1, h1, h1', rfl⟩ := (pair_iff ..).1 g1
      obtain ⟨m2, n2, h2, h2', rfl⟩ := (pair_iff ..).1 g2
      obtain ⟨m3, n3, h3, h3', rfl⟩ := (pair_iff ..).1 g3
      exact ⟨_, .cons h1 (.cons h1' (.cons h2 (.cons h2' (.cons h3 (.cons h3' .nil))))), hk⟩
    · obtain ⟨m1, n1, h1, h1', rfl⟩ := (pair_iff ..).1 g1
      obtain ⟨m2, n2, h2, h2', rfl⟩ := (pair_iff ..).1 g2
      obtain ⟨m3, n3, h3, h3', rfl⟩ := (pair_iff ..).1 g3
      obtain ⟨m4, n4, h4, h4', rfl⟩ := (pair_iff ..).1 g4
      exact ⟨_, .cons h1 (.cons h1' (.cons h2 (.cons h2' (.cons h3 (.cons h3' (.cons h4 (.cons h4' .nil))))))), hk⟩
    · obtain ⟨m1, h1, rfl⟩ := (single_iff ..).1 g1
      obtain ⟨m2, h2, rfl⟩ := (single_iff ..).1 g2
      obtain ⟨m3, h3, rfl⟩ := (single_iff ..).1 g3
      exact ⟨_, .cons h1 (.cons h2 (.cons h3 .nil)), hk⟩
    · obtain ⟨m1, h1, rfl⟩ := (single_iff ..).1 g1
      obtain ⟨m2, h2, rfl⟩ := (single_iff ..).1 g2
      obtain ⟨m3, h3, rfl⟩ := (single_iff ..).1 g3
      obtain ⟨m4, h4, rfl⟩ := (single_iff ..).1 g4
      exact ⟨_, .cons h1 (.cons h2 (.cons h3 (.cons h4 .nil))), hk⟩

set_option maxRecDepth 100000 in
private theorem named_nodup : (namedColors.map (·.1)).Nodup := by decide +kernel

set_option maxRecDepth 100000 in
private theorem named_special : ∀ p ∈ namedColors, p.1 ≠ "transparent" ∧ p.1 ≠ "currentcolor" := by decide +kernel

set_option maxRecDepth 100000 in
private theorem named_css : namedColors = cssColors.map fun p =>
    (p.1, ((p.2 / 65536 : ℕ) : ℚ), ((p.2 / 256 % 256 : ℕ) : ℚ), ((p.2 % 256 : ℕ) : ℚ)) := by decide +kernel

private theorem named_mem {s : String} {r g b : ℚ} : (s, r, g, b) ∈ namedColors ↔ ∃ n, (s, n) ∈ cssColors ∧
    r = (n / 65536 : ℕ) ∧ g = (n / 256 % 256 : ℕ) ∧ b = (n % 256 : ℕ) := by
  rw [named_css, List.mem_map]
  constructor
  · rintro ⟨⟨s', n⟩, h, e⟩
    simp only [Prod.mk.injEq] at e
    obtain ⟨rfl, rfl, rfl, rfl⟩ := e
    exact ⟨n, h, rfl, rfl, rfl⟩
  · rintro ⟨n, h, rfl, rfl, rfl⟩
    exact ⟨(s, n), h, rfl⟩

/-- As in the table of the model -/
private theorem text_named {hash : Nat → Option String} {s : String} {r g b : ℚ} (h : (s, r, g, b) ∈ namedColors) :
    ColorText hash (.ident s) ⟨.srgb, some (r / 255), some (g / 255), some (b / 255), some 1⟩ := by
  obtain ⟨n, hn, rfl, rfl, rfl⟩ := named_mem.1 h
  exact .named hn

private theorem lookup_iff' {β : Type} {l : List (String × β)} (hn : (l.map (·.1)).Nodup) (s : String) (b : β) :
    l.lookup s = some b ↔ (s, b) ∈ l := by
  induction l with
  | nil => simp
  | cons p l ih =>
    obtain ⟨a, c⟩ := p
    rw [List.map_cons, List.nodup_cons] at hn
    rw [List.lookup_cons]
    by_cases e : s = a
    · subst e
      simp only [beq_self_eq_true, Option.some.injEq, List.mem_cons, Prod.mk.injEq, true_and]
      constructor
      · intro h; exact .inl h.symm
      · rintro (h | h)
        · exact h.symm
        · exact absurd (List.mem_map.2 ⟨_, h, rfl⟩) hn.1
    · have : (s == a) = false := by simpa using e
      simp only [this, ih hn.2, List.mem_cons, Prod.mk.injEq, e, false_and, false_or]

/-- What is made of a token -/
private def madeOf : Tok → ColorValue → Option Color
  | .func name _ => madeBy name
  | _ => made

private theorem color_exact (hash : Nat → Option String) (t : Tok) (k : Color) :
    colorTok hash t = some k ↔ ∃ w, ColorText hash t w ∧ madeOf t w = some k := by
  cases t with
  | other n =>
    simp only [colorTok]
    constructor
    · intro h
      obtain ⟨s, hs, h'⟩ := Option.bind_eq_some_iff.1 h
      obtain ⟨w, hw, hk⟩ := (hash_iff _ _).1 h'
      exact ⟨w, .hex hs hw, hk⟩
    · rintro ⟨w, h, hk⟩
      rcases h with _ | _ | _ | ⟨hs, hw⟩
      exact Option.bind_eq_some_iff.2 ⟨_, hs, (hash_iff _ _).2 ⟨w, hw, hk⟩⟩
  | ident s =>
    simp only [colorTok, keywordColor]
    constructor
    · intro h
      split at h
      · subst s; refine ⟨_, .transparent, ?_⟩; rw [← h]; simp [madeOf, made, fromSpace, fromRgba, comp, alphaOr]
      split at h
      · cases h
      · obtain ⟨⟨r, g, b⟩, hl, h⟩ := Option.bind_eq_some_iff.1 h
        exact ⟨_, text_named ((lookup_iff' named_nodup _ _).1 hl), h⟩
    · rintro ⟨w, h, hk⟩
      rcases h with _ | _ | h
      · rw [if_pos rfl, ← hk]; simp [madeOf, made, fromSpace, fromRgba, comp, alphaOr]
      · cases hk
      · have h := named_mem.2 ⟨_, h, rfl, rfl, rfl⟩
        rw [if_neg (named_special _ h).1, if_neg (named_special _ h).2]
        exact Option.bind_eq_some_iff.2 ⟨_, (lookup_iff' named_nodup _ _).2 h, hk⟩
  | func name args =>
    have h1 : colorTok hash (.func name args) = some k ↔ functionP name args = .ok (some k, []) := by
      simp only [colorTok, nested]
      cases hp : functionP name args with
      | ok r =>
        obtain ⟨o, rest⟩ := r
        cases rest with
        | nil => cases o <;> simp [Res.bind]
        | cons => simp [Res.bind]
      | err => simp [Res.bind]
      | panic => simp [Res.bind]
    rw [h1, function_iff]
    constructor
    · rintro ⟨w, hw, hk⟩; exact ⟨w, .function hw, hk.symm⟩
    · rintro ⟨w, h, hk⟩
      rcases h with _ | _ | _ | _ | hw
      exact ⟨w, hw, hk.symm⟩
  | _ =>
    simp only [colorTok, reduceCtorEq, false_iff, not_exists, not_and]
    rintro w ⟨⟩

/-! ## A text has one meaning -/

/-- Functional in the second argument -/
private def Fun {α β : Type} (R : α → β → Prop) : Prop := ∀ t x y, R t x → R t y → x = y

private theorem fun_of {α : Type} {R : Tok → ℚ → Prop} {f : Tok → Option α} {F : α → ℚ}
    (h : ∀ t q, R t q ↔ ∃ v, f t = some v ∧ q = F v) : Fun R := by
  intro t x y hx hy
  obtain ⟨v, hv, rfl⟩ := (h _ _).1 hx
  obtain ⟨w, hw, rfl⟩ := (h _ _).1 hy
  rw [hv] at hw; cases hw; rfl

private theorem fun_hue : Fun Hue := fun_of hue_iff
private theorem fun_percent : Fun Percent := fun_of percent_iff
private theorem fun_num (r : ℚ) : Fun (NumOrPct r) := fun_of (numOrPct_iff r)
private theorem fun_rgb : Fun RgbComponent := fun_of rgbComponent_iff
private theorem fun_rgbNumber : Fun RgbNumber := fun_of rgbNumber_iff
private theorem fun_alpha : Fun AlphaValue := fun_of alpha_iff

private theorem fun_missing {R : Tok → ℚ → Prop} (h : Fun R) (hn : ∀ q, ¬ R (.ident "none") q) : Fun (OrMissing R) := by
  intro t x y hx hy
  rcases hx with _ | hx
  · rcases hy with _ | hy
    · rfl
    · exact absurd hy (hn _)
  · rcases hy with _ | hy
    · exact absurd hx (hn _)
    · rw [h _ _ _ hx hy]

private theorem no_word {α : Type} {R : Tok → ℚ → Prop} {f : Tok → Option α} {F : α → ℚ}
    (h : ∀ t q, R t q ↔ ∃ v, f t = some v ∧ q = F v) {t : Tok} (ht : f t = none) : ∀ q, ¬ R t q := by
  intro q hq
  obtain ⟨v, hv, _⟩ := (h _ _).1 hq
  rw [ht] at hv; cases hv

private theorem fun_slash : Fun SlashAlpha := by
  intro t x y hx hy
  rw [← slash_iff] at hx hy
  rw [hx] at hy; cases hy; rfl

private theorem fun_comma : Fun CommaAlpha := by
  intro t x y hx hy
  rw [← legacy_iff] at hx hy
  rw [hx] at hy; cases hy; rfl

private theorem fun_components {A B C : Tok → ℚ → Prop} (hA : Fun (OrMissing A)) (hB : Fun (OrMissing B))
    (hC : Fun (OrMissing C)) {ts x y z al x' y' z' al'} (h : Components A B C ts x y z al)
    (h' : Components A B C ts x' y' z' al') : x = x' ∧ y = y' ∧ z = z' ∧ al = al' := by
  rcases h with ⟨h1, h2, h3, h4⟩
  rcases h' with ⟨g1, g2, g3, g4⟩
  exact ⟨hA _ _ _ h1 g1, hB _ _ _ h2 g2, hC _ _ _ h3 g3, fun_slash _ _ _ h4 g4⟩

private theorem fun_commas {A B C : Tok → ℚ → Prop} (hA : Fun A) (hB : Fun B)
    (hC : Fun C) {ts x y z al x' y' z' al'} (h : CommaComponents A B C ts x y z al)
    (h' : CommaComponents A B C ts x' y' z' al') : x = x' ∧ y = y' ∧ z = z' ∧ al = al' := by
  rcases h with ⟨h1, h2, h3, h4⟩
  rcases h' with ⟨g1, g2, g3, g4⟩
  exact ⟨hA _ _ _ h1 g1, hB _ _ _ h2 g2, hC _ _ _ h3 g3, fun_comma _ _ _ h4 g4⟩

private theorem not_both {A B C A' B' C' : Tok → ℚ → Prop} (hB : ∀ q, ¬ B .comma q) {ts x y z al x' y' z' al'}
    (h : Components A B C ts x y z al) (h' : CommaComponents A' B' C' ts x' y' z' al') : False := by
  rcases h with ⟨h1, h2, h3, h4⟩
  rcases h' with ⟨g1, g2, g3, g4⟩
  rcases h2 with _ | h2
  exact hB _ h2

private theorem missing_hue : Fun (OrMissing Hue) := fun_missing fun_hue (no_word hue_iff rfl)
private theorem missing_percent : Fun (OrMissing Percent) := fun_missing fun_percent (no_word percent_iff rfl)
private theorem missing_rgb : Fun (OrMissing RgbComponent) := fun_missing fun_rgb (no_word rgbComponent_iff rfl)
private theorem missing_num (r : ℚ) : Fun (OrMissing (NumOrPct r)) := fun_missing (fun_num r) (no_word (numOrPct_iff r) rfl)

private theorem not_numbers {ts x y z al x' y' z' al'} (h : CommaComponents RgbNumber RgbNumber RgbNumber ts x y z al)
    (h' : CommaComponents Percent Percent Percent ts x' y' z' al') : False := by
  rcases h with ⟨⟨_⟩, h2, h3, h4⟩
  rcases h' with ⟨⟨⟩, g2, g3, g4⟩

private theorem space_fun {n : String} {s s' : CssSpace} (h : SpaceNamed n s) (h' : SpaceNamed n s') : s = s' := by
  have h1 : ∀ s, SpaceNamed n s → (n, s) ∈ [("srgb", CssSpace.srgb), ("srgb-linear", .srgbLinear), ("xyz", .xyz),
      ("xyz-d65", .xyz), ("display-p3", .unsupported), ("a98-rgb", .unsupported), ("prophoto-rgb", .unsupported),
      ("rec2020", .unsupported), ("xyz-d50", .unsupported)] := by
    intro s h; cases h <;> simp
  have e := (lookup_iff' (by decide) _ _).2 (h1 s h)
  rw [(lookup_iff' (by decide) _ _).2 (h1 s' h')] at e
  cases e; rfl

/-- The functions with the forms of each -/
private inductive Forms : ℕ → List Tok → ColorValue → Prop
  | rgb {args x y z al} : Components RgbComponent RgbComponent RgbComponent args x y z al → Forms 0 args ⟨.srgb, x, y, z, al⟩
  | rgbNumbers {args x y z al} : CommaComponents RgbNumber RgbNumber RgbNumber args x y z al →
      Forms 0 args ⟨.srgb, some x, some y, some z, some al⟩
  | rgbPercentages {args x y z al} : CommaComponents Percent Percent Percent args x y z al →
      Forms 0 args ⟨.srgb, some x, some y, some z, some al⟩
  | hsl {args x y z al} : Components Hue Percent Percent args x y z al → Forms 1 args ⟨.hsl, x, y, z, al⟩
  | hslCommas {args x y z al} : CommaComponents Hue Percent Percent args x y z al →
      Forms 1 args ⟨.hsl, some x, some y, some z, some al⟩
  | hwb {args x y z al} : Components Hue Percent Percent args x y z al → Forms 2 args ⟨.hwb, x, y, z, al⟩
  | lab {args x y z al} : Components (NumOrPct 100) (NumOrPct 125) (NumOrPct 125) args x y z al →
      Forms 3 args ⟨.lab, x, y, z, al⟩
  | lch {args x y z al} : Components (NumOrPct 100) (NumOrPct 150) Hue args x y z al → Forms 4 args ⟨.lch, x, y, z, al⟩
  | oklab {args x y z al} : Components (NumOrPct 1) (NumOrPct (2 / 5)) (NumOrPct (2 / 5)) args x y z al →
      Forms 5 args ⟨.oklab, x, y, z, al⟩
  | oklch {args x y z al} : Components (NumOrPct 1) (NumOrPct (2 / 5)) Hue args x y z al →
      Forms 6 args ⟨.oklch, x, y, z, al⟩
  | color {s sp args x y z al} : SpaceNamed s sp → Components (NumOrPct 1) (NumOrPct 1) (NumOrPct 1) args x y z al →
      Forms 7 (.ident s :: args) ⟨sp, x, y, z, al⟩

private def names : List (String × ℕ) := [("rgb", 0), ("rgba", 0), ("hsl", 1), ("hsla", 1), ("hwb", 2), ("lab", 3),
  ("lch", 4), ("oklab", 5), ("oklch", 6), ("color", 7)]

private theorem forms_of {name : String} {args : List Tok} {w : ColorValue} (h : FunctionText name args w) :
    ∃ n, (name, n) ∈ names ∧ Forms n args w := by
  rcases h with ⟨hn, h⟩ | ⟨hn, h⟩ | ⟨hn, h⟩ | ⟨hn, h⟩ | ⟨hn, h⟩ | h | h | h | h | h | ⟨hn, h⟩
  · exact ⟨0, by rcases hn with rfl | rfl <;> simp [names], .rgb h⟩
  · exact ⟨0, by rcases hn with rfl | rfl <;> simp [names], .rgbNumbers h⟩
  · exact ⟨0, by rcases hn with rfl | rfl <;> simp [names], .rgbPercentages h⟩
  · exact ⟨1, by rcases hn with rfl | rfl <;> simp [names], .hsl h⟩
  · exact ⟨1, by rcases hn with rfl | rfl <;> simp [names], .hslCommas h⟩
  · exact ⟨2, by simp [names], .hwb h⟩
  · exact ⟨3, by simp [names], .lab h⟩
  · exact ⟨4, by simp [names], .lch h⟩
  · exact ⟨5, by simp [names], .oklab h⟩
  · exact ⟨6, by simp [names], .oklch h⟩
  · exact ⟨7, by simp [names], .color hn h⟩

private theorem forms_fun {n : ℕ} {args : List Tok} {w w' : ColorValue} (h : Forms n args w)
    (h' : Forms n args w') : w = w' := by
  cases h with
  | rgb h =>
    cases h' with
    | rgb h' => obtain ⟨rfl, rfl, rfl, rfl⟩ := fun_components missing_rgb missing_rgb missing_rgb h h'; rfl
    | rgbNumbers h' => exact (not_both (no_word rgbComponent_iff rfl) h h').elim
    | rgbPercentages h' => exact (not_both (no_word rgbComponent_iff rfl) h h').elim
  | rgbNumbers h =>
    cases h' with
    | rgb h' => exact (not_both (no_word rgbComponent_iff rfl) h' h).elim
    | rgbNumbers h' =>
      obtain ⟨rfl, rfl, rfl, rfl⟩ := fun_commas fun_rgbNumber fun_rgbNumber fun_rgbNumber h h'; rfl
    | rgbPercentages h' => exact (not_numbers h h').elim
  | rgbPercentages h =>
    cases h' with
    | rgb h' => exact (not_both (no_word rgbComponent_iff rfl) h' h).elim
    | rgbNumbers h' => exact (not_numbers h' h).elim
    | rgbPercentages h' =>
      obtain ⟨rfl, rfl, rfl, rfl⟩ := fun_commas fun_percent fun_percent fun_percent h h'; rfl
  | hsl h =>
    cases h' with
    | hsl h' => obtain ⟨rfl, rfl, rfl, rfl⟩ := fun_components missing_hue missing_percent missing_percent h h'; rfl
    | hslCommas h' => exact (not_both (no_word percent_iff rfl) h h').elim
  | hslCommas h =>
    cases h' with
    | hsl h' => exact (not_both (no_word percent_iff rfl) h' h).elim
    | hslCommas h' => obtain ⟨rfl, rfl, rfl, rfl⟩ := fun_commas fun_hue fun_percent fun_percent h h'; rfl
  | hwb h =>
    cases h' with
    | hwb h' => obtain ⟨rfl, rfl, rfl, rfl⟩ := fun_components missing_hue missing_percent missing_percent h h'; rfl
  | lab h =>
    cases h' with
    | lab h' =>
      obtain ⟨rfl, rfl, rfl, rfl⟩ := fun_components (missing_num _) (missing_num _) (missing_num _) h h'; rfl
  | lch h =>
    cases h' with
    | lch h' => obtain ⟨rfl, rfl, rfl, rfl⟩ := fun_components (missing_num _) (missing_num _) missing_hue h h'; rfl
  | oklab h =>
    cases h' with
    | oklab h' =>
      obtain ⟨rfl, rfl, rfl, rfl⟩ := fun_components (missing_num _) (missing_num _) (missing_num _) h h'; rfl
  | oklch h =>
    cases h' with
    | oklch h' => obtain ⟨rfl, rfl, rfl, rfl⟩ := fun_components (missing_num _) (missing_num _) missing_hue h h'; rfl
  | color hs h =>
    cases h' with
    | color hs' h' =>
      obtain ⟨rfl, rfl, rfl, rfl⟩ := fun_components (missing_num _) (missing_num _) (missing_num _) h h'
      rw [space_fun hs hs']

private theorem function_fun {name : String} {args : List Tok} {w w' : ColorValue} (h : FunctionText name args w)
    (h' : FunctionText name args w') : w = w' := by
  obtain ⟨n, hn, hf⟩ := forms_of h
  obtain ⟨n', hn', hf'⟩ := forms_of h'
  have e := (lookup_iff' (by decide) _ _).2 hn
  rw [(lookup_iff' (by decide) _ _).2 hn'] at e
  cases e
  exact forms_fun hf hf'

private theorem pair_fun {c d : Char} {x y : ℚ} (h : HexPair c d x) (h' : HexPair c d y) : x = y := by
  obtain ⟨m, n, h1, h2, rfl⟩ := (pair_iff ..).1 h
  obtain ⟨m', n', h1', h2', rfl⟩ := (pair_iff ..).1 h'
  rw [h1] at h1'; rw [h2] at h2'; cases h1'; cases h2'; rfl

/-- C93: no text stands for two colors. -/
theorem C93_one_meaning {hash : Nat → Option String} {t : Tok} {w w' : ColorValue} (h : ColorText hash t w)
    (h' : ColorText hash t w') : w = w' := by
  have word : ∀ s w, ColorText hash (.ident s) w →
      (s = "transparent" ∧ w = ⟨.srgb, some 0, some 0, some 0, some 0⟩) ∨
      (s = "currentcolor" ∧ w = ⟨.unsupported, none, none, none, none⟩) ∨
      ∃ r g b, (s, r, g, b) ∈ namedColors ∧ w = ⟨.srgb, some (r / 255), some (g / 255), some (b / 255), some 1⟩ := by
    intro s w h
    rcases h with _ | _ | h
    · exact .inl ⟨rfl, rfl⟩
    · exact .inr (.inl ⟨rfl, rfl⟩)
    · exact .inr (.inr ⟨_, _, _, named_mem.2 ⟨_, h, rfl, rfl, rfl⟩, rfl⟩)
  have words : ∀ s w w', ColorText hash (.ident s) w → ColorText hash (.ident s) w' → w = w' := by
    intro s w w' h h'
    rcases word _ _ h with ⟨rfl, rfl⟩ | ⟨rfl, rfl⟩ | ⟨r, g, b, hm, rfl⟩ <;>
      rcases word _ _ h' with ⟨e, rfl⟩ | ⟨e, rfl⟩ | ⟨r', g', b', hm', rfl⟩
    · rfl
    · exact absurd e (by decide)
    · exact absurd rfl (named_special _ hm').1
    · exact absurd e (by decide)
    · rfl
    · exact absurd rfl (named_special _ hm').2
    · exact absurd e (named_special _ hm).1
    · exact absurd e (named_special _ hm).2
    · have e := (lookup_iff' named_nodup _ _).2 hm
      rw [(lookup_iff' named_nodup _ _).2 hm'] at e
      cases e; rfl
  cases h with
  | transparent => exact words _ _ _ .transparent h'
  | current => exact words _ _ _ .current h'
  | named h => exact words _ _ _ (.named h) h'
  | hex hs h =>
    cases h' with
    | hex hs' h' =>
      rw [hs] at hs'; cases hs'
      generalize String.toList _ = cs at h h'
      cases h with
      | six h1 h2 h3 =>
        cases h' with | six g1 g2 g3 => rw [pair_fun h1 g1, pair_fun h2 g2, pair_fun h3 g3]
      | eight h1 h2 h3 h4 =>
        cases h' with | eight g1 g2 g3 g4 => rw [pair_fun h1 g1, pair_fun h2 g2, pair_fun h3 g3, pair_fun h4 g4]
      | three h1 h2 h3 =>
        cases h' with | three g1 g2 g3 => rw [pair_fun h1 g1, pair_fun h2 g2, pair_fun h3 g3]
      | four h1 h2 h3 h4 =>
        cases h' with | four g1 g2 g3 g4 => rw [pair_fun h1 g1, pair_fun h2 g2, pair_fun h3 g3, pair_fun h4 g4]
  | function h =>
    cases h' with
    | function h' => exact function_fun h h'

/-! ## What is accepted, and what it stands for -/

private theorem rgb_space {name : String} {args : List Tok} {w : ColorValue} (h : FunctionText name args w)
    (hn : name = "rgb" ∨ name = "rgba") : w.space = .srgb := by
  obtain ⟨n, hm, hf⟩ := forms_of h
  have e : (name, 0) ∈ names := by rcases hn with rfl | rfl <;> simp [names]
  have e := (lookup_iff' (by decide) _ _).2 e
  rw [(lookup_iff' (by decide) _ _).2 hm] at e
  cases e
  cases hf <;> rfl

private theorem made_some (w : ColorValue) : (∃ k, made w = some k) ↔ w.space ≠ .unsupported := by
  rcases w with ⟨sp, x, y, z, al⟩
  cases sp <;> simp [made, fromSpace, fromHsl, fromHwb, fromLab, fromLch, fromOklab, fromOklch]

/-- C93: exactly the texts of CSS are accepted, except `currentcolor` and the color spaces that are not supported. -/
theorem C93_accepted (hash : Nat → Option String) (t : Tok) :
    (∃ k, colorTok hash t = some k) ↔ ∃ w, ColorText hash t w ∧ w.space ≠ .unsupported := by
  have key : ∀ w, ColorText hash t w → ((∃ k, madeOf t w = some k) ↔ w.space ≠ .unsupported) := by
    intro w h
    cases h with
    | function h =>
      simp only [madeOf, madeBy]
      split
      · rename_i hn
        rw [rgb_space h hn]
        simp [madeRgb, fromRgba]
      · exact made_some w
    | _ => simpa only [madeOf] using made_some _
  constructor
  · rintro ⟨k, h⟩
    obtain ⟨w, hw, hk⟩ := (color_exact _ _ _).1 h
    exact ⟨w, hw, (key w hw).1 ⟨k, hk⟩⟩
  · rintro ⟨w, hw, hs⟩
    obtain ⟨k, hk⟩ := (key w hw).2 hs
    exact ⟨k, (color_exact _ _ _).2 ⟨w, hw, hk⟩⟩

/-- The color made of a text -/
private theorem color_made {hash : Nat → Option String} {t : Tok} {w : ColorValue} {k : Color} (h : ColorText hash t w)
    (hk : colorTok hash t = some k) : madeOf t w = some k := by
  obtain ⟨w', hw, hk⟩ := (color_exact _ _ _).1 hk
  rwa [C93_one_meaning h hw]

/-- A part of one, or missing -/
private def InUnit (o : Option ℚ) : Prop := ∀ q, o = some q → 0 ≤ q ∧ q ≤ 1

private theorem inUnit_missing {α : Type} {R : Tok → ℚ → Prop} {f : Tok → Option α} {F : α → ℚ}
    (h : ∀ t q, R t q ↔ ∃ v, f t = some v ∧ q = F v) (hF : ∀ v, 0 ≤ F v ∧ F v ≤ 1) {t : Tok} {x : Option ℚ}
    (hx : OrMissing R t x) : InUnit x := by
  rintro q rfl
  rcases hx with _ | hx
  obtain ⟨v, _, rfl⟩ := (h _ _).1 hx
  exact hF v

private theorem rgbPart_range (v : NumPct) : 0 ≤ rgbPart v ∧ rgbPart v ≤ 1 := by
  cases v <;> exact unit_range _

private theorem slash_range {us : List Tok} {al : Option ℚ} (h : SlashAlpha us al) : InUnit al := by
  rcases h with _ | h
  · rintro q ⟨⟩; norm_num
  · exact inUnit_missing alpha_iff (fun v => unit_range _) h

private theorem comma_range {us : List Tok} {al : ℚ} (h : CommaAlpha us al) : 0 ≤ al ∧ al ≤ 1 := by
  rcases h with _ | h
  · norm_num
  · obtain ⟨v, _, rfl⟩ := (alpha_iff _ _).1 h
    exact unit_range _

/-- The components of `rgb()` are parts of one. -/
private theorem rgb_range {name : String} {args : List Tok} {w : ColorValue} (h : FunctionText name args w)
    (hn : name = "rgb" ∨ name = "rgba") : InUnit w.x ∧ InUnit w.y ∧ InUnit w.z := by
  obtain ⟨n, hm, hf⟩ := forms_of h
  have e : (name, 0) ∈ names := by rcases hn with rfl | rfl <;> simp [names]
  have e := (lookup_iff' (by decide) _ _).2 e
  rw [(lookup_iff' (by decide) _ _).2 hm] at e
  cases e
  clear h
  have num : ∀ t q, RgbNumber t q → InUnit (some q) := by
    rintro t q h _ ⟨⟩
    obtain ⟨v, _, rfl⟩ := (rgbNumber_iff _ _).1 h
    exact unit_range _
  have pct : ∀ t q, Percent t q → InUnit (some q) := by
    rintro t q h _ ⟨⟩
    obtain ⟨v, _, rfl⟩ := (percent_iff _ _).1 h
    exact unit_range _
  cases hf with
  | rgb h =>
    rcases h with ⟨h1, h2, h3, h4⟩
    exact ⟨inUnit_missing rgbComponent_iff rgbPart_range h1, inUnit_missing rgbComponent_iff rgbPart_range h2,
      inUnit_missing rgbComponent_iff rgbPart_range h3⟩
  | rgbNumbers h => rcases h with ⟨h1, h2, h3, h4⟩; exact ⟨num _ _ h1, num _ _ h2, num _ _ h3⟩
  | rgbPercentages h => rcases h with ⟨h1, h2, h3, h4⟩; exact ⟨pct _ _ h1, pct _ _ h2, pct _ _ h3⟩

private theorem step_near {o : Option ℚ} (h : InUnit o) : |(o.map stepOf).getD 0 / 255 - o.getD 0| ≤ 1 / 510 := by
  cases o with
  | none => norm_num
  | some q =>
    have h0 := (h q rfl).1
    have := round_near (q := 255 * q) (by linarith)
    simp only [Option.map_some, Option.getD_some, stepOf]
    rw [abs_le] at this ⊢
    constructor <;> linarith

/-- C93 (partial: not for `lab()`, `lch()`, and not for the alpha `none`): the color on the screen is the one that is
written; the components of `rgb()` are rounded to 255 steps. -/
theorem C93_shown_partial {hash : Nat → Option String} {t : Tok} {w : ColorValue} {k : Color} (h : ColorText hash t w)
    (hk : colorTok hash t = some k) (h1 : w.space ≠ .lab) (h2 : w.space ≠ .lch) (ha : w.alpha ≠ none ∨ InRgb t) :
    ShownAs (InRgb t) (standsFor k) w.shown := by
  have hm := color_made h hk
  have key : made w = some k → w.alpha ≠ none → ShownAs (InRgb t) (standsFor k) w.shown := by
    intro hm ha
    rcases w with ⟨sp, x, y, z, al⟩
    obtain ⟨a, rfl⟩ := Option.ne_none_iff_exists'.1 ha
    cases sp <;> simp only [made, fromSpace, fromHsl, fromHwb, fromOklab, fromOklch, Option.some.injEq, reduceCtorEq] at hm
    all_goals first | (subst hm; exact ⟨rfl, .inl rfl, .inl rfl, .inl rfl, rfl⟩) | (exact absurd rfl h1) | (exact absurd rfl h2)
  cases t with
  | func name args =>
    cases h with
    | function h =>
      simp only [madeOf, madeBy] at hm
      split at hm
      · rename_i hn
        have hs := rgb_space h hn
        obtain ⟨r1, r2, r3⟩ := rgb_range h hn
        simp only [madeRgb, fromRgba, Option.some.injEq] at hm
        subst hm
        exact ⟨hs.symm, .inr ⟨hn, step_near r1⟩, .inr ⟨hn, step_near r2⟩, .inr ⟨hn, step_near r3⟩, rfl⟩
      · rename_i hn
        exact key hm (ha.resolve_right hn)
  | _ => exact key hm (ha.resolve_right (fun h => h))

/-- C93: bytes are exact. -/
theorem C93_bytes (hash : Nat → Option String) (r g b : ℕ) (hr : r ≤ 255) (hg : g ≤ 255) (hb : b ≤ 255) :
    colorTok hash (.func "rgb" [.number r, .comma, .number g, .comma, .number b]) =
        some (.srgba (r / 255) (g / 255) (b / 255) 1) ∧
      colorTok hash (.func "rgb" [.number r, .number g, .number b]) =
        some (.srgba (r / 255) (g / 255) (b / 255) 1) := by
  have part : ∀ n : ℕ, n ≤ 255 → RgbNumber (.number n) (n / 255) := by
    intro n hn
    have : (n : ℚ) ≤ 255 := by exact_mod_cast hn
    exact .mk (.within (by positivity) (by linarith))
  have step : ∀ n : ℕ, stepOf ((n : ℚ) / 255) = n := by
    intro n
    have e : 255 * ((n : ℚ) / 255) = n := by ring
    rw [stepOf, e, round_nonneg (by positivity)]
    have : ⌊(n : ℚ) + 1 / 2⌋ = n := by
      rw [Int.floor_eq_iff]; push_cast; constructor <;> linarith
    rw [this]; simp
  constructor
  · refine (color_exact _ _ _).2 ⟨_, .function (.rgbNumbers (.inl rfl) (.mk (part r hr) (part g hg) (part b hb) .absent)), ?_⟩
    simp [madeOf, madeBy, madeRgb, fromRgba, step]
  · refine (color_exact _ _ _).2 ⟨_, .function (.rgb (.inl rfl) (.mk (.given (.number (part r hr)))
      (.given (.number (part g hg))) (.given (.number (part b hb))) .absent)), ?_⟩
    simp [madeOf, madeBy, madeRgb, fromRgba, step]

/-- C93: what `lab()` gives: one and a half times the lightness, and 6/5 of the other components. -/
theorem C93_lab {hash : Nat → Option String} {t : Tok} {w : ColorValue} {k : Color} (h : ColorText hash t w)
    (hk : colorTok hash t = some k) (hs : w.space = .lab) :
    (standsFor k).space = .lab ∧ (standsFor k).x = 3 / 2 * w.shown.x ∧ (standsFor k).y = 6 / 5 * w.shown.y ∧
      (standsFor k).z = 6 / 5 * w.shown.z := by
  have hm := color_made h hk
  have hm : made w = some k := by
    cases h with
    | function h =>
      simp only [madeOf, madeBy] at hm
      split at hm
      · rename_i hn; rw [rgb_space h hn] at hs; cases hs
      · exact hm
    | _ => exact hm
  simp only [made, hs, fromLab, Option.some.injEq] at hm
  subst hm
  simp only [standsFor, ColorValue.shown, remap, comp, true_and]
  refine ⟨?_, ?_, ?_⟩ <;> ring

/-- C93: what `lch()` gives: one and a half times the lightness. -/
theorem C93_lch {hash : Nat → Option String} {t : Tok} {w : ColorValue} {k : Color} (h : ColorText hash t w)
    (hk : colorTok hash t = some k) (hs : w.space = .lch) :
    (standsFor k).space = .lch ∧ (standsFor k).x = 3 / 2 * w.shown.x ∧ (standsFor k).y = w.shown.y ∧
      (standsFor k).z = w.shown.z := by
  have hm := color_made h hk
  have hm : made w = some k := by
    cases h with
    | function h =>
      simp only [madeOf, madeBy] at hm
      split at hm
      · rename_i hn; rw [rgb_space h hn] at hs; cases hs
      · exact hm
    | _ => exact hm
  simp only [made, hs, fromLch, Option.some.injEq] at hm
  subst hm
  simp only [standsFor, ColorValue.shown, remap, comp, true_and, and_true]
  refine ⟨?_, ?_⟩ <;> ring

/-- C93 is false for `lab()`: `lab(100% 0 0)` is white in CSS; the color of bevy has the lightness 150. -/
theorem C93_lab_false (hash : Nat → Option String) : ∃ t w k, ColorText hash t w ∧ colorTok hash t = some k ∧
    w.shown = ⟨.lab, 100, 0, 0, 1⟩ ∧ standsFor k = ⟨.lab, 150, 0, 0, 1⟩ := by
  have h : ColorText hash (.func "lab" [.percentage 100, .number 0, .number 0]) _ :=
    .function (.lab (.mk (.given (.percentage 100)) (.given (.number 0)) (.given (.number 0)) .absent))
  refine ⟨_, _, _, h, (color_exact _ _ _).2 ⟨_, h, rfl⟩, ?_, ?_⟩
  · norm_num [ColorValue.shown]
  · norm_num [standsFor, remap, comp, alphaOr]

/-- C93 is false for the alpha `none`: it counts as 0 in CSS, and `hsl(0 0% 0% / none)` is opaque here; `rgb()` is not. -/
theorem C93_alpha_false (hash : Nat → Option String) :
    (∃ t w k, ColorText hash t w ∧ colorTok hash t = some k ∧ w.shown.alpha = 0 ∧ standsFor k = ⟨.hsl, 0, 0, 0, 1⟩) ∧
    (∃ t w k, ColorText hash t w ∧ colorTok hash t = some k ∧ w.shown.alpha = 0 ∧ standsFor k = ⟨.srgb, 0, 0, 0, 0⟩) := by
  have h : ColorText hash (.func "hsl" [.ident "none", .ident "none", .ident "none", .delim '/', .ident "none"]) _ :=
    .function (.hsl (.inl rfl) (.mk .missing .missing .missing (.present .missing)))
  have h' : ColorText hash (.func "rgb" [.ident "none", .ident "none", .ident "none", .delim '/', .ident "none"]) _ :=
    .function (.rgb (.inl rfl) (.mk .missing .missing .missing (.present .missing)))
  refine ⟨⟨_, _, _, h, (color_exact _ _ _).2 ⟨_, h, rfl⟩, rfl, rfl⟩, ⟨_, _, .srgba 0 0 0 0, h', (color_exact _ _ _).2 ⟨_, h', ?_⟩, rfl, rfl⟩⟩
  simp [madeOf, madeBy, madeRgb, fromRgba]

private theorem hex_le {c d : Char} {x : ℚ} (h : HexPair c d x) : 0 ≤ x ∧ x ≤ 1 := by
  rcases h with @⟨m, n, h1, h2⟩
  have le : ∀ c n, HexIs c n → n ≤ 15 := by
    rintro c n (h | h)
    · have := (List.of_mem_zip h).2; simp at this; omega
    · have := (List.of_mem_zip h).2; simp at this; omega
  have a1 := le _ _ h1
  have a2 := le _ _ h2
  refine ⟨by positivity, ?_⟩
  rw [div_le_one (by norm_num)]
  have : 16 * m + n ≤ 255 := by omega
  exact_mod_cast this

private theorem alpha_range {hash : Nat → Option String} {t : Tok} {w : ColorValue} (h : ColorText hash t w) :
    InUnit w.alpha := by
  have one : InUnit (some 1) := by rintro q ⟨⟩; norm_num
  cases h with
  | transparent => rintro q ⟨⟩; norm_num
  | current => rintro q ⟨⟩
  | named => exact one
  | hex _ h =>
    generalize String.toList _ = cs at h
    rcases h with _ | ⟨_, _, _, h⟩ | _ | ⟨_, _, _, h⟩
    · exact one
    · rintro q ⟨⟩; exact hex_le h
    · exact one
    · rintro q ⟨⟩; exact hex_le h
  | function h =>
    obtain ⟨n, _, hf⟩ := forms_of h
    clear h
    have com : ∀ A B C ts x y z al, Components A B C ts x y z al → InUnit al := by
      rintro A B C ts x y z al ⟨_, _, _, h⟩; exact slash_range h
    have com' : ∀ A B C ts x y z al, CommaComponents A B C ts x y z al → InUnit (some al) := by
      rintro A B C ts x y z al ⟨_, _, _, h⟩ q ⟨⟩; exact comma_range h
    cases hf with
    | rgb h | hsl h | hwb h | lab h | lch h | oklab h | oklch h => exact com _ _ _ _ _ _ _ _ h
    | color _ h => exact com _ _ _ _ _ _ _ _ h
    | rgbNumbers h | rgbPercentages h | hslCommas h => exact com' _ _ _ _ _ _ _ _ h

/-- C93: the alpha of every color is between 0 and 1. -/
theorem C93_alpha {hash : Nat → Option String} {t : Tok} {k : Color} (hk : colorTok hash t = some k) :
    0 ≤ (standsFor k).alpha ∧ (standsFor k).alpha ≤ 1 := by
  obtain ⟨w, h, hm⟩ := (color_exact _ _ _).1 hk
  have ha := alpha_range h
  have key : made w = some k → 0 ≤ (standsFor k).alpha ∧ (standsFor k).alpha ≤ 1 := by
    intro hm
    rcases w with ⟨sp, x, y, z, al⟩
    have : 0 ≤ alphaOr al ∧ alphaOr al ≤ 1 := by
      cases al with
      | none => norm_num [alphaOr]
      | some a => exact ha a rfl
    cases sp <;>
      simp only [made, fromSpace, fromHsl, fromHwb, fromOklab, fromOklch, fromLab, fromLch, Option.some.injEq,
        reduceCtorEq] at hm <;> (subst hm; exact this)
  cases t with
  | func name args =>
    simp only [madeOf, madeBy] at hm
    split at hm
    · simp only [madeRgb, fromRgba, Option.some.injEq] at hm
      subst hm
      cases e : w.alpha with
      | none => norm_num [standsFor, e]
      | some a => simpa [standsFor, e] using ha a e
    · exact key hm
  | _ => exact key hm

set_option maxRecDepth 100000 in
/-- Some texts: `#F80`, `orange`, `rgb(100%, 64.7%, 0%, .5)`, `color(display-p3 1 0 0)`, `color(srgb 1 50% 0)`,
`hsl(-0.25turn 150% 50%)` -/
example : colorTok (fun _ => some "F80") (.other 3) = some (.srgba 1 (136 / 255) 0 1) ∧
    colorTok (fun _ => none) (.ident "orange") = some (.srgba 1 (165 / 255) 0 1) ∧
    colorTok (fun _ => none) (.func "rgb" [.percentage 100, .comma, .percentage (647 / 10), .comma, .percentage 0, .comma,
      .number (1 / 2)]) = some (.srgba 1 (165 / 255) 0 (1 / 2)) ∧
    colorTok (fun _ => none) (.func "color" [.ident "display-p3", .number 1, .number 0, .number 0]) = none ∧
    colorTok (fun _ => none) (.func "color" [.ident "srgb", .number 1, .percentage 50, .number 0]) =
      some (.srgba 1 (1 / 2) 0 1) ∧
    colorTok (fun _ => none) (.func "hsl" [.dimension (-1 / 4) "turn", .percentage 150, .percentage 50]) =
      some (.hsla 270 1 (1 / 2) 1) := by
  refine ⟨?_, ?_, ?_, ?_, ?_, ?_⟩ <;> decide +kernel

/-! ## Colors in the other values -/

/-- What a color looks like -/
private theorem color_plain {hash : Nat → Option String} {t : Tok} {k : Color} (h : colorTok hash t = some k) :
    (∃ n, t = .other n) ∨ (∃ s, t = .ident s ∧ (s = "transparent" ∨ s ∈ namedColors.map (·.1))) ∨
      ∃ name args, t = .func name args ∧ name ≠ "calc" := by
  obtain ⟨w, h, _⟩ := (color_exact _ _ _).1 h
  cases h with
  | transparent => exact .inr (.inl ⟨_, rfl, .inl rfl⟩)
  | current => rename_i hm; cases hm
  | @named s n hn => exact .inr (.inl ⟨s, rfl, .inr (List.mem_map.2 ⟨_, named_mem.2 ⟨_, hn, rfl, rfl, rfl⟩, rfl⟩)⟩)
  | hex => exact .inl ⟨_, rfl⟩
  | function h =>
    refine .inr (.inr ⟨_, _, rfl, ?_⟩)
    rintro rfl
    obtain ⟨n, hn, _⟩ := forms_of h
    simp [names] at hn

private theorem color_err {T : Type} (value : Tok → Option T) (o : Ops T) (hf : ∀ name ts, value (.func name ts) = none)
    (ho : ∀ n, value (.other n) = none)
    (hi : ∀ s, s = "transparent" ∨ s ∈ namedColors.map (·.1) → value (.ident s) = none)
    {hash : Nat → Option String} {t : Tok} {k : Color} (h : colorTok hash t = some k) : calcP value o [t] = .err := by
  rcases color_plain h with ⟨n, rfl⟩ | ⟨s, rfl, hs⟩ | ⟨name, args, rfl, hn⟩
  · rw [calcP_plain value o ⟨by simp, by simp⟩ hf, ho]
  · rw [calcP_plain value o ⟨by simp, by simp⟩ hf, hi s hs]
  · rw [calcP_plain value o ⟨by simpa using hn, by simp⟩ hf, hf]

set_option maxRecDepth 100000 in
private theorem named_words : ∀ p ∈ namedColors, p.1 ≠ "unset" ∧ p.1 ≠ "inherit" ∧ p.1 ≠ "initial" ∧
    p.1 ∉ gradientWords := by decide +kernel

set_option maxRecDepth 100000 in
private theorem named_styles : ∀ p ∈ namedColors, p.1 ∉ knownStyles := by decide +kernel

private theorem word_none {hash : Nat → Option String} {s : String} (h1 : s ≠ "transparent")
    (h2 : ∀ p ∈ namedColors, p.1 ≠ s) : colorTok hash (.ident s) = none := by
  cases h : colorTok hash (.ident s) with
  | none => rfl
  | some k =>
    rcases color_plain h with ⟨n, e⟩ | ⟨s', e, hs⟩ | ⟨name, args, e, _⟩
    · cases e
    · cases e
      rcases hs with hs | hs
      · exact absurd hs h1
      · obtain ⟨p, hp, rfl⟩ := List.mem_map.1 hs; exact absurd rfl (h2 p hp)
    · cases e

private theorem named_ne {s : String} (hs : s = "transparent" ∨ s ∈ namedColors.map (·.1)) :
    s ∉ gradientWords ∧ s ≠ "unset" := by
  rcases hs with rfl | hs
  · decide
  · obtain ⟨p, hp, rfl⟩ := List.mem_map.1 hs
    exact ⟨(named_words p hp).2.2.2, (named_words p hp).1⟩

private theorem not_auto {s : String} (hs : s = "transparent" ∨ s ∈ namedColors.map (·.1)) : s ≠ "auto" ∧ s ≠ "none" :=
  ⟨fun e => (named_ne hs).1 (by rw [e]; decide), fun e => (named_ne hs).1 (by rw [e]; decide)⟩

/-- C74: the colors are what C74 expects of them: its theorems about `box-shadow` and `text-shadow` hold for them. -/
theorem C74_colors (hash : Nat → Option String) : ColorToks (colorTok hash) where
  length t k h := color_err valTok valOps (fun _ _ => rfl) (fun _ => rfl)
    (fun s hs => by simp [valTok, (not_auto hs).1]) h
  number t k h := color_err f32Tok f32Ops (fun _ _ => rfl) (fun _ => rfl) (fun s hs => rfl) h
  comma := rfl
  bang := rfl
  ident s hs := by
    simp only [List.mem_cons, List.not_mem_nil, or_false] at hs
    rcases hs with rfl | rfl | rfl | rfl
    · exact word_none (by decide) fun p hp e => (named_words p hp).2.2.2 (by rw [e]; decide)
    · exact word_none (by decide) fun p hp e => (named_words p hp).1 e
    · exact word_none (by decide) fun p hp e => (named_words p hp).2.1 e
    · exact word_none (by decide) fun p hp e => (named_words p hp).2.2.1 e

/-- C77: the colors are what C77 expects of them: its theorems about gradients hold for them. -/
theorem C77_colors (hash : Nat → Option String) : GradientColors (colorTok hash) where
  length t k h := color_err valTok valOps (fun _ _ => rfl) (fun _ => rfl)
    (fun s hs => by simp [valTok, (not_auto hs).1]) h
  angle t k h := color_err angleTok rotOps (fun _ _ => rfl) (fun _ => rfl)
    (fun s hs => by simp [angleTok, (not_auto hs).2]) h
  comma := rfl
  words s hs := word_none (by rintro rfl; revert hs; decide) fun p hp e => (named_words p hp).2.2.2 (by rw [e]; exact hs)

/-- C73: the parser of colors is what the shorthands expect of it: it reads one value that is no keyword and no style of
a border, and does not crash. -/
theorem C73_colors (hash : Nat → Option String) (wrap : Color → RV X) :
    ValueParser (colorP hash wrap) ∧ Harmless (colorP hash wrap) ∧
      ∀ s ∈ knownStyles, ∀ ts, colorP hash wrap (.ident s :: ts) = .err := by
  have key : ∀ s, colorTok hash (.ident s) = none → ∀ ts, colorP hash wrap (.ident s :: ts) = .err := fun s h ts => by
    simp [colorP, tok1, h]
  refine ⟨⟨rfl, fun ts => rfl, fun s hs ts => key s ((C74_colors hash).ident s (List.mem_cons_of_mem _ hs)) ts⟩,
    harmless_tok1 _, fun s hs ts => key s (word_none ?_ fun p hp e => named_styles p hp (by rw [e]; exact hs)) ts⟩
  rintro rfl
  revert hs
  decide

end Flair.Props
