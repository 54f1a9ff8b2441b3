import Verif.Proofs.Report
import Verif.Props.Color
/-!
# C97: reporting an error never crashes, and points at the text in error

The property is false as stated: `C97_unknown_at_rule_crashes`, `C97_end_of_text_crashes`, `C97_line_break_crashes`,
`C97_last_character_crashes`, `C97_color_crashes`, `C97_at_rule_behind`.
-/
namespace Flair.Props
open Flair.Report Flair.Spec Flair.Proofs.Report
open Flair.File (Text byteLen)

instance (c : Char) : Decidable (LineBreak c) := inferInstanceAs (Decidable (_ ∨ _))

/-- C97: for an error at a place of a line, what is reported: `len` bytes from there, if the line has so many and they
are whole characters; the last byte of the line if the place is at its end.  There is a panic in all other cases. -/
theorem C97_where {before left right after : Text} (h : InLine before left right after) (len : Nat) (r : Nat × Nat) :
    intoRange (before ++ left ++ right ++ after) (.source (locationAt (before ++ left)) len) = some r ↔
      (right = [] ∧ (∃ c, left.getLast? = some c ∧ c.utf8Size = 1) ∧
          r = (byteLen (before ++ left) - 1, byteLen (before ++ left))) ∨
        right ≠ [] ∧ (∃ q, q <+: right ∧ byteLen q = len) ∧
          r = (byteLen (before ++ left), byteLen (before ++ left) + len) := by
  obtain ⟨n, h1, h2⟩ := line_found h
  simp only [intoRange, h1, h2]
  by_cases he : left ++ right = [] ∧ after = []
  · rw [if_pos he]
    obtain ⟨rfl, rfl⟩ := List.append_eq_nil_iff.1 he.1
    simp
  · rw [if_neg he, Option.bind_some, lineRange_iff, byteLen_append]

/-- C97 (partial: for a token that is written in the report just as in the text, starts where the search for it
started, and is in one line of a text with common line ends): the report points at the token. -/
theorem C97_points_partial {before left token right after : Text} (h : InLine before left (token ++ right) after)
    (ht : token ≠ []) {written : Text} (hw : byteLen written = byteLen token) :
    ∃ a b, intoRange (before ++ left ++ (token ++ right) ++ after) (unexpectedToken (before ++ left) written) = some (a, b) ∧
      Covers (before ++ left ++ (token ++ right) ++ after) a b token :=
  ⟨byteLen (before ++ left), byteLen (before ++ left) + byteLen written,
    (C97_where h _ _).2 (.inr ⟨by simp [ht], ⟨token, List.prefix_append _ _, hw.symm⟩, rfl⟩),
    before ++ left, right ++ after, by simp, rfl, by rw [hw]⟩

private theorem exampleLine : InLine "a {\n".toList "  width:".toList "red; }".toList "\n".toList where
  lines := .cons (l := "a {".toList) (e := ['\n']) (rest := []) (by decide) (.inl rfl) .nil
  left := by decide
  right := by decide
  stop := .inr ⟨[], .inl rfl⟩

example : intoRange "a {\n  width:red; }\n".toList (unexpectedToken "a {\n  width:".toList "red".toList) =
    some (12, 15) :=
  (C97_where exampleLine 3 _).2 (.inr ⟨by decide, ⟨"red".toList, by decide, rfl⟩, rfl⟩)

/-- C97: what is reported is always a part of the text, of whole characters. -/
theorem C97_inside {contents : Text} {l : Loc} {len : Nat} {r : Nat × Nat}
    (h : intoRange contents (.source l len) = some r) : ∃ part, Covers contents r.1 r.2 part := by
  simp only [intoRange] at h
  obtain ⟨x, hx, h⟩ := Option.bind_eq_some_iff.1 h
  obtain ⟨u, v, e, hu⟩ := linesFrom_mem (List.mem_of_getElem? hx) [] rfl
  rw [lineRange] at h
  obtain ⟨off, _, h⟩ := Option.bind_eq_some_iff.1 h
  split at h
  · split at h
    · cases h
    · exact subRange_covers h e hu
  · exact subRange_covers h e hu

/-- C97: an error without a place, of a declaration of the file, is reported at the declaration. -/
theorem C97_improved {contents part : Text} {a b : Nat} (h : Covers contents a b part) :
    intoRange contents (improve a (byteLen part) .unlocated) = some (a, b) := by
  obtain ⟨x, y, e, rfl, rfl⟩ := h
  simp only [improve, intoRange]
  subst e
  rw [if_pos (by simp only [byteLen_append]; omega)]

example : Covers "a: b".toList 3 4 "b".toList := ⟨"a: ".toList, [], rfl, rfl, rfl⟩

/-! ## Crashes -/

/-- C97 is false: for an at-rule that is not known, the report starts behind its name. -/
theorem C97_at_rule_behind {before left name right after : Text} {a b : Nat}
    (h : InLine before (left ++ '@' :: name) right after)
    (hr : intoRange (before ++ (left ++ '@' :: name) ++ right ++ after) (unknownAtRule (before ++ left) name) =
      some (a, b)) (hright : right ≠ []) : ∃ q, q <+: right ∧ byteLen q = byteLen name ∧
        Covers (before ++ (left ++ '@' :: name) ++ right ++ after) a b q ∧ byteLen (before ++ left) < a := by
  have e : before ++ left ++ '@' :: name = before ++ (left ++ '@' :: name) := by simp
  rw [unknownAtRule, e] at hr
  rcases (C97_where h _ _).1 hr with ⟨h0, _⟩ | ⟨_, ⟨q, ⟨s, hq⟩, hl⟩, he⟩
  · exact absurd h0 hright
  · cases he
    refine ⟨q, ⟨s, hq⟩, hl, ⟨before ++ (left ++ '@' :: name), s ++ after, by rw [← hq]; simp, rfl, by rw [hl]⟩, ?_⟩
    simp only [byteLen_append, byteLen_cons]
    have : '@'.utf8Size = 1 := rfl
    omega

/-- C97 is false: an at-rule that is not known crashes the loader when the rest of its line is shorter than its name (but
not empty). -/
theorem C97_unknown_at_rule_crashes {before left name right after : Text}
    (h : InLine before (left ++ '@' :: name) right after) (h0 : right ≠ []) (hs : byteLen right < byteLen name) :
    intoRange (before ++ (left ++ '@' :: name) ++ right ++ after) (unknownAtRule (before ++ left) name) = none := by
  rw [Option.eq_none_iff_forall_ne_some]
  intro r hr
  have e : before ++ left ++ '@' :: name = before ++ (left ++ '@' :: name) := by simp
  rw [unknownAtRule, e] at hr
  rcases (C97_where h _ _).1 hr with ⟨h1, _⟩ | ⟨_, ⟨q, ⟨s, rfl⟩, hl⟩, _⟩
  · exact h0 h1
  · rw [byteLen_append] at hs; omega

/-- `@page {` on a line of its own -/
example : intoRange "@page {\n}\n".toList (unknownAtRule [] "page".toList) = none :=
  C97_unknown_at_rule_crashes (before := []) (left := []) (name := "page".toList) (right := " {".toList)
    (after := "\n}\n".toList) ⟨.nil, by decide, by decide, .inr ⟨_, .inl rfl⟩⟩ (by decide) (by decide)

/-- Long enough a line: the text behind the name is reported. -/
example : intoRange "@page { margin: 0 }".toList (unknownAtRule [] "page".toList) = some (5, 9) := by
  have h : InLine [] "@page".toList " { margin: 0 }".toList [] := ⟨.nil, by decide, by decide, .inl rfl⟩
  exact (C97_where h 4 _).2 (.inr ⟨by decide, ⟨" { m".toList, by decide, rfl⟩, rfl⟩)

/-- C97 is false: an error at the end of a text whose last line is ended crashes the loader. -/
theorem C97_end_of_text_crashes {contents : Text} (h : WholeLines contents) (len : Nat) :
    intoRange contents (.source (locationAt contents) len) = none := by
  rw [Option.eq_none_iff_forall_ne_some]
  intro r hr
  have hl : InLine contents [] [] [] := ⟨h, by simp, by simp, .inl rfl⟩
  have e := (C97_where hl len r).1 (by simpa using hr)
  simp at e

/-- The file `a` and a line end: a selector without a block -/
example : intoRange "a\n".toList (plainError "a\n".toList) = none :=
  C97_end_of_text_crashes (.cons (l := ['a']) (e := ['\n']) (rest := []) (by decide) (.inl rfl) .nil) 0

/-- Without the line end the error is reported. -/
example : intoRange "a".toList (plainError "a".toList) = some (0, 1) :=
  (C97_where (before := []) (left := ['a']) (right := []) (after := []) ⟨.nil, by decide, by simp, .inl rfl⟩ 0 _).2
    (.inl ⟨rfl, ⟨'a', rfl, rfl⟩, rfl⟩)

/-- C97 is false: any error behind a `\r` or a form feed crashes the loader, when the text has no `\n`. -/
theorem C97_line_break_crashes {pre rest : Text} (h : '\n' ∉ pre ++ rest) (hb : '\r' ∈ pre ∨ '\x0c' ∈ pre) (len : Nat) :
    intoRange (pre ++ rest) (.source (locationAt pre) len) = none := by
  have h1 := lines_none h 0 []
  have h2 : 0 < (locationAt pre).line := advance_break (l := ⟨0, 1⟩) (by
    rcases hb with hb | hb
    · exact ⟨_, hb, .inr (.inl rfl)⟩
    · exact ⟨_, hb, .inr (.inr rfl)⟩)
  simp only [intoRange]
  rw [List.getElem?_eq_none (by rw [lines]; omega)]
  rfl

example : intoRange "a {\rwidth:red; }".toList (unexpectedToken "a {\rwidth:".toList "red".toList) = none :=
  C97_line_break_crashes (pre := "a {\rwidth:".toList) (rest := "red; }".toList) (by decide) (.inl (by decide)) 3

/-- C97 is false: an error at the end of a line whose last character takes several bytes crashes the loader. -/
theorem C97_last_character_crashes {before left after : Text} {c : Char} (h : InLine before (left ++ [c]) [] after)
    (hc : c.utf8Size ≠ 1) (len : Nat) :
    intoRange (before ++ (left ++ [c]) ++ after) (.source (locationAt (before ++ (left ++ [c]))) len) = none := by
  rw [Option.eq_none_iff_forall_ne_some]
  intro r hr
  have e := (C97_where h len r).1 (by simpa using hr)
  rcases e with ⟨_, ⟨d, hd, h1⟩, _⟩ | ⟨h0, _⟩
  · simp at hd; subst hd; exact hc h1
  · exact h0 rfl

example : intoRange "é".toList (plainError "é".toList) = none :=
  C97_last_character_crashes (before := []) (left := []) (c := 'é') (after := [])
    ⟨.nil, by decide, by simp, .inl rfl⟩ (by decide) 0

/-! ## Values that have variables -/

private theorem nested_exact {α : Type} {p : Flair.Shorthand.P α} {args : List Flair.Shorthand.Tok} {a : α} :
    Flair.Shorthand.nested p args = .ok a ↔ p args = .ok (a, []) := by
  unfold Flair.Shorthand.nested
  rcases p args with ⟨x, y⟩ | _ | _
  · cases y <;> simp [Flair.Calc.Res.bind]
  · simp [Flair.Calc.Res.bind]
  · simp [Flair.Calc.Res.bind]

private theorem error_iff (hash : Nat → Option String) (t : Flair.Shorthand.Tok) :
    colorError t = true ↔ ∃ w, ColorText hash t w ∧ w.space = .unsupported := by
  constructor
  · intro h
    cases t with
    | ident s =>
      simp only [colorError, beq_iff_eq] at h
      subst h
      exact ⟨_, .current, rfl⟩
    | func name args =>
      simp only [colorError] at h
      split at h
      · rename_i e
        obtain ⟨w, hw, hk⟩ := (Flair.Proofs.Color.function_iff _ _ _).1 (nested_exact.1 e)
        refine ⟨w, .function hw, ?_⟩
        unfold Flair.Proofs.Color.madeBy at hk
        split at hk
        · cases hk
        · rcases w with ⟨sp, x, y, z, al⟩
          cases sp <;> first | rfl | cases hk
      · cases h
    | _ => cases h
  · rintro ⟨w, h, hs⟩
    cases h with
    | transparent => cases hs
    | current => rfl
    | named => cases hs
    | @hex n s w _ hx =>
      generalize s.toList = cs at hx
      cases hx <;> cases hs
    | @function name args w hf =>
      have : Flair.Proofs.Color.madeBy name w = none := by
        cases hf <;> first | (cases hs; done) | skip
        dsimp only at hs
        subst hs
        rfl
      have := nested_exact.2 ((Flair.Proofs.Color.function_iff _ _ none).2 ⟨w, hf, this.symm⟩)
      simp [colorError, this]

/-- C97 is false: when a variable gives a color of CSS that is not supported (`currentcolor`, `color(display-p3 …)`), the
application crashes; with a text that is no color at all (and an error that can be reported) it does not. -/
theorem C97_color_crashes (hash : Nat → Option String) (contents : Text) (e : Place) (t : Flair.Shorthand.Tok)
    (he : (intoRange contents e).isSome) :
    lateValue contents (colorResult hash e t) = none ↔ ∃ w, ColorText hash t w ∧ w.space = .unsupported := by
  rw [← error_iff]
  unfold colorResult
  cases hc : Flair.Colors.colorTok hash t with
  | some k =>
    simp only [lateValue, reduceCtorEq, false_iff]
    intro h
    obtain ⟨w, hw, hs⟩ := (error_iff hash t).1 h
    obtain ⟨w', hw', hs'⟩ := (C93_accepted hash t).1 ⟨k, hc⟩
    rw [C93_one_meaning hw hw'] at hs
    exact hs' hs
  | none =>
    cases ht : colorError t with
    | true => simp [lateValue, intoRange]
    | false =>
      obtain ⟨r, hr⟩ := Option.isSome_iff_exists.1 he
      simp [lateValue, hr]

/-- `color: var(--c)` with `--c: currentcolor` -/
example (hash : Nat → Option String) :
    lateValue "currentcolor".toList (colorResult hash (.range 0 12) (.ident "currentcolor")) = none :=
  (C97_color_crashes hash _ _ _ rfl).2 ⟨_, .current, rfl⟩

/-- C97: a value that has variables and is no value crashes exactly when its error cannot be reported. -/
theorem C97_late {V : Type} (contents : Text) (p : Place) :
    lateValue (V := V) contents (.inr p) = none ↔ intoRange contents p = none := by
  simp [lateValue]

example : lateValue (V := Nat) "1px".toList (.inr .unlocated) = none := (C97_late _ _).2 rfl

end Flair.Props
