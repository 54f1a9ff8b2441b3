import Verif.Proofs.VarStrict2
import Verif.Spec.VarDecl
/-!
# C89: A declaration with variables means the declaration with the values in place
-/
namespace Flair.Props
open Flair.Shorthand Flair.Longhand Flair.Spec Flair.VarDecl Flair.Proofs.VarDecl Flair.Proofs.Parse
open Flair.Calc (Res)
open Flair.Values

variable {α X K : Type}

private theorem direct_end {direct : P α} {ts : List Tok} {v : α} {i : Bool}
    (h : entirely (do let v ← direct; let i ← important; pure (v, i)) ts = .ok (v, i)) : direct ts = .ok (v, declEnd i) := by
  have := entirely_ok h
  simp only [bind_ok_iff, pure_ok_iff] at this
  obtain ⟨v', ts', hv, i', ts'', hi, he, rfl⟩ := this
  cases he
  obtain rfl := important_nil hi
  exact hv

private theorem end_plain (i : Bool) : ∀ t ∈ declEnd i, ¬ UsesVar t := by
  intro t ht
  cases i
  · cases ht
  · simp only [declEnd, List.mem_cons, List.not_mem_nil, or_false] at ht
    rcases ht with rfl | rfl <;> exact simple_plain (fun _ _ => by simp) fun _ => by simp

/-- A declaration whose text is read when the style sheet is loaded has no variables; and the other way round. -/
theorem C89_static {carried : Nat → Bool} {direct : P α} (hd : TakesNoVariable direct) {ts : List Tok} {a : α} {imp : Bool} :
    declare carried direct ts = .ok (.value a imp) ↔ direct ts = .ok (a, declEnd imp) ∧ ∀ t ∈ ts, ¬ UsesVar t := by
  constructor
  · intro h
    unfold declare at h
    split at h
    · rename_i v i hv
      cases h
      have := direct_end hv
      refine ⟨this, ?_⟩
      obtain ⟨us, rfl, hu⟩ := hd _ _ _ this
      intro t ht
      rcases List.mem_append.1 ht with ht | ht
      · exact hu t ht
      · exact end_plain _ t ht
    · split at h
      · obtain ⟨r, _, h⟩ := Flair.Proofs.AnimParse.bind_ok.1 h
        cases h
      · cases h
    · cases h
  · rintro ⟨h, _⟩
    unfold declare
    have : entirely (do let v ← direct; let i ← important; pure (v, i)) ts = .ok (a, imp) := by
      refine entirely_of ?_
      simp [bind_run, pure_run, h, Res.bind, important_end]
    rw [this]

/-- A declaration with variables whose direct reading does not crash has exactly the values of the texts with the
variables replaced. -/
theorem C89_exact_partial {carried : Nat → Bool} {texts : String → Option (List Tok)} {direct late : P α} {ts : List Tok}
    (hd : TakesNoVariable direct) (huse : ∃ t ∈ ts, UsesVar t) (hcrash : declare carried direct ts ≠ .panic) {a : α}
    {imp : Bool} :
    (∃ d, declare carried direct ts = .ok d ∧ d.isImportant = imp ∧ evaluate late (environment carried texts) d = .ok a) ↔
      ∃ us us', ts = us ++ declEnd imp ∧ Replaced carried texts 7 us us' ∧ late us' = .ok (a, []) := by
  have hdyn : declare carried direct ts = (consume carried ts).bind fun r => .ok (.dynamic r.1 r.2) := by
    unfold declare at hcrash ⊢
    split
    · rename_i v i hv
      exfalso
      obtain ⟨t, ht, hu⟩ := huse
      obtain ⟨us, rfl, hus⟩ := hd _ _ _ (direct_end hv)
      rcases List.mem_append.1 ht with ht | ht
      · exact hus t ht hu
      · exact end_plain _ t ht hu
    · rw [if_pos (Flair.Proofs.AnimParse.uses_iff.2 huse)]
    · rename_i h
      rw [h] at hcrash
      exact absurd rfl hcrash
  constructor
  · rintro ⟨d, h, rfl, he⟩
    rw [hdyn] at h
    obtain ⟨⟨v, i⟩, hc, h⟩ := Flair.Proofs.AnimParse.bind_ok.1 h
    cases h
    obtain ⟨us, rfl, hf⟩ := consume_iff.1 hc
    simp only [evaluate] at he
    split at he
    · rename_i out hr
      obtain ⟨us', hrep, rfl⟩ := (replaced_iff hf).1 hr
      rw [build_all] at he
      exact ⟨us, us', rfl, hrep, entirely_ok he⟩
    · cases he
  · rintro ⟨us, us', rfl, hrep, hl⟩
    obtain ⟨v, hf, hr⟩ := replaced_forward hrep
    refine ⟨.dynamic v imp, ?_, rfl, ?_⟩
    · rw [hdyn, consume_iff.2 ⟨us, rfl, hf⟩]
      rfl
    · have := (replaced_iff (texts := texts) hf).2 ⟨us', hrep, rfl⟩
      simp only [evaluate, this, build_all]
      exact entirely_of hl

private theorem nv_longhand {color : Tok → Option K} (hc : TakesNoVariable (tok1 color)) {p : P (RV (LV K))}
    (hp : LonghandParser color p) : TakesNoVariable p := by
  have hc' : Plainly color := by
    intro t a h hu
    obtain ⟨us, h1, h2⟩ := hc [t] a [] (by simp [tok1, h])
    rw [List.append_nil] at h1
    subst h1
    exact h2 t (by simp) hu
  cases hp with
  | length => exact nv_bind nv_calcVal fun _ => nv_pure _
  | float => exact nv_bind nv_calcF32 fun _ => nv_pure _
  | enum names => exact nv_tok1 (plain_enum names)
  | color => exact nv_bind hc fun _ => nv_pure _
  | vec2 => exact nv_vec2P
  | val2 => exact nv_val2P
  | rect => exact nv_rectP
  | clip boxes => exact nv_clipMarginP boxes
  | ratio => exact nv_aspectRatioP
  | zIndex => exact nv_zIndexP
  | boxShadow => exact nv_boxShadowP hc'
  | lineHeight => exact nv_lineHeightP
  | textShadow => exact nv_textShadowP hc'
  | imageMode => exact nv_imageModeP
  | tracks => exact nv_tracksP
  | repeated => exact nv_repeatedP
  | placement => exact nv_placementP

/-- Longhands: the value is the one of the text with the variables replaced. -/
theorem C89_longhand_partial {carried : Nat → Bool} {texts : String → Option (List Tok)} {color : Tok → Option K}
    (hc : TakesNoVariable (tok1 color)) {p : P (RV (LV K))} (hp : LonghandParser color p) {ts : List Tok}
    (huse : ∃ t ∈ ts, UsesVar t) (hcrash : declare carried (propValue p) ts ≠ .panic) {a : PropertyValue (RV (LV K))}
    {imp : Bool} :
    (∃ d, declare carried (propValue p) ts = .ok d ∧ d.isImportant = imp ∧
        evaluate (propValue p) (environment carried texts) d = .ok a) ↔
      ∃ us us', ts = us ++ declEnd imp ∧ Replaced carried texts 7 us us' ∧ propValue p us' = .ok (a, []) :=
  C89_exact_partial (nv_propValue (nv_longhand hc hp)) huse hcrash

private theorem replaced_unique {carried : Nat → Bool} {texts : String → Option (List Tok)} {ts us us' : List Tok}
    (h : Replaced carried texts 7 ts us) (h' : Replaced carried texts 7 ts us') : us = us' := by
  obtain ⟨v, hf, hr⟩ := replaced_forward h
  obtain ⟨v', hf', hr'⟩ := replaced_forward h'
  rw [hf] at hf'
  cases hf'
  have := (hr []).symm.trans (hr' [])
  simp only [List.nil_append, Except.ok.injEq] at this
  rw [← build_all us, this, build_all]

/-- Longhands without `!important`: the declaration has a value exactly when the declaration with the replaced text has
it when the style sheet is loaded. -/
theorem C89_in_place_partial {carried : Nat → Bool} {texts : String → Option (List Tok)} {color : Tok → Option K}
    (hc : TakesNoVariable (tok1 color)) {p : P (RV (LV K))} (hp : LonghandParser color p) {ts us : List Tok}
    (huse : ∃ t ∈ ts, UsesVar t) (hcrash : declare carried (propValue p) ts ≠ .panic)
    (hr : Replaced carried texts 7 ts us) {a : PropertyValue (RV (LV K))} :
    (∃ d, declare carried (propValue p) ts = .ok d ∧ d.isImportant = false ∧
      evaluate (propValue p) (environment carried texts) d = .ok a) ↔
    declare carried (propValue p) us = .ok (.value a false) := by
  have hn := nv_propValue (nv_longhand hc hp)
  constructor
  · intro h
    obtain ⟨us0, us', h0, hr', hl⟩ := (C89_longhand_partial hc hp huse hcrash).1 h
    rw [declEnd, List.append_nil] at h0
    subst h0
    cases replaced_unique hr hr'
    refine (C89_static hn).2 ⟨hl, ?_⟩
    obtain ⟨vs, h1, h2⟩ := hn _ _ _ hl
    rw [List.append_nil] at h1
    subst h1
    exact h2
  · intro h
    exact (C89_longhand_partial hc hp huse hcrash).2 ⟨ts, us, by simp [declEnd], hr, ((C89_static hn).1 h).1⟩

/-- The shorthands: the values are those of the body of the shorthand (a global keyword that comes from a variable is
C46). -/
theorem C89_shorthand_partial {carried : Nat → Bool} {texts : String → Option (List Tok)} {env : Env X} (he : EnvTakesNoVariable env)
    {s : ShorthandProperty X} (hs : s ∈ defaults env) {ts : List Tok} (huse : ∃ t ∈ ts, UsesVar t)
    (hcrash : declare carried s.parse ts ≠ .panic) {a : Assign X} {imp : Bool} :
    (∃ d, declare carried s.parse ts = .ok d ∧ d.isImportant = imp ∧ evaluate s.body (environment carried texts) d = .ok a) ↔
      ∃ us us', ts = us ++ declEnd imp ∧ Replaced carried texts 7 us us' ∧ s.body us' = .ok (a, []) :=
  C89_exact_partial (nv_parse (nv_body he hs)) huse hcrash

private theorem length_calc {args : List Tok} {r : Res Calc.Val}
    (h : Calc.parseCalcValue (onCalc valTok) Calc.valOps (toCalc (.func "calc" args)) = r) (ts : List Tok) :
    (lengthValue : P (PropertyValue (RV X))) (.func "calc" args :: ts) = r.bind fun v => .ok (.value (.val v), ts) := by
  have h' : calcVal (.func "calc" args :: ts) = r.bind fun v => .ok (v, ts) := by
    simp only [calcVal, calcP, h]
  simp only [lengthValue]
  rw [propValue_noKeyword (by simp [NoKeyword])]
  simp only [bind_run, h']
  cases r <;> rfl

private def twoTexts (n : String) : Option (List Tok) :=
  if n = "a" then some [.func "VAR" [.ident "--b"]] else if n = "b" then some [.dimension 7 "px"] else none

private def addText : List Tok := [.func "calc" [.func "var" [.ident "--a"], .delim '+', .dimension 3 "px"]]

private theorem addReplaced (carried : Nat → Bool) : Replaced carried twoTexts 7 addText
    [.func "calc" [.dimension 7 "px", .delim '+', .dimension 3 "px"]] := by
  refine .func (by decide) ?_ .nil
  refine .var (depth := 6) (n := "a") (vs := [.func "VAR" [.ident "--b"]]) (vs' := [.dimension 7 "px"]) (by decide) (by decide)
    (by decide) rfl ?_ ?_
  · refine .var (depth := 5) (n := "b") (vs := [.dimension 7 "px"]) (vs' := [.dimension 7 "px"]) (us := []) (by decide) (by decide)
      (by decide) rfl ?_ .nil
    exact .token .dimension (by rintro ⟨_, h⟩; cases h) .nil
  · exact .token .delim (by rintro ⟨_, h⟩; cases h) (.token .dimension (by rintro ⟨_, h⟩; cases h) .nil)

private theorem add_no_crash (carried : Nat → Bool) :
    declare carried (lengthValue : P (PropertyValue (RV (LV K)))) addText ≠ .panic := by
  simp only [declare, entirely, nested, bind_run, addText]
  rw [length_calc (r := .err) (by decide +kernel)]
  intro h
  cases h

example (carried : Nat → Bool) : ∃ d, declare carried (propValue (do let v ← calcVal; pure (.val v))) addText = .ok d ∧
    d.isImportant = false ∧ evaluate (propValue (do let v ← calcVal; pure (.val v))) (environment carried twoTexts) d =
      .ok (.value (.val (.len .px 10)) : PropertyValue (RV (LV Unit))) := by
  refine (C89_in_place_partial (color := fun _ => none) (nv_tok1 fun _ _ h => by cases h) .length
    ⟨_, List.mem_cons_self, .inFunction List.mem_cons_self (.var (by decide))⟩ (add_no_crash carried)
    (addReplaced carried)).2 ?_
  change declare carried lengthValue _ = _
  simp only [declare, entirely, nested, bind_run]
  rw [length_calc (r := .ok (.len .px 10)) (by decide +kernel)]
  rfl

private def noEnv : Env Unit where
  color := fail
  gradient := fail
  asset := fail
  tracks := fail
  repeated := fail
  overflowAxis _ := none
  alignItems _ := none
  justifyItems _ := none
  gradients _ := .float 0
  autoTracks := .float 0
  noTracks := .float 0
  flow _ _ := .float 0

example (carried : Nat → Bool) : ∃ s ∈ defaults noEnv, s.name = "margin" ∧
    ∃ d, declare carried s.parse [.func "var" [.ident "--a"], .dimension 3 "px", .delim '!', .ident "important"] = .ok d ∧
      d.isImportant = true ∧ ∃ a, evaluate s.body (environment carried twoTexts) d = .ok a := by
  refine ⟨⟨"margin", rectSubs "margin", uiRect "margin"⟩, by simp [defaults], rfl, ?_⟩
  obtain ⟨a, ha⟩ : ∃ a, uiRect (X := Unit) "margin" [.dimension 7 "px", .dimension 3 "px"] = .ok (a, []) := ⟨_, rfl⟩
  have := (C89_shorthand_partial (carried := carried) (texts := twoTexts) (env := noEnv)
    ⟨nv_fail, nv_fail, nv_fail, nv_fail, nv_fail⟩ (s := ⟨"margin", rectSubs "margin", uiRect "margin"⟩) (by simp [defaults])
    (ts := [.func "var" [.ident "--a"], .dimension 3 "px", .delim '!', .ident "important"])
    ⟨_, List.mem_cons_self, .var (by decide)⟩ ?_ (imp := true)
    (a := a)).2 ?_
  · obtain ⟨d, h1, h2, h3⟩ := this
    exact ⟨d, h1, h2, _, h3⟩
  · intro h
    cases h
  · refine ⟨[.func "var" [.ident "--a"], .dimension 3 "px"], [.dimension 7 "px", .dimension 3 "px"], rfl, ?_, ?_⟩
    · refine .var (depth := 6) (n := "a") (vs := [.func "VAR" [.ident "--b"]]) (vs' := [.dimension 7 "px"]) (by decide) (by decide)
        (by decide) rfl ?_ ?_
      · refine .var (depth := 5) (n := "b") (vs := [.dimension 7 "px"]) (vs' := [.dimension 7 "px"]) (us := []) (by decide) (by decide)
          (by decide) rfl ?_ .nil
        exact .token .dimension (by rintro ⟨_, h⟩; cases h) .nil
      · exact .token .dimension (by rintro ⟨_, h⟩; cases h) .nil
    · exact ha

/-! ## What is not so -/

/-- `width: calc((100px - var(--gap)) / 2)` is refused when the style sheet is loaded, whatever `--gap` is, although it
can be written with the value in place. -/
theorem C89_parentheses_false : ∃ (inside : Tok → List Tok), ∃ a : PropertyValue (RV X),
    (∀ carried, declare carried (lengthValue : P (PropertyValue (RV X))) (inside (.func "var" [.ident "--gap"])) = .err) ∧
    ∀ carried, declare carried (lengthValue : P (PropertyValue (RV X))) (inside (.dimension 10 "px")) = .ok (.value a false) := by
  refine ⟨fun t => [.func "calc" [.paren [.dimension 100 "px", .delim '-', t], .delim '/', .number 2]],
    .value (.val (.len .px 45)), fun carried => ?_, fun carried => ?_⟩
  · simp only [declare, entirely, nested, bind_run]
    rw [length_calc (r := .err) (by decide +kernel)]
    rfl
  · simp only [declare, entirely, nested, bind_run]
    rw [length_calc (r := .ok (.len .px 45)) (by decide +kernel)]
    rfl

/-- `width: var(--x, 10px)`: a variable with a fallback is refused. -/
theorem C89_fallback_false (carried : Nat → Bool) :
    declare carried (lengthValue : P (PropertyValue (RV X))) [.func "var" [.ident "--x", .comma, .dimension 10 "px"]] = .err :=
  rfl

/-- `width: calc(10px var(--op) 3px)` ends the program when the style sheet is loaded. -/
theorem C89_operator_crash (carried : Nat → Bool) :
    declare carried (lengthValue : P (PropertyValue (RV X)))
      [.func "calc" [.dimension 10 "px", .func "var" [.ident "--op"], .dimension 3 "px"]] = .panic := by
  simp only [declare, entirely, nested, bind_run]
  rw [length_calc (r := .panic) (by decide +kernel)]
  rfl

/-- `--x: 10px !important` is not a value of a variable. -/
theorem C89_important_variable_false (carried : Nat → Bool) (ts : List Tok) :
    variableTokens carried (ts ++ declEnd true) = none := by
  unfold variableTokens
  split
  · rename_i h
    exfalso
    obtain ⟨us, h1, h2⟩ := flats_split (carried := carried) (ts := ts ++ declEnd true) (v := (flats carried (ts ++ declEnd true)).1)
      (rest := []) (by rw [← List.isEmpty_iff.1 h])
    rw [List.append_nil] at h1
    subst h1
    clear h
    generalize (flats carried (ts ++ declEnd true)).1 = v at h2
    induction ts generalizing v with
    | nil => exact (flats_inv h2).1 ⟨[], rfl⟩
    | cons t ts ih =>
      obtain ⟨_, v1, v2, _, h3, _⟩ := flats_inv h2
      exact ih _ h3
  · rfl

end Flair.Props
