import Verif.Proofs.AnimParse2
/-!
# C88: animation and transition declarations are read exactly

Of every text (a list of tokens) of an `animation-*` or `transition-*` declaration it is proved when it is accepted,
and with which values; which texts crash the parser is proved too.
-/
namespace Flair.Props
open Flair.Shorthand Flair.AnimParse Flair.AnimProps Flair.Animation Flair.Spec Flair.Proofs.AnimParse
open Flair.Calc (Res)

variable (vt : List Tok → Option (List Tok))

/-! ## Single values -/

/-- A time is accepted iff it is a number of seconds that is not negative (rounded to nanoseconds) or a whole number
of milliseconds. -/
theorem C88_time {t : Tok} {d : ℕ} : duration t = .ok d ↔ TimeOf t d := duration_iff

example : TimeOf (.dimension (3 / 2) "S") 1500000000 := by
  refine .seconds (by decide) ?_ ?_ ?_ ?_ <;> norm_num
example : TimeOf (.dimension 250 "ms") 250000000 :=
  .millis (n := 250) (by decide) (.fits (n := 250) (by norm_num) (by norm_num))

/-- It crashes iff it is a number of seconds that does not fit into 64 bits. -/
theorem C88_time_crash {t : Tok} : duration t = .panic ↔ HugeTime t := duration_panic

/-- So a stylesheet can crash the program: `animation-duration: 100000000000000000000s`. -/
theorem C88_crash_false : animationDecl vt "animation-duration" [.dimension (10 ^ 20) "s"] = .panic := by
  have h : duration (.dimension (10 ^ 20) "s") = .panic := C88_time_crash.2 ⟨_, _, rfl, by decide, by norm_num⟩
  have l : lower "animation-duration" = "animation-duration" := by decide
  have e : animationDecl vt "animation-duration" [.dimension (10 ^ 20) "s"] =
      longhand vt .duration .duration duration [.dimension (10 ^ 20) "s"] := by
    rw [animationDecl, l]; rfl
  rw [e]
  simp [longhand, helper, values, entirely, nested, one, h, Flair.Gradient.commaSep, bind_run, Calc.Res.bind]

/-- Times that css allows are refused: parts of milliseconds, and negative delays. -/
theorem C88_time_false : duration (.dimension (3 / 2) "ms") = .err ∧ duration (.dimension (-1) "s") = .err := by
  have l1 : lower "ms" = "ms" := by decide
  have l2 : lower "s" = "s" := by decide
  constructor
  · have : ¬ (3 / 2 : ℚ).den = 1 := by decide +kernel
    simp only [duration, l1, millisToNanos, int32, this, orErr, if_false, if_true, Option.bind]
    simp
  · simp [duration, l2]

/-- A number of iterations is `infinite` or a whole number that is not negative. -/
theorem C88_count {t : Tok} {c : Option ℕ} : count t = .ok c ↔ CountOf t c := count_iff

example : CountOf (.number 3) (some 3) := .count (n := 3) (.fits (n := 3) (by norm_num) (by norm_num))
example : CountOf (.ident "INFINITE") none := .infinite (by decide)

/-- `1.5`, which css allows, is refused. -/
theorem C88_count_false : count (.number (3 / 2)) = .err := by
  have : ¬ (3 / 2 : ℚ).den = 1 := by decide +kernel
  simp only [count, int32, this, orErr, if_false, Option.bind]

/-- Directions, fill modes and play states are the words of css, in any case. -/
theorem C88_words {t : Tok} :
    (∀ d, direction t = .ok d ↔ WordOf directionWords t d) ∧ (∀ f, fillMode t = .ok f ↔ WordOf fillWords t f) ∧
      ∀ p, playState t = .ok p ↔ WordOf playWords t p :=
  ⟨fun _ => direction_iff, fun _ => fillMode_iff, fun _ => playState_iff⟩

example : WordOf directionWords (.ident "Alternate-Reverse") .alternateReverse :=
  .word (w := "alternate-reverse") (by decide) (by decide)

/-- A timing function is accepted iff it is a keyword, or `linear()`, `steps()` or `cubic-bezier()` with the right
arguments, and none crashes. -/
theorem C88_timing {t : Tok} : (∀ f, timing t = .ok f ↔ TimingOf t f) ∧ timing t ≠ .panic :=
  ⟨fun _ => timing_iff, timing_panic t⟩

example : TimingOf (.func "STEPS" [.number 4, .comma, .ident "jump-both"]) (.steps 4 .jumpBoth) :=
  .stepsAt (by decide) (.fits (n := 4) (by norm_num) (by norm_num)) (.word (w := "jump-both") (by decide) (by decide))

/-- Too much is accepted: no steps at all, and a curve that goes back in time, both of which css forbids. -/
theorem C88_timing_false : timing (.func "steps" [.number 0]) = .ok (.steps 0 .end) ∧
    timing (.func "cubic-bezier" [.number 2, .comma, .number 0, .comma, .number (-1), .comma, .number 1]) =
      .ok (.cubicBezier 2 0 (-1) 1) :=
  ⟨C88_timing.1 _ |>.2 (.steps (by decide) (.fits (n := 0) (by norm_num) (by norm_num))),
    C88_timing.1 _ |>.2 (.bezier (by decide))⟩

/-! ## The longhands -/

private theorem aDecl_eq {css w : String} (hc : Caseless css w) (hw : w ≠ "animation") (ts : List Tok) :
    animationDecl vt css ts = (orErr ((aLonghands vt).lookup w)).bind fun f => f ts := by
  rw [animationDecl, lower_iff.2 hc, if_neg hw]

private theorem tDecl_eq {css w : String} (hc : Caseless css w) (hw : w ≠ "transition") (ts : List Tok) :
    transitionDecl vt css ts = (orErr ((tLonghands vt).lookup w)).bind fun f => f ts := by
  rw [transitionDecl, lower_iff.2 hc, if_neg hw]

private theorem aNames {ts : List Tok} {vs : List Value} : NamesText (fun v t => ∃ a, name t = .ok a ∧ v = .name a) ts vs ↔
    NamesText (AValue .name) ts vs := by
  refine NamesText.congr fun v t => ⟨fun ⟨a, h, e⟩ => e ▸ name_ok h, fun h => ?_⟩
  cases h with
  | name => exact ⟨_, rfl, rfl⟩
  | quoted => exact ⟨_, rfl, rfl⟩

private theorem tNames {ts : List Tok} {vs : List Value} :
    NamesText (fun v t => ∃ a, property t = .ok a ∧ v = .name a) ts vs ↔ NamesText (TValue .property) ts vs := by
  refine NamesText.congr fun v t => Iff.intro ?_ fun h => ?_
  · rintro ⟨a, h, e⟩
    obtain rfl := property_ok h
    exact e ▸ .property
  · cases h with
    | property => exact ⟨_, rfl, rfl⟩

/-- A longhand of `animation` is accepted with values `vs` iff it is the list of tokens that say them, with commas
between, and maybe `!important`; `animation-name` may also be `none`. -/
theorem C88_animation_longhand {css w : String} {p : AId} (hc : Caseless css w) (hw : (w, p) ∈ animationLonghands)
    {ts : List Tok} {vs : List Value} : animationDecl vt css ts = .ok (.single p (.specific vs)) ↔
      if p = .name then NamesText (AValue .name) ts vs else ListText (AValue p) ts vs := by
  simp only [animationLonghands, List.mem_cons, Prod.mk.injEq, List.not_mem_nil, or_false] at hw
  rcases hw with ⟨rfl, rfl⟩ | ⟨rfl, rfl⟩ | ⟨rfl, rfl⟩ | ⟨rfl, rfl⟩ | ⟨rfl, rfl⟩ | ⟨rfl, rfl⟩ | ⟨rfl, rfl⟩ | ⟨rfl, rfl⟩ <;>
    rw [aDecl_eq vt hc (by decide)]
  · exact namesDecl_specific.trans ((and_iff_right rfl).trans aNames)
  all_goals
    refine longhand_specific.trans ((and_iff_right rfl).trans ?_)
    rw [if_neg (by decide)]
    refine ListText.congr fun v t => Iff.intro ?_ fun h => ?_
  · rintro ⟨a, h, e⟩; exact e ▸ .duration (duration_iff.1 h)
  · cases h with | duration h => exact ⟨_, duration_iff.2 h, rfl⟩
  · rintro ⟨a, h, e⟩; exact e ▸ .delay (duration_iff.1 h)
  · cases h with | delay h => exact ⟨_, duration_iff.2 h, rfl⟩
  · rintro ⟨a, h, e⟩; exact e ▸ .direction (direction_iff.1 h)
  · cases h with | direction h => exact ⟨_, direction_iff.2 h, rfl⟩
  · rintro ⟨a, h, e⟩; exact e ▸ .fillMode (fillMode_iff.1 h)
  · cases h with | fillMode h => exact ⟨_, fillMode_iff.2 h, rfl⟩
  · rintro ⟨a, h, e⟩; exact e ▸ .count (count_iff.1 h)
  · cases h with | count h => exact ⟨_, count_iff.2 h, rfl⟩
  · rintro ⟨a, h, e⟩; exact e ▸ .playState (playState_iff.1 h)
  · cases h with | playState h => exact ⟨_, playState_iff.2 h, rfl⟩
  · rintro ⟨a, h, e⟩; exact e ▸ .timing (timing_iff.1 h)
  · cases h with | timing h => exact ⟨_, timing_iff.2 h, rfl⟩

example : ListText (AValue .duration) [.dimension 2 "s", .comma, .dimension 30 "ms", .delim '!', .ident "important"]
    [.duration 2000000000, .duration 30000000] := by
  refine ⟨true, [.dimension 2 "s", .comma, .dimension 30 "ms"], rfl, ?_⟩
  refine .more (us := [.dimension 2 "s"]) ⟨_, rfl, .duration ?_⟩ (.one ⟨_, rfl, .duration ?_⟩)
  · refine .seconds (by decide) ?_ ?_ ?_ ?_ <;> norm_num
  · exact .millis (n := 30) (by decide) (.fits (n := 30) (by norm_num) (by norm_num))

/-- A longhand of `transition`, in the same way. -/
theorem C88_transition_longhand {css w : String} {p : TId} (hc : Caseless css w) (hw : (w, p) ∈ transitionLonghands)
    {ts : List Tok} {vs : List Value} : transitionDecl vt css ts = .ok (.single p (.specific vs)) ↔
      if p = .property then NamesText (TValue .property) ts vs else ListText (TValue p) ts vs := by
  simp only [transitionLonghands, List.mem_cons, Prod.mk.injEq, List.not_mem_nil, or_false] at hw
  rcases hw with ⟨rfl, rfl⟩ | ⟨rfl, rfl⟩ | ⟨rfl, rfl⟩ | ⟨rfl, rfl⟩ <;> rw [tDecl_eq vt hc (by decide)]
  · exact namesDecl_specific.trans ((and_iff_right rfl).trans tNames)
  all_goals
    refine longhand_specific.trans ((and_iff_right rfl).trans ?_)
    rw [if_neg (by decide)]
    refine ListText.congr fun v t => Iff.intro ?_ fun h => ?_
  · rintro ⟨a, h, e⟩; exact e ▸ .duration (duration_iff.1 h)
  · cases h with | duration h => exact ⟨_, duration_iff.2 h, rfl⟩
  · rintro ⟨a, h, e⟩; exact e ▸ .delay (duration_iff.1 h)
  · cases h with | delay h => exact ⟨_, duration_iff.2 h, rfl⟩
  · rintro ⟨a, h, e⟩; exact e ▸ .timing (timing_iff.1 h)
  · cases h with | timing h => exact ⟨_, timing_iff.2 h, rfl⟩

example : NamesText (TValue .property) [.ident "None"] [] := .inr ⟨rfl, false, _, rfl, by decide⟩
example : NamesText (TValue .property) [.ident "width", .comma, .ident "none"] [.name "width", .name "none"] := by
  refine .inl ⟨⟨false, _, (List.append_nil _).symm, ?_⟩, ?_⟩
  · exact .more (us := [.ident "width"]) ⟨_, rfl, .property⟩ (.one ⟨_, rfl, .property⟩)
  · rintro ⟨s, rest, e, h⟩
    cases e
    revert h
    decide

/-- A longhand sets its own component and no other, whether or not it has variables. -/
theorem C88_longhand_own {css w : String} (hc : Caseless css w) {ts : List Tok} :
    (∀ p d, (w, p) ∈ animationLonghands → animationDecl vt css ts = .ok d → ∃ vs, d = .single p vs) ∧
    (∀ p d, (w, p) ∈ transitionLonghands → transitionDecl vt css ts = .ok d → ∃ vs, d = .single p vs) := by
  constructor
  · intro p d hw h
    simp only [animationLonghands, List.mem_cons, Prod.mk.injEq, List.not_mem_nil, or_false] at hw
    rcases hw with ⟨rfl, rfl⟩ | ⟨rfl, rfl⟩ | ⟨rfl, rfl⟩ | ⟨rfl, rfl⟩ | ⟨rfl, rfl⟩ | ⟨rfl, rfl⟩ | ⟨rfl, rfl⟩ | ⟨rfl, rfl⟩ <;>
      rw [aDecl_eq vt hc (by decide)] at h
    · exact namesDecl_single (f := name) h
    · exact longhand_single (f := duration) (mk := .duration) h
    · exact longhand_single (f := duration) (mk := .duration) h
    · exact longhand_single (f := direction) (mk := .direction) h
    · exact longhand_single (f := fillMode) (mk := .fillMode) h
    · exact longhand_single (f := count) (mk := .iterationCount) h
    · exact longhand_single (f := playState) (mk := .playState) h
    · exact longhand_single (f := timing) (mk := .timing) h
  · intro p d hw h
    simp only [transitionLonghands, List.mem_cons, Prod.mk.injEq, List.not_mem_nil, or_false] at hw
    rcases hw with ⟨rfl, rfl⟩ | ⟨rfl, rfl⟩ | ⟨rfl, rfl⟩ | ⟨rfl, rfl⟩ <;> rw [tDecl_eq vt hc (by decide)] at h
    · exact namesDecl_single (f := property) h
    · exact longhand_single (f := duration) (mk := .duration) h
    · exact longhand_single (f := duration) (mk := .duration) h
    · exact longhand_single (f := timing) (mk := .timing) h

/-- `animation-name: inherit`, `initial` or `unset` names an animation: the words of css that every property takes
mean nothing here. -/
theorem C88_inherit_false : animationDecl vt "animation-name" [.ident "inherit"] = .ok (.single .name (.specific [.name "inherit"])) := by
  rw [C88_animation_longhand vt (w := "animation-name") (by decide) (by decide), if_pos rfl]
  refine .inl ⟨⟨false, _, (List.append_nil _).symm, .one ⟨_, rfl, .name⟩⟩, ?_⟩
  rintro ⟨s, rest, e, h⟩
  cases e
  revert h
  decide

/-- `!important` changes nothing: the declaration is the same without it. -/
theorem C88_important_dropped {css : String} (p : AId) (hw : ∃ w, Caseless css w ∧ (w, p) ∈ animationLonghands)
    {us : List Tok} {vs : List Value} (h : animationDecl vt css us = .ok (.single p (.specific vs)))
    (hu : ∀ vs, us ≠ vs ++ declEnd true) :
    animationDecl vt css (us ++ declEnd true) = .ok (.single p (.specific vs)) := by
  obtain ⟨w, hc, hw⟩ := hw
  rw [C88_animation_longhand vt hc hw] at h ⊢
  have list : ∀ A : Value → Tok → Prop, ListText A us vs → ListText A (us ++ declEnd true) vs := by
    rintro A ⟨imp, ts, rfl, hs⟩
    cases imp with
    | true => exact absurd rfl (hu ts)
    | false =>
      refine ⟨true, ts, by simp [declEnd], hs⟩
  by_cases hp : p = .name
  · rw [if_pos hp] at h ⊢
    rcases h with ⟨h, hn⟩ | ⟨rfl, imp, s, rfl, hs⟩
    · refine .inl ⟨list _ h, ?_⟩
      rintro ⟨s, rest, e, hs⟩
      cases us with
      | nil => cases e
      | cons t us =>
        cases e
        exact hn ⟨s, us, rfl, hs⟩
    · cases imp with
      | true => exact absurd rfl (hu [.ident s])
      | false => exact .inr ⟨rfl, true, s, rfl, hs⟩
  · rw [if_neg hp] at h ⊢
    exact list _ h

/-! ## The shorthands -/

/-- What `animation` accepts says exactly the components it gives: every token gives one, none twice, and a delay comes
after the duration. -/
theorem C88_animation_sound {css : String} (hc : Caseless css "animation") {ts : List Tok} {as : List (List (AId × Value))}
    (h : animationDecl vt css ts = .ok (.shorthand (.specific as))) : AnimationText (fun c t => AValue c.1 c.2 t) ts as := by
  rw [animationDecl, lower_iff.2 hc, if_pos rfl] at h
  obtain ⟨a, h, e⟩ := bind_ok.1 h
  cases e
  refine values_sound (fun ts a rest h => ?_) (helper_specific.1 h)
  obtain ⟨us, cs, rfl, rfl, h1, h2⟩ := aLoop_back (r := []) ⟨by simp, by simp⟩ h
  exact ⟨us, rfl, by simpa using h1, by simpa using h2⟩

/-- Conversely it accepts animations in which a name is no keyword, when right after a play state comes a timing
function, a name, or the end.  (Without the last it is refused: C62.) -/
theorem C88_animation_accepts_partial {css : String} (hc : Caseless css "animation") {ts : List Tok}
    {as : List (List (AId × Value))} (h : AnimationText APlain ts as) (ho : ∀ a ∈ as, PlayStateOk a) :
    animationDecl vt css ts = .ok (.shorthand (.specific as)) := by
  rw [animationDecl, lower_iff.2 hc, if_pos rfl]
  refine bind_ok.2 ⟨_, helper_specific.2 ?_, rfl⟩
  obtain ⟨imp, us, rfl, hs⟩ := h
  have hs' : CommaSep (fun us cs => OneText .duration .delay APlain us cs ∧ PlayStateOk cs) us as := by
    clear hc
    induction hs with
    | one h => exact .one ⟨h, ho _ (by simp)⟩
    | more h _ ih => exact .more ⟨h, ho _ (by simp)⟩ (ih fun a ha => ho a (by simp [ha]))
  refine values_complete (fun us a rest h hr => ?_) hs'
  obtain ⟨⟨h1, h2⟩, h3⟩ := h
  exact aLoop_plain h1 (unread_stop hr) (r := []) (by simpa using h2) h3 (by simp)

private def exampleText : List Tok :=
  [.ident "paused", .ident "spin", .dimension 2 "s", .ident "infinite", .comma, .quoted "none", .dimension 10 "ms"]

example : AnimationText APlain exampleText
    [[(.playState, .playState true), (.name, .name "spin"), (.duration, .duration 2000000000),
      (.iterationCount, .iterationCount none)], [(.name, .name "none"), (.duration, .duration 10000000)]] := by
  refine ⟨false, _, (List.append_nil _).symm, ?_⟩
  refine .more (us := [.ident "paused", .ident "spin", .dimension 2 "s", .ident "infinite"]) ⟨?_, by decide, ?_⟩
    (.one ⟨?_, by decide, ?_⟩)
  · refine .cons ⟨.playState (.word (w := "paused") (by decide) (by decide)), by simp⟩ (.cons ⟨.name, fun _ => ?_⟩
      (.cons ⟨.duration ?_, by simp⟩ (.cons ⟨.count (.infinite (by decide)), by simp⟩ .nil)))
    · rintro ⟨s, e, w, hw, h⟩
      cases e
      revert w
      decide
    · refine .seconds (by decide) ?_ ?_ ?_ ?_ <;> norm_num
  · intro b v a e
    have : (AId.delay, v) ∈ [(AId.playState, (Val.playState true : Value)), (.name, .name "spin"),
      (.duration, .duration 2000000000), (.iterationCount, .iterationCount none)] := by rw [e]; simp
    simp at this
  · refine .cons ⟨.quoted, fun _ => ?_⟩ (.cons ⟨.duration (.millis (n := 10) (by decide)
      (.fits (n := 10) (by norm_num) (by norm_num))), by simp⟩ .nil)
    rintro ⟨s, e, _⟩
    cases e
  · intro b v a e
    have : (AId.delay, v) ∈ [(AId.name, (Val.name "none" : Value)), (.duration, .duration 10000000)] := by rw [e]; simp
    simp at this

/-- `transition` accepts only texts that say exactly the components it gives. -/
theorem C88_transition_sound {css : String} (hc : Caseless css "transition") {ts : List Tok} {as : List (List (TId × Value))}
    (h : transitionDecl vt css ts = .ok (.shorthand (.specific as))) : TransitionText (fun c t => TValue c.1 c.2 t) ts as := by
  rw [transitionDecl, lower_iff.2 hc, if_pos rfl] at h
  obtain ⟨a, h, e⟩ := bind_ok.1 h
  cases e
  refine values_sound (fun ts a rest h => ?_) (helper_specific.1 h)
  obtain ⟨us, cs, rfl, rfl, h1, h2⟩ := tLoop_back (r := []) ⟨by simp, by simp⟩ h
  exact ⟨us, rfl, by simpa using h1, by simpa using h2⟩

/-- And it accepts all of them in which the property is not named like a timing function. -/
theorem C88_transition_accepts {css : String} (hc : Caseless css "transition") {ts : List Tok}
    {as : List (List (TId × Value))} (h : TransitionText TPlain ts as) :
    transitionDecl vt css ts = .ok (.shorthand (.specific as)) := by
  rw [transitionDecl, lower_iff.2 hc, if_pos rfl]
  refine bind_ok.2 ⟨_, helper_specific.2 ?_, rfl⟩
  obtain ⟨imp, us, rfl, hs⟩ := h
  refine values_complete (fun us a rest h hr => ?_) hs
  obtain ⟨h1, h2⟩ := h
  exact tLoop_plain h1 (unread_stop hr) (r := []) (by simpa using h2)

/-- An empty animation is accepted, which css refuses: `animation:` and `animation: , ,`. -/
theorem C88_empty_false : animationDecl vt "animation" [] = .ok (.shorthand (.specific [[]])) ∧
    animationDecl vt "animation" [.comma] = .ok (.shorthand (.specific [[], []])) := by
  have e : OneText AId.duration .delay APlain [] [] := ⟨.nil, by simp, by simp⟩
  have o : PlayStateOk ([] : List (AId × Value)) := by intro b v c a h; simp at h
  constructor
  · refine C88_animation_accepts_partial vt (by decide) ⟨false, [], rfl, .one e⟩ ?_
    simpa using o
  · refine C88_animation_accepts_partial vt (by decide) ⟨false, [.comma], rfl, .more (us := []) e (.one e)⟩ ?_
    simpa using o

/-! ## Everything -/

/-- Only a number of seconds that is too large crashes the parser. -/
theorem C88_no_crash {css : String} {ts : List Tok}
    (h : animationDecl vt css ts = .panic ∨ transitionDecl vt css ts = .panic) : ∃ t ∈ ts, HugeTime t := by
  rcases h with h | h
  · rw [animationDecl] at h
    split at h
    · rcases bind_panic.1 h with h | ⟨_, _, h⟩
      · refine values_panic (fun ts => aLoop_panic) (fun ts a rest h => ?_) (helper_panic h)
        obtain ⟨us, cs, rfl, _⟩ := aLoop_back (r := []) ⟨by simp, by simp⟩ h
        exact ⟨us, rfl⟩
      · cases h
    · rcases bind_panic.1 h with h | ⟨f, hf, h⟩
      · exact absurd h orErr_panic
      · rw [orErr_ok, lookup_iff (by rw [show (aLonghands vt).map Prod.fst = animationLonghands.map Prod.fst from rfl]; decide)] at hf
        simp only [aLonghands, List.mem_cons, Prod.mk.injEq, List.not_mem_nil, or_false] at hf
        rcases hf with ⟨_, rfl⟩ | ⟨_, rfl⟩ | ⟨_, rfl⟩ | ⟨_, rfl⟩ | ⟨_, rfl⟩ | ⟨_, rfl⟩ | ⟨_, rfl⟩ | ⟨_, rfl⟩
        · obtain ⟨t, _, h⟩ := namesDecl_panic h
          exact absurd h name_panic
        all_goals obtain ⟨t, ht, h⟩ := longhand_panic h
        · exact ⟨t, ht, duration_panic.1 h⟩
        · exact ⟨t, ht, duration_panic.1 h⟩
        · exact absurd h keywordOf_panic
        · exact absurd h keywordOf_panic
        · exact absurd h count_panic
        · exact absurd h keywordOf_panic
        · exact absurd h (timing_panic _)
  · rw [transitionDecl] at h
    split at h
    · rcases bind_panic.1 h with h | ⟨_, _, h⟩
      · refine values_panic (fun ts => tLoop_panic) (fun ts a rest h => ?_) (helper_panic h)
        obtain ⟨us, cs, rfl, _⟩ := tLoop_back (r := []) ⟨by simp, by simp⟩ h
        exact ⟨us, rfl⟩
      · cases h
    · rcases bind_panic.1 h with h | ⟨f, hf, h⟩
      · exact absurd h orErr_panic
      · rw [orErr_ok, lookup_iff (by rw [show (tLonghands vt).map Prod.fst = transitionLonghands.map Prod.fst from rfl]; decide)] at hf
        simp only [tLonghands, List.mem_cons, Prod.mk.injEq, List.not_mem_nil, or_false] at hf
        rcases hf with ⟨_, rfl⟩ | ⟨_, rfl⟩ | ⟨_, rfl⟩ | ⟨_, rfl⟩
        · obtain ⟨t, _, h⟩ := namesDecl_panic h
          exact absurd h property_panic
        all_goals obtain ⟨t, ht, h⟩ := longhand_panic h
        · exact ⟨t, ht, duration_panic.1 h⟩
        · exact ⟨t, ht, duration_panic.1 h⟩
        · exact absurd h (timing_panic _)

/-- Any other name is refused. -/
theorem C88_other_names {css : String} {ts : List Tok} :
    ((∀ w ∈ "animation" :: animationLonghands.map Prod.fst, ¬ Caseless css w) → animationDecl vt css ts = .err) ∧
    ((∀ w ∈ "transition" :: transitionLonghands.map Prod.fst, ¬ Caseless css w) → transitionDecl vt css ts = .err) := by
  constructor
  · intro h
    rw [animationDecl, if_neg fun e => h _ (by simp) (lower_iff.1 e), other_err]
    · rfl
    · intro w hw
      exact h w (List.mem_cons_of_mem _ hw)
  · intro h
    rw [transitionDecl, if_neg fun e => h _ (by simp) (lower_iff.1 e), other_err]
    · rfl
    · intro w hw
      exact h w (List.mem_cons_of_mem _ hw)

example : ∀ w ∈ "animation" :: animationLonghands.map Prod.fst, ¬ Caseless "animation-range" w := by decide

/-- A text that says nothing on its own is kept for later when it has variables, and refused when it has none. -/
theorem C88_variables {css w : String} {p : AId} (hc : Caseless css w) (hw : (w, p) ∈ animationLonghands) (hp : p ≠ .name)
    {ts : List Tok} (hh : ∀ t ∈ ts, ¬ HugeTime t) (hn : ∀ vs, ¬ ListText (AValue p) ts vs) :
    ((∃ t ∈ ts, UsesVar t) → ∀ us, vt ts = some us → animationDecl vt css ts = .ok (.single p (.dynamic us))) ∧
    ((∀ t ∈ ts, ¬ UsesVar t) ∨ vt ts = none → animationDecl vt css ts = .err) := by
  suffices h : animationDecl vt css ts =
      if hasVars ts then (match vt ts with | some us => .ok (.single p (.dynamic us)) | none => .err) else .err by
    rw [h]
    refine ⟨fun hu us hv => by rw [if_pos (uses_iff.2 hu), hv], ?_⟩
    rintro (hu | hv)
    · rw [if_neg]
      rw [uses_iff]
      rintro ⟨t, ht, h⟩
      exact hu t ht h
    · rw [hv, ite_self]
  have key : ∀ {α : Type} (mk : α → Value) (f : Tok → Res α),
      (animationDecl vt css ts = longhand vt p mk f ts) → animationDecl vt css ts =
      if hasVars ts then (match vt ts with | some us => .ok (.single p (.dynamic us)) | none => .err) else .err := by
    intro α mk f e
    have h1 : ∀ vs, animationDecl vt css ts ≠ .ok (.single p (.specific vs)) := by
      intro vs h
      rw [C88_animation_longhand vt hc hw, if_neg hp] at h
      exact hn vs h
    have h2 : animationDecl vt css ts ≠ .panic := by
      intro h
      obtain ⟨t, ht, h⟩ := C88_no_crash vt (.inl h)
      exact hh t ht h
    rw [e] at h1 h2 ⊢
    unfold longhand helper at h1 h2 ⊢
    cases hv : values (one fun t => (f t).bind fun v => .ok (mk v)) ts with
    | ok vs => rw [hv] at h1; exact absurd rfl (h1 vs)
    | panic => rw [hv] at h2; exact absurd rfl h2
    | err =>
      simp only
      split
      · cases vt ts <;> rfl
      · rfl
  simp only [animationLonghands, List.mem_cons, Prod.mk.injEq, List.not_mem_nil, or_false] at hw
  rcases hw with ⟨rfl, rfl⟩ | ⟨rfl, rfl⟩ | ⟨rfl, rfl⟩ | ⟨rfl, rfl⟩ | ⟨rfl, rfl⟩ | ⟨rfl, rfl⟩ | ⟨rfl, rfl⟩ | ⟨rfl, rfl⟩
  · exact absurd rfl hp
  · exact key .duration duration (aDecl_eq vt hc (by decide) ts)
  · exact key .duration duration (aDecl_eq vt hc (by decide) ts)
  · exact key .direction direction (aDecl_eq vt hc (by decide) ts)
  · exact key .fillMode fillMode (aDecl_eq vt hc (by decide) ts)
  · exact key .iterationCount count (aDecl_eq vt hc (by decide) ts)
  · exact key .playState playState (aDecl_eq vt hc (by decide) ts)
  · exact key .timing timing (aDecl_eq vt hc (by decide) ts)

example : UsesVar (.func "cubic-bezier" [.number 0, .comma, .func "VAR" [.ident "--y"]]) :=
  .inFunction (t := .func "VAR" [.ident "--y"]) (by simp) (.var (by decide))

end Flair.Props
