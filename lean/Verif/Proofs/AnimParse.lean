import Verif.Spec.AnimParse
import Verif.Proofs.Gradient
import Verif.Props.Easing
import Verif.Tactics
/-!
# Lemmas on the parser of animations and transitions
-/
namespace Flair.Proofs.AnimParse
open Flair.Shorthand Flair.AnimParse Flair.AnimProps Flair.Animation Flair.Spec Flair.Proofs.Parse Flair.Proofs.Gradient
open Flair.Calc (Res)
open Flair.Easing (StepPosition linearPoints stepPosition)

theorem lower_iff {s w : String} : lower s = w ↔ Caseless s w := by
  unfold lower Caseless
  constructor
  · rintro rfl; simp
  · intro h; rw [h]; simp

theorem orErr_ok {α : Type} {o : Option α} {a : α} : orErr o = .ok a ↔ o = some a := by
  cases o <;> simp [orErr]

theorem orErr_panic {α : Type} {o : Option α} : orErr o ≠ .panic := by
  cases o <;> simp [orErr]

theorem int32_iff {q : ℚ} {n : ℤ} : int32 q = some n ↔ IntegerOf q n := by
  unfold int32
  constructor
  · intro h
    split at h
    · rename_i hd
      have hq : ((q.num : ℤ) : ℚ) = q := Rat.coe_int_num_of_den_eq_one hd
      generalize q.num = m at *
      subst hq
      simp only [Option.some.injEq] at h
      rcases lt_trichotomy m (-2 ^ 31) with h1 | h1 | h1
      · rw [← h, show max (-2 ^ 31) (min (2 ^ 31 - 1) m) = (-2 ^ 31 : ℤ) by omega]; exact .low h1
      · rw [← h, show max (-2 ^ 31) (min (2 ^ 31 - 1) m) = m by omega]; exact .fits (by omega) (by omega)
      · by_cases h2 : m < 2 ^ 31
        · rw [← h, show max (-2 ^ 31) (min (2 ^ 31 - 1) m) = m by omega]; exact .fits (by omega) (by omega)
        · rw [← h, show max (-2 ^ 31) (min (2 ^ 31 - 1) m) = 2 ^ 31 - 1 by omega]; exact .high (by omega)
    · cases h
  · intro h
    cases h with
    | fits h1 h2 => simp only [Rat.den_intCast, Rat.num_intCast, if_true, Option.some.injEq]; omega
    | high h1 => simp only [Rat.den_intCast, Rat.num_intCast, if_true, Option.some.injEq]; omega
    | low h1 => simp only [Rat.den_intCast, Rat.num_intCast, if_true, Option.some.injEq]; omega

theorem natural_iff {β : Type} {q : ℚ} {f : ℕ → β} {b : β} :
    ((int32 q).bind fun n => if 0 ≤ n then some (f n.toNat) else none) = some b ↔
      ∃ n : ℕ, IntegerOf q n ∧ f n = b := by
  simp only [Option.bind_eq_some_iff, int32_iff]
  constructor
  · rintro ⟨n, hn, h⟩
    split at h
    · rename_i h0
      cases h
      exact ⟨n.toNat, by rwa [Int.toNat_of_nonneg h0], rfl⟩
    · cases h
  · rintro ⟨n, hn, rfl⟩
    exact ⟨n, hn, by simp⟩

theorem duration_iff {t : Tok} {d : ℕ} : duration t = .ok d ↔ TimeOf t d := by
  constructor
  · intro h
    unfold duration at h
    split at h
    · rename_i q u
      split at h
      · rename_i hq
        unfold secsToNanos at h
        split at h
        · rename_i hlt
          cases h
          have h0 : 0 ≤ ⌊q * 10 ^ 9 + 1 / 2⌋ := Int.floor_nonneg.2 (by have := hq.1; positivity)
          have hc : ((⌊q * 10 ^ 9 + 1 / 2⌋.toNat : ℕ) : ℚ) = ((⌊q * 10 ^ 9 + 1 / 2⌋ : ℤ) : ℚ) := by
            rw [← Int.cast_natCast, Int.toNat_of_nonneg h0]
          refine .seconds (lower_iff.1 hq.2) hq.1 hlt ?_ ?_
          · rw [hc]; linarith [Int.floor_le (q * 10 ^ 9 + 1 / 2)]
          · rw [hc]; linarith [Int.lt_floor_add_one (q * 10 ^ 9 + 1 / 2)]
        · cases h
      · split at h
        · rename_i hu
          unfold millisToNanos at h
          rw [orErr_ok, natural_iff (f := fun n => n * 10 ^ 6)] at h
          obtain ⟨n, hn, rfl⟩ := h
          exact .millis (lower_iff.1 hu) hn
        · cases h
    · cases h
  · intro h
    cases h with
    | @seconds q u d hu h0 h1 h2 h3 =>
      have : ⌊q * 10 ^ 9 + 1 / 2⌋ = (d : ℤ) := by
        rw [Int.floor_eq_iff]
        constructor
        · push_cast; linarith
        · push_cast; linarith
      simp only [duration, lower_iff.2 hu, h0, true_and, if_true, secsToNanos, h1, this, Int.toNat_natCast]
    | @millis q u n hu hn =>
      have h2 : millisToNanos q = .ok (n * 10 ^ 6) := by
        unfold millisToNanos
        rw [orErr_ok, natural_iff (f := fun n => n * 10 ^ 6)]
        exact ⟨n, hn, rfl⟩
      simp [duration, lower_iff.2 hu, h2]

theorem duration_panic {t : Tok} : duration t = .panic ↔ HugeTime t := by
  constructor
  · intro h
    unfold duration at h
    split at h
    · rename_i q u
      split at h
      · rename_i hq
        unfold secsToNanos at h
        split at h
        · cases h
        · rename_i hlt
          exact ⟨q, u, rfl, lower_iff.1 hq.2, not_lt.1 hlt⟩
      · split at h
        · exact absurd h orErr_panic
        · cases h
    · cases h
  · rintro ⟨q, u, rfl, hu, hq⟩
    have h0 : (0 : ℚ) ≤ q := le_trans (by positivity) hq
    simp [duration, lower_iff.2 hu, h0, secsToNanos, not_lt.2 hq]

theorem count_iff {t : Tok} {c : Option ℕ} : count t = .ok c ↔ CountOf t c := by
  constructor
  · intro h
    unfold count at h
    split at h
    · split at h
      · rename_i hs; cases h; exact .infinite (lower_iff.1 hs)
      · cases h
    · rw [orErr_ok, natural_iff (f := fun n => some n)] at h
      obtain ⟨n, hn, rfl⟩ := h
      exact .count hn
    · cases h
  · intro h
    cases h with
    | infinite hs => simp [count, lower_iff.2 hs]
    | @count q n hn =>
      simp only [count]
      rw [orErr_ok, natural_iff (f := fun n => some n)]
      exact ⟨n, hn, rfl⟩

theorem count_panic {t : Tok} : count t ≠ .panic := by
  unfold count
  split
  · split <;> simp
  · exact orErr_panic
  · simp

/-- Words without repetition are found. -/
theorem lookup_iff {β : Type} {l : List (String × β)} (hl : (l.map Prod.fst).Nodup) {w : String} {v : β} :
    l.lookup w = some v ↔ (w, v) ∈ l := by
  induction l with
  | nil => simp
  | cons a l ih =>
    obtain ⟨x, y⟩ := a
    simp only [List.map_cons, List.nodup_cons] at hl
    rw [List.lookup_cons]
    by_cases h : w = x
    · subst h
      simp only [beq_self_eq_true, Option.some.injEq, List.mem_cons, Prod.mk.injEq, true_and]
      constructor
      · rintro rfl; exact .inl rfl
      · rintro (rfl | h)
        · rfl
        · exact absurd (List.mem_map.2 ⟨_, h, rfl⟩) hl.1
    · have : (w == x) = false := by simpa using h
      rw [this]
      simp only [ih hl.2, List.mem_cons, Prod.mk.injEq, h, false_and, false_or]

theorem keywordOf_iff {β : Type} {l : List (String × β)} (hl : (l.map Prod.fst).Nodup) {t : Tok} {v : β} :
    keywordOf l t = .ok v ↔ WordOf l t v := by
  constructor
  · intro h
    unfold keywordOf at h
    split at h
    · rw [orErr_ok, lookup_iff hl] at h
      exact .word h (lower_iff.1 rfl)
    · cases h
  · intro h
    cases h with
    | word h hs => simp only [keywordOf, orErr_ok, lookup_iff hl, lower_iff.2 hs]; exact h

theorem keywordOf_panic {β : Type} {l : List (String × β)} {t : Tok} : keywordOf l t ≠ .panic := by
  unfold keywordOf
  split
  · exact orErr_panic
  · simp

theorem direction_iff {t : Tok} {d : Animation.Direction} : direction t = .ok d ↔ WordOf directionWords t d :=
  keywordOf_iff (by decide)

theorem fillMode_iff {t : Tok} {d : Fill} : fillMode t = .ok d ↔ WordOf fillWords t d :=
  keywordOf_iff (by decide)

theorem playState_iff {t : Tok} {d : Bool} : playState t = .ok d ↔ WordOf playWords t d :=
  keywordOf_iff (by decide)

/-! ## Timing functions -/

theorem one_num (p : Tok) (q : ℚ) : numberTok p = some q ↔ p = .number q := by
  cases p <;> simp [numberTok]

theorem one_percent (p : Tok) (q : ℚ) : percentTok p = some q ↔ ∃ x, p = .percentage x ∧ q = x / 100 := by
  cases p <;> simp [percentTok, eq_comm]

theorem point_iff {ts : List Tok} {p : Option ℚ × ℚ} : nested point ts = .ok p ↔ PointText ts p := by
  constructor
  · intro h
    match ts with
    | [] => simp [nested, point, bind_run, tok1, Calc.Res.bind] at h
    | [a] =>
      cases a <;> simp [nested, point, bind_run, tok1, Calc.Res.bind, numberTok, unlessDone, pure_run] at h
      subst h; exact .value
    | [a, b] =>
      cases a <;> cases b <;>
        simp [nested, point, bind_run, tok1, Calc.Res.bind, numberTok, unlessDone, pure_run, percentTok] at h
      subst h; exact .placed
    | a :: b :: c :: ts =>
      cases a <;> cases b <;>
        simp [nested, point, bind_run, tok1, Calc.Res.bind, numberTok, unlessDone, pure_run, percentTok] at h
  · intro h
    cases h <;> simp [nested, point, bind_run, tok1, Calc.Res.bind, numberTok, unlessDone, pure_run, percentTok]

theorem point_panic (ts : List Tok) : nested point ts ≠ .panic := by
  match ts with
  | [] => simp [nested, point, bind_run, tok1, Calc.Res.bind]
  | [a] => cases a <;> simp [nested, point, bind_run, tok1, Calc.Res.bind, numberTok, unlessDone, pure_run]
  | a :: b :: ts =>
    cases a <;> cases b <;>
      simp [nested, point, bind_run, tok1, Calc.Res.bind, numberTok, unlessDone, pure_run, percentTok] <;>
      split <;> simp

theorem mapRes_iff {α β : Type} {f : α → Res β} {l : List α} {bs : List β} :
    mapRes f l = .ok bs ↔ List.Forall₂ (fun a b => f a = .ok b) l bs := by
  induction l generalizing bs with
  | nil => cases bs <;> simp [mapRes]
  | cons a l ih =>
    simp only [mapRes]
    constructor
    · intro h
      cases ha : f a with
      | err => simp [ha, Calc.Res.bind] at h
      | panic => simp [ha, Calc.Res.bind] at h
      | ok b =>
        cases hl : mapRes f l with
        | err => simp [ha, hl, Calc.Res.bind] at h
        | panic => simp [ha, hl, Calc.Res.bind] at h
        | ok bs' =>
          simp [ha, hl, Calc.Res.bind] at h
          subst h
          exact .cons ha (ih.1 hl)
    · intro h
      cases h with
      | cons ha hl => simp [ha, ih.2 hl, Calc.Res.bind]

theorem mapRes_panic {α β : Type} {f : α → Res β} {l : List α} (hf : ∀ a ∈ l, f a ≠ .panic) : mapRes f l ≠ .panic := by
  induction l with
  | nil => simp [mapRes]
  | cons a l ih =>
    have ha := hf a (by simp)
    have hl := ih fun b hb => hf b (by simp [hb])
    simp only [mapRes]
    cases hfa : f a with
    | panic => exact absurd hfa ha
    | err => simp [Calc.Res.bind]
    | ok b =>
      cases hm : mapRes f l with
      | panic => exact absurd hm hl
      | err => simp [Calc.Res.bind]
      | ok bs => simp [Calc.Res.bind]

/-- No comma in the list. -/
def NoComma (us : List Tok) : Prop := ∀ t ∈ us, t ≠ .comma

theorem segments_ne (ts : List Tok) : segments ts ≠ [] := by
  unfold segments
  split <;> simp

theorem segments_noComma {us : List Tok} (h : NoComma us) : segments us = [us] := by
  induction us with
  | nil => rfl
  | cons t us ih =>
    have h1 := ih fun x hx => h x (by simp [hx])
    have ht := h t (by simp)
    cases t <;> first | exact absurd rfl ht | simp [segments, h1]

theorem segments_append {us vs : List Tok} (h : NoComma us) : segments (us ++ .comma :: vs) = us :: segments vs := by
  induction us with
  | nil => rfl
  | cons t us ih =>
    have h1 := ih fun x hx => h x (by simp [hx])
    have ht := h t (by simp)
    cases t <;> first | exact absurd rfl ht | simp [segments, h1]

theorem segments_split (ts : List Tok) : (NoComma ts ∧ segments ts = [ts]) ∨
    ∃ us vs, ts = us ++ .comma :: vs ∧ NoComma us ∧ segments ts = us :: segments vs := by
  induction ts with
  | nil => exact .inl ⟨by simp [NoComma], rfl⟩
  | cons t ts ih =>
    by_cases ht : t = .comma
    · subst ht
      exact .inr ⟨[], ts, rfl, by simp [NoComma], rfl⟩
    · have hs : segments (t :: ts) = (t :: (segments ts).headD []) :: (segments ts).tail := by
        cases t <;> first | exact absurd rfl ht | rfl
      rcases ih with ⟨h1, h2⟩ | ⟨us, vs, rfl, h1, h2⟩
      · refine .inl ⟨?_, by rw [hs, h2]; rfl⟩
        intro x hx
        rcases List.mem_cons.1 hx with rfl | hx
        · exact ht
        · exact h1 x hx
      · refine .inr ⟨t :: us, vs, rfl, ?_, by rw [hs, h2]; rfl⟩
        intro x hx
        rcases List.mem_cons.1 hx with rfl | hx
        · exact ht
        · exact h1 x hx

theorem commaSep_segments {α : Type} {Form : List Tok → α → Prop} (hf : ∀ us a, Form us a → NoComma us) {ts : List Tok}
    {vs : List α} : CommaSep Form ts vs ↔ List.Forall₂ Form (segments ts) vs := by
  constructor
  · intro h
    induction h with
    | one h => rw [segments_noComma (hf _ _ h)]; exact .cons h .nil
    | more h _ ih => rw [segments_append (hf _ _ h)]; exact .cons h ih
  · intro h
    generalize hn : ts.length = n
    induction n using Nat.strong_induction_on generalizing ts vs with
    | _ n ih =>
      rcases segments_split ts with ⟨h1, h2⟩ | ⟨us, ws, rfl, h1, h2⟩
      · rw [h2] at h
        cases h with
        | cons h0 hr => cases hr; exact .one h0
      · rw [h2] at h
        cases h with
        | cons h0 hr => exact .more h0 (ih _ (by simp at hn; omega) hr rfl)

theorem point_noComma (us : List Tok) (p : Option ℚ × ℚ) (h : PointText us p) : NoComma us := by
  cases h <;> simp [NoComma]

theorem linearArgs_iff {ts : List Tok} {f : Timing} : linearArgs ts = .ok f ↔
    (ts = [] ∧ f = .linearPoints []) ∨
      ∃ ps out, CommaSep PointText ts ps ∧ LinearCompleted ps out ∧ f = .linearPoints out := by
  have hp : (fun a b => nested point a = .ok b) = PointText := by
    funext a b; exact propext point_iff
  unfold linearArgs
  constructor
  · intro h
    split at h
    · rename_i he
      cases h
      exact .inl ⟨by simpa using he, rfl⟩
    · cases hm : mapRes (nested point) (segments ts) with
      | err => simp [hm, Calc.Res.bind] at h
      | panic => simp [hm, Calc.Res.bind] at h
      | ok ps =>
        obtain ⟨out, ho, hc⟩ := Props.C51_linear_completed ps
        simp only [hm, Calc.Res.bind, ho, orPanic] at h
        cases h
        rw [mapRes_iff, hp] at hm
        exact .inr ⟨ps, out, (commaSep_segments point_noComma).2 hm, hc, rfl⟩
  · rintro (⟨rfl, rfl⟩ | ⟨ps, out, h1, h2, rfl⟩)
    · rfl
    · have hne : ts.isEmpty = false := by
        cases h1 with
        | one h => cases h <;> rfl
        | more h _ => cases h <;> rfl
      rw [commaSep_segments point_noComma, ← hp, ← mapRes_iff] at h1
      obtain ⟨out', ho, hc⟩ := Props.C51_linear_completed ps
      have : out' = out := Props.C51_unique ps _ _ hc h2
      subst this
      simp [hne, h1, Calc.Res.bind, ho, orPanic]

theorem linearArgs_panic (ts : List Tok) : linearArgs ts ≠ .panic := by
  unfold linearArgs
  split
  · simp
  · have h := mapRes_panic (f := nested point) (l := segments ts) fun a _ => point_panic a
    cases hm : mapRes (nested point) (segments ts) with
    | panic => exact absurd hm h
    | err => simp [Calc.Res.bind]
    | ok ps =>
      obtain ⟨out, ho, _⟩ := Props.C51_linear_completed ps
      simp [Calc.Res.bind, ho, orPanic]

theorem stepPosition_iff {s : String} {pos : StepPosition} :
    stepPosition (lower s) = some pos ↔ WordOf stepWords (.ident s) pos := by
  have : stepPosition (lower s) = stepWords.lookup (lower s) := rfl
  rw [this, lookup_iff (by decide)]
  constructor
  · intro h; exact .word h (lower_iff.1 rfl)
  · intro h
    generalize ht : (Tok.ident s) = t at h
    cases h with
    | word h hs => cases ht; rwa [lower_iff.2 hs]

theorem steps_iff {ts : List Tok} {f : Timing} : nested stepsArgs ts = .ok f ↔
    ∃ q n, IntegerOf q n ∧ ((ts = [.number q] ∧ f = .steps n .end) ∨
      ∃ s pos, ts = [.number q, .comma, .ident s] ∧ WordOf stepWords (.ident s) pos ∧ f = .steps n pos) := by
  constructor
  · intro h
    match ts with
    | [] => simp [nested, stepsArgs, bind_run, tok1, Calc.Res.bind] at h
    | [a] =>
      cases a <;> simp [nested, stepsArgs, bind_run, tok1, Calc.Res.bind, integerTok, unlessDone, pure_run] at h
      rename_i q
      cases hi : int32 q with
      | none => simp [hi] at h
      | some n =>
        simp [hi] at h
        exact ⟨q, n, int32_iff.1 hi, .inl ⟨rfl, h.symm⟩⟩
    | [a, b] =>
      cases a <;> simp [nested, stepsArgs, bind_run, tok1, Calc.Res.bind, integerTok] at h
      rename_i q
      cases hi : int32 q with
      | none => simp [hi] at h
      | some n => cases b <;> simp [hi, unlessDone, positionP, bind_run, comma, tok1, commaTok, Calc.Res.bind] at h
    | a :: b :: c :: rest =>
      cases a <;> simp [nested, stepsArgs, bind_run, tok1, Calc.Res.bind, integerTok] at h
      rename_i q
      cases hi : int32 q with
      | none => simp [hi] at h
      | some n =>
        cases b <;> simp [hi, unlessDone, positionP, bind_run, comma, tok1, commaTok, Calc.Res.bind] at h
        cases c <;> simp [wordTok] at h
        rename_i s
        cases hp : stepPosition (lower s) with
        | none => simp [hp] at h
        | some pos =>
          simp [hp, pure_run] at h
          cases rest with
          | cons _ _ => simp at h
          | nil =>
          simp at h
          subst h
          exact ⟨q, n, int32_iff.1 hi, .inr ⟨s, pos, rfl, stepPosition_iff.1 hp, rfl⟩⟩
  · rintro ⟨q, n, hi, ⟨rfl, rfl⟩ | ⟨s, pos, rfl, hp, rfl⟩⟩
    · simp [nested, stepsArgs, bind_run, tok1, Calc.Res.bind, integerTok, unlessDone, pure_run, int32_iff.2 hi]
    · simp [nested, stepsArgs, bind_run, tok1, Calc.Res.bind, integerTok, unlessDone, pure_run, int32_iff.2 hi,
        positionP, comma, commaTok, wordTok, stepPosition_iff.2 hp]

theorem bezier_iff {ts : List Tok} {f : Timing} : nested bezierArgs ts = .ok f ↔
    ∃ x1 y1 x2 y2, ts = [.number x1, .comma, .number y1, .comma, .number x2, .comma, .number y2] ∧
      f = .cubicBezier x1 y1 x2 y2 := by
  have hn : ∀ ts q rest, (tok1 numberTok : P ℚ) ts = .ok (q, rest) ↔ ts = .number q :: rest := by
    intro ts q rest
    cases ts with
    | nil => simp [tok1]
    | cons t ts => cases t <;> simp [tok1, numberTok]
  have hc : ∀ (ts : List Tok) (u : Unit) rest, comma ts = .ok (u, rest) ↔ ts = .comma :: rest := by
    intro ts u rest; exact comma_iff
  constructor
  · intro h
    have := entirely_ok h
    simp only [bezierArgs, bind_ok_iff, pure_ok_iff, hn, hc] at this
    obtain ⟨x1, _, rfl, _, _, rfl, y1, _, rfl, _, _, rfl, x2, _, rfl, _, _, rfl, y2, _, rfl, rfl, rfl⟩ := this
    exact ⟨_, _, _, _, rfl, rfl⟩
  · rintro ⟨x1, y1, x2, y2, rfl, rfl⟩
    rfl

theorem timing_iff {t : Tok} {f : Timing} : timing t = .ok f ↔ TimingOf t f := by
  constructor
  · intro h
    unfold timing at h
    split at h
    · rename_i s
      rw [orErr_ok, show timings.lookup (lower s) = timingWords.lookup (lower s) from rfl, lookup_iff (by decide)] at h
      exact .keyword (.word h (lower_iff.1 rfl))
    · rename_i g args
      split at h
      · rename_i hg
        rcases linearArgs_iff.1 h with ⟨rfl, rfl⟩ | ⟨ps, out, h1, h2, rfl⟩
        · exact .linearNone (lower_iff.1 hg)
        · exact .linear (lower_iff.1 hg) h1 h2
      · split at h
        · rename_i hg
          obtain ⟨q, n, hi, ⟨rfl, rfl⟩ | ⟨s, pos, rfl, hp, rfl⟩⟩ := steps_iff.1 h
          · exact .steps (lower_iff.1 hg) hi
          · exact .stepsAt (lower_iff.1 hg) hi hp
        · split at h
          · rename_i hg
            obtain ⟨x1, y1, x2, y2, rfl, rfl⟩ := bezier_iff.1 h
            exact .bezier (lower_iff.1 hg)
          · cases h
    · cases h
  · intro h
    cases h with
    | keyword h =>
      cases h with
      | @word s w _ h hs =>
        simp only [timing, orErr_ok, lower_iff.2 hs]
        rw [show timings.lookup w = timingWords.lookup w from rfl, lookup_iff (by decide)]
        exact h
    | linearNone hg => simp only [timing, lower_iff.2 hg, if_true]; rfl
    | linear hg h1 h2 =>
      simp only [timing, lower_iff.2 hg, if_true]
      exact linearArgs_iff.2 (.inr ⟨_, _, h1, h2, rfl⟩)
    | steps hg hi =>
      simp only [timing, lower_iff.2 hg]
      exact steps_iff.2 ⟨_, _, hi, .inl ⟨rfl, rfl⟩⟩
    | stepsAt hg hi hp =>
      simp only [timing, lower_iff.2 hg]
      exact steps_iff.2 ⟨_, _, hi, .inr ⟨_, _, rfl, hp, rfl⟩⟩
    | bezier hg =>
      simp only [timing, lower_iff.2 hg]
      exact bezier_iff.2 ⟨_, _, _, _, rfl, rfl⟩

/-- A parser that never panics. -/
def Calm {α : Type} (p : P α) : Prop := ∀ ts, p ts ≠ .panic

theorem calm_tok1 {α : Type} (f : Tok → Option α) : Calm (tok1 f : P α) := by
  intro ts
  cases ts with
  | nil => simp [tok1]
  | cons t ts => simp only [tok1]; split <;> simp

theorem calm_pure {α : Type} (a : α) : Calm (pure a : P α) := by intro ts; rw [pure_run]; simp

theorem calm_bind {α β : Type} {p : P α} {f : α → P β} (hp : Calm p) (hf : ∀ a, Calm (f a)) : Calm (p >>= f) := by
  intro ts
  rw [bind_run]
  have := hp ts
  cases h : p ts with
  | panic => exact absurd h this
  | err => simp
  | ok r => exact hf _ _

theorem calm_tryP {α : Type} {p : P α} (hp : Calm p) : Calm (tryP p) := by
  intro ts
  have := hp ts
  unfold tryP
  cases h : p ts with
  | panic => exact absurd h this
  | err => simp
  | ok r => simp

theorem calm_unless {α : Type} {p : P α} (hp : Calm p) : Calm (unlessDone p) := by
  intro ts
  unfold unlessDone
  split
  · simp
  · have := hp ts
    cases h : p ts with
    | panic => exact absurd h this
    | err => simp [Calc.Res.bind]
    | ok r => simp [Calc.Res.bind]

theorem calm_nested {α : Type} {p : P α} (hp : Calm p) (ts : List Tok) : nested p ts ≠ .panic := by
  unfold nested
  have := hp ts
  cases h : p ts with
  | panic => exact absurd h this
  | err => simp [Calc.Res.bind]
  | ok r => simp only [Calc.Res.bind]; split <;> simp

theorem timing_panic (t : Tok) : timing t ≠ .panic := by
  unfold timing
  split
  · exact orErr_panic
  · split
    · exact linearArgs_panic _
    · split
      · exact calm_nested (calm_bind (calm_tok1 _) fun _ => calm_bind
          (calm_unless (calm_bind (calm_tok1 _) fun _ => calm_tok1 _)) fun _ => calm_pure _) _
      · split
        · exact calm_nested (calm_bind (calm_tok1 _) fun _ => calm_bind (calm_tok1 _) fun _ =>
            calm_bind (calm_tok1 _) fun _ => calm_bind (calm_tok1 _) fun _ => calm_bind (calm_tok1 _) fun _ =>
            calm_bind (calm_tok1 _) fun _ => calm_bind (calm_tok1 _) fun _ => calm_pure _) _
        · simp
  · simp

/-! ## The loops -/

theorem firstOf_some {P : Type} {t : Tok} {l : List (Try P)} {c : P × Value} (h : firstOf t l = .ok (some c)) :
    ∃ f, (true, f) ∈ l ∧ f t = .ok c := by
  induction l with
  | nil => cases h
  | cons a l ih =>
    obtain ⟨b, f⟩ := a
    cases b with
    | false => obtain ⟨g, h1, h2⟩ := ih h; exact ⟨g, by simp [h1], h2⟩
    | true =>
      simp only [firstOf] at h
      cases hf : f t with
      | ok c' => rw [hf] at h; cases h; exact ⟨f, by simp, hf⟩
      | err => rw [hf] at h; obtain ⟨g, h1, h2⟩ := ih h; exact ⟨g, by simp [h1], h2⟩
      | panic => rw [hf] at h; cases h

theorem firstOf_panic {P : Type} {t : Tok} {l : List (Try P)} (h : firstOf t l = .panic) :
    ∃ f, (true, f) ∈ l ∧ f t = .panic := by
  induction l with
  | nil => cases h
  | cons a l ih =>
    obtain ⟨b, f⟩ := a
    cases b with
    | false => obtain ⟨g, h1, h2⟩ := ih h; exact ⟨g, by simp [h1], h2⟩
    | true =>
      simp only [firstOf] at h
      cases hf : f t with
      | ok c' => rw [hf] at h; cases h
      | err => rw [hf] at h; obtain ⟨g, h1, h2⟩ := ih h; exact ⟨g, by simp [h1], h2⟩
      | panic => exact ⟨f, by simp, hf⟩

theorem firstOf_ne_err {P : Type} {t : Tok} {l : List (Try P)} : firstOf t l ≠ .err := by
  induction l with
  | nil => simp [firstOf]
  | cons a l ih =>
    obtain ⟨b, f⟩ := a
    cases b with
    | false => exact ih
    | true =>
      simp only [firstOf]
      cases hf : f t with
      | ok c' => simp
      | err => exact ih
      | panic => simp

/-- A component that fails is passed over. -/
theorem firstOf_skip {P : Type} {t : Tok} {b : Bool} {f : Tok → Res (P × Value)} {l : List (Try P)} (h : b = true → f t = .err) :
    firstOf t ((b, f) :: l) = firstOf t l := by
  cases b with
  | false => rfl
  | true => simp [firstOf, h rfl]

theorem firstOf_none {P : Type} {t : Tok} {l : List (Try P)} (h : ∀ x ∈ l, x.2 t = .err) : firstOf t l = .ok none := by
  induction l with
  | nil => rfl
  | cons a l ih =>
    obtain ⟨b, f⟩ := a
    rw [firstOf_skip fun _ => h (b, f) (by simp)]
    exact ih fun x hx => h x (by simp [hx])

theorem firstOf_take {P : Type} {t : Tok} {b : Bool} {f : Tok → Res (P × Value)} {l : List (Try P)} {c : P × Value} (hb : b = true)
    (h : f t = .ok c) : firstOf t ((b, f) :: l) = .ok (some c) := by
  subst hb; simp [firstOf, h]

theorem comp_ok {P α : Type} {p : P} {mk : α → Value} {f : Tok → Res α} {t : Tok} {c : P × Value} :
    comp p mk f t = .ok c ↔ ∃ v, f t = .ok v ∧ c = (p, mk v) := by
  unfold comp
  cases f t <;> simp [Calc.Res.bind, eq_comm]

theorem comp_err {P α : Type} {p : P} {mk : α → Value} {f : Tok → Res α} {t : Tok} (h : f t = .err) :
    comp p mk f t = .err := by simp [comp, h, Calc.Res.bind]

theorem comp_panic {P α : Type} {p : P} {mk : α → Value} {f : Tok → Res α} {t : Tok} (h : comp p mk f t = .panic) :
    f t = .panic := by
  unfold comp at h
  cases hf : f t <;> simp [hf, Calc.Res.bind] at h ⊢

theorem has_iff {P : Type} [DecidableEq P] {r : List (P × Value)} {p : P} : has r p = true ↔ p ∈ r.map Prod.fst := by
  simp [has, List.any_eq_true]

theorem has_not {P : Type} [DecidableEq P] {r : List (P × Value)} {p : P} : (!has r p) = true ↔ p ∉ r.map Prod.fst := by
  rw [← has_iff]; simp

/-- What a token says, in terms of the parsers. -/
theorem early_some {r : List (AId × Value)} {t : Tok} {c : AId × Value} (h : firstOf t (early r) = .ok (some c)) :
    AValue c.1 c.2 t ∧ c.1 ∉ r.map Prod.fst ∧ (c.1 = .delay → .duration ∈ r.map Prod.fst) := by
  obtain ⟨f, hf, hc⟩ := firstOf_some h
  simp only [early, List.mem_cons, Prod.mk.injEq, List.not_mem_nil, or_false] at hf
  rcases hf with ⟨hb, rfl⟩ | ⟨hb, rfl⟩ | ⟨hb, rfl⟩ | ⟨hb, rfl⟩ | ⟨hb, rfl⟩ <;> obtain ⟨v, hv, rfl⟩ := comp_ok.1 hc
  · exact ⟨.duration (duration_iff.1 hv), has_not.1 hb.symm, by simp⟩
  · rw [eq_comm, Bool.and_eq_true] at hb
    exact ⟨.delay (duration_iff.1 hv), has_not.1 hb.2, fun _ => has_iff.1 hb.1⟩
  · exact ⟨.direction (direction_iff.1 hv), has_not.1 hb.symm, by simp⟩
  · exact ⟨.fillMode (fillMode_iff.1 hv), has_not.1 hb.symm, by simp⟩
  · exact ⟨.count (count_iff.1 hv), has_not.1 hb.symm, by simp⟩

theorem play_some {r : List (AId × Value)} {t : Tok} {c : AId × Value} (h : firstOf t (play r) = .ok (some c)) :
    AValue c.1 c.2 t ∧ c.1 ∉ r.map Prod.fst ∧ (c.1 = .delay → .duration ∈ r.map Prod.fst) := by
  obtain ⟨f, hf, hc⟩ := firstOf_some h
  simp only [play, List.mem_cons, Prod.mk.injEq, List.not_mem_nil, or_false] at hf
  obtain ⟨hb, rfl⟩ := hf
  obtain ⟨v, hv, rfl⟩ := comp_ok.1 hc
  exact ⟨.playState (playState_iff.1 hv), has_not.1 hb.symm, by simp⟩

theorem name_ok {t : Tok} {s : String} (h : name t = .ok s) : AValue .name (.name s) t := by
  unfold name at h
  split at h
  · cases h; exact .name
  · cases h; exact .quoted
  · cases h

theorem property_ok {t : Tok} {s : String} (h : property t = .ok s) : t = .ident s := by
  unfold property at h
  split at h
  · cases h; rfl
  · cases h

theorem late_some {r : List (AId × Value)} {t : Tok} {c : AId × Value} (h : firstOf t (late r) = .ok (some c)) :
    AValue c.1 c.2 t ∧ c.1 ∉ r.map Prod.fst ∧ (c.1 = .delay → .duration ∈ r.map Prod.fst) := by
  obtain ⟨f, hf, hc⟩ := firstOf_some h
  simp only [late, List.mem_cons, Prod.mk.injEq, List.not_mem_nil, or_false] at hf
  rcases hf with ⟨hb, rfl⟩ | ⟨hb, rfl⟩ <;> obtain ⟨v, hv, rfl⟩ := comp_ok.1 hc
  · exact ⟨.timing (timing_iff.1 hv), has_not.1 hb.symm, by simp⟩
  · exact ⟨name_ok hv, has_not.1 hb.symm, by simp⟩

theorem tComps_some {r : List (TId × Value)} {t : Tok} {c : TId × Value} (h : firstOf t (tComps r) = .ok (some c)) :
    TValue c.1 c.2 t ∧ c.1 ∉ r.map Prod.fst ∧ (c.1 = .delay → .duration ∈ r.map Prod.fst) := by
  obtain ⟨f, hf, hc⟩ := firstOf_some h
  simp only [tComps, List.mem_cons, Prod.mk.injEq, List.not_mem_nil, or_false] at hf
  rcases hf with ⟨hb, rfl⟩ | ⟨hb, rfl⟩ | ⟨hb, rfl⟩ | ⟨hb, rfl⟩ <;> obtain ⟨v, hv, rfl⟩ := comp_ok.1 hc
  · exact ⟨.duration (duration_iff.1 hv), has_not.1 hb.symm, by simp⟩
  · rw [eq_comm, Bool.and_eq_true] at hb
    exact ⟨.delay (duration_iff.1 hv), has_not.1 hb.2, fun _ => has_iff.1 hb.1⟩
  · exact ⟨.timing (timing_iff.1 hv), has_not.1 hb.symm, by simp⟩
  · obtain rfl := property_ok hv
    exact ⟨.property, has_not.1 hb.symm, by simp⟩

theorem wf_snoc {P V : Type} {du de : P} {r : List (P × V)} {c : P × V} (hr : WellFormed du de r) (hc : c.1 ∉ r.map Prod.fst)
    (hd : c.1 = de → du ∈ r.map Prod.fst) : WellFormed du de (r ++ [c]) := by
  refine ⟨?_, ?_⟩
  · rw [List.map_append, List.nodup_append]
    refine ⟨hr.1, by simp, ?_⟩
    rintro x hx y hy rfl
    simp only [List.map_cons, List.map_nil, List.mem_singleton] at hy
    exact hc (hy ▸ hx)
  · intro before v after h
    rcases List.eq_nil_or_concat after with rfl | ⟨a', x, rfl⟩
    · have h' : r ++ [c] = before ++ [(de, v)] := by simpa using h
      obtain ⟨rfl, h2⟩ := List.append_inj' h' rfl
      cases h2
      exact hd rfl
    · have h' : r ++ [c] = (before ++ (de, v) :: a') ++ [x] := by simpa using h
      obtain ⟨h1, _⟩ := List.append_inj' h' rfl
      exact hr.2 before v a' h1

theorem aLoop_back {ts : List Tok} {played : Bool} {r cs : List (AId × Value)} {rest : List Tok}
    (hr : WellFormed AId.duration AId.delay r) (h : aLoop played r ts = .ok (cs, rest)) :
    ∃ us cs', ts = us ++ rest ∧ cs = r ++ cs' ∧ List.Forall₂ (fun c t => AValue c.1 c.2 t) cs' us ∧
      WellFormed AId.duration AId.delay cs := by
  induction ts generalizing played r with
  | nil => cases h; exact ⟨[], [], rfl, by simp, .nil, hr⟩
  | cons t ts ih =>
    have step : ∀ b c, AValue c.1 c.2 t ∧ c.1 ∉ r.map Prod.fst ∧ (c.1 = .delay → .duration ∈ r.map Prod.fst) →
        aLoop b (r ++ [c]) ts = .ok (cs, rest) → ∃ us cs', t :: ts = us ++ rest ∧ cs = r ++ cs' ∧
          List.Forall₂ (fun c t => AValue c.1 c.2 t) cs' us ∧ WellFormed AId.duration AId.delay cs := by
      intro b c ⟨h1, h2, h3⟩ hl
      obtain ⟨us, cs', rfl, rfl, h4, h5⟩ := ih (wf_snoc hr h2 h3) hl
      exact ⟨t :: us, c :: cs', rfl, by simp, .cons h1 h4, h5⟩
    have last : ∀ r1 : Res (Option (AId × Value)), r1 = firstOf t (late r) → (r1.bind fun
        | some c => aLoop false (r ++ [c]) ts
        | none => .ok (r, t :: ts)) = .ok (cs, rest) → ∃ us cs', t :: ts = us ++ rest ∧ cs = r ++ cs' ∧
          List.Forall₂ (fun c t => AValue c.1 c.2 t) cs' us ∧ WellFormed AId.duration AId.delay cs := by
      intro r1 hr1 hl
      cases r1 with
      | err => cases hl
      | panic => cases hl
      | ok o =>
        cases o with
        | none => cases hl; exact ⟨[], [], rfl, by simp, .nil, hr⟩
        | some c => exact step false c (late_some hr1.symm) hl
    rw [aLoop] at h
    cases played with
    | true =>
      simp only [if_true, Calc.Res.bind] at h
      exact last _ rfl h
    | false =>
      simp only [Bool.false_eq_true, if_false] at h
      cases he : firstOf t (early r) with
      | err => rw [he] at h; cases h
      | panic => rw [he] at h; cases h
      | ok o =>
        rw [he] at h
        cases o with
        | some c => exact step false c (early_some he) h
        | none =>
          simp only [Calc.Res.bind] at h
          cases hp : firstOf t (play r) with
          | err => rw [hp] at h; cases h
          | panic => rw [hp] at h; cases h
          | ok o =>
            rw [hp] at h
            cases o with
            | some c => exact step true c (play_some hp) h
            | none => exact last _ rfl h

theorem tLoop_back {ts : List Tok} {r cs : List (TId × Value)} {rest : List Tok}
    (hr : WellFormed TId.duration TId.delay r) (h : tLoop r ts = .ok (cs, rest)) :
    ∃ us cs', ts = us ++ rest ∧ cs = r ++ cs' ∧ List.Forall₂ (fun c t => TValue c.1 c.2 t) cs' us ∧
      WellFormed TId.duration TId.delay cs := by
  induction ts generalizing r with
  | nil => cases h; exact ⟨[], [], rfl, by simp, .nil, hr⟩
  | cons t ts ih =>
    rw [tLoop] at h
    cases he : firstOf t (tComps r) with
    | err => rw [he] at h; cases h
    | panic => rw [he] at h; cases h
    | ok o =>
      rw [he] at h
      cases o with
      | none => cases h; exact ⟨[], [], rfl, by simp, .nil, hr⟩
      | some c =>
        obtain ⟨h1, h2, h3⟩ := tComps_some he
        obtain ⟨us, cs', rfl, rfl, h4, h5⟩ := ih (wf_snoc hr h2 h3) h
        exact ⟨t :: us, c :: cs', rfl, by simp, .cons h1 h4, h5⟩

theorem word_err {β : Type} {l : List (String × β)} {s w : String} (hs : Caseless s w) (h : w ∉ l.map Prod.fst) :
    orErr (l.lookup (lower s)) = .err := by
  rw [lower_iff.2 hs]
  have : l.lookup w = none := by
    rw [List.lookup_eq_none_iff]
    intro x hx
    simp only [bne_iff_ne, ne_eq, beq_eq_false_iff_ne]
    rintro rfl
    exact h (List.mem_map.2 ⟨_, hx, rfl⟩)
  rw [this]; rfl

theorem other_err {β : Type} {l : List (String × β)} {s : String} (h : ∀ w ∈ l.map Prod.fst, ¬ Caseless s w) :
    orErr (l.lookup (lower s)) = .err :=
  word_err (lower_iff.1 rfl) fun hw => h _ hw (lower_iff.1 rfl)

/-- The component is given by the first parsers, by the play state, or by the last ones. -/
theorem plain_step {r : List (AId × Value)} {c : AId × Value} {t : Tok} (hp : APlain c t) (hn : c.1 ∉ r.map Prod.fst)
    (hd : c.1 = .delay → .duration ∈ r.map Prod.fst) :
    (firstOf t (early r) = .ok (some c) ∧ c.1 ≠ .timing ∧ c.1 ≠ .name ∧ c.1 ≠ .playState) ∨
    (firstOf t (early r) = .ok none ∧ firstOf t (play r) = .ok (some c) ∧ c.1 = .playState) ∨
    (firstOf t (early r) = .ok none ∧ firstOf t (play r) = .ok none ∧ firstOf t (late r) = .ok (some c) ∧
      (c.1 = .timing ∨ c.1 = .name)) := by
  obtain ⟨p, v⟩ := c
  obtain ⟨hv, hk⟩ := hp
  simp only at hv hk hn hd ⊢
  have hnot := has_not.2 hn
  cases hv with
  | duration ht =>
    refine .inl ⟨?_, by simp, by simp, by simp⟩
    unfold early
    exact firstOf_take hnot (comp_ok.2 ⟨_, duration_iff.2 ht, rfl⟩)
  | delay ht =>
    refine .inl ⟨?_, by simp, by simp, by simp⟩
    have h1 := has_iff.2 (hd rfl)
    unfold early
    rw [firstOf_skip (by simp [h1])]
    exact firstOf_take (by rw [h1, hnot]; rfl) (comp_ok.2 ⟨_, duration_iff.2 ht, rfl⟩)
  | direction hw =>
    refine .inl ⟨?_, by simp, by simp, by simp⟩
    have ho := direction_iff.2 hw
    cases hw with
    | word hm hs =>
      unfold early
      rw [firstOf_skip fun _ => comp_err rfl, firstOf_skip fun _ => comp_err rfl]
      exact firstOf_take hnot (comp_ok.2 ⟨_, ho, rfl⟩)
  | fillMode hw =>
    refine .inl ⟨?_, by simp, by simp, by simp⟩
    have ho := fillMode_iff.2 hw
    cases hw with
    | @word _ w _ hm hs =>
      have h1 : direction (.ident _) = .err := word_err hs
        ((by decide : ∀ x ∈ fillWords.map Prod.fst, x ∉ AnimShorthand.directions.map Prod.fst) w (List.mem_map.2 ⟨_, hm, rfl⟩))
      unfold early
      rw [firstOf_skip fun _ => comp_err rfl, firstOf_skip fun _ => comp_err rfl, firstOf_skip fun _ => comp_err h1]
      exact firstOf_take hnot (comp_ok.2 ⟨_, ho, rfl⟩)
  | count hw =>
    refine .inl ⟨?_, by simp, by simp, by simp⟩
    have ho := count_iff.2 hw
    unfold early
    cases hw with
    | infinite hs =>
      have h1 : direction (.ident _) = .err := word_err hs (by decide)
      have h2 : fillMode (.ident _) = .err := word_err hs (by decide)
      rw [firstOf_skip fun _ => comp_err rfl, firstOf_skip fun _ => comp_err rfl, firstOf_skip fun _ => comp_err h1,
        firstOf_skip fun _ => comp_err h2]
      exact firstOf_take hnot (comp_ok.2 ⟨_, ho, rfl⟩)
    | count hi =>
      rw [firstOf_skip fun _ => comp_err rfl, firstOf_skip fun _ => comp_err rfl, firstOf_skip fun _ => comp_err rfl,
        firstOf_skip fun _ => comp_err rfl]
      exact firstOf_take hnot (comp_ok.2 ⟨_, ho, rfl⟩)
  | playState hw =>
    refine .inr (.inl ⟨?_, ?_, rfl⟩)
    · cases hw with
      | @word s w _ hm hs =>
        have hm' : w ∈ playWords.map Prod.fst := List.mem_map.2 ⟨_, hm, rfl⟩
        have h1 : direction (.ident s) = .err := word_err hs
          ((by decide : ∀ x ∈ playWords.map Prod.fst, x ∉ AnimShorthand.directions.map Prod.fst) w hm')
        have h2 : fillMode (.ident s) = .err := word_err hs
          ((by decide : ∀ x ∈ playWords.map Prod.fst, x ∉ AnimShorthand.fills.map Prod.fst) w hm')
        have h3 : count (.ident s) = .err := by
          have := (by decide : ∀ x ∈ playWords.map Prod.fst, x ≠ "infinite") w hm'
          simp [count, lower_iff.2 hs, this]
        unfold early
        rw [firstOf_skip fun _ => comp_err rfl, firstOf_skip fun _ => comp_err rfl, firstOf_skip fun _ => comp_err h1,
          firstOf_skip fun _ => comp_err h2, firstOf_skip fun _ => comp_err h3]
        rfl
    · unfold play
      exact firstOf_take hnot (comp_ok.2 ⟨_, playState_iff.2 hw, rfl⟩)
  | timing hw =>
    refine .inr (.inr ⟨?_, ?_, ?_, .inl rfl⟩)
    · cases hw with
      | keyword hk =>
        cases hk with
        | @word s w _ hm hs =>
          have hm' : w ∈ timingWords.map Prod.fst := List.mem_map.2 ⟨_, hm, rfl⟩
          have h1 : direction (.ident s) = .err := word_err hs
            ((by decide : ∀ x ∈ timingWords.map Prod.fst, x ∉ AnimShorthand.directions.map Prod.fst) w hm')
          have h2 : fillMode (.ident s) = .err := word_err hs
            ((by decide : ∀ x ∈ timingWords.map Prod.fst, x ∉ AnimShorthand.fills.map Prod.fst) w hm')
          have h3 : count (.ident s) = .err := by
            have := (by decide : ∀ x ∈ timingWords.map Prod.fst, x ≠ "infinite") w hm'
            simp [count, lower_iff.2 hs, this]
          unfold early
          rw [firstOf_skip fun _ => comp_err rfl, firstOf_skip fun _ => comp_err rfl, firstOf_skip fun _ => comp_err h1,
            firstOf_skip fun _ => comp_err h2, firstOf_skip fun _ => comp_err h3]
          rfl
      | _ =>
        unfold early
        rw [firstOf_skip fun _ => comp_err rfl, firstOf_skip fun _ => comp_err rfl, firstOf_skip fun _ => comp_err rfl,
          firstOf_skip fun _ => comp_err rfl, firstOf_skip fun _ => comp_err rfl]
        rfl
    · cases hw with
      | keyword hk =>
        cases hk with
        | @word s w _ hm hs =>
          have h1 : playState (.ident s) = .err := word_err hs
            ((by decide : ∀ x ∈ timingWords.map Prod.fst, x ∉ AnimShorthand.playStates.map Prod.fst) w
              (List.mem_map.2 ⟨_, hm, rfl⟩))
          unfold play
          rw [firstOf_skip fun _ => comp_err h1]
          rfl
      | _ =>
        unfold play
        rw [firstOf_skip fun _ => comp_err rfl]
        rfl
    · unfold late
      exact firstOf_take hnot (comp_ok.2 ⟨_, timing_iff.2 hw, rfl⟩)
  | @name s =>
    have hk' : ∀ w ∈ animationKeywords, ¬ Caseless s w := fun w hw hs => hk rfl ⟨s, rfl, w, hw, hs⟩
    have sub : ∀ l : List String, (∀ w ∈ l, w ∈ animationKeywords) → ∀ w ∈ l, ¬ Caseless s w := fun l h w hw => hk' w (h w hw)
    have h1 : direction (.ident s) = .err := other_err (sub _ (by decide))
    have h2 : fillMode (.ident s) = .err := other_err (sub _ (by decide))
    have h3 : count (.ident s) = .err := by
      have : lower s ≠ "infinite" := fun h => hk' _ (by decide) (lower_iff.1 h)
      simp [count, this]
    have h4 : playState (.ident s) = .err := other_err (sub _ (by decide))
    have h5 : timing (.ident s) = .err := other_err (sub _ (by decide))
    refine .inr (.inr ⟨?_, ?_, ?_, .inr rfl⟩)
    · unfold early
      rw [firstOf_skip fun _ => comp_err rfl, firstOf_skip fun _ => comp_err rfl, firstOf_skip fun _ => comp_err h1,
        firstOf_skip fun _ => comp_err h2, firstOf_skip fun _ => comp_err h3]
      rfl
    · unfold play; rw [firstOf_skip fun _ => comp_err h4]; rfl
    · unfold late; rw [firstOf_skip fun _ => comp_err h5]; exact firstOf_take hnot (comp_ok.2 ⟨_, rfl, rfl⟩)
  | quoted =>
    refine .inr (.inr ⟨?_, ?_, ?_, .inr rfl⟩)
    · unfold early
      rw [firstOf_skip fun _ => comp_err rfl, firstOf_skip fun _ => comp_err rfl, firstOf_skip fun _ => comp_err rfl,
        firstOf_skip fun _ => comp_err rfl, firstOf_skip fun _ => comp_err rfl]
      rfl
    · unfold play; rw [firstOf_skip fun _ => comp_err rfl]; rfl
    · unfold late; rw [firstOf_skip fun _ => comp_err rfl]; exact firstOf_take hnot (comp_ok.2 ⟨_, rfl, rfl⟩)

/-- Nothing reads what comes next. -/
def Unread (rest : List Tok) : Prop := ∀ t, rest.head? = some t → t = .comma ∨ ∃ c, t = .delim c

theorem unread_stop {imp : Bool} {rest : List Tok} (h : Flair.Proofs.Parse.Stop imp rest) : Unread rest := by
  rcases h with rfl | ⟨ts, rfl⟩
  · intro t ht
    cases imp
    · cases ht
    · cases ht; exact .inr ⟨_, rfl⟩
  · intro t ht
    cases ht; exact .inl rfl

theorem unread_first {t : Tok} (h : t = .comma ∨ ∃ c, t = .delim c) (r : List (AId × Value)) :
    firstOf t (early r) = .ok none ∧ firstOf t (play r) = .ok none ∧ firstOf t (late r) = .ok none := by
  unfold early play late
  rcases h with rfl | ⟨c, rfl⟩ <;> refine ⟨?_, ?_, ?_⟩ <;> apply firstOf_none <;>
    simp only [List.forall_mem_cons, List.not_mem_nil, false_imp_iff, implies_true, and_true] <;>
    repeat' constructor

theorem aLoop_stop {rest : List Tok} (h : Unread rest) (played : Bool) (r : List (AId × Value)) :
    aLoop played r rest = .ok (r, rest) := by
  cases rest with
  | nil => rfl
  | cons t ts =>
    obtain ⟨h1, h2, h3⟩ := unread_first (h t rfl) r
    rw [aLoop]
    cases played <;> simp [h1, h2, h3, Calc.Res.bind]

theorem aLoop_plain {cs : List (AId × Value)} {us rest : List Tok} (hp : List.Forall₂ APlain cs us) (hrest : Unread rest)
    {played : Bool} {r : List (AId × Value)} (hw : WellFormed AId.duration AId.delay (r ++ cs)) (ho : PlayStateOk cs)
    (hpl : played = true → ∀ c, cs.head? = some c → c.1 = .timing ∨ c.1 = .name) :
    aLoop played r (us ++ rest) = .ok (r ++ cs, rest) := by
  induction hp generalizing played r with
  | nil => simpa using aLoop_stop hrest played r
  | @cons c t cs us hc _ ih =>
    have hn : c.1 ∉ r.map Prod.fst := by
      have := hw.1
      rw [List.map_append, List.nodup_append] at this
      intro hm
      exact this.2.2 _ hm _ (by simp) rfl
    have hd : c.1 = .delay → .duration ∈ r.map Prod.fst := by
      intro h
      exact hw.2 r c.2 cs (by rw [← h])
    have hw' : WellFormed AId.duration AId.delay ((r ++ [c]) ++ cs) := by simpa using hw
    have ho' : PlayStateOk cs := fun b v c' a h => ho (c :: b) v c' a (by rw [h]; rfl)
    have key : ∀ b, (b = true → ∀ c', cs.head? = some c' → c'.1 = .timing ∨ c'.1 = .name) →
        aLoop b (r ++ [c]) (us ++ rest) = .ok (r ++ c :: cs, rest) := by
      intro b hb
      rw [ih hw' ho' hb]; simp
    rw [List.cons_append, aLoop]
    rcases plain_step hc hn hd with ⟨h1, h2, h3, h4⟩ | ⟨h1, h2, h3⟩ | ⟨h1, h2, h3, h4⟩
    · cases played with
      | true => rcases hpl rfl c rfl with h | h
                · exact absurd h h2
                · exact absurd h h3
      | false => simpa [h1, Calc.Res.bind] using key false (by simp)
    · cases played with
      | true =>
        rcases hpl rfl c rfl with h | h <;> rw [h3] at h <;> cases h
      | false =>
        simp only [Bool.false_eq_true, if_false, h1, h2, Calc.Res.bind]
        apply key
        intro _ c' hc'
        cases cs with
        | nil => cases hc'
        | cons c'' cs' =>
          cases hc'
          exact ho [] c.2 _ cs' (by rw [← h3]; rfl)
    · cases played <;> simpa [h1, h2, h3, Calc.Res.bind] using key false (by simp)

theorem plain_tstep {r : List (TId × Value)} {c : TId × Value} {t : Tok} (hp : TPlain c t) (hn : c.1 ∉ r.map Prod.fst)
    (hd : c.1 = .delay → .duration ∈ r.map Prod.fst) : firstOf t (tComps r) = .ok (some c) := by
  obtain ⟨p, v⟩ := c
  obtain ⟨hv, hk⟩ := hp
  simp only at hv hk hn hd ⊢
  have hnot := has_not.2 hn
  unfold tComps
  cases hv with
  | duration ht => exact firstOf_take hnot (comp_ok.2 ⟨_, duration_iff.2 ht, rfl⟩)
  | delay ht =>
    have h1 := has_iff.2 (hd rfl)
    rw [firstOf_skip (by simp [h1])]
    exact firstOf_take (by rw [h1, hnot]; rfl) (comp_ok.2 ⟨_, duration_iff.2 ht, rfl⟩)
  | timing ht =>
    have ho := timing_iff.2 ht
    have h1 : duration t = .err := by
      cases ht with
      | keyword h => cases h; rfl
      | _ => rfl
    rw [firstOf_skip fun _ => comp_err h1, firstOf_skip fun _ => comp_err h1]
    exact firstOf_take hnot (comp_ok.2 ⟨_, ho, rfl⟩)
  | @property s =>
    have h5 : timing (.ident s) = .err := other_err fun w hw hs => hk rfl ⟨s, rfl, w, hw, hs⟩
    rw [firstOf_skip fun _ => comp_err rfl, firstOf_skip fun _ => comp_err rfl, firstOf_skip fun _ => comp_err h5]
    exact firstOf_take hnot (comp_ok.2 ⟨_, rfl, rfl⟩)

theorem tLoop_stop {rest : List Tok} (h : Unread rest) (r : List (TId × Value)) : tLoop r rest = .ok (r, rest) := by
  cases rest with
  | nil => rfl
  | cons t ts =>
    have h1 : firstOf t (tComps r) = .ok none := by
      unfold tComps
      rcases h t rfl with rfl | ⟨c, rfl⟩ <;> apply firstOf_none <;>
        simp only [List.forall_mem_cons, List.not_mem_nil, false_imp_iff, implies_true, and_true] <;>
        repeat' constructor
    rw [tLoop]
    simp [h1, Calc.Res.bind]

theorem tLoop_plain {cs : List (TId × Value)} {us rest : List Tok} (hp : List.Forall₂ TPlain cs us) (hrest : Unread rest)
    {r : List (TId × Value)} (hw : WellFormed TId.duration TId.delay (r ++ cs)) :
    tLoop r (us ++ rest) = .ok (r ++ cs, rest) := by
  induction hp generalizing r with
  | nil => simpa using tLoop_stop hrest r
  | @cons c t cs us hc _ ih =>
    have hn : c.1 ∉ r.map Prod.fst := by
      have := hw.1
      rw [List.map_append, List.nodup_append] at this
      intro hm
      exact this.2.2 _ hm _ (by simp) rfl
    have hd : c.1 = .delay → .duration ∈ r.map Prod.fst := by
      intro h
      exact hw.2 r c.2 cs (by rw [← h])
    rw [List.cons_append, tLoop, plain_tstep hc hn hd]
    simpa [Calc.Res.bind] using ih (r := r ++ [c]) (by simpa using hw)

end Flair.Proofs.AnimParse
