import Verif.Spec.AnimShorthand
import Verif.Tactics
/-!
# C62: the components of an `animation` or `transition` may come in any order
-/
namespace Flair.AnimShorthand
open Flair.AnimProps Flair.Spec

theorem has_iff {P : Type} [DecidableEq P] (r : List (P × Value)) (p : P) : has r p = true ↔ p ∈ r.map Prod.fst := by
  simp [has]

theorem has_false {P : Type} [DecidableEq P] (r : List (P × Value)) (p : P) (h : p ∉ r.map Prod.fst) :
    has r p = false := by
  rw [← Bool.not_eq_true, has_iff]; exact h

theorem lookup_none {β : Type} (l : List (String × β)) (s : String) (h : s ∉ l.map Prod.fst) :
    l.lookup s = none := by
  rw [List.lookup_eq_none_iff]
  intro p hp
  simp only [bne_iff_ne, ne_eq]
  rintro rfl
  exact h (List.mem_map_of_mem hp)

theorem no_keyword (s : String) (h : s ∉ animationKeywords) :
    directions.lookup s = none ∧ fills.lookup s = none ∧ s ≠ "infinite" ∧ playStates.lookup s = none ∧
      easings.lookup s = none := by
  refine ⟨lookup_none _ _ fun hm => h ?_, lookup_none _ _ fun hm => h ?_, fun hm => h ?_,
    lookup_none _ _ fun hm => h ?_, lookup_none _ _ fun hm => h ?_⟩
  · simp only [directions, List.map_cons, List.map_nil, List.mem_cons, List.not_mem_nil, or_false] at hm
    rcases hm with rfl | rfl | rfl | rfl <;> decide
  · simp only [fills, List.map_cons, List.map_nil, List.mem_cons, List.not_mem_nil, or_false] at hm
    rcases hm with rfl | rfl | rfl | rfl <;> decide
  · subst hm; decide
  · simp only [playStates, List.map_cons, List.map_nil, List.mem_cons, List.not_mem_nil, or_false] at hm
    rcases hm with rfl | rfl <;> decide
  · simp only [easings, List.map_cons, List.map_nil, List.mem_cons, List.not_mem_nil, or_false] at hm
    rcases hm with rfl | rfl | rfl | rfl | rfl | rfl | rfl <;> decide

/-- What one iteration does on a token that writes a component not yet given. -/
theorem step_spec (r : List (AId × Value)) (c : AId × Value) (t : Tok) (hw : Writes c t)
    (hn : c.1 ∉ r.map Prod.fst) (hd : c.1 = .delay → AId.duration ∈ r.map Prod.fst) :
    (c.1 = .playState → firstFour r t = none ∧ ∃ b, pPlay t = some b ∧ c.2 = .playState b) ∧
    (c.1 = .timing ∨ c.1 = .name → firstFour r t = none ∧ pPlay t = none ∧ lastTwo r t = some c) ∧
    (c.1 ≠ .playState → c.1 ≠ .timing → c.1 ≠ .name → firstFour r t = some c) := by
  have hf := has_false r c.1 hn
  cases hw with
  | duration d => simp_all [firstFour, pDuration]
  | delay d =>
    have := (has_iff r _).2 (hd rfl)
    simp_all [firstFour, pDuration]
  | normal => simp_all [firstFour, pDuration, pDirection, directions]
  | reverse => simp_all [firstFour, pDuration, pDirection, directions, List.lookup]
  | alternate => simp_all [firstFour, pDuration, pDirection, directions, List.lookup]
  | alternateReverse => simp_all [firstFour, pDuration, pDirection, directions, List.lookup]
  | none => simp_all [firstFour, pDuration, pDirection, directions, fills, pFill, List.lookup]
  | forwards => simp_all [firstFour, pDuration, pDirection, directions, fills, pFill, List.lookup]
  | backwards => simp_all [firstFour, pDuration, pDirection, directions, fills, pFill, List.lookup]
  | both => simp_all [firstFour, pDuration, pDirection, directions, fills, pFill, List.lookup]
  | infinite => simp_all [firstFour, pDuration, pDirection, directions, fills, pFill, pCount, List.lookup]
  | count n => simp_all [firstFour, pDuration, pDirection, pFill, pCount]
  | running =>
    simp_all [firstFour, pDuration, pDirection, directions, fills, pFill, pCount, pPlay, playStates, List.lookup]
  | paused =>
    simp_all [firstFour, pDuration, pDirection, directions, fills, pFill, pCount, pPlay, playStates, List.lookup]
  | easing s h =>
    simp only [List.mem_cons, List.not_mem_nil, or_false] at h
    rcases h with rfl | rfl | rfl | rfl | rfl | rfl | rfl <;>
    simp_all [firstFour, pDuration, pDirection, directions, fills, pFill, pCount, pPlay, playStates, lastTwo,
      pEasing, easings, List.lookup]
  | function i => simp_all [firstFour, pDuration, pDirection, pFill, pCount, pPlay, lastTwo, pEasing]
  | name s h =>
    obtain ⟨h1, h2, h3, h4, h5⟩ := no_keyword s h
    simp only at hf
    simp [firstFour, pDuration, pDirection, pFill, pCount, pPlay, lastTwo, pEasing, pName, -List.lookup_eq_none_iff,
      h1, h2, h3, h4, h5, hf]
  | quoted s => simp_all [firstFour, pDuration, pDirection, pFill, pCount, pPlay, lastTwo, pEasing, pName]

theorem not_mem_of_nodup (r : List (AId × Value)) (c : AId × Value) (cs : List (AId × Value))
    (h : ((r ++ c :: cs).map Prod.fst).Nodup) : c.1 ∉ r.map Prod.fst := by
  rw [List.map_append, List.nodup_append] at h
  intro hc
  exact h.2.2 _ hc _ (by simp) rfl

theorem loop_spec (cs : List (AId × Value)) : ∀ (r : List (AId × Value)) (ts : List Tok),
    List.Forall₂ Writes cs ts → WellFormed AId.duration AId.delay (r ++ cs) → PlayStateOk (r ++ cs) →
    loop r ts = (r ++ cs, []) := by
  induction hlen : cs.length using Nat.strong_induction_on generalizing cs with
  | _ n ih =>
    intro r ts hw hwf hp
    cases hw with
    | nil => simp [loop]
    | @cons c t cs ts hc hcs =>
      obtain ⟨s1, s2, s3⟩ := step_spec r c t hc (not_mem_of_nodup r c cs hwf.1) (by
        intro hd
        obtain ⟨c1, c2⟩ := c
        simp only at hd
        subst hd
        exact hwf.2 r c2 cs rfl)
      have hrw : r ++ c :: cs = (r ++ [c]) ++ cs := by simp
      have go : loop (r ++ [c]) ts = (r ++ c :: cs, []) := by
        rw [hrw]
        exact ih cs.length (by simp at hlen; omega) cs rfl (r ++ [c]) ts hcs (hrw ▸ hwf) (hrw ▸ hp)
      by_cases h1 : c.1 = .playState
      · obtain ⟨hf, b, hb, hv⟩ := s1 h1
        have hh : has r .playState = false := h1 ▸ has_false r c.1 (not_mem_of_nodup r c cs hwf.1)
        have hceq : c = (.playState, .playState b) := by rw [← hv, ← h1]
        rw [loop.eq_def]
        simp only [hf, hh, hb, Option.isSome_some, Bool.not_false, Bool.and_self, ↓reduceIte, Option.getD_some]
        cases hcs with
        | nil => simp [hceq]
        | @cons c' t' cs' ts' hc' hcs' =>
          have hk : c'.1 = .timing ∨ c'.1 = .name := by
            apply hp r (.playState b) c' cs'
            rw [hceq]
          obtain ⟨q1, q2, q3⟩ := step_spec (r ++ [c]) c' t' hc'
            (not_mem_of_nodup (r ++ [c]) c' cs' (hrw ▸ hwf.1)) (by
              intro hd; rw [hd] at hk; simp at hk)
          obtain ⟨_, _, hl⟩ := q2 hk
          rw [hceq] at hl
          simp only [hl]
          have hrw2 : r ++ c :: c' :: cs' = (r ++ [c] ++ [c']) ++ cs' := by simp
          rw [hrw2, ← hceq]
          exact ih cs'.length (by simp at hlen; omega) cs' rfl _ ts' hcs' (hrw2 ▸ hwf) (hrw2 ▸ hp)
      · by_cases h2 : c.1 = .timing ∨ c.1 = .name
        · obtain ⟨hf, hpl, hl⟩ := s2 h2
          rw [loop.eq_def]
          simp only [hf, hpl, hl, Option.isSome_none, Bool.and_false, Bool.false_eq_true, ↓reduceIte]
          exact go
        · push Not at h2
          have hf := s3 h1 h2.1 h2.2
          rw [loop.eq_def]
          simp only [hf]
          exact go

theorem tstep_spec (r : List (TId × Value)) (c : TId × Value) (t : Tok) (hw : TWrites c t)
    (hn : c.1 ∉ r.map Prod.fst) (hd : c.1 = .delay → TId.duration ∈ r.map Prod.fst) : tOne r t = some c := by
  have hf := has_false r c.1 hn
  cases hw with
  | duration d => simp_all [tOne, pDuration]
  | delay d =>
    have := (has_iff r _).2 (hd rfl)
    simp_all [tOne, pDuration]
  | easing s h =>
    simp only [List.mem_cons, List.not_mem_nil, or_false] at h
    rcases h with rfl | rfl | rfl | rfl | rfl | rfl | rfl <;>
    simp_all [tOne, pDuration, pEasing, easings, List.lookup]
  | function i => simp_all [tOne, pDuration, pEasing]
  | property s h =>
    have h5 : easings.lookup s = none := lookup_none _ _ (by simpa [easings] using h)
    simp only at hf
    simp [tOne, pDuration, pEasing, pProperty, -List.lookup_eq_none_iff, h5, hf]

theorem tLoop_spec (cs : List (TId × Value)) (r : List (TId × Value)) (ts : List Tok)
    (hw : List.Forall₂ TWrites cs ts) (hwf : WellFormed TId.duration TId.delay (r ++ cs)) :
    tLoop r ts = (r ++ cs, []) := by
  induction hw generalizing r with
  | nil => simp [tLoop]
  | @cons c t cs ts hc hcs ih =>
    have hrw : r ++ c :: cs = (r ++ [c]) ++ cs := by simp
    have hn : c.1 ∉ r.map Prod.fst := by
      have h := hwf.1
      rw [List.map_append, List.nodup_append] at h
      intro hc
      exact h.2.2 _ hc _ (by simp) rfl
    rw [tLoop, tstep_spec r c t hc hn (by
        intro hd
        obtain ⟨c1, c2⟩ := c
        simp only at hd
        subst hd
        exact hwf.2 r c2 cs rfl)]
    simp only
    rw [hrw]
    exact ih (r ++ [c]) (hrw ▸ hwf)

theorem lookup_mem {β : Type} (l : List (String × β)) (s : String) (v : β) (h : l.lookup s = some v) :
    (s, v) ∈ l := by
  induction l with
  | nil => simp at h
  | cons x l ih =>
    rw [List.lookup_cons] at h
    split at h
    · rename_i he
      cases h
      have : s = x.1 := by simpa using he
      subst this
      exact List.mem_cons_self
    · exact List.mem_cons_of_mem _ (ih h)

theorem pEasing_spec {t : Tok} {e : Easing} (h : pEasing t = some e) :
    Writes (.timing, .timing e) t ∧ TWrites (.timing, .timing e) t := by
  cases t with
  | ident s =>
    have h := lookup_mem _ _ _ h
    simp only [easings, List.map_cons, List.map_nil, List.mem_cons, Prod.mk.injEq, List.not_mem_nil, or_false] at h
    rcases h with ⟨rfl, rfl⟩ | ⟨rfl, rfl⟩ | ⟨rfl, rfl⟩ | ⟨rfl, rfl⟩ | ⟨rfl, rfl⟩ | ⟨rfl, rfl⟩ | ⟨rfl, rfl⟩ <;>
      exact ⟨.easing _ (by simp), .easing _ (by simp)⟩
  | easing i => cases h; exact ⟨.function i, .function i⟩
  | _ => simp [pEasing] at h

theorem pName_spec {t : Tok} {n : String} (h : pName t = some n) : WritesLate (.name, .name n) t := by
  cases t with
  | ident s => cases h; exact .inr ⟨_, rfl, rfl⟩
  | quoted s => cases h; exact .inl (.quoted _)
  | _ => simp [pName] at h

theorem pDuration_spec {t : Tok} {d : Nat} (h : pDuration t = some d) : t = .time d := by
  cases t <;> simp [pDuration] at h
  rw [h]

theorem pDirection_spec {t : Tok} {d : Flair.Animation.Direction} (h : pDirection t = some d) :
    Writes (.direction, .direction d) t := by
  cases t with
  | ident s =>
    have h := lookup_mem _ _ _ h
    simp only [directions, List.mem_cons, Prod.mk.injEq, List.not_mem_nil, or_false] at h
    rcases h with ⟨rfl, rfl⟩ | ⟨rfl, rfl⟩ | ⟨rfl, rfl⟩ | ⟨rfl, rfl⟩ <;> constructor
  | _ => simp [pDirection] at h

theorem pFill_spec {t : Tok} {d : Flair.Animation.Fill} (h : pFill t = some d) :
    Writes (.fillMode, .fillMode d) t := by
  cases t with
  | ident s =>
    have h := lookup_mem _ _ _ h
    simp only [fills, List.mem_cons, Prod.mk.injEq, List.not_mem_nil, or_false] at h
    rcases h with ⟨rfl, rfl⟩ | ⟨rfl, rfl⟩ | ⟨rfl, rfl⟩ | ⟨rfl, rfl⟩ <;> constructor
  | _ => simp [pFill] at h

theorem pCount_spec {t : Tok} {d : Option Nat} (h : pCount t = some d) :
    Writes (.iterationCount, .iterationCount d) t := by
  cases t with
  | ident s =>
    simp only [pCount, Option.ite_none_right_eq_some] at h
    obtain ⟨rfl, h⟩ := h
    cases h; exact .infinite
  | number n => cases h; exact .count n
  | _ => simp [pCount] at h

theorem pPlay_spec {t : Tok} {d : Bool} (h : pPlay t = some d) : Writes (.playState, .playState d) t := by
  cases t with
  | ident s =>
    have h := lookup_mem _ _ _ h
    simp only [playStates, List.mem_cons, Prod.mk.injEq, List.not_mem_nil, or_false] at h
    rcases h with ⟨rfl, rfl⟩ | ⟨rfl, rfl⟩ <;> constructor
  | _ => simp [pPlay] at h

theorem notHas {P : Type} [DecidableEq P] {r : List (P × Value)} {p : P} (h : (!has r p) = true) :
    p ∉ r.map Prod.fst := by
  rw [Bool.not_eq_true', ← Bool.not_eq_true, has_iff] at h; exact h

theorem lastTwo_back {r : List (AId × Value)} {t : Tok} {c : AId × Value} (h : lastTwo r t = some c) :
    WritesLate c t ∧ c.1 ∉ r.map Prod.fst ∧ c.1 ≠ .delay := by
  unfold lastTwo at h
  split at h
  · rename_i hc
    obtain ⟨e, he, rfl⟩ := Option.map_eq_some_iff.mp h
    exact ⟨.inl (pEasing_spec he).1, notHas (by simp at hc; simp [hc.1]), by simp⟩
  · split at h
    · rename_i hc
      obtain ⟨e, he, rfl⟩ := Option.map_eq_some_iff.mp h
      exact ⟨pName_spec he, notHas (by simp at hc; simp [hc.1]), by simp⟩
    · simp at h

theorem firstFour_back {r : List (AId × Value)} {t : Tok} {c : AId × Value} (h : firstFour r t = some c) :
    WritesLate c t ∧ c.1 ∉ r.map Prod.fst ∧ (c.1 = .delay → AId.duration ∈ r.map Prod.fst) := by
  unfold firstFour at h
  split at h
  · rename_i hc
    obtain ⟨e, he, rfl⟩ := Option.map_eq_some_iff.mp h
    rw [pDuration_spec he]
    exact ⟨.inl (.duration e), notHas (by simp at hc; simp [hc.1]), by simp⟩
  · split at h
    · rename_i hc
      obtain ⟨e, he, rfl⟩ := Option.map_eq_some_iff.mp h
      rw [pDuration_spec he]
      simp only [Bool.and_eq_true] at hc
      exact ⟨.inl (.delay e), notHas hc.1.2, fun _ => (has_iff r _).mp hc.1.1⟩
    · split at h
      · rename_i hc
        obtain ⟨e, he, rfl⟩ := Option.map_eq_some_iff.mp h
        exact ⟨.inl (pDirection_spec he), notHas (by simp at hc; simp [hc.1]), by simp⟩
      · split at h
        · rename_i hc
          obtain ⟨e, he, rfl⟩ := Option.map_eq_some_iff.mp h
          exact ⟨.inl (pFill_spec he), notHas (by simp at hc; simp [hc.1]), by simp⟩
        · split at h
          · rename_i hc
            obtain ⟨e, he, rfl⟩ := Option.map_eq_some_iff.mp h
            exact ⟨.inl (pCount_spec he), notHas (by simp at hc; simp [hc.1]), by simp⟩
          · simp at h

theorem wf_snoc {P : Type} {du de : P} {r : List (P × Value)} {c : P × Value} (hr : WellFormed du de r)
    (h1 : c.1 ∉ r.map Prod.fst) (h2 : c.1 = de → du ∈ r.map Prod.fst) : WellFormed du de (r ++ [c]) := by
  refine ⟨?_, ?_⟩
  · rw [List.map_append, List.nodup_append]
    refine ⟨hr.1, by simp, ?_⟩
    rintro a ha b hb rfl
    simp only [List.map_cons, List.map_nil, List.mem_singleton] at hb
    subst hb
    exact h1 ha
  · intro before v after he
    rcases List.eq_nil_or_concat after with rfl | ⟨a', x, rfl⟩
    · obtain ⟨e1, e2⟩ := List.append_inj' he rfl
      cases e2
      subst e1
      exact h2 rfl
    · rw [List.concat_eq_append, ← List.cons_append, ← List.append_assoc] at he
      obtain ⟨e1, _⟩ := List.append_inj' he rfl
      exact hr.2 before v a' e1

theorem loop_back (n : Nat) : ∀ (ts : List Tok) (r : List (AId × Value)), ts.length = n →
    WellFormed AId.duration AId.delay r → (loop r ts).2 = [] →
    ∃ cs, (loop r ts).1 = r ++ cs ∧ List.Forall₂ WritesLate cs ts ∧ WellFormed AId.duration AId.delay (r ++ cs) := by
  induction n using Nat.strong_induction_on with
  | _ n ih =>
    intro ts r hlen hwf h
    match ts, hlen with
    | [], _ => exact ⟨[], by simp [loop], .nil, by simpa using hwf⟩
    | t :: ts, hlen =>
      have go : ∀ (c : AId × Value), WritesLate c t → WellFormed AId.duration AId.delay (r ++ [c]) →
          (loop (r ++ [c]) ts).2 = [] → ∃ cs, (loop (r ++ [c]) ts).1 = r ++ cs ∧
          List.Forall₂ WritesLate cs (t :: ts) ∧ WellFormed AId.duration AId.delay (r ++ cs) := by
        intro c hc hw h
        obtain ⟨cs, h1, h2, h3⟩ := ih ts.length (by simp at hlen; omega) ts (r ++ [c]) rfl hw h
        exact ⟨c :: cs, by simp [h1], .cons hc h2, by simpa using h3⟩
      rw [loop.eq_def] at h ⊢
      simp only at h ⊢
      cases hf : firstFour r t with
      | some c =>
        rw [hf] at h
        simp only at h ⊢
        obtain ⟨a1, a2, a3⟩ := firstFour_back hf
        exact go c a1 (wf_snoc hwf a2 a3) h
      | none =>
        rw [hf] at h
        simp only at h ⊢
        by_cases hp : (!has r .playState && (pPlay t).isSome) = true
        · rw [if_pos hp] at h ⊢
          simp only [Bool.and_eq_true] at hp
          obtain ⟨b, hb⟩ := Option.isSome_iff_exists.mp hp.2
          rw [hb] at h ⊢
          simp only [Option.getD_some] at h ⊢
          have hw1 : WellFormed AId.duration AId.delay (r ++ [(.playState, .playState b)]) :=
            wf_snoc hwf (notHas hp.1) (by simp)
          match ts, hlen with
          | [], _ => exact ⟨[(.playState, .playState b)], rfl, .cons (.inl (pPlay_spec hb)) .nil, hw1⟩
          | t' :: ts', hlen =>
            simp only at h ⊢
            cases hl : lastTwo (r ++ [(AId.playState, AnimProps.Val.playState b)]) t' with
            | none => rw [hl] at h; simp at h
            | some c =>
              rw [hl] at h
              simp only at h ⊢
              obtain ⟨a1, a2, a3⟩ := lastTwo_back hl
              obtain ⟨cs, h1, h2, h3⟩ := ih ts'.length (by simp at hlen; omega) ts' _ rfl
                (wf_snoc hw1 a2 (fun h => absurd h a3)) h
              exact ⟨(.playState, .playState b) :: c :: cs, by rw [h1]; simp,
                .cons (.inl (pPlay_spec hb)) (.cons a1 h2), by simpa using h3⟩
        · rw [if_neg hp] at h ⊢
          cases hl : lastTwo r t with
          | none => rw [hl] at h; simp at h
          | some c =>
            rw [hl] at h
            simp only at h ⊢
            obtain ⟨a1, a2, a3⟩ := lastTwo_back hl
            exact go c a1 (wf_snoc hwf a2 (fun h => absurd h a3)) h

theorem tOne_back {r : List (TId × Value)} {t : Tok} {c : TId × Value} (h : tOne r t = some c) :
    TWritesLate c t ∧ c.1 ∉ r.map Prod.fst ∧ (c.1 = .delay → TId.duration ∈ r.map Prod.fst) := by
  unfold tOne at h
  split at h
  · rename_i hc
    obtain ⟨e, he, rfl⟩ := Option.map_eq_some_iff.mp h
    rw [pDuration_spec he]
    exact ⟨.inl (.duration e), notHas (by simp at hc; simp [hc.1]), by simp⟩
  · split at h
    · rename_i hc
      obtain ⟨e, he, rfl⟩ := Option.map_eq_some_iff.mp h
      rw [pDuration_spec he]
      simp only [Bool.and_eq_true] at hc
      exact ⟨.inl (.delay e), notHas hc.1.2, fun _ => (has_iff r _).mp hc.1.1⟩
    · split at h
      · rename_i hc
        obtain ⟨e, he, rfl⟩ := Option.map_eq_some_iff.mp h
        exact ⟨.inl (pEasing_spec he).2, notHas (by simp at hc; simp [hc.1]), by simp⟩
      · split at h
        · rename_i hc
          obtain ⟨e, he, rfl⟩ := Option.map_eq_some_iff.mp h
          refine ⟨.inr ⟨e, rfl, ?_⟩, notHas (by simp at hc; simp [hc.1]), by simp⟩
          cases t <;> simp [pProperty] at he
          rw [he]
        · simp at h

theorem tLoop_back (ts : List Tok) : ∀ (r : List (TId × Value)), WellFormed TId.duration TId.delay r →
    (tLoop r ts).2 = [] → ∃ cs, (tLoop r ts).1 = r ++ cs ∧ List.Forall₂ TWritesLate cs ts ∧
      WellFormed TId.duration TId.delay (r ++ cs) := by
  induction ts with
  | nil => intro r hwf _; exact ⟨[], by simp [tLoop], .nil, by simpa using hwf⟩
  | cons t ts ih =>
    intro r hwf h
    rw [tLoop] at h ⊢
    cases ho : tOne r t with
    | none => rw [ho] at h; simp at h
    | some c =>
      rw [ho] at h
      simp only at h ⊢
      obtain ⟨a1, a2, a3⟩ := tOne_back ho
      obtain ⟨cs, h1, h2, h3⟩ := ih (r ++ [c]) (wf_snoc hwf a2 a3) h
      exact ⟨c :: cs, by simp [h1], .cons a1 h2, by simpa using h3⟩

end Flair.AnimShorthand

namespace Flair.Props
open Flair.AnimShorthand Flair.AnimProps Flair.Spec

/-- **C62** for `transition`: whatever the order of the components, the tokens that write them parse to
them. -/
theorem C62_transition (cs : List (TId × Value)) (ts : List Tok) (hw : List.Forall₂ TWrites cs ts)
    (hwf : WellFormed TId.duration TId.delay cs) : tParseOne ts = some cs := by
  have := tLoop_spec cs [] ts hw (by simpa using hwf)
  simp [tParseOne, this]

/-- `transition: ease 1s width 2s` -/
example : tParseOne [.ident "ease", .time 1, .ident "width", .time 2] =
    some [(.timing, .timing (.keyword "ease")), (.duration, .duration 1), (.property, .name "width"),
      (.delay, .duration 2)] := by
  apply C62_transition
  · exact .cons (.easing "ease" (by decide)) (.cons (.duration 1) (.cons (.property "width" (by decide))
      (.cons (.delay 2) .nil)))
  · refine ⟨by decide, ?_⟩
    intro b v a h
    rcases b with _ | ⟨x, _ | ⟨y, _ | ⟨z, b⟩⟩⟩ <;> simp at h
    obtain ⟨-, rfl, -⟩ := h; simp

/-- **C62** for `animation`, as far as it holds: the tokens of a well formed list of components, in any
order, parse to these components, provided that a play state is followed by a timing function, the name or
nothing.  Missing: the other orders, see `C62_rejected` and `C62_misread`. -/
theorem C62_animation_partial (cs : List (AId × Value)) (ts : List Tok) (hw : List.Forall₂ Writes cs ts)
    (hwf : WellFormed AId.duration AId.delay cs) (hp : PlayStateOk cs) : parseOne ts = some cs := by
  have := loop_spec cs [] ts hw (by simpa using hwf) (by simpa using hp)
  simp [parseOne, this]

/-- **C62** for a list of animations. -/
theorem C62_animations_partial (css : List (List (AId × Value))) (tss : List (List Tok))
    (h : List.Forall₂ (fun cs ts => List.Forall₂ Writes cs ts ∧ WellFormed AId.duration AId.delay cs ∧
      PlayStateOk cs) css tss) : parseAnimation tss = some css := by
  unfold parseAnimation
  induction h with
  | nil => rfl
  | cons h _ ih => rw [List.mapM_cons, C62_animation_partial _ _ h.1 h.2.1 h.2.2, ih]; rfl

/-- `animation: infinite 1s slide 2s alternate paused` -/
example : parseOne [.ident "infinite", .time 1, .ident "slide", .time 2, .ident "alternate", .ident "paused"] =
    some [(.iterationCount, .iterationCount none), (.duration, .duration 1), (.name, .name "slide"),
      (.delay, .duration 2), (.direction, .direction .alternate), (.playState, .playState true)] := by
  apply C62_animation_partial
  · exact .cons .infinite (.cons (.duration 1) (.cons (.name "slide" (by decide)) (.cons (.delay 2)
      (.cons .alternate (.cons .paused .nil)))))
  · refine ⟨by decide, ?_⟩
    intro b v a h
    rcases b with _ | ⟨x, _ | ⟨y, _ | ⟨z, _ | ⟨w, _ | ⟨u, _ | ⟨t, b⟩⟩⟩⟩⟩⟩ <;> simp at h
    obtain ⟨-, rfl, -⟩ := h; simp
  · intro b v c a h
    rcases b with _ | ⟨x, _ | ⟨y, _ | ⟨z, _ | ⟨w, _ | ⟨u, _ | ⟨t, b⟩⟩⟩⟩⟩⟩ <;> simp at h

/-- The full C62 does not hold: a well formed `animation: slide paused 1s` is rejected. -/
theorem C62_rejected : ∃ (cs : List (AId × Value)) (ts : List Tok), List.Forall₂ Writes cs ts ∧
    WellFormed AId.duration AId.delay cs ∧ parseOne ts = none := by
  refine ⟨[(.name, .name "slide"), (.playState, .playState true), (.duration, .duration 1)],
    [.ident "slide", .ident "paused", .time 1],
    .cons (.name "slide" (by decide)) (.cons .paused (.cons (.duration 1) .nil)), ⟨by decide, ?_⟩, by decide⟩
  intro b v a h
  rcases b with _ | ⟨x, _ | ⟨y, _ | ⟨z, b⟩⟩⟩ <;> simp at h

/-- ... and `animation: paused alternate 1s` runs an animation called "alternate". -/
theorem C62_misread : ∃ (cs : List (AId × Value)) (ts : List Tok), List.Forall₂ Writes cs ts ∧
    WellFormed AId.duration AId.delay cs ∧ (parseOne ts).any (fun r => r.any (fun c => c.1 = .name)) ∧
    ∀ c ∈ cs, c.1 ≠ .name := by
  refine ⟨[(.playState, .playState true), (.direction, .direction .alternate), (.duration, .duration 1)],
    [.ident "paused", .ident "alternate", .time 1],
    .cons .paused (.cons .alternate (.cons (.duration 1) .nil)), ⟨by decide, ?_⟩, by decide, by simp⟩
  intro b v a h
  rcases b with _ | ⟨x, _ | ⟨y, _ | ⟨z, b⟩⟩⟩ <;> simp at h

/-- **C62**, conversely: whatever is accepted as an animation is a well formed list of components, each written
by its token (only a name can be a keyword). -/
theorem C62_animation_only (ts : List Tok) (cs : List (AId × Value)) (h : parseOne ts = some cs) :
    List.Forall₂ WritesLate cs ts ∧ WellFormed AId.duration AId.delay cs := by
  unfold parseOne at h
  split at h
  · rename_i h0
    cases h
    obtain ⟨cs, h1, h2, h3⟩ := loop_back _ ts [] rfl ⟨by simp, by simp⟩ h0
    rw [h1]
    exact ⟨h2, h3⟩
  · simp at h

/-- **C62**, conversely, for a transition. -/
theorem C62_transition_only (ts : List Tok) (cs : List (TId × Value)) (h : tParseOne ts = some cs) :
    List.Forall₂ TWritesLate cs ts ∧ WellFormed TId.duration TId.delay cs := by
  unfold tParseOne at h
  split at h
  · rename_i h0
    cases h
    obtain ⟨cs, h1, h2, h3⟩ := tLoop_back ts [] ⟨by simp, by simp⟩ h0
    rw [h1]
    exact ⟨h2, h3⟩
  · simp at h

/-- So two names, or three times, are rejected. -/
example : parseOne [.ident "slide", .ident "fade"] = none ∧ parseOne [.time 1, .time 2, .time 3] = none ∧
    tParseOne [.time 1, .time 2, .time 3] = none := by decide

end Flair.Props
