import Verif.Spec.MediaChange
import Verif.Tactics
/-!
# Media conditions follow the window (C78)
-/
namespace Flair.Props
open Flair.Media Flair.MediaChange Flair.Spec

variable {E C W I : Type}

/-! ## What was read decides the result -/

/-- Two views that agree on the features of the flags. -/
private def Agree (f : Flags) (s t : Seen) : Prop := (f.window = true → s.scheme = t.scheme) ∧ (f.info = true → s.info = t.info)

private theorem agree_union {f g : Flags} {s t : Seen} (h : Agree (f.union g) s t) : Agree f s t ∧ Agree g s t := by
  obtain ⟨h1, h2⟩ := h
  refine ⟨⟨fun h => h1 ?_, fun h => h2 ?_⟩, ⟨fun h => h1 ?_, fun h => h2 ?_⟩⟩ <;> simp [Flags.union, h]

private theorem matches_agree {m : Selector} {s t : Seen} (h : Agree (flagOf m) s t) : selectorMatches s m = selectorMatches t m := by
  cases m with
  | colorScheme c => simp only [selectorMatches, h.1 rfl]
  | _ => simp only [selectorMatches, h.2 rfl]

private theorem allHold_agree {ms : List Selector} {s t : Seen} (h : Agree (allHold s ms).2 s t) : allHold t ms = allHold s ms := by
  induction ms with
  | nil => rfl
  | cons m ms ih =>
    rw [allHold] at h ⊢
    rw [allHold.eq_def s]
    dsimp only
    split at h
    · rename_i hm
      obtain ⟨h1, h2⟩ := agree_union h
      rw [← matches_agree h1, if_pos hm, if_pos hm, ih h2]
    · rename_i hm
      rw [← matches_agree h, if_neg hm, if_neg hm]

private theorem activeRules_agree {rs : List (List Selector × I)} {s t : Seen} (h : Agree (activeRules s rs).2 s t) :
    activeRules t rs = activeRules s rs := by
  induction rs with
  | nil => rfl
  | cons r rs ih =>
    obtain ⟨ms, i⟩ := r
    rw [activeRules] at h
    obtain ⟨h1, h2⟩ := agree_union h
    rw [activeRules, activeRules, allHold_agree h1, ih h2]

/-! ## The result is what the conditions say -/

private theorem inBounds_iff {α : Type} [DecidableEq α] [LE α] [DecidableLE α] (r : Range α) (v : α) : r.matches v = true ↔ InBounds r v := by
  cases r <;> simp [Range.matches, InBounds]

private theorem holds_iff (s : Seen) (m : Selector) : (selectorMatches s m).getD false = true ↔ HoldsFor s.scheme s.info m := by
  obtain ⟨sc, inf⟩ := s
  cases m with
  | colorScheme c =>
    cases sc with
    | none => simp [selectorMatches, HoldsFor]
    | some x => simp only [selectorMatches, HoldsFor, Option.map_some, Option.getD_some, beq_iff_eq, Option.some.injEq]; exact eq_comm
  | viewportWidth r => cases inf <;> simp [selectorMatches, HoldsFor, inBounds_iff, toU32]
  | viewportHeight r => cases inf <;> simp [selectorMatches, HoldsFor, inBounds_iff, toU32]
  | resolution r => cases inf <;> simp [selectorMatches, HoldsFor, inBounds_iff]
  | aspectRatio r =>
    cases inf with
    | none => simp [selectorMatches, HoldsFor]
    | some i =>
      simp only [selectorMatches, HoldsFor, Option.map_some, Option.getD_some, Option.some.injEq, exists_eq_left', quotient]
      by_cases hy : i.y = 0
      · by_cases hx : i.x = 0
        · simp [hy, hx, Range.matchesRatio]
        · cases r <;> simp [hy, hx, Range.matchesRatio]
      · simp [hy, Range.matchesRatio, inBounds_iff]

private theorem allHold_iff (s : Seen) (ms : List Selector) : (allHold s ms).1 = true ↔ ∀ m ∈ ms, HoldsFor s.scheme s.info m := by
  induction ms with
  | nil => simp [allHold]
  | cons m ms ih =>
    rw [allHold]
    split
    · rename_i h; rw [holds_iff] at h; simp [h, ih]
    · rename_i h; rw [holds_iff] at h; simp [h]

private theorem activeRules_filter (s : Seen) (rs : List (List Selector × I)) :
    (activeRules s rs).1 = (rs.filter fun r => (allHold s r.1).1).map (·.2) := by
  induction rs with
  | nil => rfl
  | cons r rs ih =>
    obtain ⟨ms, i⟩ := r
    rw [activeRules]
    by_cases h : (allHold s ms).1 = true <;> simp [h, ih]

/-! ## Histories -/

private structure Inv (st : St E C W I) : Prop where
  features : ∀ w, st.windowChanged w = false → st.features w = some (st.theme w)
  node : ∀ e, st.marked e = false → ∃ s : Seen, st.active e = (activeRules s (st.rules e)).1 ∧
    Agree (activeRules s (st.rules e)).2 s ⟨st.scheme e, s.info⟩ ∧
    (st.infoChanged e = false → Agree (activeRules s (st.rules e)).2 s ⟨s.scheme, st.info e⟩) ∧
    (∀ g : Flags, (activeRules s (st.rules e)).2 = g → (g.window = true → (st.flags e).window = true) ∧ (g.info = true → (st.flags e).info = true))

private theorem inv_start (theme : W → Option Scheme) (target : C → Option W) (camera : E → Option (Option C)) (info : E → Option Info)
    (rules : E → List (List Selector × I)) : Inv (start theme target camera info rules) where
  features w h := by cases h
  node e h := by cases h

private theorem inv_frame {st : St E C W I} (h : Inv st) (loaded : E → Bool) :
    Inv (frame loaded st) ∧ ∀ e, loaded e = true → UpToDate (frame loaded st) e := by
  have hfeat : ∀ w, newFeatures st w = some (st.theme w) := by
    intro w
    unfold newFeatures
    split
    · rfl
    · rename_i hn
      cases hc : st.windowChanged w with
      | false => exact h.features w hc
      | true =>
        rw [hc] at hn
        simp only [Bool.true_and, decide_eq_true_eq, ne_eq, not_not] at hn
        exact hn.symm
  have hunchanged : ∀ w, featuresChanged st w = false → newFeatures st w = st.features w := by
    intro w hw
    unfold newFeatures
    rw [if_neg]
    intro hc
    unfold featuresChanged at hw
    simp_all
  have hnode : ∀ e, (prepare st).marked e = false →
      st.active e = (activeRules ((prepare st).seen e) (st.rules e)).1 ∧
      (((activeRules ((prepare st).seen e) (st.rules e)).2.window = true → (st.flags e).window = true) ∧
       ((activeRules ((prepare st).seen e) (st.rules e)).2.info = true → (st.flags e).info = true)) := by
    intro e he
    simp only [prepare, Bool.or_eq_false_iff] at he
    obtain ⟨⟨hm, hi⟩, hw⟩ := he
    obtain ⟨s, ha, h1, h2, h3⟩ := h.node e hm
    obtain ⟨h3w, h3i⟩ := h3 _ rfl
    have key : activeRules ((prepare st).seen e) (st.rules e) = activeRules s (st.rules e) := by
      refine activeRules_agree ⟨fun hf => ?_, fun hf => ?_⟩
      · have e1 : s.scheme = st.scheme e := h1.1 hf
        rw [e1]
        show st.scheme e = (prepare st).scheme e
        unfold St.scheme
        show _ = (st.camera e).bind fun c => c.bind fun c => (st.target c).bind fun w => (newFeatures st w).bind fun f => f
        cases hc : st.camera e with
        | none => rfl
        | some oc =>
          cases oc with
          | none => rfl
          | some c =>
            cases ht : st.target c with
            | none => simp [ht]
            | some w =>
              have : featuresChanged st w = false := by
                simpa [marksWindow, hc, ht, h3w hf] using hw
              simp [ht, hunchanged w this]
      · have hic : st.infoChanged e = false := by simpa [marksInfo, h3i hf] using hi
        exact (h2 hic).2 hf
    rw [key]
    exact ⟨ha, h3w, h3i⟩
  have hscheme : ∀ e, SchemeOf (frame loaded st) e ((prepare st).scheme e) := by
    intro e
    show SchemeOf _ _ ((st.camera e).bind fun c => c.bind fun c => (st.target c).bind fun w => (newFeatures st w).bind fun f => f)
    cases hc : st.camera e with
    | none => exact .none fun c w hh => by have := hh.1; simp [frame, calculate, prepare, hc] at this
    | some oc =>
      cases oc with
      | none => exact .none fun c w hh => by have := hh.1; simp [frame, calculate, prepare, hc] at this
      | some c =>
        cases ht : st.target c with
        | none =>
          have : SchemeOf (frame loaded st) e none := .none fun c' w hh => by
            have h1 := hh.1
            have h2 := hh.2
            simp only [frame, calculate, prepare, hc, Option.some.injEq] at h1 h2
            subst h1
            rw [ht] at h2
            cases h2
          simpa [ht] using this
        | some w =>
          have : SchemeOf (frame loaded st) e (st.theme w) := .window (st := frame loaded st) (c := c) (w := w) hc ht
          simpa [ht, hfeat] using this
  have hup : ∀ e, (frame loaded st).active e = (activeRules ((prepare st).seen e) (st.rules e)).1 → UpToDate (frame loaded st) e := by
    intro e he
    refine ⟨_, hscheme e, fun r => (allHold ((prepare st).seen e) r.1).1, fun r => allHold_iff _ _, ?_⟩
    rw [he, activeRules_filter]
    rfl
  refine ⟨⟨fun w _ => hfeat w, ?_⟩, ?_⟩
  · intro e he
    refine ⟨(prepare st).seen e, ?_⟩
    have goal2 : Agree (activeRules ((prepare st).seen e) ((frame loaded st).rules e)).2 ((prepare st).seen e)
        ⟨(frame loaded st).scheme e, ((prepare st).seen e).info⟩ := ⟨fun _ => rfl, fun _ => rfl⟩
    have goal3 : (frame loaded st).infoChanged e = false → Agree (activeRules ((prepare st).seen e) ((frame loaded st).rules e)).2
        ((prepare st).seen e) ⟨((prepare st).seen e).scheme, (frame loaded st).info e⟩ := fun _ => ⟨fun _ => rfl, fun _ => rfl⟩
    by_cases hc : ((prepare st).marked e && loaded e) = true
    · refine ⟨by simp only [frame, calculate, hc, if_true], goal2, goal3, ?_⟩
      rintro g rfl
      simp only [frame, calculate, hc, if_true, Flags.union]
      constructor
      · intro hg
        have hg' : (activeRules ((prepare st).seen e) ((prepare st).rules e)).2.window = true := hg
        simp [hg']
      · intro hg
        have hg' : (activeRules ((prepare st).seen e) ((prepare st).rules e)).2.info = true := hg
        simp [hg']
    · have hm : (prepare st).marked e = false := by
        have he' : ((prepare st).marked e && !loaded e) = false := he
        cases h1 : (prepare st).marked e <;> cases h2 : loaded e <;> simp_all
      obtain ⟨ha, hw, hi⟩ := hnode e hm
      refine ⟨?_, goal2, goal3, ?_⟩
      · simp only [frame, calculate, hc]
        exact ha
      · rintro g rfl
        simp only [frame, calculate, hc]
        exact ⟨hw, hi⟩
  · intro e he
    apply hup
    by_cases hc : (prepare st).marked e = true
    · simp only [frame, calculate, hc, he, Bool.and_self, if_true]
      rfl
    · have hm : (prepare st).marked e = false := by simpa using hc
      simp only [frame, calculate, hm, Bool.false_and]
      exact (hnode e hm).1

variable [DecidableEq E] [DecidableEq C] [DecidableEq W]

private theorem inv_apply {st : St E C W I} (h : Inv st) {ev : Event E C W I} (hs : CamerasStay ev) : Inv (apply st ev) := by
  cases ev with
  | theme w s =>
    refine ⟨?_, h.node⟩
    intro v hv
    simp only [apply] at hv ⊢
    by_cases e : v = w
    · simp [e] at hv
    · simp only [e, if_false] at hv ⊢
      exact h.features v hv
  | info e i =>
    refine ⟨h.features, ?_⟩
    intro x hx
    obtain ⟨s, h1, h2, h3, h4⟩ := h.node x hx
    refine ⟨s, h1, h2, ?_, h4⟩
    intro hc
    simp only [apply] at hc ⊢
    by_cases e' : x = e
    · simp [e'] at hc
    · simp only [e', if_false] at hc ⊢
      exact h3 hc
  | rules e rs =>
    refine ⟨h.features, ?_⟩
    intro x hx
    simp only [apply] at hx
    by_cases e' : x = e
    · simp [e'] at hx
    · simp only [e', if_false] at hx
      obtain ⟨s, h1, h2, h3, h4⟩ := h.node x hx
      refine ⟨s, ?_⟩
      simp only [apply, e', if_false]
      exact ⟨h1, h2, h3, h4⟩
  | sheet e rs =>
    refine ⟨h.features, ?_⟩
    intro x hx
    simp only [apply] at hx
    by_cases e' : x = e
    · simp [e'] at hx
    · simp only [e', if_false] at hx
      obtain ⟨s, h1, h2, h3, h4⟩ := h.node x hx
      refine ⟨s, ?_⟩
      simp only [apply, e', if_false]
      exact ⟨h1, h2, h3, h4⟩
  | spawn e c i rs =>
    refine ⟨h.features, ?_⟩
    intro x hx
    simp only [apply] at hx
    by_cases e' : x = e
    · simp [e'] at hx
    · simp only [e', if_false] at hx
      obtain ⟨s, h1, h2, h3, h4⟩ := h.node x hx
      refine ⟨s, ?_⟩
      simp only [apply, St.scheme, e', if_false]
      exact ⟨h1, h2, h3, h4⟩
  | camera e c => exact hs.elim
  | target c w => exact hs.elim
  | frame loaded => exact (inv_frame h loaded).1

private theorem inv_run {st : St E C W I} (h : Inv st) {es : List (Event E C W I)} (hs : ∀ ev ∈ es, CamerasStay ev) : Inv (run st es) := by
  induction es generalizing st with
  | nil => exact h
  | cons ev es ih => exact ih (inv_apply h (hs ev (by simp))) fun e he => hs e (by simp [he])

/-- C78 (when cameras stay on their windows and nodes on their cameras): after every frame, the active rules of every node
with a loaded sheet are the matching ones whose media conditions hold now. -/
theorem C78_media_follow_partial (theme : W → Option Scheme) (target : C → Option W) (camera : E → Option (Option C))
    (info : E → Option Info) (rules : E → List (List Selector × I)) (es : List (Event E C W I)) (hs : ∀ ev ∈ es, CamerasStay ev)
    (loaded : E → Bool) (e : E) (he : loaded e = true) :
    UpToDate (run (start theme target camera info rules) (es ++ [.frame loaded])) e := by
  have hrun : ∀ (st : St E C W I), run st (es ++ [.frame loaded]) = frame loaded (run st es) := by
    clear hs
    induction es with
    | nil => intro st; rfl
    | cons ev es ih => intro st; exact ih _
  rw [hrun]
  exact (inv_frame (inv_run (inv_start ..) hs) loaded).2 e he

/-- C78: the whole property is false.  A node that gets its camera only after its first frame (or another one) keeps the
rules it had: here, the dark rules do not apply although the window is dark. -/
theorem C78_camera_later : ∃ (rs : List (List Selector × Nat)) (es : List (Event Unit Unit Unit Nat)),
    ¬ UpToDate (run (start (fun _ => some .dark) (fun _ => some ()) (fun _ => some none) (fun _ => none) fun _ => rs)
      (.frame (fun _ => true) :: es ++ [.frame fun _ => true])) () := by
  refine ⟨[([.colorScheme .dark], 7)], [.camera () (some (some ()))], ?_⟩
  rintro ⟨s, hs, keep, hk, ha⟩
  have hs' : s = some .dark := by
    cases hs with
    | window _ _ => rfl
    | none hn => exact absurd ⟨rfl, rfl⟩ (hn () ())
  subst hs'
  have h1 : keep ([.colorScheme .dark], 7) = true := (hk _).2 (by simp [HoldsFor])
  have h2 : ([] : List Nat) = ([([Selector.colorScheme .dark], 7)].filter keep).map (·.2) := ha
  simp [h1] at h2

omit [DecidableEq E] [DecidableEq C] [DecidableEq W] in
/-- C78: a node without these components (a `TextSpan`) never gets rules with a media condition. -/
theorem C78_no_target (st : St E C W I) (e : E) (hc : st.camera e = none) (hi : st.info e = none) (ms : List Selector) (i : I)
    (hm : ms ≠ []) (hr : st.rules e = [(ms, i)]) (hmark : st.marked e = true) (loaded : E → Bool) (hl : loaded e = true) :
    (frame loaded st).active e = [] := by
  have h1 : (prepare st).marked e = true := by simp [prepare, hmark]
  have h2 : (prepare st).seen e = ⟨none, none⟩ := by
    have hs : (prepare st).scheme e = none := by
      show (st.camera e).bind _ = none
      rw [hc]; rfl
    show (⟨(prepare st).scheme e, st.info e⟩ : Seen) = _
    rw [hs, hi]
  have h3 : (frame loaded st).active e = (activeRules ((prepare st).seen e) (st.rules e)).1 := by
    simp only [frame, calculate, h1, hl, Bool.and_self, if_true]; rfl
  rw [h3, h2, hr]
  cases ms with
  | nil => exact absurd rfl hm
  | cons m ms => cases m <;> rfl

/-- A window that turns dark after a frame, and a node with a rule for wide dark windows: the width was not looked at in
the first frame. -/
example : (run (start (E := Unit) (C := Unit) (W := Unit) (I := Nat) (fun _ => some .light) (fun _ => some ()) (fun _ => some (some ()))
      (fun _ => some ⟨1, 800, 600⟩) fun _ => [([.colorScheme .dark, .viewportWidth (.greaterOrEqual 500)], 7)])
    [.frame (fun _ => true), .theme () (some .dark), .frame (fun _ => true)]).active () = [7] ∧
    (run (start (E := Unit) (C := Unit) (W := Unit) (I := Nat) (fun _ => some .light) (fun _ => some ()) (fun _ => some (some ()))
      (fun _ => some ⟨1, 800, 600⟩) fun _ => [([.colorScheme .dark, .viewportWidth (.greaterOrEqual 500)], 7)])
    [.frame (fun _ => true), .info () ⟨1, 400, 600⟩, .frame (fun _ => true), .theme () (some .dark), .frame (fun _ => true)]).active () = [] := by
  constructor <;> decide +kernel

end Flair.Props
