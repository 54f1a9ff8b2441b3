import Verif.Proofs.VarStrict
import Verif.Model.Longhand
/-!
# The parsers of the longhands take no text with variables (for C89)
-/
namespace Flair.Proofs.VarDecl
open Flair.Shorthand Flair.Longhand Flair.Spec Flair.Proofs.Parse
open Flair.Calc (Res Ops)
open Flair.Values

variable {α β X K : Type}

theorem nv_manyLoop {p : P α} (hp : TakesNoVariable p) (n : Nat) : TakesNoVariable (manyLoop p n) := by
  induction n with
  | zero => exact nv_pure _
  | succ n ih =>
    refine nv_bind (nv_tryP hp) fun o => ?_
    cases o with
    | some v => exact nv_bind ih fun _ => nv_pure _
    | none => exact nv_pure _

theorem nv_loop {p : P α} (hp : TakesNoVariable p) : TakesNoVariable (loop p) :=
  fun _ _ _ h => nv_manyLoop hp _ _ _ _ h

theorem nv_many {p : P α} (hp : TakesNoVariable p) : TakesNoVariable (many p) :=
  nv_bind hp fun _ => nv_bind (nv_loop hp) fun _ => nv_pure _

theorem nv_noneOr {p : P α} (hp : TakesNoVariable p) (v : α) : TakesNoVariable (noneOr v p) := by
  refine nv_bind (nv_tryP (nv_ident _)) fun o => ?_
  cases o with
  | some _ => exact nv_pure _
  | none => exact hp

theorem nv_vec2P : TakesNoVariable (vec2P : P (RV X)) :=
  nv_noneOr (nv_bind nv_calcF32 fun _ => nv_bind (nv_tryP nv_calcF32) fun _ => nv_pure _) _

theorem nv_val2P : TakesNoVariable (val2P : P (RV X)) :=
  nv_noneOr (nv_bind nv_calcVal fun _ => nv_bind (nv_tryP nv_calcVal) fun _ => nv_pure _) _

theorem nv_rectP : TakesNoVariable (rectP : P (RV (LV K))) :=
  nv_noneOr (nv_bind nv_calcF32 fun _ => nv_bind nv_calcF32 fun _ => nv_bind nv_calcF32 fun _ => nv_bind nv_calcF32 fun _ =>
    nv_pure _) _

/-- Tokens that are no functions or blocks use no variable. -/
theorem simple_plain {t : Tok} (h : ∀ f args, t ≠ .func f args) (h' : ∀ ts, t ≠ .paren ts) : ¬ UsesVar t := by
  intro hu
  cases hu with
  | var _ => exact h _ _ rfl
  | env _ => exact h _ _ rfl
  | inFunction _ _ => exact h _ _ rfl
  | inParens _ _ => exact h' _ rfl

/-- A function of tokens that takes no functions and blocks. -/
theorem plainly_of {f : Tok → Option α} (h : ∀ g args, f (.func g args) = none) (h' : ∀ ts, f (.paren ts) = none) :
    Plainly f := by
  intro t a ha
  refine simple_plain ?_ ?_
  · rintro g args rfl; rw [h] at ha; cases ha
  · rintro ts rfl; rw [h'] at ha; cases ha

theorem plain_intTok {f : Int → Option α} : Plainly fun t => (intTok t).bind f := plainly_of (fun _ _ => rfl) fun _ => rfl

theorem nv_clipMarginP (boxes : String → Option String) : TakesNoVariable (clipMarginP boxes : P (RV (LV K))) := by
  refine nv_bind (nv_tryP nv_calcF32) fun o => ?_
  cases o with
  | some _ => exact nv_pure _
  | none => exact nv_bind (nv_tok1 (plainly_of (fun _ _ => rfl) fun _ => rfl)) fun _ => nv_bind nv_calcF32 fun _ => nv_pure _

theorem nv_aspectRatioP : TakesNoVariable (aspectRatioP : P (RV (LV K))) := by
  refine nv_bind (nv_tryP (nv_ident _)) fun o => ?_
  cases o with
  | some _ => exact nv_pure _
  | none => exact nv_bind nv_calcF32 fun _ => nv_bind (nv_tryP (nv_bind (nv_delim _) fun _ => nv_calcF32)) fun _ => nv_pure _

theorem nv_zIndexP : TakesNoVariable (zIndexP : P (RV (LV K))) :=
  nv_bind (nv_tok1 (plainly_of (fun _ _ => rfl) fun _ => rfl)) fun _ => nv_pure _

theorem nv_shadowP {color : Tok → Option K} (hc : Plainly color) : TakesNoVariable (shadowP color) := by
  refine nv_bind (nv_tryP (nv_tok1 hc)) fun _ => nv_bind nv_calcVal fun _ => nv_bind nv_calcVal fun _ =>
    nv_bind (nv_moreValues nv_calcVal 2) fun _ => nv_bind (nv_tryP (nv_tok1 hc)) fun _ => ?_
  split
  · exact nv_pure _
  · exact nv_fail

theorem nv_boxShadowP {color : Tok → Option K} (hc : Plainly color) : TakesNoVariable (boxShadowP color) :=
  nv_bind (nv_shadowP hc) fun _ => nv_bind (nv_loop (nv_bind nv_comma fun _ => nv_shadowP hc)) fun _ => nv_pure _

theorem nv_lineHeightP : TakesNoVariable (lineHeightP : P (RV (LV K))) :=
  nv_bind (nv_tok1 (plainly_of (fun _ _ => rfl) fun _ => rfl)) fun _ => nv_pure _

theorem nv_textShadowP {color : Tok → Option K} (hc : Plainly color) : TakesNoVariable (textShadowP color) := by
  refine nv_noneOr ?_ _
  refine nv_bind (nv_tryP (nv_tok1 hc)) fun o => ?_
  cases o with
  | some _ => exact nv_bind nv_calcF32 fun _ => nv_bind nv_calcF32 fun _ => nv_pure _
  | none => exact nv_bind nv_calcF32 fun _ => nv_bind nv_calcF32 fun _ => nv_bind (nv_tryP (nv_tok1 hc)) fun _ => nv_pure _

theorem tiledArgs_plain {x y : Bool} {q : ℚ} {ts : List Tok} {m : ImageMode} (h : tiledArgs x y q ts = some m) :
    ∀ t ∈ ts, ¬ UsesVar t := by
  fun_induction tiledArgs x y q ts with
  | case1 => simp
  | case2 _ _ _ _ ih =>
    intro t ht
    rcases List.mem_cons.1 ht with rfl | ht
    · exact simple_plain (fun _ _ => by simp) fun _ => by simp
    · exact ih h t ht
  | case3 _ _ _ _ _ ih =>
    intro t ht
    rcases List.mem_cons.1 ht with rfl | ht
    · exact simple_plain (fun _ _ => by simp) fun _ => by simp
    · exact ih h t ht
  | case4 => cases h
  | case5 _ _ _ _ _ ih =>
    intro t ht
    rcases List.mem_cons.1 ht with rfl | ht
    · exact simple_plain (fun _ _ => by simp) fun _ => by simp
    · exact ih h t ht
  | case6 => cases h

/-- One token that is not a function, taken by a parser. -/
theorem nv_one {t : Tok} {ts : List Tok} (h : ¬ UsesVar t) : ∃ us, t :: ts = us ++ ts ∧ ∀ t ∈ us, ¬ UsesVar t :=
  ⟨[t], rfl, by simpa using h⟩

theorem nv_func {p : P α} {f : String} (hp : TakesNoVariable p) (hf : AnimParse.lower f ≠ "var" ∧ AnimParse.lower f ≠ "env")
    {args ts rest : List Tok} {g : α → β} {b : β} (h : ((nested p args).bind fun v => Res.ok (g v, ts)) = .ok (b, rest)) :
    ∃ us, .func f args :: ts = us ++ rest ∧ ∀ t ∈ us, ¬ UsesVar t := by
  obtain ⟨v, h1, h⟩ := AnimParse.bind_ok.1 h
  cases h
  exact nv_one (func_uses hp h1 hf)

theorem nv_sliceP : TakesNoVariable sliceP := by
  intro ts a rest h
  unfold sliceP at h
  split at h
  · split at h
    · cases h; exact nv_one (simple_plain (fun _ _ => by simp) fun _ => by simp)
    · cases h
  · split at h
    · rename_i hn
      subst hn
      exact nv_func nv_calcF32 (by decide) h
    · cases h
  · cases h

theorem nv_slicedArgs : TakesNoVariable slicedArgs :=
  nv_bind (nv_fourValues nv_calcF32) fun _ => nv_bind (nv_tryP nv_sliceP) fun _ => nv_bind (nv_tryP nv_sliceP) fun _ =>
    nv_bind (nv_tryP nv_calcF32) fun _ => nv_pure _

theorem nv_imageModeP : TakesNoVariable (imageModeP : P (RV (LV K))) := by
  intro ts a rest h
  unfold imageModeP at h
  split at h
  · split at h
    · cases h; exact nv_one (simple_plain (fun _ _ => by simp) fun _ => by simp)
    · split at h
      · cases h; exact nv_one (simple_plain (fun _ _ => by simp) fun _ => by simp)
      · cases h
  · split at h
    · rename_i hn
      subst hn
      split at h
      · rename_i m hm
        cases h
        refine nv_one ?_
        intro hu
        cases hu with
        | var hc => exact absurd (AnimParse.lower_iff.2 hc) (by decide)
        | env hc => exact absurd (AnimParse.lower_iff.2 hc) (by decide)
        | inFunction hx ht => exact tiledArgs_plain hm _ hx ht
      · cases h
    · split at h
      · rename_i hn
        subst hn
        exact nv_func nv_slicedArgs (by decide) h
      · cases h
  · cases h

theorem nv_trackP : TakesNoVariable trackP := by
  intro ts a rest h
  unfold trackP at h
  split at h
  · split at h
    · rename_i hn
      subst hn
      exact nv_func (nv_tok1 (plainly_of (fun _ _ => rfl) fun _ => rfl)) (by decide) h
    · split at h
      · rename_i hn
        subst hn
        exact nv_func (nv_bind (nv_tok1 (plainly_of (fun _ _ => rfl) fun _ => rfl)) fun _ => nv_bind nv_comma fun _ =>
          nv_bind (nv_tok1 (plainly_of (fun _ _ => rfl) fun _ => rfl)) fun _ => nv_pure _) (by decide) h
      · cases h
  · split at h
    · rename_i s hs
      cases h
      exact nv_one (plainly_of (f := sizeTok true) (fun _ _ => rfl) (fun _ => rfl) _ _ hs)
    · cases h
  · cases h

theorem nv_tracksP : TakesNoVariable (tracksP : P (RV (LV K))) :=
  nv_noneOr (nv_bind (nv_many nv_trackP) fun _ => nv_pure _) _

theorem nv_repeatArgs : TakesNoVariable repeatArgs :=
  nv_bind (nv_tok1 (plainly_of (fun _ _ => rfl) fun _ => rfl)) fun _ => nv_bind nv_comma fun _ =>
    nv_bind (nv_many nv_trackP) fun _ => nv_pure _

theorem nv_repeatedTrackP : TakesNoVariable repeatedTrackP := by
  intro ts a rest h
  unfold repeatedTrackP at h
  split at h
  · split at h
    · rename_i hn
      subst hn
      exact nv_func (g := id) nv_repeatArgs (by decide) h
    · obtain ⟨v, h1, h⟩ := AnimParse.bind_ok.1 h
      cases h
      exact nv_trackP _ _ _ h1
  · obtain ⟨v, h1, h⟩ := AnimParse.bind_ok.1 h
    cases h
    exact nv_trackP _ _ _ h1

theorem nv_repeatedP : TakesNoVariable (repeatedP : P (RV (LV K))) :=
  nv_noneOr (nv_bind (nv_many nv_repeatedTrackP) fun _ => nv_pure _) _

theorem nv_placementEnd (s : Int) : TakesNoVariable (placementEnd s) := by
  intro ts a rest h
  unfold placementEnd at h
  split at h
  · rename_i w ts
    split at h
    · obtain ⟨v, h1, h⟩ := AnimParse.bind_ok.1 h
      cases h
      obtain ⟨us, rfl, hu⟩ := nv_tok1 plain_intTok _ _ _ h1
      refine ⟨.ident w :: us, rfl, ?_⟩
      intro t ht
      rcases List.mem_cons.1 ht with rfl | ht
      · exact simple_plain (fun _ _ => by simp) fun _ => by simp
      · exact hu t ht
    · cases h
  · obtain ⟨v, h1, h⟩ := AnimParse.bind_ok.1 h
    cases h
    exact nv_tok1 plain_intTok _ _ _ h1

theorem nv_placementP : TakesNoVariable (placementP : P (RV (LV K))) :=
  nv_bind (nv_tok1 plain_intTok) fun _ => nv_bind (nv_tryP (nv_bind (nv_delim _) fun _ => nv_placementEnd _)) fun _ => nv_pure _

end Flair.Proofs.VarDecl
