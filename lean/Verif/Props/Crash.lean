import Verif.Props.VarDecl
import Verif.Props.GridTracks
/-!
# No text crashes a longhand (C64), and declarations with variables (C89)
-/
namespace Flair.Props
open Flair.Shorthand Flair.Longhand Flair.Spec Flair.VarDecl Flair.Proofs.Parse
open Flair.Calc (Res)
open Flair.Values

variable {α X K : Type}

private theorem h_val : Harmless calcVal := harmless_calcP _ (fun _ => rfl) _
private theorem h_f32 : Harmless calcF32 := harmless_calcP _ (fun _ => rfl) _

private theorem h_shadow (color : Tok → Option K) : Harmless (shadowP color) := by
  refine harmless_bind (harmless_tryP (harmless_tok1 _)) fun _ => harmless_bind h_val fun _ => harmless_bind h_val fun _ =>
    harmless_bind (harmless_moreValues h_val 2) fun _ => harmless_bind (harmless_tryP (harmless_tok1 _)) fun _ => ?_
  split
  · exact harmless_pure _
  · exact harmless_fail

private theorem h_loop {p : P α} (hp : Harmless p) : Harmless (loop p) := fun ts hc => harmless_manyLoop hp ts.length ts hc

private theorem h_res {β : Type} {r : Res α} {f : α → β} {ts : List Tok} (h : r ≠ .panic) (ht : calcsTidy ts = true) :
    (r.bind fun v => Res.ok (f v, ts)) ≠ .panic ∧
      ∀ a rest, (r.bind fun v => Res.ok (f v, ts)) = .ok (a, rest) → calcsTidy rest = true := by
  cases r with
  | ok v => exact ⟨by simp, fun a rest he => by cases he; exact ht⟩
  | err => exact ⟨by simp, fun a rest he => by cases he⟩
  | panic => exact absurd rfl h

private theorem h_slice : Harmless sliceP := by
  intro ts hc
  cases ts with
  | nil => exact ⟨by simp [sliceP], by simp [sliceP]⟩
  | cons t ts =>
    have ht := (calcsTidy_cons.1 hc).2
    cases t with
    | func name args =>
      simp only [sliceP]
      split
      · exact h_res (nested_no_panic h_f32 (calcTidy_func hc).1) ht
      · exact ⟨by simp, by simp⟩
    | ident s =>
      simp only [sliceP]
      split
      · exact ⟨by simp, fun a rest he => by cases he; exact ht⟩
      · exact ⟨by simp, by simp⟩
    | _ => exact ⟨by simp [sliceP], by simp [sliceP]⟩

private theorem h_image : Harmless (imageModeP : P (RV (LV K))) := by
  intro ts hc
  cases ts with
  | nil => exact ⟨by simp [imageModeP], by simp [imageModeP]⟩
  | cons t ts =>
    have ht := (calcsTidy_cons.1 hc).2
    cases t with
    | func name args =>
      simp only [imageModeP]
      split
      · split
        · exact ⟨by simp, fun a rest he => by cases he; exact ht⟩
        · exact ⟨by simp, by simp⟩
      · split
        · refine h_res (nested_no_panic ?_ (calcTidy_func hc).1) ht
          exact harmless_bind (harmless_fourValues h_f32) fun _ => harmless_bind (harmless_tryP h_slice) fun _ =>
            harmless_bind (harmless_tryP h_slice) fun _ => harmless_bind (harmless_tryP h_f32) fun _ => harmless_pure _
        · exact ⟨by simp, by simp⟩
    | ident s =>
      simp only [imageModeP]
      split
      · exact ⟨by simp, fun a rest he => by cases he; exact ht⟩
      · split
        · exact ⟨by simp, fun a rest he => by cases he; exact ht⟩
        · exact ⟨by simp, by simp⟩
    | _ => exact ⟨by simp [imageModeP], by simp [imageModeP]⟩

private theorem h_end (s : Int) : Harmless (placementEnd s) := by
  intro ts hc
  unfold placementEnd
  split
  · rename_i w ts
    split
    · exact (harmless_bind (harmless_tok1 _) fun n => harmless_pure (Placement.startSpan s n)) ts (calcsTidy_cons.1 hc).2
    · exact ⟨by simp, by simp⟩
  · exact (harmless_bind (harmless_tok1 _) fun n => harmless_pure (Placement.startEnd s n)) _ hc

private theorem h_longhand {color : Tok → Option K} {p : P (RV (LV K))} (hp : LonghandParser color p) : Harmless p := by
  cases hp with
  | length => exact harmless_bind h_val fun _ => harmless_pure _
  | float => exact harmless_bind h_f32 fun _ => harmless_pure _
  | enum names => exact harmless_tok1 _
  | color => exact harmless_bind (harmless_tok1 _) fun _ => harmless_pure _
  | vec2 => exact harmless_noneOr (harmless_bind h_f32 fun _ => harmless_bind (harmless_tryP h_f32) fun _ => harmless_pure _)
  | val2 => exact harmless_noneOr (harmless_bind h_val fun _ => harmless_bind (harmless_tryP h_val) fun _ => harmless_pure _)
  | rect => exact harmless_noneOr (harmless_bind h_f32 fun _ => harmless_bind h_f32 fun _ => harmless_bind h_f32 fun _ =>
      harmless_bind h_f32 fun _ => harmless_pure _)
  | clip boxes =>
    refine harmless_bind (harmless_tryP h_f32) fun o => ?_
    cases o with
    | some _ => exact harmless_pure _
    | none => exact harmless_bind (harmless_tok1 _) fun _ => harmless_bind h_f32 fun _ => harmless_pure _
  | ratio =>
    refine harmless_bind (harmless_tryP (harmless_tok1 _)) fun o => ?_
    cases o with
    | some _ => exact harmless_pure _
    | none =>
      exact harmless_bind h_f32 fun _ => harmless_bind (harmless_tryP (harmless_bind (harmless_tok1 _) fun _ => h_f32)) fun _ =>
        harmless_pure _
  | zIndex => exact harmless_bind (harmless_tok1 _) fun _ => harmless_pure _
  | boxShadow => exact harmless_bind (h_shadow color) fun _ => harmless_bind (h_loop (harmless_bind (harmless_tok1 _) fun _ =>
      h_shadow color)) fun _ => harmless_pure _
  | lineHeight => exact harmless_bind (harmless_tok1 _) fun _ => harmless_pure _
  | textShadow =>
    refine harmless_noneOr (harmless_bind (harmless_tryP (harmless_tok1 _)) fun o => ?_)
    cases o with
    | some _ => exact harmless_bind h_f32 fun _ => harmless_bind h_f32 fun _ => harmless_pure _
    | none =>
      exact harmless_bind h_f32 fun _ => harmless_bind h_f32 fun _ => harmless_bind (harmless_tryP (harmless_tok1 _)) fun _ =>
        harmless_pure _
  | imageMode => exact h_image
  | tracks => exact C75_fits_shorthands.2.2.1
  | repeated => exact C75_fits_shorthands.2.2.2.1
  | placement =>
    exact harmless_bind (harmless_tok1 _) fun _ =>
      harmless_bind (harmless_tryP (harmless_bind (harmless_tok1 _) fun _ => h_end _)) fun _ => harmless_pure _

private theorem consume_no_panic (carried : Nat → Bool) (ts : List Tok) : consume carried ts ≠ .panic := by
  unfold consume
  refine res_no_panic (important_no_panic _) fun r => ?_
  split <;> simp

private theorem declare_no_panic (carried : Nat → Bool) {p : P α} {ts : List Tok} (h : p ts ≠ .panic) :
    declare carried p ts ≠ .panic := by
  unfold declare
  have he : entirely (do let v ← p; let i ← important; pure (v, i)) ts ≠ .panic := by
    refine entirely_no_panic ?_
    rw [bind_run]
    refine res_no_panic h fun r => ?_
    rw [bind_run]
    exact res_no_panic (important_no_panic _) fun r => by simp [pure_run]
  split
  · simp
  · split
    · exact res_no_panic (consume_no_panic carried ts) fun r => by simp
    · simp
  · rename_i h'
    exact absurd h' he

/-- C64 for longhands: no text in which the values of every `calc()` have operators between them crashes a longhand,
with or without variables in it, when it is read and when the variables are replaced. -/
theorem C64_longhands_partial {color : Tok → Option K} {p : P (RV (LV K))} (hp : LonghandParser color p)
    (carried : Nat → Bool) {ts : List Tok} (hc : calcsTidy ts = true) :
    declare carried (propValue p) ts ≠ .panic ∧ entirely (propValue p) ts ≠ .panic :=
  ⟨declare_no_panic carried (harmless_propValue (h_longhand hp) ts hc).1,
    entirely_no_panic (harmless_propValue (h_longhand hp) ts hc).1⟩

/-- `box-shadow: 1px calc(var(--y) * 2)` -/
example : calcsTidy [.dimension 1 "px", .func "calc" [.func "var" [.ident "--y"], .delim '*', .number 2]] = true := rfl

/-- C89 for longhands, when the values of every `calc()` have operators between them: the value is the one of the text
with the variables replaced. -/
theorem C89_tidy_longhand_partial {carried : Nat → Bool} {texts : String → Option (List Tok)} {color : Tok → Option K}
    (hc : TakesNoVariable (tok1 color)) {p : P (RV (LV K))} (hp : LonghandParser color p) {ts : List Tok}
    (huse : ∃ t ∈ ts, UsesVar t) (htidy : calcsTidy ts = true) {a : PropertyValue (RV (LV K))} {imp : Bool} :
    (∃ d, declare carried (propValue p) ts = .ok d ∧ d.isImportant = imp ∧
        evaluate (propValue p) (environment carried texts) d = .ok a) ↔
      ∃ us us', ts = us ++ declEnd imp ∧ Replaced carried texts 7 us us' ∧ propValue p us' = .ok (a, []) :=
  C89_longhand_partial hc hp huse (C64_longhands_partial hp carried htidy).1

/-- C89 for shorthands, when the values of every `calc()` have operators between them. -/
theorem C89_tidy_shorthand_partial {carried : Nat → Bool} {texts : String → Option (List Tok)} {env : Env X}
    (he : EnvTakesNoVariable env) (hh : HarmlessEnv env) {s : ShorthandProperty X} (hs : s ∈ defaults env) {ts : List Tok}
    (huse : ∃ t ∈ ts, UsesVar t) (htidy : calcsTidy ts = true)
    (hn : s.name = "transform" → ts.head? ≠ some (.ident "none")) {a : Assign X} {imp : Bool} :
    (∃ d, declare carried s.parse ts = .ok d ∧ d.isImportant = imp ∧ evaluate s.body (environment carried texts) d = .ok a) ↔
      ∃ us us', ts = us ++ declEnd imp ∧ Replaced carried texts 7 us us' ∧ s.body us' = .ok (a, []) := by
  refine C89_shorthand_partial he hs huse ?_
  have := (C64_no_crash_partial env hh hs htidy hn).1
  refine declare_no_panic carried ?_
  intro hp
  apply this
  simp [ShorthandProperty.declare, entirely, nested, bind_run, hp]

end Flair.Props
