import Verif.Spec.Loader
import Verif.Proofs.SheetViews
import Verif.Proofs.Explode
import Verif.Tactics
/-!
# Loading a nested source is loading a flat one
-/
namespace Flair.Loader
set_option linter.unusedSectionVars false
open Flair.Spec Flair.Sheet Flair.Layers Flair.Vars Flair.Values Flair.Media
variable {S M C N T V X Y : Type} [DecidableEq N]

/-- the flat rules a rule body is cut into; `ds0` are declarations already seen -/
def splitBody (rp : S → List S → S) (sels : List (CssSelector S M)) (ds0 : List (SrcDecl C N T V X Y)) :
    List (BodyItem S M C N T V X Y) → List (SrcRule S M C N T V X Y)
  | [] => [⟨sels, ds0⟩]
  | .decls ds :: rest => splitBody rp sels (ds0 ++ ds) rest
  | .error :: rest => splitBody rp sels ds0 rest
  | .nested none _ :: rest => ⟨sels, ds0⟩ :: splitBody rp sels [] rest
  | .nested (some ss) body :: rest =>
    ⟨sels, ds0⟩ :: (splitBody rp (ss.map (replaceParent rp sels)) [] body ++ splitBody rp sels [] rest)

theorem addItems_append (b : Builder S M C N T V X Y) (is js : List (Item S M C N T V X Y)) :
    b.addItems (is ++ js) = (b.addItems is).bind fun b => b.addItems js := by
  unfold Builder.addItems
  rw [List.foldlM_append]
  rfl

theorem addItems_cons (b : Builder S M C N T V X Y) (i : Item S M C N T V X Y)
    (js : List (Item S M C N T V X Y)) :
    b.addItems (i :: js) = (b.addItem i).bind fun b => b.addItems js := by
  unfold Builder.addItems
  rw [List.foldlM_cons]
  rfl

theorem addRule_nil (b : Builder S M C N T V X Y) (sels : List (CssSelector S M)) :
    b.addRule ⟨sels, []⟩ = b.newRuleset.1.addCssSelectors b.newRuleset.2 sels := by
  unfold Builder.addRule
  simp only [List.foldl_nil]
  cases (b.newRuleset.1.addCssSelectors b.newRuleset.2 sels) <;> rfl

theorem splitBody_none (rp : S → List S → S) (b' : Builder S M C N T V X Y)
    (sels : List (CssSelector S M)) (h2 : b'.addRule ⟨sels, []⟩ = none)
    (items : List (BodyItem S M C N T V X Y)) : ∀ (ds0 : List (SrcDecl C N T V X Y)),
    b'.addItems ((splitBody rp sels ds0 items).map Item.rule) = none := by
  have hany : ∀ ds0, b'.addRule ⟨sels, ds0⟩ = none := by
    intro ds0
    unfold Builder.addRule at h2 ⊢
    simp only [Option.map_eq_none_iff] at h2 ⊢
    exact h2
  fun_induction reportErrors items with
  | case1 => intro ds0; simp [splitBody, addItems_cons, Builder.addItem, hany]
  | case2 ds rest ih => intro ds0; simp only [splitBody]; exact ih _
  | case3 rest ih => intro ds0; simp only [splitBody]; exact ih _
  | case4 ss body rest =>
    intro ds0
    cases ss <;> simp [splitBody, addItems_cons, Builder.addItem, hany]

theorem processBody_eq (rp : S → List S → S) (sels : List (CssSelector S M))
    (items : List (BodyItem S M C N T V X Y)) : ∀ (b b' : Builder S M C N T V X Y)
    (ds0 : List (SrcDecl C N T V X Y)) (e : Nat), b.addRule ⟨sels, ds0⟩ = some b' →
    processBody rp sels items b.rulesets.length (b', e) =
      (b.addItems ((splitBody rp sels ds0 items).map Item.rule)).map
        fun x => (x, e + reportErrors items) := by
  fun_induction reportErrors items generalizing sels with
  | case1 =>
    intro b b' ds0 e h
    simp only [processBody, splitBody, List.map_cons, List.map_nil, addItems_cons, Builder.addItem, h]
    simp [Builder.addItems]
  | case2 ds rest ih =>
    intro b b' ds0 e h
    simp only [processBody, splitBody]
    apply ih
    unfold Builder.addRule at h ⊢
    simp only [Option.map_eq_some_iff] at h ⊢
    obtain ⟨b2, h1, rfl⟩ := h
    refine ⟨b2, h1, ?_⟩
    rw [List.foldl_append]
    rfl
  | case3 rest ih =>
    intro b b' ds0 e h
    simp only [processBody, splitBody]
    rw [ih sels b b' ds0 (e+1) h]
    congr 1
    funext x
    simp; omega
  | case4 ss body rest ih1 ih2 =>
    intro b b' ds0 e h
    cases ss with
    | none =>
      simp only [processBody, splitBody, List.map_cons, addItems_cons, Builder.addItem, h, Option.bind_some]
      have hr : b'.newRuleset.1.addCssSelectors b'.newRuleset.2 sels = b'.addRule ⟨sels, []⟩ :=
        (addRule_nil b' sels).symm
      rw [hr]
      cases h2 : b'.addRule ⟨sels, []⟩ with
      | none =>
        simp only [Option.bind_none]
        rw [splitBody_none rp b' sels h2]
        rfl
      | some b2 =>
        simp only [Option.bind_some]
        have e1 : b'.newRuleset.2 = b'.rulesets.length := rfl
        rw [e1, ih2 sels b' b2 [] (e + 1 + reportErrors body) h2]
        congr 1
        funext x
        simp; omega
    | some ss =>
      simp only [processBody, splitBody, List.map_cons, addItems_cons, Builder.addItem, h,
        Option.bind_some, List.map_append, addItems_append]
      have hr : b'.newRuleset.1.addCssSelectors b'.newRuleset.2 (ss.map (replaceParent rp sels)) =
          b'.addRule ⟨ss.map (replaceParent rp sels), []⟩ := (addRule_nil b' _).symm
      rw [hr]
      cases h2 : b'.addRule ⟨ss.map (replaceParent rp sels), []⟩ with
      | none =>
        rw [splitBody_none rp _ _ h2]
        rfl
      | some b2 =>
        simp only [Option.bind_some]
        have := ih1 (ss.map (replaceParent rp sels)) b' b2 [] e h2
        have e1 : b'.newRuleset.2 = b'.rulesets.length := rfl
        rw [e1, this]
        cases h3 : b'.addItems ((splitBody rp (ss.map (replaceParent rp sels)) [] body).map Item.rule) with
        | none => rfl
        | some b3 =>
          simp only [Option.map_some, Option.bind_some]
          have hr : b3.newRuleset.1.addCssSelectors b3.newRuleset.2 sels = b3.addRule ⟨sels, []⟩ :=
            (addRule_nil b3 sels).symm
          rw [hr]
          cases h4 : b3.addRule ⟨sels, []⟩ with
          | none => rw [splitBody_none rp _ _ h4]; rfl
          | some b4 =>
            simp only [Option.bind_some]
            have e2 : b3.newRuleset.2 = b3.rulesets.length := rfl
            rw [e2, ih2 sels b3 b4 [] (e + reportErrors body) h4]
            congr 1
            funext x
            simp; omega

/-- the flat items of a parsed source without imports -/
def flatItems (rp : S → List S → S) : List (SheetItem S M C N T V X Y) → List (Item S M C N T V X Y)
  | [] => []
  | .embed _ _ :: rest => flatItems rp rest
  | .inner is :: rest => flatItems rp is ++ flatItems rp rest
  | .layers ls :: rest => .layers ls :: flatItems rp rest
  | .rule none _ :: rest => flatItems rp rest
  | .rule (some ss) body :: rest => (splitBody rp ss [] body).map Item.rule ++ flatItems rp rest
  | .error :: rest => flatItems rp rest

/-- number of errors reported for a parsed source -/
def errors : List (SheetItem S M C N T V X Y) → Nat
  | [] => 0
  | .embed _ _ :: rest => errors rest
  | .inner is :: rest => errors is + errors rest
  | .layers _ :: rest => errors rest
  | .rule none body :: rest => 1 + reportErrors body + errors rest
  | .rule (some _) body :: rest => reportErrors body + errors rest
  | .error :: rest => 1 + errors rest

/-- no imports -/
def noEmbed : List (SheetItem S M C N T V X Y) → Prop
  | [] => True
  | .embed _ _ :: _ => False
  | .inner is :: rest => noEmbed is ∧ noEmbed rest
  | _ :: rest => noEmbed rest

theorem bind_map_pair {A B D : Type} (o : Option A) (f : A → B) (g : B → Option D) :
    (o.map f).bind g = o.bind fun a => g (f a) := by cases o <;> rfl

theorem processAll_eq (rp : S → List S → S) (is : List (SheetItem S M C N T V X Y)) (hn : noEmbed is) :
    ∀ (b : Builder S M C N T V X Y) (e : Nat),
    processAll rp is (b, e) = (b.addItems (flatItems rp is)).map fun x => (x, e + errors is) := by
  fun_induction noEmbed is with
  | case1 => intro b e; simp [processAll, flatItems, errors, Builder.addItems]
  | case2 => cases hn
  | case3 is rest ih1 ih2 =>
    intro b e
    simp only [processAll, process, flatItems, errors, addItems_append]
    rw [ih1 hn.1]
    cases h1 : b.addItems (flatItems rp is) with
    | none => rfl
    | some b1 =>
      simp only [Option.map_some, Option.bind_some]
      rw [ih2 hn.2]
      congr 1; funext x; simp; omega
  | case4 i rest h1 h2 ih =>
    intro b e
    cases i with
    | embed o l => exact absurd rfl (h1 o l)
    | inner is => exact absurd rfl (h2 is)
    | layers ls =>
      simp only [processAll, process, flatItems, errors, addItems_cons, Builder.addItem, bind_map_pair]
      cases b.defineLayers ls with
      | none => rfl
      | some b1 => simp only [Option.bind_some]; rw [ih hn]
    | error =>
      simp only [processAll, process, flatItems, errors, Option.bind_some]
      rw [ih hn]
      congr 1; funext x; simp; omega
    | rule sels body =>
      cases sels with
      | none =>
        simp only [processAll, process, processRuleset, flatItems, errors, Option.bind_some]
        rw [ih hn]
        congr 1; funext x; simp; omega
      | some ss =>
        simp only [processAll, process, processRuleset, flatItems, errors, addItems_append]
        have hr : b.newRuleset.1.addCssSelectors b.newRuleset.2 ss = b.addRule ⟨ss, []⟩ :=
          (addRule_nil b ss).symm
        rw [hr]
        cases h1 : b.addRule ⟨ss, []⟩ with
        | none => rw [splitBody_none rp _ _ h1]; rfl
        | some b1 =>
          simp only [Option.bind_some]
          have e1 : b.newRuleset.2 = b.rulesets.length := rfl
          rw [e1, processBody_eq rp ss body b b1 [] e h1]
          cases b.addItems ((splitBody rp ss [] body).map Item.rule) with
          | none => rfl
          | some b2 =>
            simp only [Option.map_some, Option.bind_some]
            rw [ih hn]
            congr 1; funext x; simp; omega

theorem noEmbed_of_proper (amp : S) (src : List (Src S M C N T V X Y)) : ∀ (ctx : Context M),
    Proper src → noEmbed (parseItems amp ctx src) := by
  fun_induction Proper src with
  | case1 => intro ctx h; simp [parseItems, noEmbed]
  | case2 => intro ctx h; cases h
  | case3 ls rest ih => intro ctx h; simp only [parseItems, parseItem, noEmbed]; exact ih ctx h.2
  | case4 names inner rest ih1 ih2 =>
    intro ctx h
    simp only [parseItems]
    match names with
    | [] => simp only [parseItem, noEmbed]; exact ih2 ctx h.2.2
    | [n] => simp only [parseItem, noEmbed]; exact ⟨ih1 _ h.2.1, ih2 ctx h.2.2⟩
    | _ :: _ :: _ => simp only [parseItem, noEmbed]; exact ih2 ctx h.2.2
  | case5 c inner rest ih1 ih2 =>
    intro ctx h
    simp only [parseItems, parseItem, noEmbed]
    exact ⟨ih1 _ h.1, ih2 ctx h.2⟩
  | case6 sels body rest ih =>
    intro ctx h
    simp only [parseItems, parseItem, noEmbed]
    exact ih ctx h.2.2
  | case7 rest ih => intro ctx h; simp only [parseItems, parseItem, noEmbed]; exact ih ctx h

/-! ## document order -/

/-- one rule per declaration -/
def explodeR (rs : List (SrcRule S M C N T V X Y)) : List (SrcRule S M C N T V X Y) :=
  rs.flatMap fun r => r.decls.map fun d => ⟨r.selectors, [d]⟩

theorem explodeR_append (a b : List (SrcRule S M C N T V X Y)) :
    explodeR (a ++ b) = explodeR a ++ explodeR b := by simp [explodeR]

theorem mergeWith_eq (a b : List M) : mergeWith a b = a ++ b := by
  unfold mergeWith
  cases a <;> simp

theorem joinLayer_eq {n : Name} (h : n ≠ []) (l : Name) : joinLayer l n = nestName l n := by
  unfold joinLayer nestName
  by_cases hl : l = []
  · simp [hl]
  · simp [hl, h]

theorem replaceParent_eq (rp : S → List S → S) (layer : Name) (media : List M) (sels : List S)
    (hs : sels ≠ []) (name : Name) (conds : List M) (s : S) :
    replaceParent rp (sels.map fun s => ⟨layer, media, s⟩) ⟨name, conds, s⟩ =
      (⟨nestName layer name, media ++ conds, rp s sels⟩ : CssSelector S M) := by
  cases sels with
  | nil => exact absurd rfl hs
  | cons a as =>
    unfold replaceParent nestName
    simp only [List.map_cons, List.head?_cons, Option.map_some, Option.getD_some, mergeWith_eq,
      List.map_map, Function.comp_def, List.map_id']
    by_cases h1 : layer = [] <;> by_cases h2 : name = [] <;> simp [h1, h2]

theorem nestName_nil (l : Name) : nestName l [] = l := by
  unfold nestName; by_cases h : l = [] <;> simp [h]

theorem explodeR_split (rp : S → List S → S) (amp : S) (src : List (BodySrc S M C N T V X Y)) :
    ∀ (layer : Name) (media : List M) (sels : List S) (ds0 : List (SrcDecl C N T V X Y)),
    BodyProper src → sels ≠ [] →
    explodeR (splitBody rp (sels.map fun s => ⟨layer, media, s⟩) ds0 (parseBody amp src)) =
      ds0.map (fun d => ⟨sels.map fun s => ⟨layer, media, s⟩, [d]⟩) ++
        bodyDecls rp amp layer media sels src := by
  fun_induction BodyProper src with
  | case1 => intro l m s ds0 _ _; simp [parseBody, splitBody, bodyDecls, explodeR]
  | case2 ds rest ih =>
    intro l m s ds0 h hs
    simp only [parseBody, splitBody, bodyDecls]
    rw [ih l m s _ h hs]
    simp
  | case3 rest ih =>
    intro l m s ds0 h hs
    simp only [parseBody, splitBody, bodyDecls]
    rw [ih l m s _ h hs]
  | case4 sels body rest ih1 ih2 =>
    intro l m s ds0 h hs
    cases sels with
    | none =>
      simp only [parseBody, Option.map_none, splitBody, bodyDecls]
      have := ih2 l m s [] h.2.2 hs
      simp only [List.map_nil, List.nil_append] at this
      rw [← this]
      simp [explodeR]
    | some ss =>
      simp only [parseBody, Option.map_some, splitBody, bodyDecls]
      have e1 := ih2 l m s [] h.2.2 hs
      have hss : (ss.map fun x => rp x s) ≠ [] := by
        intro h0
        rw [List.map_eq_nil_iff] at h0
        exact h.1 (by rw [h0])
      have e2 := ih1 l m (ss.map fun x => rp x s) [] h.2.1 hss
      have e3 : ((ss.map fun x => (⟨[], [], x⟩ : CssSelector S M)).map
          (replaceParent rp (s.map fun s => ⟨l, m, s⟩))) =
          (ss.map fun x => rp x s).map fun s => ⟨l, m, s⟩ := by
        rw [List.map_map, List.map_map]
        apply List.map_congr_left
        intro x _
        simp only [Function.comp]
        rw [replaceParent_eq rp l m s hs, nestName_nil, List.append_nil]
      rw [e3]
      simp only [List.map_nil, List.nil_append] at e1 e2
      rw [← e1, ← e2]
      simp [explodeR]
  | case5 conds body rest ih1 ih2 =>
    intro l m s ds0 h hs
    simp only [parseBody, splitBody, bodyDecls]
    have e1 := ih2 l m s [] h.2 hs
    have e2 := ih1 l (m ++ conds) [rp amp s] [] h.1 (by simp)
    simp only [List.map_nil, List.nil_append, List.map_cons] at e1 e2 ⊢
    rw [replaceParent_eq rp l m s hs, nestName_nil, ← e1, ← e2]
    simp [explodeR]
  | case6 name body rest ih1 ih2 =>
    intro l m s ds0 h hs
    simp only [parseBody, splitBody, bodyDecls]
    have e1 := ih2 l m s [] h.2.2 hs
    have e2 := ih1 (nestName l name) m [rp amp s] [] h.2.1 (by simp)
    simp only [List.map_nil, List.nil_append, List.map_cons] at e1 e2 ⊢
    rw [replaceParent_eq rp l m s hs, List.append_nil, ← e1, ← e2]
    simp [explodeR]

theorem rulesOf_map_rules (rs : List (SrcRule S M C N T V X Y)) : rulesOf (rs.map Item.rule) = rs := by
  induction rs with
  | nil => rfl
  | cons r rs ih => simp [rulesOf, ih]

theorem explodeR_doc (rp : S → List S → S) (amp : S) (src : List (Src S M C N T V X Y)) :
    ∀ (layer : Name) (media : List M), Proper src →
    explodeR (rulesOf (flatItems rp (parseItems amp ⟨media, layer⟩ src))) =
      docDecls rp amp layer media src := by
  fun_induction Proper src with
  | case1 => intro l m h; simp [parseItems, flatItems, docDecls, rulesOf, explodeR]
  | case2 => intro l m h; cases h
  | case3 ls rest ih =>
    intro l m h
    simp only [parseItems, parseItem, flatItems, docDecls, rulesOf]
    exact ih l m h.2
  | case4 names inner rest ih1 ih2 =>
    intro l m h
    simp only [parseItems]
    match names with
    | [] => simp only [parseItem, flatItems, docDecls]; exact ih2 l m h.2.2
    | [n] =>
      simp only [parseItem, flatItems, docDecls, rulesOf_append, explodeR_append]
      rw [ih2 l m h.2.2, joinLayer_eq (h.1 n (by simp)), ih1 _ m h.2.1]
    | _ :: _ :: _ => simp only [parseItem, flatItems, docDecls]; exact ih2 l m h.2.2
  | case5 c inner rest ih1 ih2 =>
    intro l m h
    simp only [parseItems, parseItem, flatItems, docDecls, rulesOf_append, explodeR_append]
    rw [ih2 l m h.2, mergeWith_eq, ih1 l _ h.1]
  | case6 sels body rest ih =>
    intro l m h
    cases sels with
    | none =>
      simp only [parseItems, parseItem, flatItems, docDecls, Option.map_none]
      exact ih l m h.2.2
    | some ss =>
      simp only [parseItems, parseItem, flatItems, docDecls, Option.map_some, rulesOf_append,
        explodeR_append, rulesOf_map_rules]
      rw [ih l m h.2.2, explodeR_split rp amp body l m ss [] h.2.1 (fun h0 => h.1 (by rw [h0]))]
      rfl
  | case7 rest ih =>
    intro l m h
    simp only [parseItems, parseItem, flatItems, docDecls]
    exact ih l m h

/-! ## layers -/

/-- the layer exists already -/
def Known (n : Name) (l : List Name) : Prop := n = [] ∨ n ∈ l

theorem defineLayer_known {l : List Name} {n : Name} (h : Known n l) : defineLayer l n = some l := by
  unfold defineLayer
  rcases h with rfl | h
  · simp
  · split
    · rfl
    · rw [if_pos (by simpa [isDefined] using h)]

theorem known_of_define {l l' : List Name} {n : Name} (h : defineLayer l n = some l') : Known n l' := by
  unfold defineLayer at h
  split at h
  · rename_i h0; exact Or.inl h0
  · split at h
    · rename_i h1
      simp only [isDefined, List.contains_iff_mem] at h1
      cases h; exact Or.inr h1
    · simp only at h
      split at h
      · rename_i h2
        have := parseGo_no_parents n [] [] h2
        cases h
        right
        simp [parse, this]
      · split at h
        · cases h
        · split at h
          · cases h
          · cases h; right; simp [insertAt]

theorem foldlM_mono {A : Type} {f : List Name → A → Option (List Name)}
    {x : Name} : ∀ (as : List A), (∀ a ∈ as, ∀ l l', f l a = some l' → x ∈ l → x ∈ l') →
    ∀ l l', as.foldlM f l = some l' → x ∈ l → x ∈ l' := by
  intro as
  induction as with
  | nil => intro _ l l' h hx; cases h; exact hx
  | cons a as ih =>
    intro hf l l' h hx
    rw [List.foldlM_cons] at h
    cases h1 : f l a with
    | none => rw [h1] at h; cases h
    | some l1 =>
      rw [h1] at h
      exact ih (fun a' ha' => hf a' (by simp [ha'])) l1 l' h (hf a (by simp) l l1 h1 hx)

theorem defineLayer_mono {x : Name} : ∀ (k : Nat) (n : Name), n.length ≤ k → ∀ (l l' : List Name),
    defineLayer l n = some l' → x ∈ l → x ∈ l' := by
  intro k
  induction k with
  | zero =>
    intro n hn l l' h hx
    have : n = [] := List.length_eq_zero_iff.mp (by omega)
    subst this
    unfold defineLayer at h
    simp at h
    subst h; exact hx
  | succ k ih =>
    intro n hn l l' h hx
    unfold defineLayer at h
    split at h
    · cases h; exact hx
    · split at h
      · cases h; exact hx
      · simp only at h
        split at h
        · cases h; simp [hx]
        · split at h
          · cases h
          · rename_i inner' hf
            split at h
            · cases h
            · rename_i i _
              cases h
              have hx' : x ∈ inner' := by
                refine foldlM_mono _ ?_ _ _ hf hx
                rintro ⟨p, hp⟩ _ l1 l2 h12 hx1
                have hlt := parseGo_parents_lt n [] [] p hp
                simp only [List.length_nil, Nat.zero_add] at hlt
                exact ih p (by omega) l1 l2 h12 hx1
              have hta : inner'.take i ++ inner'.drop i = inner' := List.take_append_drop i inner'
              rw [← hta, List.mem_append] at hx'
              unfold insertAt
              rw [List.mem_append, List.mem_cons]
              rcases hx' with hx' | hx'
              · exact Or.inl hx'
              · exact Or.inr (Or.inr hx')

theorem known_mono {n m : Name} {l l' : List Name} (h : defineLayer l m = some l') (hk : Known n l) :
    Known n l' := by
  rcases hk with rfl | hk
  · exact Or.inl rfl
  · exact Or.inr (defineLayer_mono m.length m (le_refl _) l l' h hk)

theorem known_foldlM {n : Name} : ∀ (ns : List Name) {l l' : List Name},
    ns.foldlM defineLayer l = some l' → Known n l → Known n l' := by
  intro ns
  induction ns with
  | nil => intro l l' h hk; cases h; exact hk
  | cons m ns ih =>
    intro l l' h hk
    rw [List.foldlM_cons] at h
    cases h1 : defineLayer l m with
    | none => rw [h1] at h; cases h
    | some l1 => rw [h1] at h; exact ih h (known_mono h1 hk)

/-- names of the selectors of flat rules -/
def namesOf (rs : List (SrcRule S M C N T V X Y)) : List Name :=
  rs.flatMap fun r => r.selectors.map (·.layer)

theorem namesOf_append (a b : List (SrcRule S M C N T V X Y)) : namesOf (a ++ b) = namesOf a ++ namesOf b := by
  simp [namesOf]

theorem namesOf_cons (r : SrcRule S M C N T V X Y) (b : List (SrcRule S M C N T V X Y)) :
    namesOf (r :: b) = r.selectors.map (·.layer) ++ namesOf b := by
  simp [namesOf]

theorem foldlM_sels (layer : Name) (media : List M) (sels : List S) (hs : sels ≠ []) (l : List Name) :
    ((sels.map fun s => (⟨layer, media, s⟩ : CssSelector S M)).map (·.layer)).foldlM defineLayer l =
      defineLayer l layer := by
  apply foldlM_same
  · simpa using hs
  · intro m hm
    simp only [List.map_map, List.mem_map, Function.comp] at hm
    obtain ⟨_, _, rfl⟩ := hm
    rfl

theorem fold_define_cons (ns : List Name) (n : Name) (l : List Name) :
    (n :: ns).foldlM defineLayer l = (defineLayer l n).bind fun l => ns.foldlM defineLayer l := by
  rw [List.foldlM_cons]; rfl

theorem fold_define_append (ns ms : List Name) (l : List Name) :
    (ns ++ ms).foldlM defineLayer l =
      (ns.foldlM defineLayer l).bind fun l => ms.foldlM defineLayer l := by
  rw [List.foldlM_append]; rfl

/-- the step shared by the nested cases -/
theorem nested_names (layer layer' : Name) (ns1 ns2 bl1 bl2 : List Name)
    (h1 : ∀ l, ns1.foldlM defineLayer l = (layer' :: bl1).foldlM defineLayer l)
    (h2 : ∀ l, ns2.foldlM defineLayer l = (layer :: bl2).foldlM defineLayer l) (l : List Name) :
    ((defineLayer l layer).bind fun l => (ns1 ++ ns2).foldlM defineLayer l) =
      (layer :: (layer' :: bl1 ++ bl2)).foldlM defineLayer l := by
  rw [fold_define_cons]
  cases hl : defineLayer l layer with
  | none => rfl
  | some l1 =>
    simp only [Option.bind_some]
    rw [fold_define_append, fold_define_append, h1]
    cases hl2 : (layer' :: bl1).foldlM defineLayer l1 with
    | none => rfl
    | some l2 =>
      simp only [Option.bind_some]
      rw [h2, fold_define_cons, defineLayer_known (known_foldlM _ hl2 (known_of_define hl))]
      rfl

theorem drop_known (layer : Name) (ns : List Name) (l : List Name) :
    (layer :: layer :: ns).foldlM defineLayer l = (layer :: ns).foldlM defineLayer l := by
  rw [fold_define_cons, fold_define_cons]
  cases hl : defineLayer l layer with
  | none => rfl
  | some l1 =>
    simp only [Option.bind_some]
    rw [fold_define_cons, defineLayer_known (known_of_define hl)]
    rfl

theorem split_names (rp : S → List S → S) (amp : S) (src : List (BodySrc S M C N T V X Y)) :
    ∀ (layer : Name) (media : List M) (sels : List S) (ds0 : List (SrcDecl C N T V X Y)) (l : List Name),
    BodyProper src → sels ≠ [] →
    (namesOf (splitBody rp (sels.map fun s => ⟨layer, media, s⟩) ds0 (parseBody amp src))).foldlM
      defineLayer l = (layer :: bodyLayers layer src).foldlM defineLayer l := by
  fun_induction BodyProper src with
  | case1 =>
    intro la m s ds0 l _ hs
    simp only [parseBody, splitBody, bodyLayers, namesOf, List.flatMap_cons, List.flatMap_nil,
      List.append_nil]
    rw [foldlM_sels la m s hs, fold_define_cons]
    cases defineLayer l la <;> rfl
  | case2 ds rest ih =>
    intro la m s ds0 l h hs
    simp only [parseBody, splitBody, bodyLayers]
    exact ih la m s _ l h hs
  | case3 rest ih =>
    intro la m s ds0 l h hs
    simp only [parseBody, splitBody, bodyLayers]
    exact ih la m s _ l h hs
  | case4 sels body rest ih1 ih2 =>
    intro la m s ds0 l h hs
    cases sels with
    | none =>
      simp only [parseBody, Option.map_none, splitBody, bodyLayers, namesOf_cons, fold_define_append]
      rw [foldlM_sels la m s hs]
      have := fun l => ih2 la m s [] l h.2.2 hs
      rw [← drop_known, fold_define_cons]
      congr 1
      funext l1
      exact this l1
    | some ss =>
      have hss : (ss.map fun x => rp x s) ≠ [] := by
        intro h0
        rw [List.map_eq_nil_iff] at h0
        exact h.1 (by rw [h0])
      have e3 : ((ss.map fun x => (⟨[], [], x⟩ : CssSelector S M)).map
          (replaceParent rp (s.map fun s => ⟨la, m, s⟩))) =
          (ss.map fun x => rp x s).map fun s => ⟨la, m, s⟩ := by
        rw [List.map_map, List.map_map]
        apply List.map_congr_left
        intro x _
        simp only [Function.comp]
        rw [replaceParent_eq rp la m s hs, nestName_nil, List.append_nil]
      simp only [parseBody, Option.map_some, splitBody, bodyLayers, namesOf_cons, fold_define_append,
        namesOf_append]
      rw [foldlM_sels la m s hs, e3]
      have := nested_names la la _ _ (bodyLayers la body) (bodyLayers la rest)
        (fun l => ih1 la m (ss.map fun x => rp x s) [] l h.2.1 hss)
        (fun l => ih2 la m s [] l h.2.2 hs) l
      simp only [fold_define_append] at this
      rw [this, List.cons_append, drop_known]
  | case5 conds body rest ih1 ih2 =>
    intro la m s ds0 l h hs
    simp only [parseBody, splitBody, bodyLayers, namesOf_cons, fold_define_append,
      namesOf_append, List.map_cons, List.map_nil]
    rw [foldlM_sels la m s hs, replaceParent_eq rp la m s hs, nestName_nil]
    have := nested_names la la _ _ (bodyLayers la body) (bodyLayers la rest)
      (fun l => ih1 la (m ++ conds) [rp amp s] [] l h.1 (by simp))
      (fun l => ih2 la m s [] l h.2 hs) l
    simp only [fold_define_append, List.map_cons, List.map_nil] at this
    rw [this, List.cons_append, drop_known]
  | case6 name body rest ih1 ih2 =>
    intro la m s ds0 l h hs
    simp only [parseBody, splitBody, bodyLayers, namesOf_cons, fold_define_append,
      namesOf_append, List.map_cons, List.map_nil]
    rw [foldlM_sels la m s hs, replaceParent_eq rp la m s hs, List.append_nil]
    have := nested_names la (nestName la name) _ _ (bodyLayers (nestName la name) body)
      (bodyLayers la rest)
      (fun l => ih1 (nestName la name) m [rp amp s] [] l h.2.1 (by simp))
      (fun l => ih2 la m s [] l h.2.2 hs) l
    simp only [fold_define_append, List.map_cons, List.map_nil] at this
    rw [this]

theorem layerNames_rules (rs : List (SrcRule S M C N T V X Y)) :
    layerNames (rs.map Item.rule) = namesOf rs := by
  induction rs with
  | nil => rfl
  | cons r rs ih => simp [layerNames, ih, namesOf]

theorem doc_names (rp : S → List S → S) (amp : S) (src : List (Src S M C N T V X Y)) :
    ∀ (layer : Name) (media : List M) (l : List Name), Proper src →
    (layerNames (flatItems rp (parseItems amp ⟨media, layer⟩ src))).foldlM defineLayer l =
      (docLayers layer src).foldlM defineLayer l := by
  fun_induction Proper src with
  | case1 => intro la m l h; simp [parseItems, flatItems, docLayers, layerNames]
  | case2 => intro la m l h; cases h
  | case3 ls rest ih =>
    intro la m l h
    simp only [parseItems, parseItem, flatItems, docLayers, layerNames, fold_define_append]
    have : ls.map (joinLayer la) = ls.map (nestName la) :=
      List.map_congr_left (fun n hn => joinLayer_eq (h.1 n hn) la)
    rw [this]
    congr 1
    funext l1
    exact ih la m l1 h.2
  | case4 names inner rest ih1 ih2 =>
    intro la m l h
    simp only [parseItems]
    match names with
    | [] => simp only [parseItem, flatItems, docLayers]; exact ih2 la m l h.2.2
    | [n] =>
      simp only [parseItem, flatItems, docLayers, layerNames_append, fold_define_append]
      rw [joinLayer_eq (h.1 n (by simp)), ih1 _ m l h.2.1]
      congr 1
      funext l1
      exact ih2 la m l1 h.2.2
    | _ :: _ :: _ => simp only [parseItem, flatItems, docLayers]; exact ih2 la m l h.2.2
  | case5 c inner rest ih1 ih2 =>
    intro la m l h
    simp only [parseItems, parseItem, flatItems, docLayers, layerNames_append, fold_define_append]
    rw [ih1 la _ l h.1]
    congr 1
    funext l1
    exact ih2 la m l1 h.2
  | case6 sels body rest ih =>
    intro la m l h
    cases sels with
    | none =>
      simp only [parseItems, parseItem, flatItems, docLayers, Option.map_none]
      exact ih la m l h.2.2
    | some ss =>
      simp only [parseItems, parseItem, flatItems, docLayers, Option.map_some, layerNames_append,
        layerNames_rules, fold_define_append]
      rw [split_names rp amp body la m ss [] l h.2.1 (fun h0 => h.1 (by rw [h0]))]
      congr 1
      funext l1
      exact ih la m l1 h.2.2
  | case7 rest ih =>
    intro la m l h
    simp only [parseItems, parseItem, flatItems, docLayers]
    exact ih la m l h

theorem split_names_mem (rp : S → List S → S) (amp : S) (src : List (BodySrc S M C N T V X Y)) :
    ∀ (layer : Name) (media : List M) (sels : List S) (ds0 : List (SrcDecl C N T V X Y)),
    BodyProper src → sels ≠ [] →
    ∀ n ∈ namesOf (splitBody rp (sels.map fun s => ⟨layer, media, s⟩) ds0 (parseBody amp src)),
      n ∈ layer :: bodyLayers layer src := by
  have hmap : ∀ (layer : Name) (media : List M) (sels : List S) (n : Name),
      n ∈ (sels.map fun s => (⟨layer, media, s⟩ : CssSelector S M)).map (·.layer) → n = layer := by
    intro layer media sels n hn
    simp only [List.map_map, List.mem_map, Function.comp] at hn
    obtain ⟨_, _, rfl⟩ := hn
    rfl
  fun_induction BodyProper src with
  | case1 =>
    intro la m s ds0 _ hs n hn
    simp only [parseBody, splitBody, namesOf, List.flatMap_cons, List.flatMap_nil,
      List.append_nil] at hn
    rw [hmap _ _ _ _ hn]; simp
  | case2 ds rest ih =>
    intro la m s ds0 h hs
    simp only [parseBody, splitBody, bodyLayers]
    exact ih la m s _ h hs
  | case3 rest ih =>
    intro la m s ds0 h hs
    simp only [parseBody, splitBody, bodyLayers]
    exact ih la m s _ h hs
  | case4 sels body rest ih1 ih2 =>
    intro la m s ds0 h hs n hn
    cases sels with
    | none =>
      simp only [parseBody, Option.map_none, splitBody, namesOf_cons, List.mem_append] at hn
      simp only [bodyLayers]
      rcases hn with hn | hn
      · rw [hmap _ _ _ _ hn]; simp
      · exact ih2 la m s [] h.2.2 hs n hn
    | some ss =>
      have hss : (ss.map fun x => rp x s) ≠ [] := by
        intro h0
        rw [List.map_eq_nil_iff] at h0
        exact h.1 (by rw [h0])
      have e3 : ((ss.map fun x => (⟨[], [], x⟩ : CssSelector S M)).map
          (replaceParent rp (s.map fun s => ⟨la, m, s⟩))) =
          (ss.map fun x => rp x s).map fun s => ⟨la, m, s⟩ := by
        rw [List.map_map, List.map_map]
        apply List.map_congr_left
        intro x _
        simp only [Function.comp]
        rw [replaceParent_eq rp la m s hs, nestName_nil, List.append_nil]
      simp only [parseBody, Option.map_some, splitBody, namesOf_cons, namesOf_append, List.mem_append] at hn
      rw [e3] at hn
      simp only [bodyLayers, List.mem_cons, List.mem_append]
      rcases hn with hn | hn | hn
      · exact Or.inl (hmap _ _ _ _ hn)
      · have := ih1 la m (ss.map fun x => rp x s) [] h.2.1 hss n hn
        simp only [List.mem_cons] at this; tauto
      · have := ih2 la m s [] h.2.2 hs n hn
        simp only [List.mem_cons] at this; tauto
  | case5 conds body rest ih1 ih2 =>
    intro la m s ds0 h hs n hn
    simp only [parseBody, splitBody, namesOf_cons, namesOf_append, List.mem_append, List.map_cons,
      List.map_nil] at hn
    rw [replaceParent_eq rp la m s hs, nestName_nil] at hn
    simp only [bodyLayers, List.mem_cons, List.mem_append]
    rcases hn with hn | hn | hn
    · exact Or.inl (hmap _ _ _ _ hn)
    · have := ih1 la (m ++ conds) [rp amp s] [] h.1 (by simp) n hn
      simp only [List.mem_cons] at this; tauto
    · have := ih2 la m s [] h.2 hs n hn
      simp only [List.mem_cons] at this; tauto
  | case6 name body rest ih1 ih2 =>
    intro la m s ds0 h hs n hn
    simp only [parseBody, splitBody, namesOf_cons, namesOf_append, List.mem_append, List.map_cons,
      List.map_nil] at hn
    rw [replaceParent_eq rp la m s hs, List.append_nil] at hn
    simp only [bodyLayers, List.mem_cons, List.mem_append]
    rcases hn with hn | hn | hn
    · exact Or.inl (hmap _ _ _ _ hn)
    · have := ih1 (nestName la name) m [rp amp s] [] h.2.1 (by simp) n hn
      simp only [List.mem_cons] at this; tauto
    · have := ih2 la m s [] h.2.2 hs n hn
      simp only [List.mem_cons] at this; tauto

theorem doc_names_mem (rp : S → List S → S) (amp : S) (src : List (Src S M C N T V X Y)) :
    ∀ (layer : Name) (media : List M), Proper src →
    ∀ n ∈ layerNames (flatItems rp (parseItems amp ⟨media, layer⟩ src)), n ∈ docLayers layer src := by
  fun_induction Proper src with
  | case1 => intro la m h n hn; simp [parseItems, flatItems, layerNames] at hn
  | case2 => intro la m h; cases h
  | case3 ls rest ih =>
    intro la m h n hn
    simp only [parseItems, parseItem, flatItems, layerNames, List.mem_append] at hn
    have : ls.map (joinLayer la) = ls.map (nestName la) :=
      List.map_congr_left (fun n hn => joinLayer_eq (h.1 n hn) la)
    rw [this] at hn
    simp only [docLayers, List.mem_append]
    rcases hn with hn | hn
    · exact Or.inl hn
    · exact Or.inr (ih la m h.2 n hn)
  | case4 names inner rest ih1 ih2 =>
    intro la m h n hn
    simp only [parseItems] at hn
    match names with
    | [] => simp only [parseItem, flatItems] at hn; simp only [docLayers]; exact ih2 la m h.2.2 n hn
    | [k] =>
      simp only [parseItem, flatItems, layerNames_append, List.mem_append] at hn
      rw [joinLayer_eq (h.1 k (by simp))] at hn
      simp only [docLayers, List.mem_append]
      rcases hn with hn | hn
      · exact Or.inl (ih1 _ m h.2.1 n hn)
      · exact Or.inr (ih2 la m h.2.2 n hn)
    | _ :: _ :: _ =>
      simp only [parseItem, flatItems] at hn; simp only [docLayers]; exact ih2 la m h.2.2 n hn
  | case5 c inner rest ih1 ih2 =>
    intro la m h n hn
    simp only [parseItems, parseItem, flatItems, layerNames_append, List.mem_append] at hn
    simp only [docLayers, List.mem_append]
    rcases hn with hn | hn
    · exact Or.inl (ih1 _ _ h.1 n hn)
    · exact Or.inr (ih2 la m h.2 n hn)
  | case6 sels body rest ih =>
    intro la m h n hn
    cases sels with
    | none =>
      simp only [parseItems, parseItem, flatItems, Option.map_none] at hn
      simp only [docLayers]
      exact ih la m h.2.2 n hn
    | some ss =>
      simp only [parseItems, parseItem, flatItems, Option.map_some, layerNames_append,
        layerNames_rules, List.mem_append] at hn
      simp only [docLayers, List.mem_append]
      rcases hn with hn | hn
      · exact Or.inl (split_names_mem rp amp body la m ss [] h.2.1 (fun h0 => h.1 (by rw [h0])) n hn)
      · exact Or.inr (ih la m h.2.2 n hn)
  | case7 rest ih =>
    intro la m h n hn
    simp only [parseItems, parseItem, flatItems] at hn
    simp only [docLayers]
    exact ih la m h n hn

theorem split_sels_ne (rp : S → List S → S) (amp : S) (src : List (BodySrc S M C N T V X Y)) :
    ∀ (sels : List (CssSelector S M)) (ds0 : List (SrcDecl C N T V X Y)),
    BodyProper src → sels ≠ [] → ∀ r ∈ splitBody rp sels ds0 (parseBody amp src), r.selectors ≠ [] := by
  fun_induction BodyProper src with
  | case1 =>
    intro s ds0 _ hs r hr
    simp only [parseBody, splitBody, List.mem_singleton] at hr
    subst hr; exact hs
  | case2 ds rest ih => intro s ds0 h hs; simp only [parseBody, splitBody]; exact ih s _ h hs
  | case3 rest ih => intro s ds0 h hs; simp only [parseBody, splitBody]; exact ih s _ h hs
  | case4 sels body rest ih1 ih2 =>
    intro s ds0 h hs r hr
    cases sels with
    | none =>
      simp only [parseBody, Option.map_none, splitBody, List.mem_cons] at hr
      rcases hr with rfl | hr
      · exact hs
      · exact ih2 s [] h.2.2 hs r hr
    | some ss =>
      simp only [parseBody, Option.map_some, splitBody, List.mem_cons, List.mem_append] at hr
      rcases hr with rfl | hr | hr
      · exact hs
      · refine ih1 _ [] h.2.1 ?_ r hr
        intro h0
        simp only [List.map_eq_nil_iff] at h0
        exact h.1 (by rw [h0])
      · exact ih2 s [] h.2.2 hs r hr
  | case5 conds body rest ih1 ih2 =>
    intro s ds0 h hs r hr
    simp only [parseBody, splitBody, List.mem_cons, List.mem_append] at hr
    rcases hr with rfl | hr | hr
    · exact hs
    · exact ih1 _ [] h.1 (by simp) r hr
    · exact ih2 s [] h.2 hs r hr
  | case6 name body rest ih1 ih2 =>
    intro s ds0 h hs r hr
    simp only [parseBody, splitBody, List.mem_cons, List.mem_append] at hr
    rcases hr with rfl | hr | hr
    · exact hs
    · exact ih1 _ [] h.2.1 (by simp) r hr
    · exact ih2 s [] h.2.2 hs r hr

theorem doc_sels_ne (rp : S → List S → S) (amp : S) (src : List (Src S M C N T V X Y)) :
    ∀ (ctx : Context M), Proper src →
    ∀ r ∈ rulesOf (flatItems rp (parseItems amp ctx src)), r.selectors ≠ [] := by
  fun_induction Proper src with
  | case1 => intro ctx h r hr; simp [parseItems, flatItems, rulesOf] at hr
  | case2 => intro ctx h; cases h
  | case3 ls rest ih =>
    intro ctx h r hr
    simp only [parseItems, parseItem, flatItems, rulesOf] at hr
    exact ih ctx h.2 r hr
  | case4 names inner rest ih1 ih2 =>
    intro ctx h r hr
    simp only [parseItems] at hr
    match names with
    | [] => simp only [parseItem, flatItems] at hr; exact ih2 ctx h.2.2 r hr
    | [k] =>
      simp only [parseItem, flatItems, rulesOf_append, List.mem_append] at hr
      rcases hr with hr | hr
      · exact ih1 _ h.2.1 r hr
      · exact ih2 ctx h.2.2 r hr
    | _ :: _ :: _ => simp only [parseItem, flatItems] at hr; exact ih2 ctx h.2.2 r hr
  | case5 c inner rest ih1 ih2 =>
    intro ctx h r hr
    simp only [parseItems, parseItem, flatItems, rulesOf_append, List.mem_append] at hr
    rcases hr with hr | hr
    · exact ih1 _ h.1 r hr
    · exact ih2 ctx h.2 r hr
  | case6 sels body rest ih =>
    intro ctx h r hr
    cases sels with
    | none =>
      simp only [parseItems, parseItem, flatItems, Option.map_none] at hr
      exact ih ctx h.2.2 r hr
    | some ss =>
      simp only [parseItems, parseItem, flatItems, Option.map_some, rulesOf_append, List.mem_append,
        rulesOf_map_rules] at hr
      rcases hr with hr | hr
      · refine split_sels_ne rp amp body _ [] h.2.1 ?_ r hr
        intro h0
        rw [List.map_eq_nil_iff] at h0
        exact h.1 (by rw [h0])
      · exact ih ctx h.2.2 r hr
  | case7 rest ih =>
    intro ctx h r hr
    simp only [parseItems, parseItem, flatItems] at hr
    exact ih ctx h r hr

/-! ## errors -/

theorem reportErrors_pos (amp : S) (src : List (BodySrc S M C N T V X Y)) :
    0 < reportErrors (parseBody amp src) ↔ BodyError src := by
  fun_induction parseBody amp src with
  | case1 =>
    constructor
    · intro h; simp [reportErrors] at h
    · intro h; cases h
  | case2 ds rest ih =>
    simp only [reportErrors]
    rw [ih]
    constructor
    · exact .later _
    · intro h; cases h; assumption
  | case3 rest ih =>
    simp only [reportErrors]
    exact ⟨fun _ => .here _, fun _ => by omega⟩
  | case4 sels body rest ih1 ih2 =>
    simp only [reportErrors, Option.isNone_map]
    constructor
    · intro h
      cases sels with
      | none => exact .selectors _ _
      | some ss =>
        simp only [Option.isNone_some, Bool.false_eq_true, if_false, Nat.zero_add] at h
        rcases Nat.eq_zero_or_pos (reportErrors (parseBody amp body)) with h0 | h0
        · exact .later _ (ih2.mp (by omega))
        · exact .inRule _ _ (ih1.mp h0)
    · intro h
      cases h with
      | selectors => simp only [Option.isNone_none, if_true]; omega
      | inRule _ _ h => have := ih1.mpr h; omega
      | later _ h => have := ih2.mpr h; omega
  | case5 conds body rest ih1 ih2 =>
    simp only [reportErrors, Option.isNone_some, Bool.false_eq_true, if_false, Nat.zero_add]
    constructor
    · intro h
      rcases Nat.eq_zero_or_pos (reportErrors (parseBody amp body)) with h0 | h0
      · exact .later _ (ih2.mp (by omega))
      · exact .inMedia _ _ (ih1.mp h0)
    · intro h
      cases h with
      | inMedia _ _ h => have := ih1.mpr h; omega
      | later _ h => have := ih2.mpr h; omega
  | case6 name body rest ih1 ih2 =>
    simp only [reportErrors, Option.isNone_some, Bool.false_eq_true, if_false, Nat.zero_add]
    constructor
    · intro h
      rcases Nat.eq_zero_or_pos (reportErrors (parseBody amp body)) with h0 | h0
      · exact .later _ (ih2.mp (by omega))
      · exact .inLayer _ _ (ih1.mp h0)
    · intro h
      cases h with
      | inLayer _ _ h => have := ih1.mpr h; omega
      | later _ h => have := ih2.mpr h; omega

theorem errors_pos (amp : S) (src : List (Src S M C N T V X Y)) : ∀ (ctx : Context M),
    0 < errors (parseItems amp ctx src) ↔ HasError src := by
  fun_induction cleanSrc src with
  | case1 =>
    intro ctx
    constructor
    · intro h; simp [errors, parseItems] at h
    · intro h; cases h
  | case2 o l rest ih =>
    intro ctx
    simp only [parseItems, parseItem, errors]
    rw [ih]
    exact ⟨.later _, fun h => by cases h; assumption⟩
  | case3 ls rest ih =>
    intro ctx
    simp only [parseItems, parseItem, errors]
    rw [ih]
    exact ⟨.later _, fun h => by cases h; assumption⟩
  | case4 name inner rest ih1 ih2 =>
    intro ctx
    simp only [parseItems, parseItem, errors]
    constructor
    · intro h
      rcases Nat.eq_zero_or_pos (errors (parseItems amp { ctx with layer := joinLayer ctx.layer name } inner))
        with h0 | h0
      · exact .later _ ((ih2 ctx).mp (by omega))
      · exact .inLayer _ _ ((ih1 _).mp h0)
    · intro h
      cases h with
      | layerNames _ _ _ h => simp at h
      | inLayer _ _ h => have := (ih1 { ctx with layer := joinLayer ctx.layer name }).mpr h; omega
      | later _ h => have := (ih2 ctx).mpr h; omega
  | case5 names inner rest hne ih =>
    intro ctx
    have hl : names.length ≠ 1 := by
      intro h
      obtain ⟨a, ha⟩ := List.length_eq_one_iff.mp h
      exact hne a ha
    refine ⟨fun _ => .layerNames _ _ _ hl, fun _ => ?_⟩
    simp only [parseItems]
    match names, hl with
    | [], _ => simp only [parseItem, errors]; omega
    | _ :: _ :: _, _ => simp only [parseItem, errors]; omega
  | case6 conds inner rest ih1 ih2 =>
    intro ctx
    simp only [parseItems, parseItem, errors]
    constructor
    · intro h
      rcases Nat.eq_zero_or_pos (errors (parseItems amp { ctx with media := mergeWith ctx.media conds } inner))
        with h0 | h0
      · exact .later _ ((ih2 ctx).mp (by omega))
      · exact .inMedia _ _ ((ih1 _).mp h0)
    · intro h
      cases h with
      | inMedia _ _ h => have := (ih1 { ctx with media := mergeWith ctx.media conds }).mpr h; omega
      | later _ h => have := (ih2 ctx).mpr h; omega
  | case7 body rest ih =>
    intro ctx
    simp only [parseItems, parseItem, errors, Option.map_none]
    exact ⟨fun _ => .selectors _ _, fun _ => by omega⟩
  | case8 ss body rest ih =>
    intro ctx
    simp only [parseItems, parseItem, errors, Option.map_some]
    constructor
    · intro h
      rcases Nat.eq_zero_or_pos (reportErrors (parseBody amp body)) with h0 | h0
      · exact .later _ ((ih ctx).mp (by omega))
      · exact .inBody _ _ ((reportErrors_pos amp body).mp h0)
    · intro h
      cases h with
      | inBody _ _ h => have := (reportErrors_pos amp body).mpr h; omega
      | later _ h => have := (ih ctx).mpr h; omega
  | case9 rest ih =>
    intro ctx
    simp only [parseItems, parseItem, errors]
    exact ⟨fun _ => .here _, fun _ => by omega⟩

/-! ## cleaning -/

theorem cleanBody_facts (rp : S → List S → S) (amp : S) (src : List (BodySrc S M C N T V X Y)) :
    (BodyProper src → BodyProper (cleanBody src)) ∧ ¬ BodyError (cleanBody src) ∧
    (∀ layer, bodyLayers layer (cleanBody src) = bodyLayers layer src) ∧
    (∀ layer media sels, bodyDecls rp amp layer media sels (cleanBody src) =
      bodyDecls rp amp layer media sels src) := by
  fun_induction cleanBody src with
  | case1 => exact ⟨fun _ => by simp only [BodyProper], (fun h => by cases h), fun _ => rfl, fun _ _ _ => rfl⟩
  | case2 ds rest ih =>
    obtain ⟨a, b, c, d⟩ := ih
    refine ⟨by simp only [BodyProper]; exact a, ?_, fun l => by simp only [bodyLayers, c], fun l m s => by simp only [bodyDecls, d]⟩
    intro h; cases h with | later _ h => exact b h
  | case3 rest ih =>
    obtain ⟨a, b, c, d⟩ := ih
    exact ⟨by simp only [BodyProper]; exact a, b, fun l => by simp only [bodyLayers, c], fun l m s => by simp only [bodyDecls, d]⟩
  | case4 body rest ih =>
    obtain ⟨a, b, c, d⟩ := ih
    exact ⟨by simp only [BodyProper]; exact fun h => a h.2.2, b, fun l => by simp only [bodyLayers, c], fun l m s => by simp only [bodyDecls, d]⟩
  | case5 ss body rest ih1 ih2 =>
    obtain ⟨a, b, c, d⟩ := ih1
    obtain ⟨a', b', c', d'⟩ := ih2
    refine ⟨by simp only [BodyProper]; exact fun h => ⟨h.1, a h.2.1, a' h.2.2⟩, ?_, fun l => by simp only [bodyLayers, c, c'],
      fun l m s => by simp only [bodyDecls, d, d']⟩
    intro h
    cases h with
    | inRule _ _ h => exact b h
    | later _ h => exact b' h
  | case6 conds body rest ih1 ih2 =>
    obtain ⟨a, b, c, d⟩ := ih1
    obtain ⟨a', b', c', d'⟩ := ih2
    refine ⟨by simp only [BodyProper]; exact fun h => ⟨a h.1, a' h.2⟩, ?_, fun l => by simp only [bodyLayers, c, c'],
      fun l m s => by simp only [bodyDecls, d, d']⟩
    intro h
    cases h with
    | inMedia _ _ h => exact b h
    | later _ h => exact b' h
  | case7 name body rest ih1 ih2 =>
    obtain ⟨a, b, c, d⟩ := ih1
    obtain ⟨a', b', c', d'⟩ := ih2
    refine ⟨by simp only [BodyProper]; exact fun h => ⟨h.1, a h.2.1, a' h.2.2⟩, ?_, fun l => by simp only [bodyLayers, c, c'],
      fun l m s => by simp only [bodyDecls, d, d']⟩
    intro h
    cases h with
    | inLayer _ _ h => exact b h
    | later _ h => exact b' h

theorem cleanSrc_facts (rp : S → List S → S) (amp : S) (src : List (Src S M C N T V X Y)) :
    (Proper src → Proper (cleanSrc src)) ∧ ¬ HasError (cleanSrc src) ∧
    (∀ layer, docLayers layer (cleanSrc src) = docLayers layer src) ∧
    (∀ layer media, docDecls rp amp layer media (cleanSrc src) = docDecls rp amp layer media src) := by
  fun_induction cleanSrc src with
  | case1 => exact ⟨fun _ => by simp only [Proper], (fun h => by cases h), fun _ => rfl, fun _ _ => rfl⟩
  | case2 o l rest ih =>
    obtain ⟨a, b, c, d⟩ := ih
    refine ⟨by simp only [Proper]; exact fun h => h, ?_, fun l => by simp only [docLayers, c], fun l m => by simp only [docDecls, d]⟩
    intro h; cases h with | later _ h => exact b h
  | case3 ls rest ih =>
    obtain ⟨a, b, c, d⟩ := ih
    refine ⟨by simp only [Proper]; exact fun h => ⟨h.1, a h.2⟩, ?_, fun l => by simp only [docLayers, c],
      fun l m => by simp only [docDecls, d]⟩
    intro h; cases h with | later _ h => exact b h
  | case4 name inner rest ih1 ih2 =>
    obtain ⟨a, b, c, d⟩ := ih1
    obtain ⟨a', b', c', d'⟩ := ih2
    refine ⟨by simp only [Proper]; exact fun h => ⟨h.1, a h.2.1, a' h.2.2⟩, ?_, fun l => by simp only [docLayers, c, c'],
      fun l m => by simp only [docDecls, d, d']⟩
    intro h
    cases h with
    | layerNames _ _ _ h => simp at h
    | inLayer _ _ h => exact b h
    | later _ h => exact b' h
  | case5 names inner rest hne ih =>
    obtain ⟨a, b, c, d⟩ := ih
    refine ⟨by simp only [Proper]; exact fun h => a h.2.2, b, fun l => ?_, fun l m => ?_⟩
    · match names, hne with
      | [], _ => simp only [docLayers, c]
      | [n], h => exact absurd rfl (h n)
      | _ :: _ :: _, _ => simp only [docLayers, c]
    · match names, hne with
      | [], _ => simp only [docDecls, d]
      | [n], h => exact absurd rfl (h n)
      | _ :: _ :: _, _ => simp only [docDecls, d]
  | case6 conds inner rest ih1 ih2 =>
    obtain ⟨a, b, c, d⟩ := ih1
    obtain ⟨a', b', c', d'⟩ := ih2
    refine ⟨by simp only [Proper]; exact fun h => ⟨a h.1, a' h.2⟩, ?_, fun l => by simp only [docLayers, c, c'],
      fun l m => by simp only [docDecls, d, d']⟩
    intro h
    cases h with
    | inMedia _ _ h => exact b h
    | later _ h => exact b' h
  | case7 body rest ih =>
    obtain ⟨a, b, c, d⟩ := ih
    exact ⟨by simp only [Proper]; exact fun h => a h.2.2, b, fun l => by simp only [docLayers, c], fun l m => by simp only [docDecls, d]⟩
  | case8 ss body rest ih =>
    obtain ⟨a, b, c, d⟩ := ih
    obtain ⟨a', b', c', d'⟩ := cleanBody_facts rp amp body
    refine ⟨by simp only [Proper]; exact fun h => ⟨h.1, a' h.2.1, a h.2.2⟩, ?_, fun l => by simp only [docLayers, c, c'],
      fun l m => by simp only [docDecls, d, d']⟩
    intro h
    cases h with
    | inBody _ _ h => exact b' h
    | later _ h => exact b h
  | case9 rest ih =>
    obtain ⟨a, b, c, d⟩ := ih
    exact ⟨by simp only [Proper]; exact a, b, fun l => by simp only [docLayers, c], fun l m => by simp only [docDecls, d]⟩

end Flair.Loader
