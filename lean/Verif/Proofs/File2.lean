import Verif.Proofs.File
/-! # Lemmas about the keyframes and font faces of files -/
namespace Flair.Proofs.File
set_option linter.unusedSectionVars false
open Flair.File Flair.Spec Flair.Sheet Flair.Layers Flair.Loader Flair.Vars Flair.Values
open Flair.Calc (Res)
open Flair.Keyframes (KB Item)
variable {S M C N T V A B X Y : Type}

/-! ## times -/

theorem keyframeTime_iff {ts : List Tok} {q : ℚ} : keyframeTime ts = some q ↔ ∃ t, ts = [t] ∧ TimeWord t q := by
  constructor
  · intro h
    unfold keyframeTime at h
    split at h
    · rename_i s
      refine ⟨_, rfl, ?_⟩
      split at h
      · rename_i h1; cases h; exact .start s (isName_iff.mp h1)
      · split at h
        · rename_i h1; cases h; exact .finish s (isName_iff.mp h1)
        · cases h
    · rename_i x
      refine ⟨_, rfl, ?_⟩
      split at h
      · rename_i h1
        cases h
        exact .percentage x (by have := h1.1; linarith) (by have := h1.2; linarith)
      · cases h
    · refine ⟨_, rfl, ?_⟩
      split at h
      · rename_i h1; cases h; exact .number _ h1.1 h1.2
      · cases h
    · cases h
  · rintro ⟨t, rfl, h⟩
    cases h with
    | start s h => simp [keyframeTime, isName_iff.mpr h]
    | finish s h =>
      have h0 : isName s "from" = false := by
        unfold isName; rw [h]; decide
      simp [keyframeTime, isName_iff.mpr h, h0]
    | percentage x h1 h2 =>
      unfold keyframeTime
      simp only
      rw [if_pos ⟨by linarith, by linarith⟩]
    | number _ h1 h2 => simp [keyframeTime, h1, h2]

theorem segments_ne (ts : List Tok) : segments ts ≠ [] := by
  fun_induction segments ts <;> simp

theorem segments_nil {ts : List Tok} {ss : List (List Tok)} (h : segments ts = [] :: ss) :
    (ts = [] ∧ ss = []) ∨ ∃ ts', ts = .comma :: ts' ∧ ss = segments ts' := by
  fun_induction segments ts with
  | case1 => simp at h; exact Or.inl ⟨rfl, by simp [h]⟩
  | case2 ts ih => simp at h; exact Or.inr ⟨ts, rfl, h.symm⟩
  | case3 t ts hne heq ih => simp at h
  | case4 t ts hne g gs heq ih => simp at h

theorem segments_cons {t : Tok} (ht : t ≠ .comma) (ts : List Tok) {s ss} (h : segments ts = s :: ss) :
    segments (t :: ts) = (t :: s) :: ss := by
  cases t with
  | comma => exact absurd rfl ht
  | _ => simp only [segments, h]

theorem mapM_cons_some {α β : Type} {f : α → Option β} {a : α} {l : List α} {r : List β} :
    (a :: l).mapM f = some r ↔ ∃ b bs, f a = some b ∧ l.mapM f = some bs ∧ r = b :: bs := by
  rw [List.mapM_cons]
  cases f a with
  | none => simp
  | some b => cases l.mapM f <;> simp [eq_comm]

theorem mapM_nil_some {α β : Type} {f : α → Option β} {r : List β} : ([] : List α).mapM f = some r ↔ r = [] := by
  simp [eq_comm]

theorem timeWord_comma {t : Tok} {q : ℚ} (h : TimeWord t q) : t ≠ .comma := by
  cases h <;> simp

theorem keyframeTimes_iff {ts : List Tok} {qs : List ℚ} : keyframeTimes ts = some qs ↔ TimesOf ts qs := by
  unfold keyframeTimes
  constructor
  · suffices hs : ∀ (k : Nat) (ts : List Tok) (qs : List ℚ), ts.length ≤ k → (segments ts).mapM keyframeTime = some qs →
        TimesOf ts qs from hs _ ts qs (le_refl _)
    intro k
    induction k with
    | zero =>
      intro ts qs hk h
      have : ts = [] := List.length_eq_zero_iff.mp (by omega)
      subst this
      obtain ⟨b, bs, h1, _⟩ := mapM_cons_some.mp h
      cases h1
    | succ k ih =>
      intro ts qs hk h
      cases ts with
      | nil =>
        obtain ⟨b, bs, h1, _⟩ := mapM_cons_some.mp h
        cases h1
      | cons t ts =>
        by_cases ht : t = .comma
        · subst ht
          obtain ⟨b, bs, h1, _⟩ := mapM_cons_some.mp h
          cases h1
        · cases hseg : segments ts with
          | nil => exact absurd hseg (segments_ne ts)
          | cons g gs =>
            rw [segments_cons ht ts hseg] at h
            obtain ⟨b, bs, h1, h2, rfl⟩ := mapM_cons_some.mp h
            obtain ⟨t', ht', hw⟩ := keyframeTime_iff.mp h1
            injection ht' with ht' hg
            subst ht' hg
            rcases segments_nil hseg with ⟨rfl, rfl⟩ | ⟨ts', rfl, rfl⟩
            · cases mapM_nil_some.mp h2
              exact .one _ _ hw
            · exact .more _ _ _ _ hw (ih ts' bs (by simp only [List.length_cons] at hk; omega) h2)
  · intro h
    induction h with
    | one t q hw =>
      rw [segments_cons (timeWord_comma hw) [] rfl]
      exact mapM_cons_some.mpr ⟨q, [], keyframeTime_iff.mpr ⟨t, rfl, hw⟩, rfl, rfl⟩
    | more t q ts qs hw _ ih =>
      rw [segments_cons (timeWord_comma hw) (.comma :: ts) rfl]
      exact mapM_cons_some.mpr ⟨q, qs, keyframeTime_iff.mpr ⟨t, rfl, hw⟩, ih, rfl⟩

/-! ## the builder of keyframes does not look at the declarations -/

section
variable {D D' E' : Type}

def mapKB (g : D → D') (k : KB D E') : KB D' E' := ⟨k.time, k.props.map g, k.easing⟩
def mapCall (g : D → D') (c : Keyframes.Call D E') : Keyframes.Call D' E' := ⟨c.time, c.props.map g, c.easing⟩
def mapItem (g : D → D') : Item D E' → Item D' E'
  | .props ds => .props (ds.map g)
  | .easing e => .easing e
def mapRule (g : D → D') (r : List ℚ × List (Item D E')) : List ℚ × List (Item D' E') := (r.1, r.2.map (mapItem g))

theorem add_map (g : D → D') (ks : List (KB D E')) (c : Keyframes.Call D E') :
    Keyframes.add (ks.map (mapKB g)) (mapCall g c) = (Keyframes.add ks c).map (mapKB g) := by
  induction ks with
  | nil => simp [Keyframes.add, mapKB, mapCall]
  | cons k ks ih =>
    simp only [List.map_cons, Keyframes.add]
    show (if Keyframes.timeEq k.time c.time = true then _ else _) = _
    split
    · simp [mapKB, mapCall]
    · simp only [List.map_cons, ih]

theorem fold_map (g : D → D') : ∀ (cs : List (Keyframes.Call D E')) (ks : List (KB D E')),
    (cs.map (mapCall g)).foldl Keyframes.add (ks.map (mapKB g)) = (cs.foldl Keyframes.add ks).map (mapKB g) := by
  intro cs
  induction cs with
  | nil => intro ks; rfl
  | cons c cs ih => intro ks; rw [List.map_cons, List.foldl_cons, List.foldl_cons, add_map, ih]

theorem build_map (g : D → D') (ks : List (KB D E')) :
    Keyframes.build (ks.map (mapKB g)) = (Keyframes.build ks).map (mapKB g) := by
  unfold Keyframes.build
  rw [List.map_mergeSort (r := fun a b => decide (a.time ≤ b.time)) (s := fun a b => decide (a.time ≤ b.time))
    (f := mapKB g) (by intro a _ b _; rfl)]
  congr 1
  rw [List.filter_map]
  rfl

theorem keyframes_map (g : D → D') (cs : List (Keyframes.Call D E')) :
    Keyframes.keyframes (cs.map (mapCall g)) = (Keyframes.keyframes cs).map (mapKB g) := by
  unfold Keyframes.keyframes
  rw [← build_map, ← fold_map]
  rfl

theorem callOf_map (g : D → D') (it : Item D E') (t : ℚ) :
    Keyframes.callOf (mapItem g it) t = mapCall g (Keyframes.callOf it t) := by
  cases it <;> rfl

theorem callsOf_map (g : D → D') (rules : List (List ℚ × List (Item D E'))) :
    Keyframes.callsOf (rules.map (mapRule g)) = (Keyframes.callsOf rules).map (mapCall g) := by
  unfold Keyframes.callsOf
  rw [List.flatMap_map, List.map_flatMap]
  congr 1
  funext r
  simp only [mapRule]
  rw [List.flatMap_map, List.map_flatMap]
  congr 1
  funext it
  rw [List.map_map]
  congr 1
  funext t
  exact callOf_map g it t
end

theorem resolveFrame_map (k : KB (RProp C N T V) A) : resolveFrame (mapKB RProp.toBProp k) = some k := by
  have : ∀ l : List (RProp C N T V), (l.map RProp.toBProp).mapM (BProp.resolve fun _ => none) = some l := by
    intro l
    induction l with
    | nil => rfl
    | cons d l ih =>
      rw [List.map_cons]
      exact mapM_cons_some.mpr ⟨d, l, resolve_toBProp _ d, ih, rfl⟩
  unfold resolveFrame
  simp only [mapKB]
  rw [this]
  rfl

theorem resolve_all (l : List (KB (RProp C N T V) A)) : (l.map (mapKB RProp.toBProp)).mapM resolveFrame = some l := by
  induction l with
  | nil => rfl
  | cons d l ih =>
    rw [List.map_cons]
    exact mapM_cons_some.mpr ⟨d, l, resolveFrame_map d, ih, rfl⟩

/-! ## what a keyframe says -/

section
variable {p : Parsers S M C N T V A B}

theorem keyframeItem_props (ds : List (RProp C N T V)) :
    keyframeItem (S := S) (M := M) (B := B) (A := A) (.decls (ds.map fun d => .prop d.toBProp)) =
      some (some (.props (ds.map RProp.toBProp))) := by
  unfold keyframeItem
  split
  · rename_i h; cases h
  · rename_i a h
    cases ds with
    | nil => simp at h
    | cons d ds => simp at h
  · rename_i ds' hne h
    injection h with h
    rw [← h, mapM_keyframeProp]
    rfl
  · rename_i h; exact absurd rfl (h _)

theorem keyframeDecl_of {n : Node} {i : FBody S M C N T V A B} {o} (h1 : bodyItem p keyframeFlags n = some i)
    (h2 : keyframeItem i = some o) : ∃ o', KeyframeDecl p n o' ∧ o = o'.map (mapItem RProp.toBProp) := by
  cases n with
  | declaration name value =>
    rw [bodyItem] at h1
    unfold declItem at h1
    rw [keyframe_parseValue] at h1
    by_cases hn : isName name "animation-timing-function" = true
    · have hn' := isName_iff.mp hn
      rw [if_pos hn] at h1
      cases h : p.animation (some .timing) value with
      | ok a =>
        rw [h] at h1; cases h1; cases h2
        exact ⟨_, .easing name value a hn' h, rfl⟩
      | err =>
        rw [h] at h1
        simp only [Res.bind, keyframe_located] at h1
        cases h1; cases h2
        exact ⟨_, .badEasing name value hn' h, rfl⟩
      | panic => rw [h] at h1; cases h1
    · have hn' : lower name ≠ "animation-timing-function".toList := fun h => hn (isName_iff.mpr h)
      rw [if_neg hn] at h1
      cases h : p.property name value with
      | ok a =>
        rw [h] at h1; cases h1
        rw [keyframeItem_props] at h2
        cases h2
        exact ⟨_, .props name value a hn' h, rfl⟩
      | err =>
        rw [h] at h1
        simp only [Res.bind, keyframe_located] at h1
        cases h1; cases h2
        exact ⟨_, .badProps name value hn' h, rfl⟩
      | panic => rw [h] at h1; cases h1
  | qualified lead prelude block =>
    rw [bodyItem] at h1; cases h1; cases h2
    exact ⟨none, .other _ (by simp), rfl⟩
  | atRule name prelude block =>
    refine ⟨none, .other _ (by simp), ?_⟩
    cases block with
    | none => rw [bodyItem] at h1; cases h1; cases h2; rfl
    | some b => rw [bodyItem] at h1; cases h1; cases h2; rfl
  | bad =>
    rw [bodyItem] at h1; cases h1; cases h2
    exact ⟨none, .other _ (by simp), rfl⟩

theorem keyframeBody_of : ∀ {block : List Node} {items : List (FBody S M C N T V A B)} {os},
    block.mapM (bodyItem p keyframeFlags) = some items → items.mapM keyframeItem = some os →
    ∃ os', List.Forall₂ (KeyframeDecl p) block os' ∧ os = os'.map (Option.map (mapItem RProp.toBProp)) := by
  intro block
  induction block with
  | nil =>
    intro items os h1 h2
    cases mapM_nil_some.mp h1
    cases mapM_nil_some.mp h2
    exact ⟨[], .nil, rfl⟩
  | cons n block ih =>
    intro items os h1 h2
    obtain ⟨i, is, h3, h4, rfl⟩ := mapM_cons_some.mp h1
    obtain ⟨o, os2, h5, h6, rfl⟩ := mapM_cons_some.mp h2
    obtain ⟨o', h7, rfl⟩ := keyframeDecl_of h3 h5
    obtain ⟨os', h8, rfl⟩ := ih h4 h6
    exact ⟨o' :: os', .cons h7 h8, rfl⟩

theorem filterMap_id_map {α β : Type} (f : α → β) (l : List (Option α)) :
    (l.map (Option.map f)).filterMap id = (l.filterMap id).map f := by
  induction l with
  | nil => rfl
  | cons o l ih =>
    cases o with
    | none => exact ih
    | some a => exact congrArg (f a :: ·) ih

theorem keyframesBody_of : ∀ {block : List Node} {frames : List (Frame S M C N T V A B)} {rs},
    block.mapM (frameItem p) = some frames → frames.mapM keyframeRule = some rs →
    ∃ rules, KeyframesBody p block rules ∧ rs.flatMap (·.1) = rules.map (mapRule RProp.toBProp) := by
  intro block
  induction block with
  | nil =>
    intro frames rs h1 h2
    cases mapM_nil_some.mp h1
    cases mapM_nil_some.mp h2
    exact ⟨[], .nil, rfl⟩
  | cons n block ih =>
    intro frames rs h1 h2
    obtain ⟨f, fs, h3, h4, rfl⟩ := mapM_cons_some.mp h1
    obtain ⟨r, rs2, h5, h6, rfl⟩ := mapM_cons_some.mp h2
    obtain ⟨rules, h7, h8⟩ := ih h4 h6
    have hskip : (∀ lead prelude b, n = .qualified lead prelude b → keyframeTimes prelude = none) → f = .error →
        ∃ rules, KeyframesBody p (n :: block) rules ∧ (r :: rs2).flatMap (·.1) = rules.map (mapRule RProp.toBProp) := by
      intro hn hf
      subst hf
      cases h5
      refine ⟨rules, .other _ _ _ ?_ h7, by simpa using h8⟩
      intro lead prelude b hb ts hts
      have := hn lead prelude b hb
      rw [keyframeTimes_iff.mpr hts] at this
      cases this
    unfold frameItem at h3
    split at h3
    · rename_i lead prelude b
      split at h3
      · rename_i ts hts
        obtain ⟨is, h9, rfl⟩ := Option.map_eq_some_iff.mp h3
        rw [bodyItems_mapM] at h9
        unfold keyframeRule at h5
        simp only at h5
        obtain ⟨os, h10, rfl⟩ := Option.map_eq_some_iff.mp h5
        obtain ⟨os', h11, rfl⟩ := keyframeBody_of h9 h10
        refine ⟨(ts, os'.filterMap id) :: rules, .keyframe _ _ _ _ _ _ _ (keyframeTimes_iff.mp hts) ⟨os', h11, rfl⟩ h7, ?_⟩
        rw [List.flatMap_cons, h8, filterMap_id_map]
        rfl
      · rename_i hts
        exact hskip (by intro _ _ _ hb; cases hb; exact hts) (by cases h3; rfl)
    · rename_i hn
      exact hskip (by intro a b c hb; exact absurd hb (hn a b c)) (by cases h3; rfl)

theorem processKeyframes_of {block : List Node} {frames : List (Frame S M C N T V A B)} {r}
    (h1 : block.mapM (frameItem p) = some frames) (h2 : processKeyframes frames = some r) :
    ∃ rules, KeyframesBody p block rules ∧ r.1 = Keyframes.keyframes (Keyframes.callsOf rules) := by
  unfold processKeyframes at h2
  obtain ⟨rs, h3, h4⟩ := Option.bind_eq_some_iff.mp h2
  obtain ⟨ks, h5, rfl⟩ := Option.map_eq_some_iff.mp h4
  obtain ⟨rules, h6, h7⟩ := keyframesBody_of h1 h3
  refine ⟨rules, h6, ?_⟩
  rw [h7, callsOf_map, keyframes_map, resolve_all] at h5
  cases h5
  rfl

/-! ## the rules of the top level -/

theorem importRule_iff {n : Node} {u : Text} : ImportRule n u ↔ importOf n = some u := by
  constructor
  · intro h
    cases h with
    | plain name t u hn ht =>
      rcases ht with rfl | rfl <;> simp [importOf, isName_iff.mpr hn, importPrelude]
    | layer name t u f l hn ht hf =>
      rcases ht with rfl | rfl <;> simp [importOf, isName_iff.mpr hn, importPrelude, isName_iff.mpr hf, oneIdent]
  · intro h
    unfold importOf at h
    split at h
    · rename_i name prelude
      split at h
      · rename_i hn
        have hn' := isName_iff.mp hn
        obtain ⟨⟨u', l⟩, h1, rfl⟩ := Option.map_eq_some_iff.mp h
        unfold importPrelude at h1
        split at h1
        · cases h1; exact .plain _ _ _ hn' (Or.inl rfl)
        · cases h1; exact .plain _ _ _ hn' (Or.inr rfl)
        · split at h1
          · rename_i hf
            obtain ⟨l', h2, h3⟩ := Option.map_eq_some_iff.mp h1
            cases h3
            rw [oneIdent_iff] at h2
            subst h2
            exact .layer _ _ _ _ _ hn' (Or.inl rfl) (isName_iff.mp hf)
          · cases h1
        · split at h1
          · rename_i hf
            obtain ⟨l', h2, h3⟩ := Option.map_eq_some_iff.mp h1
            cases h3
            rw [oneIdent_iff] at h2
            subst h2
            exact .layer _ _ _ _ _ hn' (Or.inr rfl) (isName_iff.mp hf)
          · cases h1
        · cases h1
      · cases h
    · cases h

theorem extractImports_iff {ns : List Node} {u : Text} : u ∈ extractImports ns ↔ ∃ n ∈ ns, ImportRule n u := by
  unfold extractImports
  simp only [List.mem_filterMap, importRule_iff]

theorem importRule_name {name : Text} {prelude block u} (h : ImportRule (.atRule name prelude block) u) :
    lower name = "import".toList := by
  cases h <;> assumption

theorem importRule_block {name : Text} {prelude block u} (h : ImportRule (.atRule name prelude block) u) : block = none := by
  cases h <;> rfl

theorem importOf_eq {name : Text} {prelude : List Tok} (h : lower name = "import".toList) :
    importOf (.atRule name prelude none) = (importPrelude prelude).map (·.1) := by
  unfold importOf
  simp only
  rw [if_pos (isName_iff.mpr h)]

variable [DecidableEq N]

/-- What an item does to the keyframes and the font faces. -/
theorem topStep (rp : S → List S → S) (amp : S) {imports : Text → Option (FSheet S M C N T V A B)} {d : List Text}
    {n : Node} {i} {st st' : State S M C N T V A B} (h1 : topItem p imports d n = some i)
    (h2 : processTop rp amp st i = some st') :
    (∃ k block rules, KeyframesRule n k block ∧ k ∉ d ∧ KeyframesBody p block rules ∧ declares i = [k] ∧
      st'.keyframes = st.keyframes ++ [(k, Keyframes.keyframes (Keyframes.callsOf rules))] ∧ st'.fonts = st.fonts) ∨
    (∃ u o, ImportRule n u ∧ imports u = some o ∧ declares i = [] ∧ st'.keyframes = st.keyframes ++ o.keyframes ∧
      st'.fonts = st.fonts ++ o.fonts) ∨
    (∃ f s, FontFaceRule n f s ∧ declares i = [] ∧ st'.keyframes = st.keyframes ∧ st'.fonts = st.fonts ++ [(f, s)]) ∨
    ((∀ k block, ¬ KeyframesRule n k block) ∧ (∀ u, ¬ ImportRule n u) ∧ (∀ f s, ¬ FontFaceRule n f s) ∧
      declares i = [] ∧ st'.keyframes = st.keyframes ∧ st'.fonts = st.fonts) := by
  have hsrc : ∀ s, i = .src s → declares i = [] ∧ st'.keyframes = st.keyframes ∧ st'.fonts = st.fonts := by
    rintro s rfl
    obtain ⟨x, hx, rfl⟩ := Option.map_eq_some_iff.mp h2
    exact ⟨rfl, rfl, rfl⟩
  have herr : i = .error → declares i = [] ∧ st'.keyframes = st.keyframes ∧ st'.fonts = st.fonts := by
    rintro rfl
    cases h2
    exact ⟨rfl, rfl, rfl⟩
  have hne : "font-face".toList ≠ "keyframes".toList ∧ "font-face".toList ≠ "import".toList ∧
      "keyframes".toList ≠ "import".toList := by decide
  unfold topItem at h1
  split at h1
  · rename_i name prelude block
    split at h1
    · rename_i hf
      have hf' := isName_iff.mp hf
      have hk : ∀ k b, ¬ KeyframesRule (.atRule name prelude block) k b := by
        intro k b h
        exact hne.1 (hf'.symm.trans (keyframesRule_iff.mp h).1)
      have hi : ∀ u, ¬ ImportRule (.atRule name prelude block) u := by
        intro u h
        exact hne.2.1 (hf'.symm.trans (importRule_name h))
      split at h1
      · rename_i b
        cases h1
        have hfold := fontFold b (none, none, 0)
        simp only [Option.or_none] at hfold
        generalize hr : (b.map fontItem).foldl fontStep (none, none, 0) = r at hfold
        obtain ⟨o1, o2, e⟩ := r
        simp only at hfold
        unfold fontFaceItem at h2 hsrc herr ⊢
        rw [hr] at h2 hsrc herr ⊢
        cases o1 with
        | none =>
          cases h2
        | some f =>
          cases o2 with
          | none =>
            cases h2
          | some s =>
            cases h2
            exact Or.inr (Or.inr (Or.inl ⟨f, s, .mk _ _ _ _ hf' hfold.1.symm hfold.2.symm, rfl, rfl, rfl⟩))
      · rename_i hno
        cases h1
        refine Or.inr (Or.inr (Or.inr ⟨hk, hi, ?_, herr rfl⟩))
        intro f s h
        obtain ⟨_, h3, b', h4, _⟩ := fontFaceRule_iff.mp h
        exact hno b' h3 h4
    · rename_i hf
      have hf' : lower name ≠ "font-face".toList := fun h => hf (isName_iff.mpr h)
      have hff : ∀ f s, ¬ FontFaceRule (.atRule name prelude block) f s := fun f s h => hf' (fontFaceRule_iff.mp h).1
      split at h1
      · rename_i hk
        have hk' := isName_iff.mp hk
        have hi : ∀ u, ¬ ImportRule (.atRule name prelude block) u := by
          intro u h
          exact hne.2.2 (hk'.symm.trans (importRule_name h))
        split at h1
        · rename_i k b hpre
          have hrule : KeyframesRule (.atRule name prelude (some b)) k b :=
            keyframesRule_iff.mpr ⟨hk', oneIdent_iff.mp hpre, rfl⟩
          unfold keyframesItem at h1
          obtain ⟨frames, h3, h4⟩ := Option.map_eq_some_iff.mp h1
          by_cases hd : k ∈ d
          · rw [if_pos hd] at h4
            subst h4
            cases h2
          · rw [if_neg hd] at h4
            subst h4
            obtain ⟨r, h5, rfl⟩ := Option.map_eq_some_iff.mp h2
            obtain ⟨rules, h6, h7⟩ := processKeyframes_of h3 h5
            exact Or.inl ⟨k, b, rules, hrule, hd, h6, rfl, by rw [← h7], rfl⟩
        · rename_i hno
          cases h1
          refine Or.inr (Or.inr (Or.inr ⟨?_, hi, hff, herr rfl⟩))
          intro k b h
          obtain ⟨_, rfl, rfl⟩ := keyframesRule_iff.mp h
          exact hno k b rfl rfl
      · rename_i hk
        have hk' : ∀ k b, ¬ KeyframesRule (.atRule name prelude block) k b :=
          fun k b h => hk (isName_iff.mpr (keyframesRule_iff.mp h).1)
        split at h1
        · rename_i hi
          have hi' := isName_iff.mp hi
          split at h1
          · rename_i u l hpre
            unfold importItem at h1
            obtain ⟨o, h3, rfl⟩ := Option.map_eq_some_iff.mp h1
            obtain ⟨y, h4, rfl⟩ := Option.map_eq_some_iff.mp h2
            obtain ⟨x, h5, rfl⟩ := Option.map_eq_some_iff.mp h4
            refine Or.inr (Or.inl ⟨u, o, importRule_iff.mpr ?_, h3, rfl, rfl, rfl⟩)
            rw [importOf_eq hi', hpre]
            rfl
          · rename_i hno
            cases h1
            refine Or.inr (Or.inr (Or.inr ⟨hk', ?_, hff, herr rfl⟩))
            intro u h
            have h3 := importRule_iff.mp h
            have hb := importRule_block h
            rw [hb, importOf_eq hi'] at h3
            obtain ⟨⟨u', l⟩, h4, _⟩ := Option.map_eq_some_iff.mp h3
            exact hno u' l h4 hb
        · rename_i hi
          obtain ⟨s, h3, h4⟩ := Option.map_eq_some_iff.mp h1
          exact Or.inr (Or.inr (Or.inr ⟨hk', fun u h => hi (isName_iff.mpr (importRule_name h)), hff, hsrc s h4.symm⟩))
  · rename_i hn
    obtain ⟨s, h3, h4⟩ := Option.map_eq_some_iff.mp h1
    refine Or.inr (Or.inr (Or.inr ⟨?_, ?_, ?_, hsrc s h4.symm⟩))
    · intro k b h; cases h; exact hn _ _ _ rfl
    · intro u h; cases h <;> exact hn _ _ _ rfl
    · intro f s h; cases h; exact hn _ _ _ rfl

theorem topFold (rp : S → List S → S) (amp : S) {imports : Text → Option (FSheet S M C N T V A B)} :
    ∀ (ns : List Node) (d done : List Text) (is) (st st' : State S M C N T V A B), (∀ x, x ∈ d ↔ x ∈ done) →
    topItems p imports d ns = some is → is.foldlM (processTop rp amp) st = some st' →
    (∃ as, Animations p imports done ns as ∧ st'.keyframes = st.keyframes ++ as) ∧
    ∃ fs, Fonts imports ns fs ∧ st'.fonts = st.fonts ++ fs := by
  intro ns
  induction ns with
  | nil =>
    intro d done is st st' hd h1 h2
    cases h1
    cases h2
    exact ⟨⟨[], .nil _, by simp⟩, [], .nil, by simp⟩
  | cons n ns ih =>
    intro d done is st st' hd h1 h2
    unfold topItems at h1
    obtain ⟨i, h3, h4⟩ := Option.bind_eq_some_iff.mp h1
    obtain ⟨is', h5, rfl⟩ := Option.map_eq_some_iff.mp h4
    rw [List.foldlM_cons] at h2
    obtain ⟨st1, h6, h7⟩ := Option.bind_eq_some_iff.mp h2
    have hfont : ∀ {k b u}, (KeyframesRule n k b ∨ ImportRule n u) → ∀ f s, ¬ FontFaceRule n f s := by
      intro k b u h f s hf
      cases hf with
      | mk name block _ _ hn _ _ =>
        rcases h with h | h
        · have := (keyframesRule_iff.mp h).1
          rw [hn] at this
          exact absurd this (by decide)
        · have := importRule_name h
          rw [hn] at this
          exact absurd this (by decide)
    have himp : ∀ {k b}, KeyframesRule n k b → ∀ u, ¬ ImportRule n u := by
      intro k b h u hu
      cases h with
      | mk name _ _ hn =>
        have := importRule_name hu
        rw [hn] at this
        exact absurd this (by decide)
    rcases topStep rp amp h3 h6 with ⟨k, b, rules, g1, g2, g3, g4, g5, g6⟩ |
        ⟨u, o, g1, g2, g4, g5, g6⟩ | ⟨f, s, g1, g4, g5, g6⟩ | ⟨g1, g2, g3, g4, g5, g6⟩
    · obtain ⟨⟨as, a1, a2⟩, fs, a3, a4⟩ := ih (d ++ declares i) (k :: done) is' st1 st' (by
        intro x; rw [g4]; simp [hd x]; tauto) h5 h7
      refine ⟨⟨_, .own _ _ _ _ _ _ _ g1 (fun h => g2 ((hd k).mpr h)) g3 a1, ?_⟩, fs, .other _ _ _ (hfont (k := k) (b := b) (u := []) (Or.inl g1)) (himp g1) a3, ?_⟩
      · rw [a2, g5]; simp
      · rw [a4, g6]
    · obtain ⟨⟨as, a1, a2⟩, fs, a3, a4⟩ := ih (d ++ declares i) done is' st1 st' (by
        intro x; rw [g4]; simp [hd x]) h5 h7
      refine ⟨⟨_, .imported _ _ _ _ _ _ g1 g2 a1, ?_⟩, _, .imported _ _ _ _ _ g1 g2 a3, ?_⟩
      · rw [a2, g5]; simp
      · rw [a4, g6]; simp
    · obtain ⟨⟨as, a1, a2⟩, fs, a3, a4⟩ := ih (d ++ declares i) done is' st1 st' (by
        intro x; rw [g4]; simp [hd x]) h5 h7
      refine ⟨⟨_, .other _ _ _ _ (fun k b hk => hfont (k := k) (b := b) (u := []) (Or.inl hk) f s g1)
        (fun u hu => hfont (k := []) (b := []) (u := u) (Or.inr hu) f s g1) a1, ?_⟩, _, .own _ _ _ _ _ g1 a3, ?_⟩
      · rw [a2, g5]
      · rw [a4, g6]; simp
    · obtain ⟨⟨as, a1, a2⟩, fs, a3, a4⟩ := ih (d ++ declares i) done is' st1 st' (by
        intro x; rw [g4]; simp [hd x]) h5 h7
      refine ⟨⟨_, .other _ _ _ _ g1 g2 a1, ?_⟩, _, .other _ _ _ g3 g2 a3, ?_⟩
      · rw [a2, g5]
      · rw [a4, g6]

theorem lastNamed_eq {W : Type} (l : List (Text × W)) (k : Text) : lastNamed l k = lastWrite l k := by
  induction l using List.reverseRecOn with
  | nil => rfl
  | append_singleton l e ih =>
    unfold lastNamed lastWrite at *
    rw [List.filter_append, List.foldl_append, ← ih]
    by_cases he : e.1 = k
    · simp [he]
    · simp [he]


theorem loadWith_state {rp : S → List S → S} {amp : S} {env : BuildEnv S C V} {mode : ErrorMode}
    {imports : Text → Option (FSheet S M C N T V A B)} {nodes : List Node} {o : FSheet S M C N T V A B}
    (h : loadWith p rp amp env mode imports nodes = .loaded o) :
    ∃ is st, topItems p imports [] nodes = some is ∧ is.foldlM (processTop rp amp) State.start = some st ∧
      o.keyframes = HMap.extend [] st.keyframes ∧ o.fonts = st.fonts := by
  unfold loadWith at h
  split at h
  · cases h
  · cases h
  · rename_i st hst
    unfold File.loadStylesheet at hst
    obtain ⟨is, h1, h2⟩ := Option.bind_eq_some_iff.mp hst
    obtain ⟨st0, h3, h4⟩ := Option.bind_eq_some_iff.mp h2
    split at h4
    · cases h4
    · obtain ⟨b, h5, h6⟩ := Option.map_eq_some_iff.mp h4
      cases h6
      refine ⟨is, st0, h1, h3, ?_⟩
      unfold State.build at h
      split at h
      · cases h
      · cases h
      · cases h
        exact ⟨rfl, rfl⟩

theorem keyframeDecl_unique {n : Node} {a b} (h1 : KeyframeDecl p n a) (h2 : KeyframeDecl p n b) : a = b := by
  cases h1 <;> cases h2 <;> simp_all

theorem keyframesBody_unique : ∀ {block : List Node} {a b}, KeyframesBody p block a → KeyframesBody p block b → a = b := by
  intro block
  induction block with
  | nil => intro a b h1 h2; cases h1; cases h2; rfl
  | cons n ns ih =>
    intro a b h1 h2
    cases h1 with
    | keyframe lead prelude blk _ ts items rs h3 h4 h5 =>
      cases h2 with
      | keyframe _ _ _ _ ts' items' rs' h3' h4' h5' =>
        have e1 : ts = ts' := by
          have := (keyframeTimes_iff.mpr h3).symm.trans (keyframeTimes_iff.mpr h3')
          simpa using this
        obtain ⟨os, g1, rfl⟩ := h4
        obtain ⟨os', g1', rfl⟩ := h4'
        have e2 : os = os' := by
          clear h3 h5 h3' h5' ih
          induction g1 generalizing os' with
          | nil => cases g1'; rfl
          | cons a1 _ ih2 =>
            cases g1' with
            | cons b1 b2 => rw [keyframeDecl_unique a1 b1, ih2 _ b2]
        rw [e1, e2, ih h5 h5']
      | other _ _ _ h6 _ => exact absurd h3 (h6 _ _ _ rfl ts)
    | other _ _ _ h6 h7 =>
      cases h2 with
      | keyframe lead prelude blk _ ts items rs h3 h4 h5 => exact absurd h3 (h6 _ _ _ rfl ts)
      | other _ _ _ _ h7' => exact ih h7 h7'

theorem keyframesRule_unique {n : Node} {k k' b b'} (h1 : KeyframesRule n k b) (h2 : KeyframesRule n k' b') : k = k' ∧ b = b' := by
  cases h1; cases h2; exact ⟨rfl, rfl⟩

theorem rules_exclusive {n : Node} {k b u} (h1 : KeyframesRule n k b) (h2 : ImportRule n u) : False := by
  cases h1 with
  | mk name _ _ hn =>
    have := importRule_name h2
    rw [hn] at this
    exact absurd this (by decide)

theorem animations_unique {imports : Text → Option (FSheet S M C N T V A B)} : ∀ {ns : List Node} {done as bs},
    Animations p imports done ns as → Animations p imports done ns bs → as = bs := by
  intro ns
  induction ns with
  | nil => intro done as bs h1 h2; cases h1; cases h2; rfl
  | cons n ns ih =>
    intro done as bs h1 h2
    cases h1 with
    | own _ _ k block rules _ as1 a1 a2 a3 a4 =>
      cases h2 with
      | own _ _ k' block' rules' _ as1' b1 b2 b3 b4 =>
        obtain ⟨rfl, rfl⟩ := keyframesRule_unique a1 b1
        rw [keyframesBody_unique a3 b3, ih a4 b4]
      | imported _ _ _ _ _ _ b1 _ _ => exact (rules_exclusive a1 b1).elim
      | other _ _ _ _ b1 _ _ => exact absurd a1 (b1 _ _)
    | imported _ _ u o _ _ a1 a2 a3 =>
      cases h2 with
      | own _ _ k' block' rules' _ as1' b1 b2 b3 b4 => exact (rules_exclusive b1 a1).elim
      | imported _ _ u' o' _ _ b1 b2 b3 =>
        have : u = u' := by
          have := (importRule_iff.mp a1).symm.trans (importRule_iff.mp b1)
          simpa using this
        subst this
        rw [a2] at b2
        cases b2
        rw [ih a3 b3]
      | other _ _ _ _ _ b1 _ => exact absurd a1 (b1 _)
    | other _ _ _ _ a1 a2 a3 =>
      cases h2 with
      | own _ _ k' block' rules' _ as1' b1 b2 b3 b4 => exact absurd b1 (a1 _ _)
      | imported _ _ u' o' _ _ b1 b2 b3 => exact absurd b1 (a2 _)
      | other _ _ _ _ _ _ b1 => exact ih a3 b1


/-! ## imports -/

theorem loadImports_mono {load load' : Text → Option (Outcome (FSheet S M C N T V A B))}
    (hl : ∀ u r, load u = some r → load' u = some r) : ∀ (us : List Text) (m) (r), loadImports load us m = some r →
    loadImports load' us m = some r := by
  intro us
  induction us with
  | nil => intro m r h; exact h
  | cons u us ih =>
    intro m r h
    unfold loadImports at h ⊢
    cases hu : load u with
    | none => rw [hu] at h; cases h
    | some x =>
      rw [hu] at h
      rw [hl u x hu]
      cases x with
      | panic => exact h
      | error => exact h
      | loaded o => exact ih _ r h

theorem loadFile_succ {rp : S → List S → S} {amp : S} {env : BuildEnv S C V} {mode : Text → ErrorMode}
    {disk : Text → Option (List Node)} : ∀ (f : Nat) (path : Text) (r), loadFile p rp amp env mode disk f path = some r →
    loadFile p rp amp env mode disk (f + 1) path = some r := by
  intro f
  induction f with
  | zero => intro path r h; cases h
  | succ f ih =>
    intro path r h
    unfold loadFile at h ⊢
    cases hn : disk path with
    | none => rw [hn] at h; exact h
    | some nodes =>
      rw [hn] at h
      simp only at h ⊢
      cases hx : loadImports (loadFile p rp amp env mode disk f) (extractImports nodes) [] with
      | none => rw [hx] at h; cases h
      | some x =>
        rw [hx] at h
        rw [loadImports_mono ih _ _ _ hx]
        exact h

theorem loadFile_mono {rp : S → List S → S} {amp : S} {env : BuildEnv S C V} {mode : Text → ErrorMode}
    {disk : Text → Option (List Node)} {f g : Nat} (hfg : f ≤ g) {path : Text} {r}
    (h : loadFile p rp amp env mode disk f path = some r) : loadFile p rp amp env mode disk g path = some r := by
  induction hfg with
  | refl => exact h
  | step _ ih => exact loadFile_succ _ _ _ ih

theorem common_fuel {rp : S → List S → S} {amp : S} {env : BuildEnv S C V} {mode : Text → ErrorMode}
    {disk : Text → Option (List Node)} {Q : Text → Outcome (FSheet S M C N T V A B) → Prop} : ∀ (us : List Text),
    (∀ u ∈ us, ∃ f r, loadFile p rp amp env mode disk f u = some r ∧ Q u r) →
    ∃ f, ∀ u ∈ us, ∃ r, loadFile p rp amp env mode disk f u = some r ∧ Q u r := by
  intro us
  induction us with
  | nil => intro _; exact ⟨0, by simp⟩
  | cons u us ih =>
    intro h
    obtain ⟨f, r, h1, h2⟩ := h u (by simp)
    obtain ⟨g, h3⟩ := ih fun v hv => h v (by simp [hv])
    refine ⟨max f g, ?_⟩
    intro v hv
    rcases List.mem_cons.mp hv with rfl | hv
    · exact ⟨r, loadFile_mono (Nat.le_max_left f g) h1, h2⟩
    · obtain ⟨r', h4, h5⟩ := h3 v hv
      exact ⟨r', loadFile_mono (Nat.le_max_right f g) h4, h5⟩

theorem loadImports_get' {load : Text → Option (Outcome (FSheet S M C N T V A B))} : ∀ {us : List Text} {m m'},
    loadImports load us m = some (.loaded m') →
    (∀ u ∈ us, ∃ s, load u = some (.loaded s) ∧ m'.get? u = some s) ∧ ∀ u, u ∉ us → m'.get? u = m.get? u := by
  intro us
  induction us with
  | nil =>
    intro m m' h
    cases h
    exact ⟨by simp, fun _ _ => rfl⟩
  | cons u us ih =>
    intro m m' h
    unfold loadImports at h
    cases hu : load u with
    | none => rw [hu] at h; cases h
    | some x =>
      rw [hu] at h
      cases x with
      | panic => cases h
      | error => cases h
      | loaded o =>
        obtain ⟨h1, h2⟩ := ih h
        refine ⟨?_, ?_⟩
        · intro v hv
          by_cases hvu : v ∈ us
          · exact h1 v hvu
          · rcases List.mem_cons.mp hv with rfl | hv
            · exact ⟨o, hu, by rw [h2 v hvu, hget_insert, if_pos rfl]⟩
            · exact absurd hv hvu
        · intro v hv
          simp only [List.mem_cons, not_or] at hv
          rw [h2 v hv.2, hget_insert, if_neg (fun h => hv.1 h.symm)]

theorem loadImports_get {load : Text → Option (Outcome (FSheet S M C N T V A B))} {us : List Text} {m'}
    (h : loadImports load us [] = some (.loaded m')) :
    (∀ u ∈ us, ∃ s, load u = some (.loaded s) ∧ m'.get? u = some s) ∧ ∀ u, u ∉ us → m'.get? u = none := by
  obtain ⟨h1, h2⟩ := loadImports_get' h
  exact ⟨h1, fun u hu => (h2 u hu).trans rfl⟩

theorem loadImports_total {load : Text → Option (Outcome (FSheet S M C N T V A B))} : ∀ (us : List Text) (m),
    (∀ u ∈ us, ∃ s, load u = some (.loaded s)) → ∃ m', loadImports load us m = some (.loaded m') := by
  intro us
  induction us with
  | nil => intro m _; exact ⟨m, rfl⟩
  | cons u us ih =>
    intro m h
    obtain ⟨s, hs⟩ := h u (by simp)
    unfold loadImports
    rw [hs]
    exact ih _ fun v hv => h v (by simp [hv])

theorem loadImports_ends {load : Text → Option (Outcome (FSheet S M C N T V A B))} : ∀ (us : List Text) (m),
    (∀ u ∈ us, ∃ s, load u = some s) → ∃ r, loadImports load us m = some r := by
  intro us
  induction us with
  | nil => intro m _; exact ⟨_, rfl⟩
  | cons u us ih =>
    intro m h
    obtain ⟨s, hs⟩ := h u (by simp)
    unfold loadImports
    rw [hs]
    cases s with
    | panic => exact ⟨_, rfl⟩
    | error => exact ⟨_, rfl⟩
    | loaded o => exact ih _ fun v hv => h v (by simp [hv])

end
end Flair.Proofs.File
