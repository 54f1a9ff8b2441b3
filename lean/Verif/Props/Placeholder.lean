import Verif.Proofs.Placeholder
import Verif.Proofs.PlaceholderRun
set_option linter.unusedSectionVars false
/-!
# C81: font families and image paths
-/
namespace Flair.Props
open Flair.Sheet Flair.Layers Flair.Vars Flair.Values Flair.Placeholder Flair.Spec Flair.Proofs.Placeholder
open Flair.Inherit Flair.Tree

variable {S M C N T V X Y H E P : Type} [DecidableEq N]

private theorem mapM_forall₂ {α β : Type} {f : α → Option β} {l : List α} {l' : List β} (h : l.mapM f = some l') :
    List.Forall₂ (fun a b => f a = some b) l l' := by
  induction l generalizing l' with
  | nil => simp only [List.mapM_nil, pure, Option.some.injEq] at h; subst h; exact .nil
  | cons a l ih =>
    rw [List.mapM_cons] at h
    simp only [bind, pure] at h
    cases ha : f a with
    | none => rw [ha] at h; cases h
    | some b =>
      rw [ha] at h
      cases hl : l.mapM f with
      | none => rw [hl] at h; cases h
      | some bs => rw [hl] at h; simp only [Option.bind_some, Option.some.injEq] at h; subst h; exact .cons ha (ih hl)

private theorem build_parts {a : Assets H} {names : C → Option Nat} {typeOk : Nat → AssetValue V H → Bool}
    {spec : S → Nat} {b : FBuilder S M C N T V X Y H} {sh : FSheet S M C N T V X Y H}
    (h : b.build a names typeOk spec = some (.ok sh)) :
    resolveFaces a b.fontFaces = .ok sh.resolved ∧ sh.fontFaces = b.fontFaces ∧
      b.base.build names typeOk spec (resolveDirect a sh.resolved) = some (.ok sh.base) := by
  unfold FBuilder.build at h
  cases hr : resolveFaces a b.fontFaces with
  | error e => rw [hr] at h; cases h
  | ok m =>
    rw [hr] at h
    simp only at h
    cases hb : b.base.build names typeOk spec (resolveDirect a m) with
    | none => rw [hb] at h; cases h
    | some r =>
      rw [hb] at h
      cases r with
      | error e => simp at h
      | ok s => simp only [Option.map_some, Option.some.injEq, Except.ok.injEq] at h; subst h; exact ⟨rfl, rfl, hb⟩

/-- **C81** (a sheet).  In every sheet that is built, for all rules and declarations, in their order: a directly
written value is replaced by what it stands for (`Denotes`: for a font family, the font of the *last*
`@font-face` of that name; nothing when there is none or when the image path is not a path), everything else is
kept; and the sheet remembers for each family exactly the font of its last `@font-face`. -/
theorem C81_direct_values (a : Assets H) (names : C → Option Nat) (typeOk : Nat → AssetValue V H → Bool)
    (spec : S → Nat) (b : FBuilder S M C N T V X Y H) (sh : FSheet S M C N T V X Y H)
    (h : b.build a names typeOk spec = some (.ok sh)) :
    List.Forall₂ (fun r r' => List.Forall₂ (BuiltAs a b.fontFaces names) r.properties r'.properties)
      b.base.rulesets sh.base.rulesets ∧
    (∀ f i, sh.resolved.get? f = some i ↔ ∃ p, LastFace b.fontFaces f p ∧ a.font p = some i) := by
  obtain ⟨hr, _, hb⟩ := build_parts h
  refine ⟨?_, (resolveFaces_ok hr).2.1⟩
  refine (build_ok hb).2.imp ?_
  intro r r' hrr
  unfold Ruleset.resolve place at hrr
  cases hm : (r.properties.map (BProp.placeholder (resolveDirect a sh.resolved))).mapM (BProp.resolve names) with
  | none => rw [hm] at hrr; cases hrr
  | some ps =>
    rw [hm] at hrr
    simp only [Option.map_some, Option.some.injEq] at hrr
    subst hrr
    have := mapM_forall₂ hm
    rw [List.forall₂_map_left_iff] at this
    refine this.imp ?_
    intro p q hpq
    cases p with
    | dynamic p t => simp only [BProp.placeholder, BProp.resolve, Option.some.injEq] at hpq; subst hpq; exact .dynamic p t
    | specific r v =>
      cases v with
      | value v =>
        simp only [BProp.placeholder, BProp.resolve, Option.map_eq_some_iff] at hpq
        obtain ⟨id, hid, rfl⟩ := hpq
        exact .value r id v _ hid ((resolveDirect_denotes hr v _).mp rfl)
      | none =>
        simp only [BProp.placeholder, BProp.resolve, Option.map_eq_some_iff] at hpq
        obtain ⟨id, hid, rfl⟩ := hpq
        exact .keyword r id _ hid (by simp)
      | unset =>
        simp only [BProp.placeholder, BProp.resolve, Option.map_eq_some_iff] at hpq
        obtain ⟨id, hid, rfl⟩ := hpq
        exact .keyword r id _ hid (by simp)
      | inherit =>
        simp only [BProp.placeholder, BProp.resolve, Option.map_eq_some_iff] at hpq
        obtain ⟨id, hid, rfl⟩ := hpq
        exact .keyword r id _ hid (by simp)
      | initial =>
        simp only [BProp.placeholder, BProp.resolve, Option.map_eq_some_iff] at hpq
        obtain ⟨id, hid, rfl⟩ := hpq
        exact .keyword r id _ hid (by simp)

/-- No directly written name is left in a built sheet. -/
theorem C81_no_names_left (a : Assets H) (names : C → Option Nat) (typeOk : Nat → AssetValue V H → Bool)
    (spec : S → Nat) (b : FBuilder S M C N T V X Y H) (sh : FSheet S M C N T V X Y H)
    (h : b.build a names typeOk spec = some (.ok sh)) (r) (hr : r ∈ sh.base.rulesets) (id : Nat)
    (v : AssetValue V H) (hv : RProp.specific id (.value v) ∈ r.properties) : ¬ Unresolved v := by
  have := (C81_direct_values a names typeOk spec b sh h).1
  have aux : ∀ p0, BuiltAs a b.fontFaces names p0 (RProp.specific (N := N) (T := T) id (.value v)) → ¬ Unresolved v := by
    intro p0 h2
    generalize hq : RProp.specific id (PropertyValue.value v) = q at h2
    cases h2 with
    | value r' id' v' w hid hd =>
      cases hq
      generalize hw : PropertyValue.value v = w at hd
      cases hd <;> cases hw <;> simp [Unresolved]
    | keyword r' id' v' hid hk => cases hq; exact absurd rfl (hk _)
    | dynamic => cases hq
  obtain ⟨i, hi, hri⟩ := List.mem_iff_getElem.mp hr
  obtain ⟨j, hj, hvj⟩ := List.mem_iff_getElem.mp hv
  have h1 := (List.forall₂_iff_get.mp this).2 i (by rw [this.length_eq]; exact hi) hi
  simp only [List.get_eq_getElem, hri] at h1
  have h2 := (List.forall₂_iff_get.mp h1).2 j (by rw [h1.length_eq]; exact hj) hj
  simp only [List.get_eq_getElem, hvj] at h2
  exact aux _ h2

/-- A build fails because of a font face exactly when a source is not a path, and it names the first one. -/
theorem C81_bad_source (a : Assets H) (names : C → Option Nat) (typeOk : Nat → AssetValue V H → Bool)
    (spec : S → Nat) (b : FBuilder S M C N T V X Y H) (p : String) :
    b.build a names typeOk spec = some (.error (.invalidAssetPath p)) ↔
      ∃ pre f post, b.fontFaces = pre ++ (f, p) :: post ∧ a.font p = none ∧ ∀ x ∈ pre, a.font x.2 ≠ none := by
  unfold FBuilder.build
  cases hr : resolveFaces a b.fontFaces with
  | error e =>
    obtain ⟨pre, f, q, post, h1, h2, h3, rfl⟩ := resolveFaces_err.mp hr
    simp only [Option.some.injEq, Except.error.injEq]
    constructor
    · intro hq; cases hq; exact ⟨pre, f, post, h1, h3, h2⟩
    · rintro ⟨pre', f', post', h1', h3', h2'⟩
      have := resolveFaces_err.mpr ⟨pre', f', p, post', h1', h2', h3', rfl⟩
      rw [hr] at this; cases this; rfl
  | ok m =>
    simp only
    constructor
    · intro h
      cases hb : b.base.build names typeOk spec (resolveDirect a m) with
      | none => rw [hb] at h; cases h
      | some r => rw [hb] at h; cases r <;> simp at h
    · rintro ⟨pre', f', post', h1', h3', h2'⟩
      have := resolveFaces_err.mpr ⟨pre', f', p, post', h1', h2', h3', rfl⟩
      rw [hr] at this; cases this

/-- **C81** (imports).  Embedding a built sheet adds its font faces after those already there, and whatever is
registered before or after in the importing sheet, the directly written values of the imported rules stay what
they were in their own sheet. -/
theorem C81_imported (a a' : Assets H) (names : C → Option Nat) (typeOk typeOk' : Nat → AssetValue V H → Bool)
    (spec spec' : S → Nat) (o : FBuilder S M C N T V X Y H) (osh : FSheet S M C N T V X Y H)
    (ho : o.build a names typeOk spec = some (.ok osh))
    (b b1 b2 : FBuilder S M C N T V X Y H) (layer : Option Name) (hb : b.embed osh layer = some b1)
    (later : List (String × String)) (hb2 : b2 = later.foldl (fun b ff => b.registerFontFace ff.1 ff.2) b1)
    (sh : FSheet S M C N T V X Y H) (h : b2.build a' names typeOk' spec' = some (.ok sh)) :
    sh.fontFaces = b.fontFaces ++ o.fontFaces ++ later ∧
    ∀ i r, osh.base.rulesets[i]? = some r → ∃ r', sh.base.rulesets[b.base.rulesets.length + i]? = some r' ∧
      r'.properties = r.properties := by
  have hbase : b2.base = b1.base ∧ b2.fontFaces = b1.fontFaces ++ later := by
    subst hb2
    clear h hb
    induction later generalizing b1 with
    | nil => simp
    | cons x l ih => rw [List.foldl_cons]; obtain ⟨h1, h2⟩ := ih (b1.registerFontFace x.1 x.2); exact ⟨h1, by rw [h2]; simp [FBuilder.registerFontFace]⟩
  unfold FBuilder.embed at hb
  cases he : b.base.embed osh.base layer with
  | none => rw [he] at hb; cases hb
  | some be =>
    rw [he] at hb
    simp only [Option.map_some, Option.some.injEq] at hb
    subst hb
    obtain ⟨_, hf, _⟩ := build_parts ho
    refine ⟨by rw [(build_parts h).2.1, hbase.2, hf], ?_⟩
    intro i r hi
    have : DecidableEq (AssetValue V H) := Classical.decEq _
    rw [embed_eq] at he
    obtain ⟨l, _, rfl⟩ := Option.map_eq_some_iff.mp he
    have hfa := (build_ok (build_parts h).2.2).2
    rw [hbase.1] at hfa
    simp only at hfa
    obtain ⟨hlt, hget⟩ := List.getElem?_eq_some_iff.mp hi
    have hlen := hfa.length_eq
    have hidx : b.base.rulesets.length + i < (b.base.rulesets ++ osh.base.rulesets.map
        (fun r => Ruleset.empty.addValuesFrom r)).length := by simp; exact hlt
    have h1 := (List.forall₂_iff_get.mp hfa).2 _ hidx (by rw [← hlen]; exact hidx)
    simp only [List.get_eq_getElem] at h1
    rw [List.getElem_append_right (by omega)] at h1
    simp only [Nat.add_sub_cancel_left, List.getElem_map, hget] at h1
    refine ⟨_, List.getElem?_eq_getElem (by rw [← hlen]; exact hidx), ?_⟩
    unfold Ruleset.resolve place Ruleset.addValuesFrom at h1
    obtain ⟨ps, hps, hr'⟩ := Option.map_eq_some_iff.mp h1
    rw [← hr']
    simp only
    have hps' := mapM_forall₂ hps
    simp only [Ruleset.empty, List.nil_append, List.map_map] at hps'
    rw [List.forall₂_map_left_iff] at hps'
    have hmem : ∀ q ∈ r.properties, ∀ q', BProp.resolve names (BProp.placeholder
        (resolveDirect a' sh.resolved) (RProp.toBProp q)) = some q' → q' = q := by
      intro q hq q' hqq
      cases q with
      | dynamic p t => simp only [RProp.toBProp, BProp.placeholder, BProp.resolve, Option.some.injEq] at hqq; exact hqq.symm
      | specific id v =>
        cases v with
        | value v =>
          have := C81_no_names_left a names typeOk spec o osh ho r (List.mem_of_getElem? hi) id v hq
          simp only [RProp.toBProp, BProp.placeholder, BProp.resolve, resolveRef, Option.map_some, Option.some.injEq] at hqq
          subst hqq
          cases v <;> simp_all [Unresolved, resolveDirect, tryResolve]
        | _ => simp only [RProp.toBProp, BProp.placeholder, BProp.resolve, resolveRef, Option.map_some, Option.some.injEq] at hqq; exact hqq.symm
    clear hr' h1 hps
    generalize r.properties = l at hps' hmem
    induction hps' with
    | nil => rfl
    | cons h _ ih =>
      rw [hmem _ (by simp) _ h, ih (fun q hq => hmem q (by simp [hq]))]

/-! ## At run time -/

variable [DecidableEq (P → ComputedValue (AssetValue V H))] [DecidableEq (AssetValue V H)] [DecidableEq E]

/-- Histories of frames, as `Reach` (C16), when each node looks names up in the fonts `fonts e` of its own sheet.
`asset p`: the property holds a font or an image; only such properties are given names, and they are never
animated (`Handle` has no `ReflectAnimatable`).  A node that enters the tree, or comes back to it, holds no name
in its computed values (`NodeProperties::default()`, or what earlier frames computed). -/
inductive PReach (a : Assets H) (fonts : E → HMap String H) (asset : P → Bool) (s : Static P (AssetValue V H))
    (Q : (P → PropertyValue (AssetValue V H)) → Prop) :
    World E P (AssetValue V H) → Forest E → List E → (E → Option (P → PropertyValue (AssetValue V H))) → Prop
  | start (w f roots) : RootsOK f roots → (∀ e, Under f roots e → w e = some freshNode) →
      PReach a fonts asset s Q w f roots (fun _ => none)
  | frame (w f roots decl) (w' : World E P (AssetValue V H)) (f' : Forest E) (roots' : List E)
      (u : E → Option (P → PropertyValue (AssetValue V H))) (any : Bool) (o : Oracle E P) (other : E → Bool)
      (decl' : E → Option (P → PropertyValue (AssetValue V H))) :
      PReach a fonts asset s Q w f roots decl → f'.WF → RootsOK f' roots' →
      (∀ e, Under f' roots' e → ∃ n, w' e = some n ∧ (
        (u e ≠ none ∧ decl' e = u e ∧ (∀ p v, n.computed p = some v → ¬ Unresolved v)) ∨
        (u e = none ∧ n = freshNode ∧ decl' e = none) ∨
        (u e = none ∧ decl' e = decl e ∧
          Under f roots e ∧ f'.parent e = f.parent e ∧ w' e = w e ∧ ∀ q, f.parent e = some q → w' q = w q))) →
      (any = false → ∀ e, u e = none) → (∀ e m, u e = some m → Q m) →
      (∀ e m p v, u e = some m → m p = .value v → Unresolved v → asset p = true) →
      (∀ e p, o.transition e p = true → asset p = false) →
      PReach a fonts asset s Q (frameP a (fun e => some (fonts e)) other s o f' roots' u any w') f' roots' decl'

private theorem preach_good (a : Assets H) (faces : HMap String H) (asset : P → Bool)
    (s : Static P (AssetValue V H)) (hs : CleanStatic s)
    (w : World E P (AssetValue V H)) (f : Forest E) (roots : List E)
    (decl : E → Option (P → PropertyValue (AssetValue V H)))
    (h : PReach a (fun _ => faces) asset s (fun m => ∀ p, m p = .unset → s.unset p ≠ .inherit) w f roots decl) :
    Reach s (fun m => ∀ p, m p = .unset → s.unset p ≠ .inherit) (projW a faces w) f roots (RU a faces decl) ∧
    ∀ e n, Under f roots e → w e = some n → n.pending = none ∧ ∀ p, Clean (n.computed p) := by
  induction h with
  | start w f roots ok hw =>
    refine ⟨.start _ f roots ok ?_, ?_⟩
    · intro e he
      simp [projW, hw e he, freshNode, proj, resolveComputed]
    · intro e n he hn
      rw [hw e he] at hn; cases hn
      exact ⟨rfl, fun p x hx => by cases hx⟩
  | frame w f roots decl w' f' roots' u any o other decl' hreach wf' ok' hw' hany hQ hty htr ih =>
    obtain ⟨ihR, ihC⟩ := ih
    have hsome : ∀ e, Under f' roots' e → (w' e).isSome := by
      intro e he; obtain ⟨n, hn, _⟩ := hw' e he; simp [hn]
    obtain ⟨o', ho'⟩ := frame_proj a faces hs (fun _ => some faces) (fun _ => rfl) other o f' wf' roots' ok' u any w'
      (fun r hr => hsome r ⟨r, hr, Or.inl rfl⟩)
    have hclean0 : ∀ e n, Under f' roots' e → w' e = some n → ∀ p, Clean (n.computed p) := by
      intro e n he hn p
      obtain ⟨n', hn', hcase⟩ := hw' e he
      rw [hn] at hn'; cases hn'
      rcases hcase with ⟨_, _, h⟩ | ⟨_, rfl, _⟩ | ⟨_, _, hu, _, hwe, _⟩
      · exact fun x hx => h p x hx
      · exact fun x hx => by cases hx
      · exact (ihC e n hu (by rw [← hwe]; exact hn)).2 p
    have hpend0 : ∀ e n, Under f' roots' e → w' e = some n → u e = none → n.pending = none := by
      intro e n he hn hue
      obtain ⟨n', hn', hcase⟩ := hw' e he
      rw [hn] at hn'; cases hn'
      rcases hcase with ⟨h, _⟩ | ⟨_, rfl, _⟩ | ⟨_, _, hu, _, hwe, _⟩
      · exact absurd hue h
      · rfl
      · exact (ihC e n hu (by rw [← hwe]; exact hn)).1
    constructor
    · rw [ho']
      refine .frame _ f roots (RU a faces decl) (projW a faces w') f' roots' _ any o' _ ihR wf' ok' ?_ ?_ ?_
      · intro e he
        obtain ⟨n, hn, hcase⟩ := hw' e he
        refine ⟨proj a faces n, by simp [projW, hn], ?_⟩
        rcases hcase with ⟨hu, hd, _⟩ | ⟨hu, rfl, hd⟩ | ⟨hu, hd, h1, h2, h3, h4⟩
        · exact Or.inl ⟨by simpa [RU] using hu, by simp [RU, hd]⟩
        · exact Or.inr (Or.inl ⟨by simp [RU, hu], by simp [proj, freshNode, resolveComputed], by simp [RU, hd]⟩)
        · exact Or.inr (Or.inr ⟨by simp [RU, hu], by simp [RU, hd], h1, h2, by simp [projW, h3],
            fun q hq => by simp [projW, h4 q hq]⟩)
      · intro ha e; simp [RU, hany ha e]
      · intro e m hm p hp
        simp only [RU, Option.map_eq_some_iff] at hm
        obtain ⟨m0, hm0, rfl⟩ := hm
        exact hQ e m0 hm0 p ((RV_unset a faces _).mp hp)
    · intro e n he hn
      obtain ⟨n0, hn0⟩ := Option.isSome_iff_exists.mp (hsome e he)
      cases hany' : any with
      | false =>
        have hue := hany hany' e
        subst hany'
        have hp0 := hpend0 e n0 he hn0 hue
        have hc0 := hclean0 e n0 he hn0
        simp only [frameP, Bool.false_eq_true, if_false, applyComputed, resolvePass, passNoChange, setPending, hn0, hue,
          Option.map_some, Option.some.injEq] at hn
        subst hn
        split
        · exact ⟨hp0, fun p => RC_not_unresolved a faces _⟩
        · exact ⟨hp0, fun p => hc0 p⟩
      | true =>
        subst hany'
        have hs0 : ∀ e, Under f' roots' e → (setPending u w' e).isSome := by
          intro e he; simpa [setPending] using hsome e he
        -- values of properties that are never given names
        have hpass : ∀ p, asset p = false → ∀ e, Under f' roots' e → ∃ n n' pc, setPending u w' e = some n ∧
            computePass s o f' roots' (setPending u w') e = some n' ∧ n'.pendingComputed = some pc ∧ Clean (pc p) ∧
            n'.computed = fun q => if o.transition e q then pc q else n.computed q := by
          intro p hp
          refine pass_clean hs o f' wf' roots' ok' (setPending u w') hs0 p ?_
          intro x nx hx hnx
          obtain ⟨n1, hn1⟩ := Option.isSome_iff_exists.mp (hsome x hx)
          cases hux : u x with
          | none =>
            simp only [setPending, hn1, hux, Option.map_some, Option.some.injEq] at hnx
            subst hnx
            refine ⟨hclean0 x n1 hx hn1 p, ?_⟩
            intro m y hm
            rw [hpend0 x n1 hx hn1 hux] at hm; cases hm
          | some m1 =>
            simp only [setPending, hn1, hux, Option.map_some, Option.some.injEq] at hnx
            subst hnx
            refine ⟨hclean0 x n1 hx hn1 p, ?_⟩
            intro m y hm hy hun
            simp only [Option.some.injEq] at hm
            subst hm
            have := hty x m1 p y hux hy hun
            rw [hp] at this; cases this
        -- the node itself
        have hpen : ∃ n', computePass s o f' roots' (setPending u w') e = some n' ∧ n'.pending = none ∧
            ∃ pc, n'.pendingComputed = some pc ∧
              ∀ p, asset p = false ∨ n'.computed p = n0.computed p := by
          rw [computePass_eq s o f' roots' _ (fun r h => hs0 r ⟨r, h, Or.inl rfl⟩)]
          obtain ⟨h1, _⟩ := visitFold_final s o (setPending u w') (visit f' roots') (visit_nodup wf' ok') (visit_parent_first wf')
          set W := (visit f' roots').foldl (visitStep s o) (setPending u w') with hW
          have hW' : ∀ e, (W e).isSome = (setPending u w' e).isSome := fun e => by rw [hW, visitFold_isSome]
          obtain ⟨⟨po, e'⟩, hv, he'⟩ := List.mem_map.mp ((visit_entities wf' e).mpr he)
          simp only at he'
          subst he'
          have hval := h1 po e' hv
          obtain ⟨n1, hn1⟩ : ∃ n1, setPending u w' e' = some n1 ∧ (n1.pending = none ∨ n1.pending ≠ none) ∧ n1.computed = n0.computed := by
            cases hu : u e' <;> simp [setPending, hn0, hu, em]
          have htr' : ∀ (q : P) (z : P → ComputedValue (AssetValue V H)), asset q = false ∨
              (if o.transition e' q = true then z q else n1.computed q) = n0.computed q := by
            intro q z
            cases ht : o.transition e' q with
            | true => exact Or.inl (htr e' q ht)
            | false => right; simp [hn1.2.2]
          cases po with
          | none =>
            rw [hn1.1] at hval
            simp only [Option.map_none, newVal] at hval
            refine ⟨_, hval, ?_⟩
            unfold computeRoot
            cases hp : n1.pending with
            | none => exact ⟨hp, _, rfl, fun q => htr' q _⟩
            | some m =>
              exact ⟨rfl, _, rfl, fun q => htr' q (fun p => (compute (m p) (s.unset p) (s.initial p) none).getD none)⟩
          | some q =>
            rcases (visit_mem wf' (some q) e').mp hv with ⟨h, _⟩ | ⟨q', hq', hpar, r, hr, ha⟩
            · cases h
            · cases hq'
              have hq : Under f' roots' q := Under_parent ok' ⟨r, hr, Or.inr ha⟩ hpar
              obtain ⟨par, hpar'⟩ := Option.isSome_iff_exists.mp ((hW' q).trans (hs0 q hq))
              rw [hn1.1, Option.map_some, hpar'] at hval
              simp only [newVal] at hval
              refine ⟨_, hval, ?_⟩
              unfold computeWithParent
              cases hp : n1.pending with
              | none => exact ⟨hp, _, rfl, fun q => htr' q _⟩
              | some m =>
                exact ⟨rfl, _, rfl, fun q => htr' q (fun p => (compute (m p) (s.unset p) (s.initial p)
                  (some (par.pendingComputed.getD (fun _ => none) p))).getD none)⟩
        obtain ⟨n', hn', hpn, pc, hpc, hcomp⟩ := hpen
        simp only [frameP, if_true, applyComputed, resolvePass, hn', Option.map_some, Option.some.injEq] at hn
        subst hn
        split
        · refine ⟨hpn, ?_⟩
          intro p
          simp only [hpc, Option.map_some, Option.getD_some]
          exact RC_not_unresolved a faces _
        · rename_i hcond
          refine ⟨hpn, ?_⟩
          intro p
          rw [not_or, not_not] at hcond
          rw [hcond.1]
          simp only [Option.getD_some]
          cases has : asset p with
          | true =>
            rcases hcomp p with h | h
            · rw [has] at h; cases h
            · rw [h]; exact hclean0 e n0 he hn0 p
          | false =>
            obtain ⟨n2, n3, pc', _, h3, h4, h5, _⟩ := hpass p has e he
            rw [hn'] at h3; cases h3
            rw [hcond.1] at h4; cases h4
            exact h5

/-- **C81** (elements, all under one sheet).  After every history of frames, every element's computed value of
every property is the CSS inherited value of the declarations with their font families and image paths looked up
in the sheet — whether they were written directly or came out of `var()` — and no name is left.
(`_partial`: when elements are under different sheets see `C81_two_sheets`; `unset` of inherited properties as in
C16.) -/
theorem C81_elements_partial (a : Assets H) (faces : HMap String H) (asset : P → Bool)
    (s : Static P (AssetValue V H)) (hs : ∀ p, s.unset p ≠ .unset)
    (hu : ∀ p v, s.unset p = .value v → ¬ Unresolved v) (hi : ∀ p, ¬ Unresolved (s.initial p))
    (w : World E P (AssetValue V H)) (f : Forest E) (roots : List E)
    (decl : E → Option (P → PropertyValue (AssetValue V H)))
    (h : PReach a (fun _ => faces) asset s (fun m => ∀ p, m p = .unset → s.unset p ≠ .inherit) w f roots decl)
    (e : E) (he : Under f roots e) :
    ∃ n, w e = some n ∧ ∀ p,
      Inherited s.unset s.initial f (fun e => (decl e).map fun m p => lookedUp a faces.get? (m p)) p e (n.computed p) ∧
      ∀ v, n.computed p = some v → ¬ Unresolved v := by
  obtain ⟨hR, hC⟩ := preach_good a faces asset s ⟨hu, hi⟩ w f roots decl h
  obtain ⟨n, hn, hin⟩ := C16_follow_parent_partial s hs _ f roots _ hR e he
  simp only [projW, Option.map_eq_some_iff] at hn
  obtain ⟨n0, hn0, rfl⟩ := hn
  refine ⟨n0, hn0, fun p => ?_⟩
  obtain ⟨_, hc⟩ := hC e n0 he hn0
  refine ⟨?_, hc p⟩
  have := hin p
  simp only [proj] at this
  rw [RC_resolved a faces (hc p)] at this
  exact this

/-! ### Examples and what is not true -/

/-- Two font files exist, and every non empty image path. -/
def fontExAssets : Assets Nat :=
  { font := fun p => if p = "a.ttf" then some 1 else if p = "b.ttf" then some 2 else none
    image := fun p => if p = "" then none else some 10 }

/-- Two faces of the same family: the second one counts. -/
example : Denotes (V := Unit) fontExAssets [("F", "a.ttf"), ("F", "b.ttf")] (.fontName "F") (.value (.handle 2)) :=
  .family "F" "b.ttf" 2 ⟨[("F", "a.ttf")], [], rfl, by simp⟩ rfl

/-- The selector of the example rules. -/
def fontExSel : CssSelector Unit Unit := ⟨[], [], ()⟩

/-- A builder with one rule for everything, with these declarations, and these font faces. -/
def fontExRule (ps : List (BProp Nat Unit Unit (AssetValue Unit Nat))) (faces : List (String × String)) :
    FBuilder Unit Unit Nat Unit Unit Unit Unit Unit Nat :=
  { base := { layers := [], rulesets := [⟨[], ps, [], []⟩], selectors := [(fontExSel, 0)] }, fontFaces := faces }

/-- Building with these assets. -/
def fontExBuild (b : FBuilder Unit Unit Nat Unit Unit Unit Unit Unit Nat) :=
  b.build fontExAssets some (fun _ _ => true) (fun _ => 0)

private theorem mergeSort_one {α : Type} (le : α → α → Bool) (x : α) : [x].mergeSort le = [x] := by
  simp

/-- A sheet with one rule for everything. -/
private def exSh (ps : List (RProp Nat Unit Unit (AssetValue Unit Nat))) (faces : List (String × String))
    (resolved : HMap String Nat) : FSheet Unit Unit Nat Unit Unit Unit Unit Unit Nat :=
  { base := { rulesets := [⟨[], ps, [], []⟩], selectors := [(fontExSel, 0)] }, fontFaces := faces, resolved }

/-- The hypotheses of `C81_direct_values` are met: the family of the second face, an image, an unknown family. -/
example : fontExBuild (fontExRule [.specific (.id 0) (.value (.fontName "F")), .specific (.id 1) (.value (.imagePath "i.png")),
      .specific (.id 0) (.value (.fontName "G"))] [("F", "a.ttf"), ("F", "b.ttf")]) =
    some (.ok (exSh [.specific 0 (.value (.handle 2)), .specific 1 (.value (.handle 10)),
        .specific 0 .none] [("F", "a.ttf"), ("F", "b.ttf")] [("F", 2)])) := by
  simp only [fontExBuild, fontExRule, exSh, FBuilder.build]
  have : resolveFaces fontExAssets [("F", "a.ttf"), ("F", "b.ttf")] = .ok [("F", 2)] := by rfl
  rw [this]
  simp only [Builder.build, mergeSort_one]
  rfl

/-- One source that is not a path, and the whole sheet is refused: here all its other declarations are fine. -/
theorem C81_one_bad_source : ∃ b : FBuilder Unit Unit Nat Unit Unit Unit Unit Unit Nat,
    (∃ sh, fontExBuild { b with fontFaces := [("F", "a.ttf")] } = some (.ok sh)) ∧
    fontExBuild b = some (.error (.invalidAssetPath "?")) ∧ b.fontFaces = [("F", "a.ttf"), ("G", "?")] := by
  refine ⟨fontExRule [.specific (.id 0) (.value (.fontName "F"))] [("F", "a.ttf"), ("G", "?")], ?_, rfl, rfl⟩
  refine ⟨(exSh [.specific 0 (.value (.handle 1))] [("F", "a.ttf")] [("F", 1)]), ?_⟩
  simp only [fontExBuild, fontExRule, exSh, FBuilder.build]
  have : resolveFaces fontExAssets [("F", "a.ttf")] = .ok [("F", 1)] := by rfl
  rw [this]
  simp only [Builder.build, mergeSort_one]
  rfl

/-- An imported sheet cannot use the families of the sheet that imports it: registered before or after the
import, the family stays unknown to the imported rule. -/
theorem C81_import_cannot_use : ∃ o b : FBuilder Unit Unit Nat Unit Unit Unit Unit Unit Nat, ∃ osh b1,
    fontExBuild o = some (.ok osh) ∧ b.fontFaces = [("F", "a.ttf")] ∧ b.embed osh none = some b1 ∧
    ∃ sh, fontExBuild b1 = some (.ok sh) ∧
      o.base.rulesets.map (·.properties) = [[.specific (.id 0) (.value (.fontName "F"))]] ∧
      sh.base.rulesets.map (·.properties) = [[.specific 0 .none]] ∧
      sh.resolved.get? "F" = some 1 := by
  refine ⟨fontExRule [.specific (.id 0) (.value (.fontName "F"))] [], { base := Builder.new, fontFaces := [("F", "a.ttf")] },
    (exSh [.specific 0 .none] [] []),
    fontExRule [.specific (.id 0) .none] [("F", "a.ttf")], ?_, rfl, ?_,
    (exSh [.specific 0 .none] [("F", "a.ttf")] [("F", 1)]), ?_, rfl, rfl, rfl⟩
  · simp only [fontExBuild, fontExRule, exSh, FBuilder.build]
    have : resolveFaces fontExAssets [] = .ok [] := by rfl
    rw [this]
    simp only [Builder.build, mergeSort_one]
    rfl
  · simp only [FBuilder.embed, embed_eq]
    simp [exSh, fontExRule, Builder.new, embedSels, fontExSel, defineLayer, CssSelector.withLayerPrefixed, Ruleset.addValuesFrom,
      Ruleset.empty, HMap.extend, RProp.toBProp]
  · simp only [fontExBuild, fontExRule, exSh, FBuilder.build]
    have : resolveFaces fontExAssets [("F", "a.ttf")] = .ok [("F", 1)] := by rfl
    rw [this]
    simp only [Builder.build, mergeSort_one]
    rfl

/-- A declaration that names an unknown family is not ignored, as CSS would: it hides the weaker declarations of
the same property.  Here an earlier declaration gives font 1 and a later one the unknown family `G`: the value of
the element is nothing, and without the later declaration it is font 1. -/
theorem C81_unknown_family_hides : ∃ sh sh' : FSheet Unit Unit Nat Unit Unit Unit Unit Unit Nat,
    fontExBuild (fontExRule [.specific (.id 0) (.value (.fontName "F")), .specific (.id 0) (.value (.fontName "G"))]
      [("F", "a.ttf")]) = some (.ok sh) ∧
    fontExBuild (fontExRule [.specific (.id 0) (.value (.fontName "F"))] [("F", "a.ttf")]) = some (.ok sh') ∧
    (sh.base.getPropertyValues some (fun _ => none) [0] none (fun _ => .unset)).map (· 0) = some .none ∧
    (sh'.base.getPropertyValues some (fun _ => none) [0] none (fun _ => .unset)).map (· 0) =
      some (.value (.handle 1)) := by
  refine ⟨(exSh [.specific 0 (.value (.handle 1)), .specific 0 .none] [("F", "a.ttf")] [("F", 1)]),
    (exSh [.specific 0 (.value (.handle 1))] [("F", "a.ttf")] [("F", 1)]), ?_, ?_, by decide, by decide⟩
  all_goals
    simp only [fontExBuild, fontExRule, exSh, FBuilder.build]
    have : resolveFaces fontExAssets [("F", "a.ttf")] = .ok [("F", 1)] := by rfl
    rw [this]
    simp only [Builder.build, mergeSort_one]
    rfl

private def exF2 : Forest Bool :=
  { nodes := [false, true], parent := fun e => if e then some false else none
    children := fun e => if e then [] else [true] }

private theorem exF2_anc {a e : Bool} (h : exF2.Anc a e) : a = false ∧ e = true := by
  have key : ∀ a e : Bool, exF2.parent e = some a → a = false ∧ e = true := by decide
  induction h with
  | child e h => exact key _ _ h
  | step p e _ h ih =>
    have := (key _ _ h).1
    rw [ih.2] at this; cases this

private theorem exF2_wf : exF2.WF where
  mem_iff := by decide
  nodup := by decide
  parent_mem := by decide
  acyclic e h := by have := exF2_anc h; rw [this.1] at this; simp at this

private def exS2 : Static Unit (AssetValue Unit Nat) := { unset := fun _ => .initial, initial := fun _ => .handle 0 }
private def exO2 : Oracle Bool Unit := { sharing := fun _ => false, transition := fun _ _ => false }
/-- The parent's sheet and the child's sheet both define `F`. -/
private def exFonts : Bool → HMap String Nat := fun e => if e then [("F", 2)] else [("F", 1)]
private def exD : Bool → Option (Unit → PropertyValue (AssetValue Unit Nat)) :=
  fun e => some fun _ => if e then .inherit else .value (.fontName "F")

/-- The statement of `C81_elements_partial` is met by a run of one frame with one sheet. -/
example : PReach fontExAssets (fun _ => [("F", 1)]) (fun _ => true) exS2
    (fun m => ∀ p, m p = .unset → exS2.unset p ≠ .inherit)
    (frameP fontExAssets (fun _ => some [("F", 1)]) (fun _ => false) exS2 exO2 exF2 [false] exD true (fun _ => some freshNode))
    exF2 [false] exD ∧
    (frameP fontExAssets (fun _ => some [("F", 1)]) (fun _ => false) exS2 exO2 exF2 [false] exD true
      (fun _ => some freshNode) true).map (fun n => n.computed ()) = some (some (.handle 1)) := by
  have okr : RootsOK exF2 [false] := ⟨by simp, by simp [exF2]⟩
  refine ⟨?_, by decide⟩
  refine .frame (fun _ => some freshNode) exF2 [false] _ (fun _ => some freshNode) exF2 [false] exD true exO2 _ exD
    (.start _ exF2 [false] okr (fun _ _ => rfl)) exF2_wf okr ?_ (by simp) ?_ (by simp) (by simp [exO2])
  · intro e _
    exact ⟨freshNode, rfl, Or.inl ⟨by simp [exD], rfl, by simp [freshNode]⟩⟩
  · intro e m _ p _; simp [exS2]

/-- With two sheets the font of an element depends on the history.  The parent is declared `font-family: var(…)`
giving `F`, which is font 1 in its sheet; the child `inherit`s and its own sheet has another `F`, font 2.  Styled
in the same frame, the child gets font 2 (it inherits the *name*); restyled in a later frame with the same
declarations it gets font 1. -/
theorem C81_two_sheets : ∃ (w w' : World Bool Unit (AssetValue Unit Nat)) (decl : Bool → Option (Unit → PropertyValue (AssetValue Unit Nat))),
    (∃ a s f roots, PReach a (fun e => if e then [("F", 2)] else [("F", 1)]) (fun _ => true) s
        (fun m => ∀ p, m p = .unset → s.unset p ≠ .inherit) w f roots decl ∧
      PReach a (fun e => if e then [("F", 2)] else [("F", 1)]) (fun _ => true) s
        (fun m => ∀ p, m p = .unset → s.unset p ≠ .inherit) w' f roots decl) ∧
    (decl false).map (· ()) = some (.value (.fontName "F")) ∧ (decl true).map (· ()) = some .inherit ∧
    (w true).map (fun n => n.computed ()) = some (some (.handle 2)) ∧
    (w' true).map (fun n => n.computed ()) = some (some (.handle 1)) := by
  have okr : RootsOK exF2 [false] := ⟨by simp, by simp [exF2]⟩
  let w1 := frameP fontExAssets (fun e => some (exFonts e)) (fun _ => false) exS2 exO2 exF2 [false] exD true (fun _ => some freshNode)
  let u2 : Bool → Option (Unit → PropertyValue (AssetValue Unit Nat)) := fun e => if e then exD true else none
  let w2 := frameP fontExAssets (fun e => some (exFonts e)) (fun _ => false) exS2 exO2 exF2 [false] u2 true w1
  have h1 : PReach fontExAssets exFonts (fun _ => true) exS2 (fun m => ∀ p, m p = .unset → exS2.unset p ≠ .inherit)
      w1 exF2 [false] exD := by
    refine .frame (fun _ => some freshNode) exF2 [false] _ (fun _ => some freshNode) exF2 [false] exD true exO2 _ exD
      (.start _ exF2 [false] okr (fun _ _ => rfl)) exF2_wf okr ?_ (by simp) ?_ (by simp) (by simp [exO2])
    · intro e _
      exact ⟨freshNode, rfl, Or.inl ⟨by simp [exD], rfl, by simp [freshNode]⟩⟩
    · intro e m _ p _; simp [exS2]
  have h2 : PReach fontExAssets exFonts (fun _ => true) exS2 (fun m => ∀ p, m p = .unset → exS2.unset p ≠ .inherit)
      w2 exF2 [false] exD := by
    refine .frame w1 exF2 [false] exD w1 exF2 [false] u2 true exO2 _ exD h1 exF2_wf okr ?_ (by simp) ?_ (by simp) (by simp [exO2])
    · intro e he
      cases e with
      | false => exact ⟨_, rfl, Or.inr (Or.inr ⟨rfl, rfl, he, rfl, rfl, fun _ _ => rfl⟩)⟩
      | true =>
        obtain ⟨n, hn⟩ : ∃ n, w1 true = some n := ⟨_, rfl⟩
        refine ⟨n, hn, Or.inl ⟨by simp [u2, exD], rfl, ?_⟩⟩
        intro p v hv
        have : (w1 true).map (fun n => n.computed ()) = some (some (.handle 2)) := by decide
        rw [hn] at this
        simp only [Option.map_some, Option.some.injEq] at this
        cases p
        rw [hv] at this
        cases this; exact id
    · intro e m _ p _; simp [exS2]
  exact ⟨w1, w2, exD, ⟨fontExAssets, exS2, exF2, [false], h1, h2⟩, rfl, rfl, by decide, by decide⟩

end Flair.Props
