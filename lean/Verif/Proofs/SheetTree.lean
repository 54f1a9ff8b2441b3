import Verif.Props.Loader
import Verif.Spec.SheetTree
/-!
# Lemmas about loading files that import files
-/
namespace Flair.Proofs.SheetTree
set_option linter.unusedSectionVars false
open Flair.Spec Flair.Sheet Flair.Layers Flair.Vars Flair.Values Flair.Loader Flair.Media Flair.SheetTree
variable {S M C N T V X Y : Type} [DecidableEq N] [DecidableEq V]
variable {names : C → Option Nat} {typeOk : Nat → V → Bool} {spec : S → Nat} {ph : V → PropertyValue V}

/-- the builder holds the rules -/
structure Holds (names : C → Option Nat) (typeOk : Nat → V → Bool) (ph : V → PropertyValue V)
    (b : Builder S M C N T V X Y) (rules : List (SrcRule S M C N T V X Y)) (ds : List Path) : Prop where
  re : Realises names ph b rules ds
  rs : List.Forall₂ (fun br r => (br.isEmpty = true ↔ r.decls = []) ∧
    (RulesetOk names typeOk ph br ↔ ∀ d ∈ r.decls, DeclOk names typeOk ph d)) b.rulesets rules
  ne : ∀ r ∈ rules, r.selectors ≠ []
  same : ∀ r ∈ rules, r.decls ≠ [] → SameLayer r

theorem holds_new : Holds names typeOk ph (Builder.new : Builder S M C N T V X Y) [] [] :=
  ⟨⟨by simp, by simp [Builder.new, run], by simp [Builder.new], by simp [Builder.new],
      by simp [Builder.new], .nil, .nil⟩, .nil, by simp, by simp⟩

theorem insert_ne {K W : Type} [DecidableEq K] (m : HMap K W) (k : K) (w : W) : m.insert k w ≠ [] := by
  intro h
  have := HMap.get?_insert m k k w
  rw [h] at this
  simp [HMap.get?] at this

theorem addDecl_ne (r : Ruleset (BProp C N T V) N T X Y) (d : SrcDecl C N T V X Y) : (r.addDecl d).isEmpty = false := by
  cases d <;> simp [Ruleset.addDecl, Ruleset.addProperty, Ruleset.addVar, Ruleset.addTransition,
      Ruleset.addAnimation, Ruleset.isEmpty, insert_ne]

theorem body_empty (r : SrcRule S M C N T V X Y) : (body r).isEmpty = true ↔ r.decls = [] := by
  unfold body
  rcases List.eq_nil_or_concat r.decls with h | ⟨l, d, h⟩
  · rw [h]; simp [Ruleset.empty, Ruleset.isEmpty]
  · rw [h, List.concat_eq_append, List.foldl_append]
    simp [addDecl_ne]

theorem forall2_eraseIdx {α β : Type} {R : α → β → Prop} {l : List α} {l' : List β} (h : List.Forall₂ R l l') :
    ∀ i, List.Forall₂ R (l.eraseIdx i) (l'.eraseIdx i) := by
  induction h with
  | nil => intro i; simp
  | cons h hs ih =>
    intro i
    cases i with
    | zero => simpa using hs
    | succ i => simpa using ⟨h, ih i⟩

theorem Holds.removeId {b b' : Builder S M C N T V X Y} {rules : List (SrcRule S M C N T V X Y)} {ds : List Path}
    (h : Holds names typeOk ph b rules ds) {id : Nat} (hb : b.removeId id = some b') :
    Holds names typeOk ph b' (rules.eraseIdx id) ds := by
  have hlen := h.re.bodies.length_eq
  unfold Builder.removeId at hb
  split at hb
  swap
  · cases hb
  rename_i hid
  cases hb
  refine ⟨⟨h.re.wf, h.re.layers, ?_, ?_, ?_, forall2_eraseIdx h.re.bodies id, forall2_eraseIdx h.re.rest id⟩,
    forall2_eraseIdx h.rs id, fun r hr => h.ne r (List.mem_of_mem_eraseIdx hr),
    fun r hr => h.same r (List.mem_of_mem_eraseIdx hr)⟩
  · rw [List.pairwise_map]
    have h1 : (b.selectors.filter (fun s => s.2 ≠ id)).Pairwise (fun a b => a.2 ≤ b.2) := h.re.order.filter _
    refine h1.imp_of_mem ?_
    intro s t hs ht hst
    have h2 : s.2 ≠ id := by simpa using (List.mem_filter.mp hs).2
    have h3 : t.2 ≠ id := by simpa using (List.mem_filter.mp ht).2
    split <;> split <;> (try simp only) <;> omega
  · intro sel i
    simp only [List.mem_map, List.mem_filter]
    constructor
    · rintro ⟨⟨s, j⟩, ⟨hs, hj⟩, he⟩
      obtain ⟨r, hr, hsel⟩ := (h.re.sels s j).mp hs
      have hj' : j ≠ id := by simpa using hj
      split at he
      · rename_i hlt
        cases he
        refine ⟨r, ?_, hsel⟩
        simp only at hlt
        rw [List.getElem?_eraseIdx_of_ge (by omega)]
        rw [show j - 1 + 1 = j by omega]; exact hr
      · rename_i hlt
        cases he
        refine ⟨r, ?_, hsel⟩
        simp only at hlt
        rw [List.getElem?_eraseIdx_of_lt (by omega)]
        exact hr
    · rintro ⟨r, hr, hsel⟩
      by_cases hlt : i < id
      · rw [List.getElem?_eraseIdx_of_lt hlt] at hr
        refine ⟨(sel, i), ⟨(h.re.sels sel i).mpr ⟨r, hr, hsel⟩, by simp; omega⟩, ?_⟩
        rw [if_neg (by simp; omega)]
      · rw [List.getElem?_eraseIdx_of_ge (by omega)] at hr
        refine ⟨(sel, i + 1), ⟨(h.re.sels sel (i + 1)).mpr ⟨r, hr, hsel⟩, by simp; omega⟩, ?_⟩
        rw [if_pos (by simp; omega)]
        simp
  · intro s hs
    simp only [List.mem_map, List.mem_filter] at hs
    obtain ⟨t, ⟨ht, _⟩, rfl⟩ := hs
    obtain ⟨p, hp, e⟩ := h.re.lay t ht
    refine ⟨p, hp, ?_⟩
    split <;> exact e

theorem explodeR_eraseIdx {rs : List (SrcRule S M C N T V X Y)} : ∀ {i : Nat} (h : i < rs.length), (rs[i]).decls = [] →
    explodeR (rs.eraseIdx i) = explodeR rs := by
  induction rs with
  | nil => intro i h; cases h
  | cons r rs ih =>
    intro i h he
    cases i with
    | zero =>
      have : r.decls = [] := he
      simp [explodeR, this]
    | succ i =>
      have := ih (i := i) (by simpa using h) (by simpa using he)
      simp only [List.eraseIdx_cons_succ]
      unfold explodeR at this ⊢
      rw [List.flatMap_cons, List.flatMap_cons, this]

/-- removing the empty rules -/
theorem Holds.removeEmpty {b : Builder S M C N T V X Y} {rules : List (SrcRule S M C N T V X Y)} {ds : List Path}
    (h : Holds names typeOk ph b rules ds) :
    ∃ b' rules', b.removeAllEmpty = some b' ∧ Holds names typeOk ph b' rules' ds ∧ explodeR rules' = explodeR rules ∧
      ∀ r ∈ rules', r.decls ≠ [] := by
  unfold Builder.removeAllEmpty
  suffices key : ∀ (b : Builder S M C N T V X Y) (i : Nat) (rules : List (SrcRule S M C N T V X Y)),
      Holds names typeOk ph b rules ds → (∀ j (hj : j < rules.length), j < i → (rules[j]).decls ≠ []) →
      ∃ b' rules', b.removeEmptyFrom i = some b' ∧ Holds names typeOk ph b' rules' ds ∧ explodeR rules' = explodeR rules ∧
        ∀ r ∈ rules', r.decls ≠ [] from key b 0 rules h (by omega)
  clear h b rules
  intro b i
  fun_induction Builder.removeEmptyFrom b i with
  | case1 b i h he heq =>
    unfold Builder.removeId at heq
    rw [if_pos h] at heq
    cases heq
  | case2 b i h he b1 hb1 ih =>
    intro rules hh hpre
    have hlen := hh.re.bodies.length_eq
    have hd : (rules[i]'(by omega)).decls = [] := by
      have := (List.forall₂_iff_get.mp hh.rs).2 i h (by omega)
      exact this.1.mp he
    obtain ⟨b', rules', g1, g2, g3, g4⟩ := ih (rules.eraseIdx i) (hh.removeId hb1) (by
      intro j hj hji
      rw [List.getElem_eraseIdx_of_lt _ hji]
      exact hpre j (by omega) hji)
    exact ⟨b', rules', g1, g2, by rw [g3, explodeR_eraseIdx (by omega) hd], g4⟩
  | case3 b i h he ih =>
    intro rules hh hpre
    have hlen := hh.re.bodies.length_eq
    refine ih rules hh ?_
    intro j hj hji
    by_cases hji' : j < i
    · exact hpre j hj hji'
    · have : j = i := by omega
      subst this
      intro hd
      have := (List.forall₂_iff_get.mp hh.rs).2 j h (by omega)
      exact he (this.1.mpr hd)
  | case4 b i h =>
    intro rules hh hpre
    have hlen := hh.re.bodies.length_eq
    refine ⟨b, rules, rfl, hh, rfl, ?_⟩
    intro r hr
    obtain ⟨j, hj, rfl⟩ := List.mem_iff_getElem.mp hr
    exact hpre j hj (by omega)

theorem mem_explode_of {rs : List (SrcRule S M C N T V X Y)} {r : SrcRule S M C N T V X Y} (hr : r ∈ rs)
    (h : r.decls ≠ []) : ∃ d, ⟨r.selectors, [d]⟩ ∈ explodeR rs := by
  obtain ⟨d, hd⟩ := List.exists_mem_of_ne_nil _ h
  exact ⟨d, List.mem_flatMap.mpr ⟨r, hr, List.mem_map.mpr ⟨d, hd, rfl⟩⟩⟩

theorem body_same (rp : S → List S → S) (amp : S) (src : List (BodySrc S M C N T V X Y)) :
    ∀ (layer : List Char) (media : List M) (sels : List S),
    ∀ r ∈ bodyDecls rp amp layer media sels src, SameLayer r := by
  have base : ∀ (layer : List Char) (media : List M) (sels : List S) (ds : List (SrcDecl C N T V X Y)),
      SameLayer (⟨sels.map fun s => ⟨layer, media, s⟩, ds⟩ : SrcRule S M C N T V X Y) := by
    intro layer media sels ds s hs t ht
    obtain ⟨_, _, rfl⟩ := List.mem_map.mp hs
    obtain ⟨_, _, rfl⟩ := List.mem_map.mp ht
    rfl
  intro layer media sels
  fun_induction bodyDecls rp amp layer media sels src with
  | case1 => simp
  | case2 layer media sels ds rest ih =>
    intro r hr
    rcases List.mem_append.mp hr with hr | hr
    · obtain ⟨d, _, rfl⟩ := List.mem_map.mp hr
      exact base _ _ _ _
    · exact ih r hr
  | case3 layer media sels rest ih => exact ih
  | case4 layer media sels body rest ih => exact ih
  | case5 layer media sels ss body rest ih1 ih2 =>
    simp only [List.map_subtype, List.unattach_attach] at ih1
    intro r hr
    rcases List.mem_append.mp hr with hr | hr
    · exact ih1 r hr
    · exact ih2 r hr
  | case6 layer media sels rest conds body ih1 ih2 =>
    intro r hr
    rcases List.mem_append.mp hr with hr | hr
    · exact ih1 r hr
    · exact ih2 r hr
  | case7 layer media sels rest name body ih1 ih2 =>
    intro r hr
    rcases List.mem_append.mp hr with hr | hr
    · exact ih1 r hr
    · exact ih2 r hr

theorem doc_same (rp : S → List S → S) (amp : S) (layer : List Char) (media : List M) (src : List (Src S M C N T V X Y)) :
    ∀ r ∈ docDecls rp amp layer media src, SameLayer r := by
  fun_induction docDecls rp amp layer media src with
  | case1 => simp
  | case2 layer media rest name inner ih1 ih2 =>
    intro r hr
    rcases List.mem_append.mp hr with hr | hr
    · exact ih1 r hr
    · exact ih2 r hr
  | case3 layer media conds inner rest ih1 ih2 =>
    intro r hr
    rcases List.mem_append.mp hr with hr | hr
    · exact ih1 r hr
    · exact ih2 r hr
  | case4 layer media ss body rest ih =>
    intro r hr
    rcases List.mem_append.mp hr with hr | hr
    · exact body_same rp amp body layer media ss r hr
    · exact ih r hr
  | case5 layer media x rest _ _ _ ih => exact ih

/-- items of the file itself -/
theorem Holds.own (rp : S → List S → S) (amp : S) {b : Builder S M C N T V X Y} {rules : List (SrcRule S M C N T V X Y)}
    {ds ds' : List Path} (h : Holds names typeOk ph b rules ds) {src : List (Src S M C N T V X Y)} (hp : Proper src)
    (hds : DocHistory src ds') :
    ∃ b' rules', (∀ e, processAll rp (parseItems amp ⟨[], []⟩ src) (b, e) =
        some (b', e + errors (parseItems amp ⟨[], []⟩ src))) ∧
      Holds names typeOk ph b' (rules ++ rules') (ds ++ ds') ∧ explodeR rules' = docDecls rp amp [] [] src := by
  set flat := flatItems rp (parseItems amp ⟨[], []⟩ src) with hflat
  have hl := layers_append (ds := ds) h.re.wf hds
  have he := addItems_eq flat b
  have hfold : (layerNames flat).foldlM defineLayer b.layers = (docLayers [] src).foldlM defineLayer b.layers :=
    doc_names rp amp src [] [] _ hp
  have h0 : (docLayers [] src).foldlM defineLayer b.layers = some ((run (ds ++ ds')).map Path.dotted) := by
    rw [h.re.layers]; exact hl.1
  rw [hfold, h0] at he
  simp only [Option.map_some] at he
  obtain ⟨b0, hb0⟩ : ∃ b0, b.addItems flat = some b0 := ⟨_, he⟩
  have hex : explodeR (rulesOf flat) = docDecls rp amp [] [] src := explodeR_doc rp amp src [] [] hp
  have hre : Realises names ph b0 (rules ++ rulesOf flat) (ds ++ ds') := by
    refine Realises.append h.re (sels := numbered b.rulesets.length (rulesOf flat)) (brs := (rulesOf flat).map body)
      (ns := docLayers [] src) (ns' := layerNames flat) hfold hds ?_ ?_ ?_ ?_ ?_ ?_
    · rw [hfold, h0]
      rw [hb0] at he
      rw [he]
      simp
    · exact pairwise_numbered _ _
    · intro sel i
      exact mem_numbered _ _ _ _
    · rintro ⟨sel, i⟩ hs
      rw [mem_numbered] at hs
      obtain ⟨_, r, hr, hsel⟩ := hs
      exact doc_names_mem rp amp src [] [] hp _ (layer_mem_names (List.mem_of_getElem? hr) hsel)
    · rw [List.forall₂_map_left_iff]
      exact List.forall₂_same.mpr (fun r _ => body_means names ph r)
    · rw [List.forall₂_map_left_iff]
      exact List.forall₂_same.mpr (fun r _ => body_rest r)
  refine ⟨b0, rulesOf flat, ?_, ⟨hre, ?_, ?_, ?_⟩, hex⟩
  · intro e
    rw [processAll_eq rp _ (noEmbed_of_proper amp src _ hp), hb0]
    rfl
  · have hbr : b0.rulesets = b.rulesets ++ (rulesOf flat).map body := by
      rw [hb0] at he
      cases he
      rfl
    rw [hbr]
    refine List.rel_append h.rs ?_
    rw [List.forall₂_map_left_iff]
    exact List.forall₂_same.mpr fun r _ => ⟨body_empty r, rulesetOk_body names typeOk ph r⟩
  · intro r hr
    rcases List.mem_append.mp hr with hr | hr
    · exact h.ne r hr
    · exact doc_sels_ne rp amp src _ hp r hr
  · intro r hr hd
    rcases List.mem_append.mp hr with hr | hr
    · exact h.same r hr hd
    · obtain ⟨d, hm⟩ := mem_explode_of hr hd
      rw [hex] at hm
      exact fun s hs t ht => doc_same rp amp [] [] src _ hm s hs t ht

theorem same_inLayer {r : SrcRule S M C N T V X Y} (x : List Char) (h : SameLayer r) : SameLayer (inLayer x r) := by
  intro s hs t ht
  obtain ⟨s0, hs0, rfl⟩ := List.mem_map.mp hs
  obtain ⟨t0, ht0, rfl⟩ := List.mem_map.mp ht
  simp [h s0 hs0 t0 ht0]

theorem explodeR_inLayer (x : List Char) (rs : List (SrcRule S M C N T V X Y)) :
    explodeR (rs.map (inLayer x)) = (explodeR rs).map (inLayer x) := by
  unfold explodeR
  rw [List.flatMap_map, List.map_flatMap]
  refine List.flatMap_congr fun r _ => ?_
  simp [inLayer, Function.comp_def]

theorem extend_nil_empty {K W : Type} [DecidableEq K] (m : HMap K W) : (HMap.extend [] m).isEmpty = m.isEmpty := by
  unfold HMap.extend
  rcases List.eq_nil_or_concat m with h | ⟨l, d, h⟩
  · rw [h]; rfl
  · rw [h, List.concat_eq_append, List.foldl_append, Bool.eq_iff_iff, List.isEmpty_iff, List.isEmpty_iff]
    simp only [List.foldl_cons, List.foldl_nil]
    exact ⟨fun h => absurd h (insert_ne _ _ _), fun h => by simp at h⟩

/-- an imported ruleset -/
theorem imported_rs (hph : PhDone ph) {br : Ruleset (BProp C N T V) N T X Y} {rr : Ruleset (RProp C N T V) N T X Y}
    (hr : (place ph br).resolve names = some rr) (hok : RulesetOk names typeOk ph br) :
    ((Ruleset.empty.addValuesFrom rr : Ruleset (BProp C N T V) N T X Y).isEmpty = br.isEmpty) ∧
      RulesetOk names typeOk ph (Ruleset.empty.addValuesFrom rr : Ruleset (BProp C N T V) N T X Y) := by
  obtain ⟨r', h1, h2⟩ := hok
  rw [hr] at h1; cases h1
  have hr0 := hr
  unfold Ruleset.resolve place at hr
  simp only [Option.map_eq_some_iff] at hr
  obtain ⟨ps, h1, rfl⟩ := hr
  have hlen : ps.isEmpty = br.properties.isEmpty := by
    have := ((mapM_forall2 _ _ _).mp h1).length_eq
    rw [List.length_map] at this
    rw [Bool.eq_iff_iff, List.isEmpty_iff_length_eq_zero, List.isEmpty_iff_length_eq_zero]
    omega
  constructor
  · unfold Ruleset.isEmpty Ruleset.addValuesFrom Ruleset.empty
    simp only [List.nil_append, extend_nil_empty, List.isEmpty_map, hlen]
  · refine ⟨⟨(HMap.extend [] br.vars), ps, br.transitions, br.animations⟩, ?_, h2⟩
    unfold Ruleset.resolve place Ruleset.addValuesFrom Ruleset.empty
    simp only [List.nil_append, place_toBProps hph h1, Option.map_some]

/-- an imported sheet -/
theorem Holds.embed {b1 b2 : Builder S M C N T V X Y} {rules1 rules2 : List (SrcRule S M C N T V X Y)}
    {ds1 ds2 ds' : List Path} (hph : PhDone ph)
    (h1 : Holds names typeOk ph b1 rules1 ds1) (h2 : Holds names typeOk ph b2 rules2 ds2)
    (hne : ∀ r ∈ rules2, r.decls ≠ []) {o : StyleSheet S M C N T V X Y}
    (ho : b2.build names typeOk spec ph = some (.ok o)) {layer : Option Name} (hlayer : layer ≠ some [])
    (hds : List.Forall₂ (fun (t : List Char) (p : Path) => p.WF ∧ t = p.dotted)
      (((explodeR rules2).flatMap fun r => r.selectors.map fun s => nestName (layer.getD []) s.layer).filter
        (fun t => t ≠ [])) ds') :
    ∃ b', b1.embed o layer = some b' ∧
      Holds names typeOk ph b' (rules1 ++ rules2.map (inLayer (layer.getD []))) (ds1 ++ ds') := by
  have hsame : ∀ r ∈ rules2, SameLayer r := fun r hr => h2.same r hr (hne r hr)
  have hnames : (explodeR rules2).flatMap (fun r => r.selectors.map fun s => nestName (layer.getD []) s.layer) =
      rules2.flatMap fun r => r.decls.flatMap fun _ => r.selectors.map fun s => nestName (layer.getD []) s.layer := by
    unfold explodeR
    rw [List.flatMap_assoc]
    refine List.flatMap_congr fun r _ => ?_
    rw [List.flatMap_map]
  rw [hnames] at hds
  obtain ⟨b', hb', hre⟩ := Realises.embed_names hph h1.re h2.re ho hlayer hsame _ hds (by
      intro l
      rw [layerNames_map_rule]
      refine foldlM_flatMap_congr ?_ l
      refine List.forall₂_same.mpr ?_
      intro r hr l
      obtain ⟨s, hs⟩ := List.exists_mem_of_ne_nil _ (h2.ne r hr)
      obtain ⟨d, hd⟩ := List.exists_mem_of_ne_nil _ (hne r hr)
      have hm : ∀ t ∈ r.selectors, nestName (layer.getD []) t.layer = nestName (layer.getD []) s.layer :=
        fun t ht => by rw [hsame r hr t ht s hs]
      rw [foldlM_same (n := nestName (layer.getD []) s.layer), foldlM_same (n := nestName (layer.getD []) s.layer)]
      · intro h0
        rw [List.flatMap_eq_nil_iff] at h0
        have := h0 d hd
        rw [List.map_eq_nil_iff] at this
        rw [this] at hs; cases hs
      · intro m hm'
        obtain ⟨_, _, hm'⟩ := List.mem_flatMap.mp hm'
        obtain ⟨t, ht, rfl⟩ := List.mem_map.mp hm'
        exact hm t ht
      · intro h0
        simp only [inLayer, List.map_eq_nil_iff] at h0
        rw [h0] at hs; cases hs
      · intro m hm'
        simp only [inLayer, List.map_map, List.mem_map] at hm'
        obtain ⟨t, ht, rfl⟩ := hm'
        exact hm t ht) (by
      intro n hn
      rw [layerNames_map_rule] at hn
      obtain ⟨r, hr, hn⟩ := List.mem_flatMap.mp hn
      simp only [inLayer, List.map_map, List.mem_map] at hn
      obtain ⟨t, ht, rfl⟩ := hn
      obtain ⟨d, hd⟩ := List.exists_mem_of_ne_nil _ (hne r hr)
      exact List.mem_flatMap.mpr ⟨r, hr, List.mem_flatMap.mpr ⟨d, hd, List.mem_map.mpr ⟨t, ht, rfl⟩⟩⟩)
  refine ⟨b', hb', hre, ?_, ?_, ?_⟩
  · rw [embed_eq] at hb'
    simp only [Option.map_eq_some_iff] at hb'
    obtain ⟨_, _, rfl⟩ := hb'
    refine List.rel_append h1.rs ?_
    rw [List.forall₂_map_left_iff, List.forall₂_map_right_iff]
    obtain ⟨_, e2⟩ := build_ok ho
    have hbok := (build_ok_iff'.mp ⟨o, ho⟩).2.2
    have hlen2 := h2.re.bodies.length_eq
    rw [List.forall₂_iff_get]
    refine ⟨by rw [← e2.length_eq, hlen2], ?_⟩
    intro i hi hi'
    have a := (List.forall₂_iff_get.mp h2.rs).2 i (by omega) hi'
    have c := (List.forall₂_iff_get.mp e2).2 i (by omega) hi
    have hk := hbok _ (List.get_mem b2.rulesets ⟨i, by omega⟩)
    obtain ⟨g1, g2⟩ := imported_rs hph c hk
    rw [g1]
    exact ⟨a.1, fun _ => a.2.mp hk, fun _ => g2⟩
  · intro r hr
    rcases List.mem_append.mp hr with hr | hr
    · exact h1.ne r hr
    · obtain ⟨r0, hr0, rfl⟩ := List.mem_map.mp hr
      simpa [inLayer] using h2.ne r0 hr0
  · intro r hr hd
    rcases List.mem_append.mp hr with hr | hr
    · exact h1.same r hr hd
    · obtain ⟨r0, hr0, rfl⟩ := List.mem_map.mp hr
      exact same_inLayer _ (hsame r0 hr0)

/-- when it can be built -/
theorem Holds.build {b : Builder S M C N T V X Y} {rules : List (SrcRule S M C N T V X Y)} {ds : List Path}
    (h : Holds names typeOk ph b rules ds) (spec : S → Nat) :
    b.build names typeOk spec ph ≠ none ∧ ((∃ sh, b.build names typeOk spec ph = some (.ok sh)) ↔
      ∀ r ∈ explodeR rules, ∀ d ∈ r.decls, DeclOk names typeOk ph d) := by
  have hprio : ∀ s ∈ b.selectors, (priority b.layers s.1.layer).isSome := by
    intro s hs
    obtain ⟨p, hp, e⟩ := h.re.lay s hs
    rw [h.re.layers, e, priority_run h.re.wf hp]
    rfl
  have hlen := h.re.bodies.length_eq
  refine ⟨build_ne_none hprio, ?_⟩
  rw [build_ok_iff', ← mem_explodeR]
  have hno : NoOrphan b := by
    intro id hid
    rw [hlen] at hid
    obtain ⟨sel, hsel⟩ := List.exists_mem_of_ne_nil _ (h.ne rules[id] (List.getElem_mem _))
    exact ⟨_, (h.re.sels sel id).mpr ⟨rules[id], List.getElem?_eq_getElem hid, hsel⟩, rfl⟩
  constructor
  · rintro ⟨_, _, h3⟩ r hr
    obtain ⟨i, hi, rfl⟩ := List.mem_iff_getElem.mp hr
    have a := (List.forall₂_iff_get.mp h.rs).2 i (by omega) hi
    exact a.2.mp (h3 _ (List.get_mem b.rulesets ⟨i, by omega⟩))
  · intro h3
    refine ⟨hno, hprio, ?_⟩
    intro br hbr
    obtain ⟨i, hi, rfl⟩ := List.mem_iff_getElem.mp hbr
    have a := (List.forall₂_iff_get.mp h.rs).2 i hi (by omega)
    exact a.2.mpr (h3 _ (List.getElem_mem _))

theorem parseItems_append (amp : S) (ctx : Context M) (a b : List (Src S M C N T V X Y)) :
    parseItems amp ctx (a ++ b) = parseItems amp ctx a ++ parseItems amp ctx b := by
  induction a with
  | nil => rfl
  | cons x a ih => simp only [List.cons_append, parseItems, ih]

theorem processAll_append (rp : S → List S → S) (a b : List (SheetItem S M C N T V X Y)) :
    ∀ st : Builder S M C N T V X Y × Nat, processAll rp (a ++ b) st = (processAll rp a st).bind (processAll rp b) := by
  induction a with
  | nil => intro st; simp [processAll]
  | cons x a ih =>
    intro st
    simp only [List.cons_append, processAll, Option.bind_assoc]
    cases process rp x st with
    | none => rfl
    | some st' => exact ih st'

/-- the imported declarations -/
def imported (rp : S → List S → S) (amp : S) : List (Part S M C N T V X Y) → List (SrcRule S M C N T V X Y)
  | [] => []
  | .own _ :: rest => imported rp amp rest
  | .sheet layer _ parts :: rest => (treeDecls rp amp parts).map (inLayer (layer.getD [])) ++ imported rp amp rest

theorem imported_sub (rp : S → List S → S) (amp : S) (parts : List (Part S M C N T V X Y)) :
    ∀ r ∈ imported rp amp parts, r ∈ treeDecls rp amp parts := by
  fun_induction imported rp amp parts with
  | case1 => simp
  | case2 src rest ih =>
    intro r hr
    rw [treeDecls]
    exact List.mem_append_right _ (ih r hr)
  | case3 layer mode parts rest ih =>
    intro r hr
    rw [treeDecls]
    rcases List.mem_append.mp hr with hr | hr
    · exact List.mem_append_left _ hr
    · exact List.mem_append_right _ (ih r hr)

theorem decls_inLayer {P : SrcDecl C N T V X Y → Prop} (x : List Char) (rs : List (SrcRule S M C N T V X Y)) :
    (∀ r ∈ rs.map (inLayer x), ∀ d ∈ r.decls, P d) ↔ ∀ r ∈ rs, ∀ d ∈ r.decls, P d := by
  simp [inLayer]

/-- What the items of a file, with the imported sheets, make of a builder. -/
def Adds (names : C → Option Nat) (typeOk : Nat → V → Bool) (ph : V → PropertyValue V) (rp : S → List S → S) (amp : S)
    (parts : List (Part S M C N T V X Y)) (ds : List Path) (src : List (Src S M C N T V X Y)) : Prop :=
  ∀ b rules ds0, Holds names typeOk ph b rules ds0 → ∃ b' rules' n,
    (∀ e, processAll rp (parseItems amp ⟨[], []⟩ src) (b, e) = some (b', e + n)) ∧ (0 < n ↔ FileError parts) ∧
    Holds names typeOk ph b' (rules ++ rules') (ds0 ++ ds) ∧ explodeR rules' = treeDecls rp amp parts

/-- the end of loading a file -/
theorem finish_facts {rp : S → List S → S} {amp : S} {parts : List (Part S M C N T V X Y)} {ds : List Path}
    {src : List (Src S M C N T V X Y)} (h : Adds names typeOk ph rp amp parts ds src) (spec : S → Nat) (mode : ErrorMode) :
    finish names typeOk spec ph rp amp mode src ≠ none ∧
    ((∃ o, finish names typeOk spec ph rp amp mode src = some (some o)) ↔ (mode = .returnError → ¬ FileError parts) ∧
      ∀ r ∈ treeDecls rp amp parts, ∀ d ∈ r.decls, DeclOk names typeOk ph d) ∧
    ∀ o, finish names typeOk spec ph rp amp mode src = some (some o) → ∃ b rules, Holds names typeOk ph b rules ds ∧
      explodeR rules = treeDecls rp amp parts ∧ (∀ r ∈ rules, r.decls ≠ []) ∧
      b.build names typeOk spec ph = some (.ok o) := by
  obtain ⟨b0, rules0, n, h1, h2, h3, h4⟩ := h _ _ _ holds_new
  simp only [List.nil_append] at h3
  obtain ⟨b, rules, g1, g2, g3, g4⟩ := h3.removeEmpty
  rw [h4] at g3
  obtain ⟨k1, k2⟩ := g2.build spec
  rw [g3] at k2
  have hl : loadStylesheet rp amp mode src = if 0 < n ∧ mode = .returnError then some none else some (some b) := by
    unfold loadStylesheet
    rw [h1 0]
    simp only [Option.bind_some, Nat.zero_add, g1, gt_iff_lt, Option.map_some]
  by_cases he : 0 < n ∧ mode = .returnError
  · rw [if_pos he] at hl
    have hf : finish names typeOk spec ph rp amp mode src = some none := by
      unfold finish; rw [hl]
    rw [hf]
    refine ⟨by simp, ?_, by simp⟩
    constructor
    · rintro ⟨o, ho⟩; cases ho
    · rintro ⟨k, _⟩; exact absurd (h2.mp he.1) (k he.2)
  · rw [if_neg he] at hl
    have hne : mode = .returnError → ¬ FileError parts := fun hm hf => he ⟨h2.mpr hf, hm⟩
    cases hb : b.build names typeOk spec ph with
    | none => exact absurd hb k1
    | some x =>
      cases x with
      | error x =>
        have hf : finish names typeOk spec ph rp amp mode src = some none := by
          unfold finish; simp only [hl, hb]
        rw [hf]
        refine ⟨by simp, ?_, by simp⟩
        constructor
        · rintro ⟨o, ho⟩; cases ho
        · rintro ⟨_, k⟩
          obtain ⟨sh, hsh⟩ := k2.mpr k
          rw [hb] at hsh; cases hsh
      | ok o =>
        have hf : finish names typeOk spec ph rp amp mode src = some (some o) := by
          unfold finish; simp only [hl, hb]
        rw [hf]
        refine ⟨by simp, ?_, ?_⟩
        · exact ⟨fun _ => ⟨hne, k2.mp ⟨o, hb⟩⟩, fun _ => ⟨o, rfl⟩⟩
        · intro o' ho
          simp only [Option.some.injEq] at ho
          subst ho
          exact ⟨b, rules, g2, g3, g4, hb⟩

/-- loading the imported files -/
theorem tree_facts (hph : PhDone ph) (spec : S → Nat) (rp : S → List S → S) (amp : S) (parts : List (Part S M C N T V X Y)) :
    TreeProper rp amp parts → ∀ ds, TreeHistory rp amp parts ds →
    loadImported names typeOk spec ph rp amp parts ≠ none ∧
    ((∃ src, loadImported names typeOk spec ph rp amp parts = some (some src)) ↔
      Tolerated parts ∧ ∀ r ∈ imported rp amp parts, ∀ d ∈ r.decls, DeclOk names typeOk ph d) ∧
    ∀ src, loadImported names typeOk spec ph rp amp parts = some (some src) → Adds names typeOk ph rp amp parts ds src := by
  induction parts using treeDecls.induct with
  | case1 =>
    intro _ ds hds
    have : ds = [] := by
      unfold TreeHistory at hds
      simp only [treeLayers, List.filter_nil] at hds
      cases hds; rfl
    subst this
    refine ⟨by simp [loadImported], by simp [loadImported, Tolerated, imported], ?_⟩
    intro src hs b rules ds0 hb
    simp only [loadImported, Option.some.injEq] at hs
    subst hs
    exact ⟨b, [], 0, by simp [parseItems, processAll], by simp [FileError], by simpa using hb, by simp [explodeR, treeDecls]⟩
  | case2 src rest ih =>
    intro hp ds hds
    rw [TreeProper] at hp
    unfold TreeHistory at hds
    rw [treeLayers, List.filter_append] at hds
    obtain ⟨d1, d2, rfl, hd1, hd2⟩ := forall2_append_left hds
    obtain ⟨i1, i2, i3⟩ := ih hp.2 d2 hd2
    rw [loadImported, Tolerated, imported]
    refine ⟨by simpa using i1, ?_, ?_⟩
    · rw [← i2]
      cases loadImported names typeOk spec ph rp amp rest with
      | none => simp
      | some x => cases x <;> simp
    · intro s hs b rules ds0 hb
      cases hx : loadImported names typeOk spec ph rp amp rest with
      | none => rw [hx] at hs; cases hs
      | some x =>
        cases x with
        | none => rw [hx] at hs; cases hs
        | some x =>
          rw [hx] at hs
          simp only [Option.map_some, Option.some.injEq] at hs
          subst hs
          obtain ⟨b1, r1, a1, a2, a3⟩ := hb.own rp amp hp.1 hd1
          obtain ⟨b2, r2, n2, c1, c2, c3, c4⟩ := i3 x hx b1 _ _ a2
          refine ⟨b2, r1 ++ r2, errors (parseItems amp ⟨[], []⟩ src) + n2, ?_, ?_, ?_, ?_⟩
          · intro e
            rw [parseItems_append, processAll_append, a1 e]
            simp only [Option.bind_some]
            rw [c1, Nat.add_assoc]
          · rw [FileError, ← errors_pos amp src ⟨[], []⟩, ← c2]; omega
          · simpa [List.append_assoc] using c3
          · rw [explodeR_append, a3, c4, treeDecls]
  | case3 layer mode parts rest ih1 ih2 =>
    intro hp ds hds
    rw [TreeProper] at hp
    obtain ⟨hlay, ⟨dsp, hdsp⟩, hp1, hp2⟩ := hp
    unfold TreeHistory at hds
    rw [treeLayers, List.filter_append] at hds
    obtain ⟨d1, d2, rfl, hd1, hd2⟩ := forall2_append_left hds
    obtain ⟨j1, j2, j3⟩ := ih1 hp1 dsp hdsp
    obtain ⟨i1, i2, i3⟩ := ih2 hp2 d2 hd2
    rw [loadImported, Tolerated, imported]
    have himp : (∀ r ∈ (treeDecls rp amp parts).map (inLayer (layer.getD [])) ++ imported rp amp rest, ∀ d ∈ r.decls,
        DeclOk names typeOk ph d) ↔ (∀ r ∈ treeDecls rp amp parts, ∀ d ∈ r.decls, DeclOk names typeOk ph d) ∧
          ∀ r ∈ imported rp amp rest, ∀ d ∈ r.decls, DeclOk names typeOk ph d := by
      rw [← decls_inLayer (layer.getD []) (treeDecls rp amp parts)]
      simp only [List.mem_append, or_imp, forall_and]
    have hsub : (∀ r ∈ treeDecls rp amp parts, ∀ d ∈ r.decls, DeclOk names typeOk ph d) →
        ∀ r ∈ imported rp amp parts, ∀ d ∈ r.decls, DeclOk names typeOk ph d :=
      fun h r hr => h r (imported_sub rp amp parts r hr)
    rw [himp]
    cases hx : loadImported names typeOk spec ph rp amp parts with
    | none => exact absurd hx j1
    | some x =>
      cases x with
      | none =>
        refine ⟨by simp, ?_, by simp⟩
        constructor
        · rintro ⟨_, h⟩; cases h
        · rintro ⟨⟨_, t, _⟩, k, _⟩
          obtain ⟨s, hs⟩ := j2.mpr ⟨t, hsub k⟩
          rw [hx] at hs; cases hs
      | some src =>
        obtain ⟨t1, _⟩ := j2.mp ⟨src, hx⟩
        obtain ⟨f1, f2, f3⟩ := finish_facts (j3 src hx) spec mode
        dsimp only
        cases hf : finish names typeOk spec ph rp amp mode src with
        | none => exact absurd hf f1
        | some o =>
          cases o with
          | none =>
            refine ⟨by simp, ?_, by simp⟩
            constructor
            · rintro ⟨_, h⟩; cases h
            · rintro ⟨⟨t, _, _⟩, k, _⟩
              obtain ⟨o, ho⟩ := f2.mpr ⟨t, k⟩
              rw [hf] at ho; cases ho
          | some o =>
            obtain ⟨m1, m2⟩ := f2.mp ⟨o, hf⟩
            dsimp only
            refine ⟨by simpa using i1, ?_, ?_⟩
            · have : (∃ s, (loadImported names typeOk spec ph rp amp rest).map (·.map (.importSheet o layer :: ·)) =
                  some (some s)) ↔ ∃ s, loadImported names typeOk spec ph rp amp rest = some (some s) := by
                cases loadImported names typeOk spec ph rp amp rest with
                | none => simp
                | some x => cases x <;> simp
              rw [this, i2]
              exact ⟨fun ⟨t, k⟩ => ⟨⟨m1, t1, t⟩, m2, k⟩, fun ⟨⟨_, _, t⟩, _, k⟩ => ⟨t, k⟩⟩
            · intro s hs b rules ds0 hb
              cases hy : loadImported names typeOk spec ph rp amp rest with
              | none => rw [hy] at hs; cases hs
              | some y =>
                cases y with
                | none => rw [hy] at hs; cases hs
                | some y =>
                  rw [hy] at hs
                  simp only [Option.map_some, Option.some.injEq] at hs
                  subst hs
                  obtain ⟨bo, ro, g1, g2, g3, g4⟩ := f3 o hf
                  rw [← g2] at hd1
                  obtain ⟨b1, a1, a2⟩ := hb.embed hph g1 g3 g4 hlay hd1
                  obtain ⟨b2, r2, n2, c1, c2, c3, c4⟩ := i3 y hy b1 _ _ a2
                  refine ⟨b2, ro.map (inLayer (layer.getD [])) ++ r2, n2, ?_, ?_, ?_, ?_⟩
                  · intro e
                    simp only [parseItems, parseItem, processAll, process, a1, Option.map_some, Option.bind_some]
                    exact c1 e
                  · rw [FileError, c2]
                  · simpa [List.append_assoc] using c3
                  · rw [explodeR_append, explodeR_inLayer, g2, c4, treeDecls]

end Flair.Proofs.SheetTree
