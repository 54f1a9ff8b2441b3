import Verif.Spec.File
import Verif.Proofs.Load
import Verif.Tactics
/-! # Lemmas about files -/
namespace Flair.Proofs.File
set_option linter.unusedSectionVars false
open Flair.File Flair.Spec Flair.Sheet Flair.Layers Flair.Loader Flair.Vars Flair.Values
open Flair.Calc (Res)
open Flair.Keyframes (KB Item)
variable {S M C N T V A B X Y : Type}

/-! ## layers -/

theorem parseGo_parents_dot : ∀ (rest consumed cur p : Name), p ∈ (parseGo consumed cur rest).1 →
    ∃ a b, p = consumed ++ a ∧ rest = a ++ '.' :: b := by
  intro rest
  induction rest with
  | nil => intro c cur p h; simp [parseGo] at h
  | cons x rest ih =>
    intro c cur p h
    unfold parseGo at h
    split at h
    · rename_i hx
      simp only [List.mem_cons] at h
      rcases h with rfl | h
      · exact ⟨[], rest, by simp, by simp [hx]⟩
      · obtain ⟨a, b, h1, h2⟩ := ih _ _ _ h
        exact ⟨x :: a, b, by simp [h1, hx], by simp [h2]⟩
    · obtain ⟨a, b, h1, h2⟩ := ih _ _ _ h
      exact ⟨x :: a, b, by simp [h1], by simp [h2]⟩

theorem parents_noDot {full p : Name} (h : NoDot full) (hp : p ∈ (parse full).parents) : NoDot p ∧ p ≠ [] := by
  obtain ⟨a, b, h1, h2⟩ := parseGo_parents_dot full [] [] p hp
  simp only [List.nil_append] at h1
  subst h1
  cases p with
  | nil => simp [NoDot, h2] at h
  | cons c p => simpa [NoDot, h2] using h

theorem define_ok : ∀ (k : Nat) (full : Name), full.length ≤ k → NoDot full → ∀ l, ∃ l', defineLayer l full = some l' := by
  intro k
  induction k with
  | zero =>
    intro full hk _ l
    have : full = [] := List.length_eq_zero_iff.mp (by omega)
    subst this
    exact ⟨l, by unfold defineLayer; simp⟩
  | succ k ih =>
    intro full hk hd l
    unfold defineLayer
    split
    · exact ⟨_, rfl⟩
    · split
      · exact ⟨_, rfl⟩
      · simp only
        split
        · exact ⟨_, rfl⟩
        · rename_i hpar
          have hfold : ∀ (ps : List {x // x ∈ (parse full).parents}) (l : List Name),
              ∃ l', ps.foldlM (fun inner p => defineLayer inner p.1) l = some l' ∧
                ∀ p ∈ ps, p.1 ∈ l' := by
            intro ps
            induction ps with
            | nil => intro l; exact ⟨l, rfl, by simp⟩
            | cons p ps ih2 =>
              intro l
              obtain ⟨hp1, hp2⟩ := parents_noDot hd p.2
              have hlt := parseGo_parents_lt full [] [] p.1 p.2
              simp only [List.length_nil, Nat.zero_add] at hlt
              obtain ⟨l1, h1⟩ := ih p.1 (by omega) hp1 l
              obtain ⟨l2, h2, h3⟩ := ih2 l1
              refine ⟨l2, by rw [List.foldlM_cons, h1]; exact h2, ?_⟩
              intro q hq
              rcases List.mem_cons.mp hq with rfl | hq
              · rcases known_of_define h1 with h | h
                · exact absurd h hp2
                · exact foldlM_mono ps (fun a _ l l' h hx => defineLayer_mono _ a.1 (le_refl _) l l' h hx) l1 l2 h2 h
              · exact h3 q hq
          obtain ⟨l', h1, h2⟩ := hfold (parse full).parents.attach l
          rw [h1]
          simp only
          cases hl : (parse full).parents.getLast? with
          | none => exact absurd (List.getLast?_eq_none_iff.mp hl) hpar
          | some q =>
            have hq : q ∈ (parse full).parents := List.mem_of_getLast? hl
            have := h2 ⟨q, hq⟩ (by simp)
            unfold findInsertPosition position
            rw [hl]
            simp only
            rw [if_pos (by simpa using this)]
            exact ⟨_, rfl⟩

theorem defineLayer_ok {full : Name} (h : NoDot full) (l : List Name) : ∃ l', defineLayer l full = some l' :=
  define_ok _ full (le_refl _) h l


/-- what a builder knows -/
def Inv (b : Builder S M C N T V X Y) : Prop :=
  ∀ s ∈ b.selectors, Known s.1.layer b.layers ∧ NoDot s.1.layer

section
variable [DecidableEq N]

theorem inv_new : Inv (Builder.new : Builder S M C N T V X Y) := by
  intro s hs; cases hs

theorem inv_newRuleset {b : Builder S M C N T V X Y} (h : Inv b) : Inv b.newRuleset.1 := h

theorem inv_modify {b : Builder S M C N T V X Y} (h : Inv b) (id : Nat) (f) : Inv (b.modify id f) := h

theorem inv_layers {b : Builder S M C N T V X Y} (h : Inv b) {n : Name} {l : List Name}
    (hl : defineLayer b.layers n = some l) : Inv { b with layers := l } := by
  intro s hs
  exact ⟨known_mono hl (h s hs).1, (h s hs).2⟩

theorem addCssSelector_ok {b : Builder S M C N T V X Y} (h : Inv b) (id : Nat) {s : CssSelector S M}
    (hs : NoDot s.layer) : ∃ b', b.addCssSelector id s = some b' ∧ Inv b' := by
  obtain ⟨l, hl⟩ := defineLayer_ok hs b.layers
  refine ⟨_, by unfold Builder.addCssSelector; rw [hl]; rfl, ?_⟩
  intro t ht
  simp only [List.mem_append, List.mem_singleton] at ht
  rcases ht with ht | rfl
  · exact inv_layers h hl t ht
  · exact ⟨known_of_define hl, hs⟩

theorem addCssSelectors_ok {b : Builder S M C N T V X Y} (h : Inv b) (id : Nat) {ss : List (CssSelector S M)}
    (hs : ∀ s ∈ ss, NoDot s.layer) : ∃ b', b.addCssSelectors id ss = some b' ∧ Inv b' := by
  unfold Builder.addCssSelectors
  induction ss generalizing b with
  | nil => exact ⟨b, rfl, h⟩
  | cons s ss ih =>
    obtain ⟨b1, h1, h2⟩ := addCssSelector_ok h id (hs s (by simp))
    obtain ⟨b2, h3, h4⟩ := ih h2 (fun t ht => hs t (by simp [ht]))
    exact ⟨b2, by rw [List.foldlM_cons, h1]; exact h3, h4⟩

theorem defineLayers_ok {b : Builder S M C N T V X Y} (h : Inv b) {ls : List Name}
    (hs : ∀ l ∈ ls, NoDot l) : ∃ b', b.defineLayers ls = some b' ∧ Inv b' := by
  have : ∀ (ls : List Name) (l0 : List Name), (∀ l ∈ ls, NoDot l) → ∃ l', ls.foldlM defineLayer l0 = some l' := by
    intro ls
    induction ls with
    | nil => intro l0 _; exact ⟨l0, rfl⟩
    | cons x ls ih =>
      intro l0 hs
      obtain ⟨l1, h1⟩ := defineLayer_ok (hs x (by simp)) l0
      obtain ⟨l2, h2⟩ := ih l1 (fun t ht => hs t (by simp [ht]))
      exact ⟨l2, by rw [List.foldlM_cons, h1]; exact h2⟩
  obtain ⟨l', hl⟩ := this ls b.layers hs
  refine ⟨_, by unfold Builder.defineLayers; rw [hl]; rfl, ?_⟩
  intro s hs
  exact ⟨known_foldlM ls hl (h s hs).1, (h s hs).2⟩

theorem noDot_join {a b : Name} (ha : NoDot a) (hne : a ≠ []) : NoDot (a ++ '.' :: b) := by
  cases a with
  | nil => exact absurd rfl hne
  | cons c a => simpa [NoDot] using ha

theorem noDot_prefixed {s : CssSelector S M} (hs : NoDot s.layer) {l : Option Name} (hl : ∀ n, l = some n → NoDot n)
    (hne : l ≠ some []) : NoDot (s.withLayerPrefixed l).layer := by
  cases l with
  | none => exact hs
  | some n =>
    unfold CssSelector.withLayerPrefixed
    simp only
    split
    · exact hl n rfl
    · exact noDot_join (hl n rfl) (fun h => hne (by rw [h]))

theorem embed_ok {b : Builder S M C N T V X Y} (h : Inv b) {o : StyleSheet S M C N T V X Y}
    (ho : ∀ s ∈ o.selectors, NoDot s.1.layer) {l : Option Name} (hl : ∀ n, l = some n → NoDot n) (hne : l ≠ some []) :
    ∃ b', b.embed o l = some b' ∧ Inv b' := by
  unfold Builder.embed
  generalize o.rulesets.zipIdx = rs
  induction rs generalizing b with
  | nil => exact ⟨b, rfl, h⟩
  | cons r rs ih =>
    obtain ⟨b1, h1, h2⟩ := addCssSelectors_ok (b := (b.newRuleset.1.modify b.newRuleset.2 (fun x => x.addValuesFrom r.1)))
      (inv_modify (inv_newRuleset h) _ _) b.newRuleset.2
      (ss := (o.selectors.filter (fun s => s.2 = r.2)).map (fun s => s.1.withLayerPrefixed l)) (by
        intro s hs
        obtain ⟨t, ht, rfl⟩ := List.mem_map.mp hs
        exact noDot_prefixed (ho t (List.mem_of_mem_filter ht)) hl hne)
    obtain ⟨b2, h3, h4⟩ := ih h2
    refine ⟨b2, ?_, h4⟩
    rw [List.foldlM_cons]
    simp only
    rw [h1]
    exact h3

/-- the layers of a body -/
def BI : List (BodyItem S M C N T V X Y) → Prop
  | [] => True
  | .decls _ :: rest => BI rest
  | .error :: rest => BI rest
  | .nested sels body :: rest => (∀ ss, sels = some ss → ∀ s ∈ ss, NoDot s.layer) ∧ BI body ∧ BI rest

theorem noDot_replace (rp : S → List S → S) {ps : List (CssSelector S M)} (hp : ∀ s ∈ ps, NoDot s.layer)
    {s : CssSelector S M} (hs : NoDot s.layer) : NoDot (replaceParent rp ps s).layer := by
  unfold replaceParent
  simp only
  have hpl : NoDot ((ps.head?.map (·.layer)).getD []) := by
    cases ps with
    | nil => simp [NoDot]
    | cons a ps => exact hp a (by simp)
  split
  · exact hs
  · split
    · exact hpl
    · rename_i h _; exact noDot_join hpl h

theorem inv_foldl {b : Builder S M C N T V X Y} (h : Inv b) (id : Nat) (ds : List (SrcDecl C N T V X Y)) :
    Inv (ds.foldl (fun b d => b.modify id (fun x => x.addDecl d)) b) := by
  induction ds generalizing b with
  | nil => exact h
  | cons d ds ih => exact ih (inv_modify h _ _)

theorem processBody_ok (rp : S → List S → S) (body : List (BodyItem S M C N T V X Y)) (hb : BI body) :
    ∀ (sels : List (CssSelector S M)) (id : Nat) (b : Builder S M C N T V X Y) (e : Nat),
    (∀ s ∈ sels, NoDot s.layer) → Inv b →
    ∃ b' e', processBody rp sels body id (b, e) = some (b', e') ∧ Inv b' := by
  fun_induction BI body with
  | case1 =>
    intro sels id b e hs h
    exact ⟨b, e, by simp only [processBody], h⟩
  | case2 ds rest ih =>
    intro sels id b e hs h
    simp only [processBody]
    exact ih hb sels id _ e hs (inv_foldl h id ds)
  | case3 rest ih =>
    intro sels id b e hs h
    simp only [processBody]
    exact ih hb sels id b _ hs h
  | case4 ss body rest ih1 ih2 =>
    intro sels id b e hs h
    obtain ⟨hb0, hb1, hb2⟩ := hb
    cases ss with
    | none =>
      simp only [processBody]
      obtain ⟨b2, h1, h2⟩ := addCssSelectors_ok (inv_newRuleset h) b.newRuleset.2 hs
      rw [h1]
      exact ih2 hb2 sels _ b2 _ hs h2
    | some ss =>
      have hss : ∀ s ∈ ss.map (replaceParent rp sels), NoDot s.layer := by
        intro s hs'
        obtain ⟨t, ht, rfl⟩ := List.mem_map.mp hs'
        exact noDot_replace rp hs (hb0 ss rfl t ht)
      simp only [processBody]
      obtain ⟨b2, h1, h2⟩ := addCssSelectors_ok (inv_newRuleset h) b.newRuleset.2 hss
      rw [h1]
      simp only [Option.bind_some]
      obtain ⟨b3, e3, h3, h4⟩ := ih1 hb1 _ b.newRuleset.2 b2 e hss h2
      rw [h3]
      simp only [Option.bind_some]
      obtain ⟨b5, h5, h6⟩ := addCssSelectors_ok (inv_newRuleset h4) b3.newRuleset.2 hs
      rw [h5]
      exact ih2 hb2 sels _ b5 _ hs h6

/-- the layers of the items of a sheet -/
def SI : List (SheetItem S M C N T V X Y) → Prop
  | [] => True
  | .embed o l :: rest => (∀ s ∈ o.selectors, NoDot s.1.layer) ∧ (∀ n, l = some n → NoDot n) ∧ l ≠ some [] ∧ SI rest
  | .inner is :: rest => SI is ∧ SI rest
  | .layers ls :: rest => (∀ l ∈ ls, NoDot l) ∧ SI rest
  | .rule sels body :: rest => (∀ ss, sels = some ss → ∀ s ∈ ss, NoDot s.layer) ∧ BI body ∧ SI rest
  | .error :: rest => SI rest

theorem processRuleset_ok (rp : S → List S → S) (sels : Option (List (CssSelector S M)))
    (body : List (BodyItem S M C N T V X Y)) (hs : ∀ ss, sels = some ss → ∀ s ∈ ss, NoDot s.layer) (hb : BI body)
    (b : Builder S M C N T V X Y) (e : Nat) (h : Inv b) :
    ∃ b' e', processRuleset rp sels body (b, e) = some (b', e') ∧ Inv b' := by
  unfold processRuleset
  cases sels with
  | none => exact ⟨b, _, rfl, h⟩
  | some ss =>
    simp only
    obtain ⟨b2, h1, h2⟩ := addCssSelectors_ok (inv_newRuleset h) b.newRuleset.2 (hs ss rfl)
    rw [h1]
    exact processBody_ok rp body hb ss _ b2 e (hs ss rfl) h2

theorem processAll_ok (rp : S → List S → S) (is : List (SheetItem S M C N T V X Y)) (hi : SI is) :
    ∀ (b : Builder S M C N T V X Y) (e : Nat), Inv b →
    ∃ b' e', processAll rp is (b, e) = some (b', e') ∧ Inv b' := by
  fun_induction SI is with
  | case1 => intro b e h; exact ⟨b, e, by simp only [processAll], h⟩
  | case2 o l rest ih =>
    intro b e h
    obtain ⟨h1, h2, h3, h4⟩ := hi
    obtain ⟨b1, h5, h6⟩ := embed_ok h h1 h2 h3
    simp only [processAll, process, h5, Option.map_some, Option.bind_some]
    exact ih h4 b1 e h6
  | case3 is rest ih1 ih2 =>
    intro b e h
    obtain ⟨b1, e1, h1, h2⟩ := ih1 hi.1 b e h
    simp only [processAll, process, h1, Option.bind_some]
    exact ih2 hi.2 b1 e1 h2
  | case4 ls rest ih =>
    intro b e h
    obtain ⟨b1, h1, h2⟩ := defineLayers_ok h hi.1
    simp only [processAll, process, h1, Option.map_some, Option.bind_some]
    exact ih hi.2 b1 e h2
  | case5 sels body rest ih =>
    intro b e h
    obtain ⟨b1, e1, h1, h2⟩ := processRuleset_ok rp sels body hi.1 hi.2.1 b e h
    simp only [processAll, process, h1, Option.bind_some]
    exact ih hi.2.2 b1 e1 h2
  | case6 rest ih =>
    intro b e h
    simp only [processAll, process, Option.bind_some]
    exact ih hi b _ h

/-- the layers of a source body -/
def BS : List (BodySrc S M C N T V X Y) → Prop
  | [] => True
  | .rule _ body :: rest => BS body ∧ BS rest
  | .media _ body :: rest => BS body ∧ BS rest
  | .layer name body :: rest => NoDot name ∧ BS body ∧ BS rest
  | _ :: rest => BS rest

theorem parseBody_ok (amp : S) (src : List (BodySrc S M C N T V X Y)) (h : BS src) : BI (parseBody amp src) := by
  fun_induction BS src with
  | case1 => simp [parseBody, BI]
  | case2 sels body rest ih1 ih2 =>
    simp only [parseBody, BI]
    refine ⟨?_, ih1 h.1, ih2 h.2⟩
    intro ss hss s hs
    obtain ⟨t, _, rfl⟩ := Option.map_eq_some_iff.mp hss
    obtain ⟨u, _, rfl⟩ := List.mem_map.mp hs
    simp [NoDot]
  | case3 conds body rest ih1 ih2 =>
    simp only [parseBody, BI]
    refine ⟨?_, ih1 h.1, ih2 h.2⟩
    intro ss hss s hs
    cases hss
    rw [List.mem_singleton.mp hs]
    simp [NoDot]
  | case4 name body rest ih1 ih2 =>
    simp only [parseBody, BI]
    refine ⟨?_, ih1 h.2.1, ih2 h.2.2⟩
    intro ss hss s hs
    cases hss
    rw [List.mem_singleton.mp hs]
    exact h.1
  | case5 x rest h1 h2 h3 ih =>
    cases x with
    | decls ds => simp only [parseBody, BI]; exact ih h
    | error => simp only [parseBody, BI]; exact ih h
    | rule a b => exact absurd rfl (h1 a b)
    | media a b => exact absurd rfl (h2 a b)
    | layer a b => exact absurd rfl (h3 a b)

/-- the layers of a source without imports -/
def SS : List (Src S M C N T V X Y) → Prop
  | [] => True
  | .importSheet _ _ :: _ => False
  | .layerStatement ls :: rest => (∀ l ∈ ls, NoDot l) ∧ SS rest
  | .layerBlock ls inner :: rest => (∀ l ∈ ls, NoDot l) ∧ SS inner ∧ SS rest
  | .mediaBlock _ inner :: rest => SS inner ∧ SS rest
  | .rule _ body :: rest => BS body ∧ SS rest
  | .error :: rest => SS rest

theorem noDot_joinLayer {c n : Name} (hc : NoDot c) (hn : NoDot n) : NoDot (joinLayer c n) := by
  unfold joinLayer
  split
  · exact hn
  · rename_i h; exact noDot_join hc h

theorem parseItems_ok (amp : S) (src : List (Src S M C N T V X Y)) (h : SS src) :
    ∀ ctx : Context M, NoDot ctx.layer → SI (parseItems amp ctx src) := by
  fun_induction SS src with
  | case1 => intro ctx _; simp [parseItems, SI]
  | case2 => exact h.elim
  | case3 ls rest ih =>
    intro ctx hc
    simp only [parseItems, parseItem, SI]
    refine ⟨?_, ih h.2 ctx hc⟩
    intro l hl
    obtain ⟨n, hn, rfl⟩ := List.mem_map.mp hl
    exact noDot_joinLayer hc (h.1 n hn)
  | case4 ls inner rest ih1 ih2 =>
    intro ctx hc
    cases ls with
    | nil => simp only [parseItems, parseItem, SI]; exact ih2 h.2.2 ctx hc
    | cons l ls =>
      cases ls with
      | nil =>
        simp only [parseItems, parseItem, SI]
        exact ⟨ih1 h.2.1 _ (noDot_joinLayer hc (h.1 l (by simp))), ih2 h.2.2 ctx hc⟩
      | cons l2 ls => simp only [parseItems, parseItem, SI]; exact ih2 h.2.2 ctx hc
  | case5 conds inner rest ih1 ih2 =>
    intro ctx hc
    simp only [parseItems, parseItem, SI]
    exact ⟨ih1 h.1 _ hc, ih2 h.2 ctx hc⟩
  | case6 sels body rest ih =>
    intro ctx hc
    simp only [parseItems, parseItem, SI]
    refine ⟨?_, parseBody_ok amp body h.1, ih h.2 ctx hc⟩
    intro ss hss s hs
    obtain ⟨t, _, rfl⟩ := Option.map_eq_some_iff.mp hss
    obtain ⟨u, _, rfl⟩ := List.mem_map.mp hs
    exact hc
  | case7 rest ih =>
    intro ctx hc
    simp only [parseItems, parseItem, SI]
    exact ih h ctx hc
end

/-! ## names -/

theorem isName_iff {name : Text} {s : String} : isName name s = true ↔ lower name = s.toList := by
  unfold isName; simp

theorem slice_ok : ∀ (a b : Text), slice (a ++ b) (byteLen a) = some a := by
  intro a
  induction a with
  | nil => intro b; cases b <;> rfl
  | cons c a ih =>
    intro b
    have hpos := Char.utf8Size_pos c
    have hlen : byteLen (c :: a) = (c.utf8Size - 1 + byteLen a) + 1 := by
      simp only [byteLen, List.map_cons, List.sum_cons]; omega
    rw [List.cons_append, hlen]
    unfold slice
    rw [if_pos (by omega)]
    have : c.utf8Size - 1 + byteLen a + 1 - c.utf8Size = byteLen a := by omega
    rw [this, ih]
    rfl

theorem slice_some {n : Nat} {s t : Text} (h : slice s n = some t) : ∃ b, s = t ++ b ∧ byteLen t = n := by
  fun_induction slice s n generalizing t with
  | case1 s => cases h; exact ⟨s, rfl, rfl⟩
  | case2 => cases h
  | case3 c s n hc ih =>
    obtain ⟨u, hu, rfl⟩ := Option.map_eq_some_iff.mp h
    obtain ⟨b, h1, h2⟩ := ih hu
    refine ⟨b, by rw [h1]; rfl, ?_⟩
    simp only [byteLen, List.map_cons, List.sum_cons] at h2 ⊢
    omega
  | case4 => cases h

theorem prefixEq_ok {s : Text} {pre : String} (h : SplitsAt (byteLen pre.toList) s) : ∃ b, prefixEq s pre = some b := by
  unfold prefixEq
  split
  · exact ⟨_, rfl⟩
  · rename_i hn
    rcases h with h | ⟨a, b, rfl, h2⟩
    · exact absurd h hn
    · have h2' : byteLen a = byteLen pre.toList := h2
      rw [← h2', slice_ok]
      exact ⟨_, rfl⟩

theorem prefixEq_bad {s : Text} {pre : String} (h : ¬ SplitsAt (byteLen pre.toList) s) : prefixEq s pre = none := by
  unfold prefixEq
  rw [if_neg (fun h' : byteLen pre.toList > byteLen s => h (Or.inl h'))]
  cases hs : slice s (byteLen pre.toList) with
  | none => rfl
  | some t =>
    obtain ⟨b, h1, h2⟩ := slice_some hs
    exact absurd (Or.inr ⟨t, b, h1, h2⟩) h

theorem len_animation : byteLen "animation".toList = 9 := by decide
theorem len_transition : byteLen "transition".toList = 10 := by decide

theorem take_two {name : Text} (h : name.take 2 = ['-', '-']) : IsCustom name := by
  match name, h with
  | [], h => cases h
  | [c], h => simp at h
  | c :: d :: rest, h =>
    simp only [List.take_succ_cons, List.take_zero, List.cons.injEq, and_true] at h
    exact ⟨rest, by rw [h.1, h.2]⟩

theorem kindOf_ok (f : Flags) {name : Text} (h : HarmlessName name) : ∃ k, kindOf f name = some k := by
  have ha : ∃ k, animationKind f name = some k := by
    unfold animationKind
    split
    · obtain ⟨b, hb⟩ := prefixEq_ok (pre := "animation") (by rw [len_animation]; exact h.1)
      rw [hb]; exact ⟨_, rfl⟩
    · exact ⟨_, rfl⟩
  unfold kindOf
  split
  · exact ⟨_, rfl⟩
  · unfold transitionKind
    split
    · obtain ⟨b, hb⟩ := prefixEq_ok (pre := "transition") (by rw [len_transition]; exact h.2)
      rw [hb]
      cases b with
      | true => exact ⟨_, rfl⟩
      | false => exact ha
    · exact ha

theorem kindOf_keyframe (name : Text) :
    kindOf keyframeFlags name = some (if isName name "animation-timing-function" then .animation else .property) := by
  unfold kindOf transitionKind animationKind keyframeFlags
  simp

theorem kindOf_calm (f : Flags) (hf : f.vars = true ∨ f = keyframeFlags) {name : Text}
    (h : IsCustom name ∨ HarmlessName name) : ∃ k, kindOf f name = some k := by
  rcases hf with hf | rfl
  · rcases h with ⟨r, rfl⟩ | h
    · exact ⟨.custom, by unfold kindOf; simp [hf]⟩
    · exact kindOf_ok f h
  · exact ⟨_, kindOf_keyframe name⟩

theorem lower_ascii {c : Char} (h : c.toLower.toNat < 128) : c.utf8Size = 1 := by
  have h2 : c.val ≤ 127 := by
    unfold Char.toLower at h
    split at h
    · rename_i hc
      have := hc.2
      have h3 : c.val.toNat ≤ 90 := by simpa [UInt32.le_iff_toNat_le] using this
      rw [UInt32.le_iff_toNat_le]
      show c.val.toNat ≤ 127
      omega
    · rw [UInt32.le_iff_toNat_le]
      show c.val.toNat ≤ 127
      have : c.val.toNat < 128 := h
      omega
  unfold Char.utf8Size
  exact if_pos h2

theorem ascii_len : ∀ {s : Text}, (∀ c ∈ s, c.utf8Size = 1) → byteLen s = s.length := by
  intro s
  induction s with
  | nil => intro _; rfl
  | cons c s ih =>
    intro h
    have := ih fun x hx => h x (by simp [hx])
    simp only [byteLen, List.map_cons, List.sum_cons, List.length_cons] at this ⊢
    rw [h c (by simp)]
    omega

theorem transition_splits {name t : Text} (h : slice name 10 = some t) (ht : isName t "transition" = true) :
    SplitsAt 9 name := by
  obtain ⟨b, rfl, _⟩ := slice_some h
  have hl := isName_iff.mp ht
  have hlen : t.length = 10 := by
    have := congrArg List.length hl
    simpa [lower] using this
  have hasc : ∀ c ∈ t, c.utf8Size = 1 := by
    intro c hc
    apply lower_ascii
    have : c.toLower ∈ "transition".toList := by
      rw [← hl]; exact List.mem_map.mpr ⟨c, hc, rfl⟩
    revert this
    generalize c.toLower = d
    intro hd
    have hall : ∀ d ∈ "transition".toList, d.toNat < 128 := by decide
    exact hall d hd
  refine Or.inr ⟨t.take 9, t.drop 9 ++ b, by rw [← List.append_assoc, List.take_append_drop], ?_⟩
  have := ascii_len (s := t.take 9) fun c hc => hasc c (List.mem_of_mem_take hc)
  rw [List.length_take, hlen] at this
  exact this

theorem kindOf_crash (f : Flags) (hf : f.transition = true ∧ f.allAnimation = true) {name : Text} (h1 : ¬ IsCustom name)
    (h2 : ¬ HarmlessName name) : kindOf f name = none := by
  unfold kindOf
  rw [if_neg (by intro h; simp only [Bool.and_eq_true, decide_eq_true_eq] at h; exact h1 (take_two h.2))]
  unfold transitionKind
  rw [if_pos hf.1]
  by_cases h10 : SplitsAt 10 name
  · have h9 : ¬ SplitsAt 9 name := fun h => h2 ⟨h, h10⟩
    have ha : animationKind f name = none := by
      unfold animationKind
      rw [if_pos hf.2, prefixEq_bad (by rw [len_animation]; exact h9)]
      rfl
    have hb : prefixEq name "transition" = some false := by
      unfold prefixEq
      rw [len_transition]
      split
      · rfl
      · rename_i hn
        rcases h10 with h | ⟨a, b, rfl, hab⟩
        · exact absurd h hn
        · have hs : slice (a ++ b) 10 = some a := by rw [← hab]; exact slice_ok a b
          rw [hs]
          simp only [Option.map_some, Option.some.injEq]
          by_contra hc
          exact h9 (transition_splits hs (by simpa using hc))
    rw [hb]
    exact ha
  · rw [prefixEq_bad (by rw [len_transition]; exact h10)]
    rfl

/-! ## reading -/

theorem within_mono {n : Node} {ns ms : List Node} (hs : ∀ x ∈ ns, x ∈ ms) (h : Within n ns) : Within n ms := by
  match h with
  | .here _ _ h => exact .here _ _ (hs _ h)
  | .inRule _ _ _ _ _ h1 h2 => exact .inRule _ _ _ _ _ (hs _ h1) h2
  | .inBlock _ _ _ _ _ h1 h2 => exact .inBlock _ _ _ _ _ (hs _ h1) h2

theorem within_cons {n m : Node} {ns : List Node} (h : Within n ns) : Within n (m :: ns) :=
  within_mono (fun _ hx => List.mem_cons_of_mem _ hx) h

theorem harmless_of {ns ms : List Node} (h : HarmlessFile ms) (hs : ∀ n, Within n ns → Within n ms) : HarmlessFile ns :=
  ⟨fun a b hw => h.names a b (hs _ hw), fun a b c hw => h.leads a b c (hs _ hw), fun a b c hw => h.layers a b c (hs _ hw),
    fun a hw => h.empties a (hs _ hw)⟩

theorem harmless_tail {n : Node} {ns : List Node} (h : HarmlessFile (n :: ns)) : HarmlessFile ns :=
  harmless_of h fun _ => within_cons

theorem harmless_head {n : Node} {ns : List Node} (h : HarmlessFile (n :: ns)) : HarmlessFile [n] :=
  harmless_of h fun _ => within_mono (by simp)

theorem harmless_mem {n : Node} {ns : List Node} (h : HarmlessFile ns) (hn : n ∈ ns) : HarmlessFile [n] :=
  harmless_of h fun _ => within_mono (by simpa using hn)

theorem harmless_rule {lead prelude block} (h : HarmlessFile [.qualified lead prelude block]) : HarmlessFile block :=
  harmless_of h fun _ hw => .inRule _ lead prelude block _ (by simp) hw

theorem harmless_block {name prelude block} (h : HarmlessFile [.atRule name prelude (some block)]) : HarmlessFile block :=
  harmless_of h fun _ hw => .inBlock _ name prelude block _ (by simp) hw

section
variable {p : Parsers S M C N T V A B}

theorem parseValue_ok (hp : CalmParsers p) (f : Flags) {name : Text} (h : ∃ k, kindOf f name = some k) (value : List Tok) :
    parseValue p f name value ≠ .panic := by
  obtain ⟨k, hk⟩ := h
  unfold parseValue
  rw [hk]
  cases k with
  | custom => simp only [parseAs]; split <;> simp
  | transition =>
    simp only [parseAs, parseTransition]
    split
    · simp
    · have := hp.transition ‹_› value
      cases h : p.transition ‹_› value <;> simp_all [Res.bind]
  | animation =>
    simp only [parseAs, parseAnimation]
    split
    · simp
    · have := hp.animation ‹_› value
      cases h : p.animation ‹_› value <;> simp_all [Res.bind]
  | property =>
    simp only [parseAs]
    have := hp.property name value
    cases h : p.property name value <;> simp_all [Res.bind]

theorem prefixEq_true {s : Text} {pre : String} (h : prefixEq s pre = some true) : pre.toList <+: lower s := by
  unfold prefixEq at h
  split at h
  · cases h
  · obtain ⟨t, h1, h2⟩ := Option.map_eq_some_iff.mp h
    obtain ⟨b, rfl, _⟩ := slice_some h1
    rw [isName_iff] at h2
    unfold lower at h2 ⊢
    rw [List.map_append, h2]
    exact List.prefix_append _ _

theorem lookupName_none {α : Type} {table : List (String × α)} {name : Text} (h : lookupName table name = none) :
    lower name ∉ table.map (·.1.toList) := by
  unfold lookupName at h
  rw [Option.map_eq_none_iff, List.find?_eq_none] at h
  intro hm
  obtain ⟨e, h1, h2⟩ := List.mem_map.mp hm
  exact h e h1 (isName_iff.mpr h2.symm)

/-- with the known names all is well -/
theorem unlocated_unknown {f : Flags} {name : Text} {value : List Tok} (h : unlocatedDecl f name value = true) :
    value = [] ∧ UnknownMotion name := by
  unfold unlocatedDecl at h
  rw [Bool.and_eq_true, List.isEmpty_iff] at h
  refine ⟨h.1, ?_⟩
  have h := h.2
  split at h
  · rename_i hk
    refine Or.inl ⟨?_, lookupName_none (Option.isNone_iff_eq_none.mp h)⟩
    unfold kindOf at hk
    split at hk
    · cases hk
    · unfold transitionKind at hk
      obtain ⟨b, h1, h2⟩ := Option.bind_eq_some_iff.mp hk
      split at h2
      · rename_i hb
        subst hb
        split at h1
        · exact prefixEq_true h1
        · cases h1
      · unfold animationKind at h2
        obtain ⟨b, _, h3⟩ := Option.map_eq_some_iff.mp h2
        split at h3 <;> cases h3
  · rename_i hk
    have hn := lookupName_none (Option.isNone_iff_eq_none.mp h)
    refine Or.inr ⟨?_, hn⟩
    unfold kindOf at hk
    split at hk
    · cases hk
    · unfold transitionKind at hk
      obtain ⟨b, h1, h2⟩ := Option.bind_eq_some_iff.mp hk
      split at h2
      · cases h2
      · unfold animationKind at h2
        obtain ⟨b, h3, h4⟩ := Option.map_eq_some_iff.mp h2
        split at h4
        · rename_i hb
          subst hb
          split at h3
          · exact prefixEq_true h3
          · simp only [Option.some.injEq] at h3
            rw [isName_iff] at h3
            exact absurd (by rw [h3]; decide) hn
        · cases h4
  · cases h

theorem located_decl {f : Flags} {name : Text} {value : List Tok} (he : value = [] → ¬ UnknownMotion name) :
    unlocatedDecl f name value = false := by
  by_contra hc
  obtain ⟨h1, h2⟩ := unlocated_unknown (Bool.not_eq_false _ ▸ hc)
  exact he h1 h2

theorem declItem_ok (hp : CalmParsers p) (f : Flags) {name : Text} (h : ∃ k, kindOf f name = some k) (value : List Tok)
    (he : value = [] → ¬ UnknownMotion name) :
    ∃ i, declItem p f name value = some i ∧ BS [i] := by
  have := parseValue_ok hp f h value
  unfold declItem
  cases hv : parseValue p f name value with
  | ok ds => exact ⟨_, rfl, by simp [BS]⟩
  | err =>
    dsimp only
    rw [if_neg (by rw [located_decl he]; simp)]
    exact ⟨_, rfl, by simp [BS]⟩
  | panic => exact absurd hv this

theorem BS_cons {i : FBody S M C N T V A B} {is : List (FBody S M C N T V A B)} (h1 : BS [i]) (h2 : BS is) :
    BS (i :: is) := by
  cases i <;> simp_all [BS]

theorem oneIdent_name {ts : List Tok} {l : Text} (h : oneIdent ts = some l) : NameIn l ts := by
  unfold oneIdent at h
  split at h
  · cases h; exact .direct _ (by simp)
  · cases h

mutual
theorem bodyItem_ok (hp : CalmParsers p) (f : Flags) (hf : f.vars = true ∨ f = keyframeFlags) : ∀ n : Node, HarmlessFile [n] → ∃ i, bodyItem p f n = some i ∧ BS [i]
  | .declaration name value, h => by
    simp only [bodyItem]
    exact declItem_ok hp f (kindOf_calm f hf (h.names name value (.here _ _ (by simp)))) value
      (fun hv => h.empties name (.here _ _ (by subst hv; simp)))
  | .qualified lead prelude block, h => by
    simp only [bodyItem]
    split
    · rw [if_pos]
      · obtain ⟨is, h1, h2⟩ := bodyItems_ok hp ruleFlags (Or.inl rfl) block (harmless_rule h)
        exact ⟨_, by rw [h1]; rfl, by simp [BS, h2]⟩
      · cases lead with
        | none => rfl
        | some l =>
          obtain ⟨k, hk⟩ := kindOf_calm f hf (h.leads l prelude block (.here _ _ (by simp)))
          simp [leadOk, hk]
    · exact ⟨_, rfl, by simp [BS]⟩
  | .atRule name prelude none, _ => ⟨.error, by rw [bodyItem], by simp [BS]⟩
  | .atRule name prelude (some block), h => by
    obtain ⟨is, h1, h2⟩ := bodyItems_ok hp ruleFlags (Or.inl rfl) block (harmless_block h)
    rw [bodyItem, h1]
    unfold nestedBlock
    have he : ∃ i : FBody S M C N T V A B, some (.error : FBody S M C N T V A B) = some i ∧ BS [i] := ⟨_, rfl, by simp [BS]⟩
    split
    · split
      · split
        · exact ⟨_, rfl, by simp [BS, h2]⟩
        · exact he
      · split
        · rename_i hl
          split
          · rename_i hc
            refine ⟨_, rfl, ?_⟩
            simp only [BS, h2, and_true]
            exact (h.layers name prelude (some block) (.here _ _ (by simp)) (Or.inl (isName_iff.mp hl)) _ (oneIdent_name hc)).2
          · exact he
        · exact he
    · exact he
  | .bad, _ => ⟨.error, by simp only [bodyItem], by simp [BS]⟩
theorem bodyItems_ok (hp : CalmParsers p) (f : Flags) (hf : f.vars = true ∨ f = keyframeFlags) : ∀ ns : List Node, HarmlessFile ns →
    ∃ is, bodyItems p f ns = some is ∧ BS is
  | [], _ => ⟨[], by simp only [bodyItems], by simp [BS]⟩
  | n :: ns, h => by
    obtain ⟨i, h1, h2⟩ := bodyItem_ok hp f hf n (harmless_head h)
    obtain ⟨is, h3, h4⟩ := bodyItems_ok hp f hf ns (harmless_tail h)
    exact ⟨i :: is, by simp only [bodyItems, h1, h3, Option.bind_some, Option.map_some], BS_cons h2 h4⟩
end

theorem segments_idents : ∀ {ts : List Tok} {seg : List Tok} {s : Text}, seg ∈ segments ts → Tok.ident s ∈ seg →
    Tok.ident s ∈ ts := by
  intro ts
  fun_induction segments ts with
  | case1 => intro seg s h1 h2; simp at h1; subst h1; cases h2
  | case2 ts ih =>
    intro seg s h1 h2
    rcases List.mem_cons.mp h1 with rfl | h1
    · cases h2
    · exact List.mem_cons_of_mem _ (ih h1 h2)
  | case3 t ts hne heq ih =>
    intro seg s h1 h2
    simp at h1; subst h1
    simp at h2; simp [h2]
  | case4 t ts hne g gs heq ih =>
    intro seg s h1 h2
    rcases List.mem_cons.mp h1 with rfl | h1
    · rcases List.mem_cons.mp h2 with h2 | h2
      · simp [h2]
      · exact List.mem_cons_of_mem _ (ih (by rw [heq]; simp) h2)
    · exact List.mem_cons_of_mem _ (ih (by rw [heq]; simp [h1]) h2)

theorem mapM_mem {α β : Type} {f : α → Option β} : ∀ {l : List α} {r : List β}, l.mapM f = some r → ∀ y ∈ r, ∃ x ∈ l, f x = some y := by
  intro l
  induction l with
  | nil => intro r h y hy; simp at h; subst h; cases hy
  | cons a l ih =>
    intro r h y hy
    rw [List.mapM_cons] at h
    cases ha : f a with
    | none => simp [ha] at h
    | some b =>
      cases hl : l.mapM f with
      | none => simp [ha, hl] at h
      | some bs =>
        simp [ha, hl] at h
        subst h
        rcases List.mem_cons.mp hy with rfl | hy
        · exact ⟨a, by simp, ha⟩
        · obtain ⟨x, hx, hxy⟩ := ih hl y hy
          exact ⟨x, by simp [hx], hxy⟩

theorem mapM_total {α β : Type} {f : α → Option β} {P : β → Prop} : ∀ {l : List α}, (∀ x ∈ l, ∃ y, f x = some y ∧ P y) →
    ∃ r, l.mapM f = some r ∧ ∀ y ∈ r, P y := by
  intro l
  induction l with
  | nil => intro _; exact ⟨[], by simp, by simp⟩
  | cons a l ih =>
    intro h
    obtain ⟨y, h1, h2⟩ := h a (by simp)
    obtain ⟨r, h3, h4⟩ := ih fun x hx => h x (by simp [hx])
    exact ⟨y :: r, by rw [List.mapM_cons, h1, h3]; rfl, by simpa using ⟨h2, h4⟩⟩

theorem layerNames_name {ts : List Tok} {ls : List Text} (h : layerNames ts = some ls) {l : Text} (hl : l ∈ ls) : NameIn l ts := by
  obtain ⟨seg, h1, h2⟩ := mapM_mem h l hl
  cases oneIdent_name h2 with
  | direct _ h3 => exact .direct _ (segments_idents h1 h3)
  | inside f args _ h3 h4 =>
    unfold oneIdent at h2
    split at h2
    · simp at h3
    · cases h2

theorem SS_cons {i : FSrc S M C N T V A B} {is : List (FSrc S M C N T V A B)} (h1 : SS [i]) (h2 : SS is) :
    SS (i :: is) := by
  cases i <;> simp_all [SS]

mutual
theorem ruleItem_ok (hp : CalmParsers p) : ∀ n : Node, HarmlessFile [n] → ∃ i, ruleItem p n = some i ∧ SS [i]
  | .declaration name value, h => ⟨.error, by rw [ruleItem] <;> simp, by simp [SS]⟩
  | .bad, h => ⟨.error, by rw [ruleItem] <;> simp, by simp [SS]⟩
  | .qualified lead prelude block, h => by
    obtain ⟨is, h1, h2⟩ := bodyItems_ok hp ruleFlags (Or.inl rfl) block (harmless_rule h)
    exact ⟨_, by rw [ruleItem, h1]; rfl, by simp [SS, h2]⟩
  | .atRule name prelude none, h => by
    refine ⟨_, by rw [ruleItem], ?_⟩
    unfold atStatement
    split
    · rename_i hl
      split
      · rename_i ls hc
        simp only [SS, and_true]
        intro l hm
        exact (h.layers name prelude none (.here _ _ (by simp)) (Or.inl (isName_iff.mp hl)) l (layerNames_name hc hm)).2
      · simp [SS]
    · simp [SS]
  | .atRule name prelude (some block), h => by
    obtain ⟨is, h1, h2⟩ := ruleItems_ok hp block (harmless_block h)
    rw [ruleItem, h1]
    unfold atBlock
    have he : ∃ i : FSrc S M C N T V A B, some (.error : FSrc S M C N T V A B) = some i ∧ SS [i] := ⟨_, rfl, by simp [SS]⟩
    split
    · split
      · exact ⟨_, rfl, by simp [SS, h2]⟩
      · exact he
    · split
      · rename_i hl
        split
        · rename_i l hc
          refine ⟨_, rfl, ?_⟩
          simp only [SS, h2, and_true, List.mem_singleton, forall_eq]
          exact (h.layers name prelude (some block) (.here _ _ (by simp)) (Or.inl (isName_iff.mp hl)) _ (layerNames_name hc (by simp))).2
        · exact he
      · exact he
theorem ruleItems_ok (hp : CalmParsers p) : ∀ ns : List Node, HarmlessFile ns →
    ∃ is, ruleItems p ns = some is ∧ SS is
  | [], _ => ⟨[], by simp only [ruleItems], by simp [SS]⟩
  | n :: ns, h => by
    obtain ⟨i, h1, h2⟩ := ruleItem_ok hp n (harmless_head h)
    obtain ⟨is, h3, h4⟩ := ruleItems_ok hp ns (harmless_tail h)
    exact ⟨i :: is, by simp only [ruleItems, h1, h3, Option.bind_some, Option.map_some], SS_cons h2 h4⟩
end
end

/-! ## keyframes -/

section
variable {p : Parsers S M C N T V A B}

/-- what can be in the body of a keyframe -/
def KItem (i : FBody S M C N T V A B) : Prop :=
  i = .error ∨ (∃ a, i = .decls [.animation (some .timing, a)]) ∨
    ∃ ds : List (RProp C N T V), i = .decls (ds.map fun d => .prop d.toBProp)

theorem lookup_timing {name : Text} (h : isName name "animation-timing-function" = true) :
    lookupName animationNames name = some (some .timing) := by
  have h' := isName_iff.mp h
  unfold lookupName animationNames
  simp only [List.find?, isName, h']
  decide

theorem keyframe_parseValue (name : Text) (value : List Tok) :
    parseValue p keyframeFlags name value =
      if isName name "animation-timing-function" then
        (p.animation (some .timing) value).bind fun a => .ok [.animation (some .timing, a)]
      else (p.property name value).bind fun ds => .ok (ds.map fun d => .prop d.toBProp) := by
  unfold parseValue
  rw [kindOf_keyframe]
  simp only
  split
  · rename_i h
    simp only [parseAs, parseAnimation, lookup_timing h]
  · rfl

theorem keyframe_located (name : Text) (value : List Tok) : unlocatedDecl keyframeFlags name value = false := by
  unfold unlocatedDecl
  rw [kindOf_keyframe]
  by_cases h : isName name "animation-timing-function" = true
  · simp [h, lookup_timing h]
  · simp [h]

theorem keyframe_body (hp : CalmParsers p) (n : Node) : ∃ i, bodyItem p keyframeFlags n = some i ∧ KItem i := by
  cases n with
  | declaration name value =>
    rw [bodyItem]
    unfold declItem
    rw [keyframe_parseValue]
    by_cases hn : isName name "animation-timing-function" = true
    · rw [if_pos hn]
      have := hp.animation (some .timing) value
      cases h : p.animation (some .timing) value with
      | ok a => exact ⟨_, rfl, Or.inr (Or.inl ⟨a, rfl⟩)⟩
      | err =>
        simp only [Res.bind, keyframe_located]
        exact ⟨_, rfl, Or.inl rfl⟩
      | panic => exact absurd h this
    · rw [if_neg hn]
      have := hp.property name value
      cases h : p.property name value with
      | ok a => exact ⟨_, rfl, Or.inr (Or.inr ⟨a, rfl⟩)⟩
      | err =>
        simp only [Res.bind, keyframe_located]
        exact ⟨_, rfl, Or.inl rfl⟩
      | panic => exact absurd h this
  | qualified lead prelude block => exact ⟨.error, by rw [bodyItem]; rfl, Or.inl rfl⟩
  | atRule name prelude block =>
    cases block with
    | none => exact ⟨.error, by rw [bodyItem], Or.inl rfl⟩
    | some b => exact ⟨.error, by rw [bodyItem]; rfl, Or.inl rfl⟩
  | bad => exact ⟨.error, by rw [bodyItem], Or.inl rfl⟩

theorem bodyItems_mapM (f : Flags) : ∀ ns : List Node, bodyItems p f ns = ns.mapM (bodyItem p f) := by
  intro ns
  induction ns with
  | nil => rw [bodyItems]; rfl
  | cons n ns ih =>
    rw [bodyItems, List.mapM_cons, ih]
    cases bodyItem p f n with
    | none => rfl
    | some i =>
      simp only [Option.bind_some, Option.bind_eq_bind]
      cases List.mapM (bodyItem p f) ns <;> rfl

/-- what can be in `@keyframes` -/
def KFrame : Frame S M C N T V A B → Prop
  | .valid _ items => ∀ i ∈ items, KItem i
  | .error => True

theorem frameItem_ok (hp : CalmParsers p) (n : Node) : ∃ f, frameItem p n = some f ∧ KFrame f := by
  unfold frameItem
  split
  · split
    · obtain ⟨is, h1, h2⟩ := mapM_total (l := ‹List Node›) fun x _ => keyframe_body hp x
      rw [bodyItems_mapM, h1]
      exact ⟨_, rfl, h2⟩
    · exact ⟨_, rfl, trivial⟩
  · exact ⟨_, rfl, trivial⟩

/-- A declaration written in the file: its property is known. -/
def KDecl (b : KProp C N T V) : Prop := ∃ d : RProp C N T V, b = d.toBProp

def KI : Option (Item (KProp C N T V) A) → Prop
  | some (.props bs) => ∀ b ∈ bs, KDecl b
  | _ => True

theorem mapM_keyframeProp (ds : List (RProp C N T V)) :
    (ds.map fun d => (SrcDecl.prop d.toBProp : FDecl C N T V A B)).mapM keyframeProp = some (ds.map RProp.toBProp) := by
  induction ds with
  | nil => rfl
  | cons d ds ih => rw [List.map_cons, List.mapM_cons, ih]; rfl

theorem keyframeItem_ok {i : FBody S M C N T V A B} (h : KItem i) : ∃ r, keyframeItem i = some r ∧ KI r := by
  rcases h with rfl | ⟨a, rfl⟩ | ⟨ds, rfl⟩
  · exact ⟨_, rfl, trivial⟩
  · exact ⟨_, rfl, trivial⟩
  · refine ⟨some (.props (ds.map RProp.toBProp)), ?_, ?_⟩
    · unfold keyframeItem
      split
      · rename_i h; cases h
      · rename_i a h
        cases ds with
        | nil => simp at h
        | cons d ds => simp at h
      · rename_i ds' hne h
        injection h with h
        rw [← h, mapM_keyframeProp]
        rfl
      · rename_i h; exact absurd rfl (h _)
    · intro b hb
      obtain ⟨d, _, rfl⟩ := List.mem_map.mp hb
      exact ⟨d, rfl⟩

/-- the rules of a block -/
def KR (r : List (List ℚ × List (Item (KProp C N T V) A)) × Nat) : Prop :=
  ∀ x ∈ r.1, ∀ it ∈ x.2, KI (some it)

theorem keyframeRule_ok {f : Frame S M C N T V A B} (h : KFrame f) : ∃ r, keyframeRule f = some r ∧ KR r := by
  unfold keyframeRule
  cases f with
  | error => exact ⟨_, rfl, by intro x hx; cases hx⟩
  | valid times items =>
    simp only
    obtain ⟨is, h1, h2⟩ := mapM_total (l := items) fun x hx => keyframeItem_ok (h x hx)
    rw [h1]
    refine ⟨_, rfl, ?_⟩
    intro x hx it hit
    simp only [List.mem_singleton] at hx
    subst hx
    simp only [List.mem_filterMap, id] at hit
    obtain ⟨y, hy, rfl⟩ := hit
    exact h2 _ hy

theorem keyframes_add_props {D E : Type} {Q : D → Prop} {ks : List (KB D E)} {c : Keyframes.Call D E}
    (h : ∀ k ∈ ks, ∀ d ∈ k.props, Q d) (hc : ∀ d ∈ c.props, Q d) : ∀ k ∈ Keyframes.add ks c, ∀ d ∈ k.props, Q d := by
  induction ks with
  | nil =>
    intro k hk
    simp only [Keyframes.add, List.mem_singleton] at hk
    subst hk
    simpa using hc
  | cons k ks ih =>
    intro k' hk'
    unfold Keyframes.add at hk'
    split at hk'
    · rcases List.mem_cons.mp hk' with rfl | hk'
      · intro d hd
        simp only [List.mem_append] at hd
        rcases hd with hd | hd
        · exact h k (by simp) d hd
        · exact hc d hd
      · exact h k' (by simp [hk'])
    · rcases List.mem_cons.mp hk' with rfl | hk'
      · exact h k' (by simp)
      · exact ih (fun x hx => h x (by simp [hx])) k' hk'

theorem keyframes_props {D E : Type} {Q : D → Prop} {cs : List (Keyframes.Call D E)}
    (hc : ∀ c ∈ cs, ∀ d ∈ c.props, Q d) : ∀ k ∈ Keyframes.keyframes cs, ∀ d ∈ k.props, Q d := by
  have : ∀ (cs : List (Keyframes.Call D E)) (ks : List (KB D E)), (∀ c ∈ cs, ∀ d ∈ c.props, Q d) →
      (∀ k ∈ ks, ∀ d ∈ k.props, Q d) → ∀ k ∈ cs.foldl Keyframes.add ks, ∀ d ∈ k.props, Q d := by
    intro cs
    induction cs with
    | nil => intro ks _ h; exact h
    | cons c cs ih =>
      intro ks hc h
      exact ih _ (fun x hx => hc x (by simp [hx])) (keyframes_add_props h (hc c (by simp)))
  intro k hk
  unfold Keyframes.keyframes Keyframes.build at hk
  rw [List.mem_mergeSort] at hk
  exact this cs Keyframes.new hc (by
    intro k hk
    simp only [Keyframes.new, List.mem_cons, List.not_mem_nil, or_false] at hk
    rcases hk with rfl | rfl <;> simp) k (List.mem_of_mem_filter hk)

theorem resolve_toBProp (names : C → Option Nat) (d : RProp C N T V) : d.toBProp.resolve names = some d := by
  cases d <;> rfl

theorem resolveFrame_ok {k : KB (KProp C N T V) A} (h : ∀ b ∈ k.props, KDecl b) : ∃ r, resolveFrame k = some r ∧ True := by
  obtain ⟨ps, h1, _⟩ := mapM_total (f := BProp.resolve fun _ => none) (P := fun _ => True) (l := k.props) (by
    intro b hb
    obtain ⟨d, rfl⟩ := h b hb
    exact ⟨d, resolve_toBProp _ d, trivial⟩)
  exact ⟨_, by unfold resolveFrame; rw [h1]; rfl, trivial⟩

theorem processKeyframes_ok {frames : List (Frame S M C N T V A B)} (h : ∀ f ∈ frames, KFrame f) :
    ∃ r, processKeyframes frames = some r := by
  unfold processKeyframes
  obtain ⟨rs, h1, h2⟩ := mapM_total (l := frames) fun x hx => keyframeRule_ok (h x hx)
  rw [h1]
  simp only [Option.bind_some]
  obtain ⟨ks, h3, _⟩ := mapM_total (f := resolveFrame) (P := fun _ => True)
    (l := Keyframes.keyframes (Keyframes.callsOf (rs.flatMap (·.1)))) (by
      intro k hk
      apply resolveFrame_ok
      refine keyframes_props (Q := KDecl) ?_ k hk
      intro c hc d hd
      unfold Keyframes.callsOf at hc
      simp only [List.mem_flatMap, List.mem_map] at hc
      obtain ⟨x, ⟨r, hr, hx⟩, it, hit, t, ht, rfl⟩ := hc
      have := h2 r hr x hx it hit
      cases it with
      | props ds => exact this d hd
      | easing e => cases hd)
  rw [h3]
  exact ⟨_, rfl⟩

/-! ## the whole file -/

/-- the layers of a sheet -/
def SheetOk (o : FSheet S M C N T V A B) : Prop := ∀ s ∈ o.base.selectors, NoDot s.1.layer

theorem oneIdent_iff {ts : List Tok} {l : Text} : oneIdent ts = some l ↔ ts = [.ident l] := by
  unfold oneIdent
  constructor
  · intro h
    split at h
    · cases h; rfl
    · cases h
  · rintro rfl; rfl

theorem fontFold : ∀ (block : List Node) (st : Option Text × Option Text × Nat),
    ((block.map fontItem).foldl fontStep st).1 = (block.filterMap familyOf).getLast?.or st.1 ∧
    ((block.map fontItem).foldl fontStep st).2.1 = (block.filterMap sourceOf).getLast?.or st.2.1 := by
  intro block
  induction block with
  | nil => intro st; simp
  | cons n block ih =>
    intro st
    rw [List.map_cons, List.foldl_cons]
    obtain ⟨h1, h2⟩ := ih (fontStep st (fontItem n))
    rw [h1, h2]
    have hf : (fontStep st (fontItem n)).1 = (familyOf n).or st.1 ∧ (fontStep st (fontItem n)).2.1 = (sourceOf n).or st.2.1 := by
      have hne : ∀ name : Text, lower name = "font-family".toList → lower name ≠ "src".toList := by
        intro name h; rw [h]; decide
      cases n with
      | declaration name value =>
        unfold fontItem fontProp
        match value with
        | [] => exact ⟨rfl, rfl⟩
        | [t] =>
          cases t with
          | string s =>
            by_cases ha : lower name = "font-family".toList
            · have hb := hne name ha
              simp [familyOf, sourceOf, isName, ha, fontStep]
            · by_cases hb : lower name = "src".toList
              · simp [familyOf, sourceOf, isName, hb, fontStep]
              · simp only [familyOf, sourceOf, isName, ha, hb]; exact ⟨rfl, rfl⟩
          | url s =>
            by_cases hb : lower name = "src".toList
            · simp [familyOf, sourceOf, isName, hb, fontStep]
            · simp only [familyOf, sourceOf, isName, hb]; exact ⟨rfl, rfl⟩
          | _ => exact ⟨rfl, rfl⟩
        | t :: t2 :: ts =>
          cases t <;> exact ⟨rfl, rfl⟩
      | _ => exact ⟨rfl, rfl⟩
    rw [hf.1, hf.2]
    have key : ∀ (o : Option Text) (l : List Text) (x : Option Text),
        l.getLast?.or (o.or x) = (match o with | some a => a :: l | none => l).getLast?.or x := by
      intro o l x
      cases o with
      | none => simp
      | some a =>
        simp only [Option.some_or]
        rw [List.getLast?_cons]
        cases l.getLast? <;> rfl
    refine ⟨?_, ?_⟩
    · rw [key]; cases h : familyOf n <;> simp [h]
    · rw [key]; cases h : sourceOf n <;> simp [h]


theorem keyframesRule_iff {name : Text} {prelude block k b} :
    KeyframesRule (.atRule name prelude block) k b ↔ lower name = "keyframes".toList ∧ prelude = [.ident k] ∧ block = some b := by
  constructor
  · intro h; cases h with | mk _ _ _ h => exact ⟨h, rfl, rfl⟩
  · rintro ⟨h, rfl, rfl⟩; exact .mk _ _ _ h

theorem fontFaceRule_iff {name : Text} {prelude block f s} :
    FontFaceRule (.atRule name prelude block) f s ↔ lower name = "font-face".toList ∧ prelude = [] ∧
      ∃ b, block = some b ∧ (b.filterMap familyOf).getLast? = some f ∧ (b.filterMap sourceOf).getLast? = some s := by
  constructor
  · intro h; cases h with | mk _ b _ _ h h1 h2 => exact ⟨h, rfl, b, rfl, h1, h2⟩
  · rintro ⟨h, rfl, b, rfl, h1, h2⟩; exact .mk _ _ _ _ h h1 h2

/-- a top level item that does no harm -/
def TI : TopItem S M C N T V A B → Prop
  | .src s => SS [s]
  | .importSheet o layer => SheetOk o ∧ (∀ n, layer = some n → NoDot n) ∧ layer ≠ some []
  | .keyframes _ frames => ∀ f ∈ frames, KFrame f
  | .unlocated => False
  | _ => True

theorem keyframesItem_ok (hp : CalmParsers p) (declared : List Text) (name : Text) (block : List Node)
    (hd : name ∉ declared) :
    ∃ i, keyframesItem p declared name block = some i ∧ TI i := by
  unfold keyframesItem
  obtain ⟨fs, h1, h2⟩ := mapM_total (l := block) fun x _ => frameItem_ok hp x
  rw [h1]
  refine ⟨_, rfl, ?_⟩
  dsimp only
  rw [if_neg hd]
  exact h2

theorem importPrelude_layer {ts : List Tok} {u l : Text} (h : importPrelude ts = some (u, some l)) : NameIn l ts := by
  unfold importPrelude at h
  split at h
  · cases h
  · cases h
  all_goals (try (cases h))
  all_goals
    split at h
    · obtain ⟨x, hx, he⟩ := Option.map_eq_some_iff.mp h
      cases he
      cases oneIdent_name hx with
      | direct _ h3 => exact .inside _ _ _ (List.mem_cons_of_mem _ (List.mem_singleton.mpr rfl)) h3
      | inside f args _ h3 h4 =>
        unfold oneIdent at hx
        split at hx
        · simp at h3
        · cases hx
    · cases h

theorem topItem_ok (hp : CalmParsers p) {imports : Text → Option (FSheet S M C N T V A B)}
    (him : ∀ u o, imports u = some o → SheetOk o) (declared : List Text) (n : Node) (h : HarmlessFile [n])
    (hf : ∀ u, importOf n = some u → (imports u).isSome)
    (hff : ∀ name block, n = .atRule name [] (some block) → lower name = "font-face".toList →
      ∃ family source, FontFaceRule (.atRule name [] (some block)) family source)
    (hkf : ∀ k, keyframesName n = some k → k ∉ declared) :
    ∃ i, topItem p imports declared n = some i ∧ TI i := by
  have hrule : ∃ i, (ruleItem p n).map (TopItem.src) = some i ∧ TI i := by
    obtain ⟨i, h1, h2⟩ := ruleItem_ok hp n h
    exact ⟨.src i, by rw [h1]; rfl, h2⟩
  have he : ∃ i : TopItem S M C N T V A B, some (.error : TopItem S M C N T V A B) = some i ∧ TI i := ⟨_, rfl, trivial⟩
  unfold topItem
  split
  · rename_i name prelude block
    split
    · split
      · rename_i hname _ _ b
        refine ⟨_, rfl, ?_⟩
        obtain ⟨fam, so, hrule⟩ := hff name b rfl (isName_iff.mp hname)
        obtain ⟨_, _, b', hb', g1, g2⟩ := fontFaceRule_iff.mp hrule
        cases hb'
        obtain ⟨f1, f2⟩ := fontFold b (none, none, 0)
        rw [g1] at f1
        rw [g2] at f2
        unfold fontFaceItem
        generalize (b.map fontItem).foldl fontStep (none, none, 0) = r at f1 f2
        obtain ⟨r1, r2, r3⟩ := r
        simp only [Option.some_or] at f1 f2
        subst f1 f2
        trivial
      · exact he
    · split
      · rename_i hname
        split
        · rename_i k b hk
          rw [oneIdent_iff] at hk
          subst hk
          exact keyframesItem_ok hp _ _ _ (hkf k (by unfold keyframesName; simp only; rw [if_pos (isName_iff.mp hname)]))
        · exact he
      · split
        · rename_i hi
          split
          · rename_i u l hpre
            have : (imports u).isSome := hf u (by unfold importOf; simp [hi, hpre])
            obtain ⟨o, ho⟩ := Option.isSome_iff_exists.mp this
            refine ⟨.importSheet o l, by unfold importItem; rw [ho]; rfl, him u o ho, ?_, ?_⟩
            · intro x hx
              subst hx
              exact (h.layers name prelude none (.here _ _ (by simp)) (Or.inr (isName_iff.mp hi)) x (importPrelude_layer hpre)).2
            · intro hx
              subst hx
              exact (h.layers name prelude none (.here _ _ (by simp)) (Or.inr (isName_iff.mp hi)) [] (importPrelude_layer hpre)).1 rfl
          · exact he
        · exact hrule
  · exact hrule

theorem declares_name {imports : Text → Option (FSheet S M C N T V A B)} {d : List Text} {n : Node} {i} {k : Text}
    (h : topItem p imports d n = some i) (hk : k ∈ declares i) : keyframesName n = some k := by
  have hsrc : ∀ o : Option (FSrc S M C N T V A B), o.map TopItem.src = some i → False := by
    intro o ho
    obtain ⟨s, _, rfl⟩ := Option.map_eq_some_iff.mp ho
    cases hk
  unfold topItem at h
  split at h
  · split at h
    · split at h
      · cases h
        unfold fontFaceItem at hk
        split at hk <;> cases hk
      · cases h; cases hk
    · split at h
      · rename_i hname
        split at h
        · rename_i k' b hp
          rw [oneIdent_iff] at hp
          subst hp
          obtain ⟨fs, _, rfl⟩ := Option.map_eq_some_iff.mp h
          split at hk
          · cases hk
          · simp only [declares, List.mem_singleton] at hk
            subst hk
            unfold keyframesName
            simp only
            rw [if_pos (isName_iff.mp hname)]
        · cases h; cases hk
      · split at h
        · split at h
          · obtain ⟨o, _, rfl⟩ := Option.map_eq_some_iff.mp h
            cases hk
          · cases h; cases hk
        · exact (hsrc _ h).elim
  · exact (hsrc _ h).elim

theorem topItems_ok (hp : CalmParsers p) {imports : Text → Option (FSheet S M C N T V A B)}
    (him : ∀ u o, imports u = some o → SheetOk o) : ∀ (ns : List Node) (declared : List Text), HarmlessFile ns →
    WholeFile ns → (∀ k ∈ ns.filterMap keyframesName, k ∉ declared) →
    (∀ u ∈ extractImports ns, (imports u).isSome) → ∃ is, topItems p imports declared ns = some is ∧ ∀ i ∈ is, TI i := by
  intro ns
  induction ns with
  | nil => intro d _ _ _ _; exact ⟨[], rfl, by simp⟩
  | cons n ns ih =>
    intro d h hw hd hf
    obtain ⟨i, h1, h2⟩ := topItem_ok hp him d n (harmless_head h) (fun u hu => hf u (by
      unfold extractImports; simp only [List.mem_filterMap]; exact ⟨n, by simp, hu⟩))
      (fun name block hn => hw.fonts name block (by rw [hn]; simp))
      (fun k hk => hd k (by simp only [List.mem_filterMap]; exact ⟨n, by simp, hk⟩))
    have hw' : WholeFile ns := ⟨fun name block hm => hw.fonts name block (List.mem_cons_of_mem _ hm), by
      have := hw.keyframes
      cases hk : keyframesName n with
      | none => rwa [List.filterMap_cons_none hk] at this
      | some k => rw [List.filterMap_cons_some hk] at this; exact (List.nodup_cons.mp this).2⟩
    have hd' : ∀ k ∈ ns.filterMap keyframesName, k ∉ d ++ declares i := by
      intro k hk hm
      rcases List.mem_append.mp hm with hm | hm
      · refine hd k ?_ hm
        obtain ⟨m, hm1, hm2⟩ := List.mem_filterMap.mp hk
        exact List.mem_filterMap.mpr ⟨m, List.mem_cons_of_mem _ hm1, hm2⟩
      · have hn := declares_name h1 hm
        have := hw.keyframes
        rw [List.filterMap_cons_some hn] at this
        exact (List.nodup_cons.mp this).1 hk
    obtain ⟨is, h3, h4⟩ := ih (d ++ declares i) (harmless_tail h) hw' hd' (fun u hu => hf u (by
      unfold extractImports at hu ⊢
      simp only [List.mem_filterMap] at hu ⊢
      obtain ⟨x, hx, hxu⟩ := hu
      exact ⟨x, by simp [hx], hxu⟩))
    refine ⟨i :: is, by unfold topItems; rw [h1]; simp only [Option.bind_some, h3, Option.map_some], ?_⟩
    intro x hx
    rcases List.mem_cons.mp hx with rfl | hx
    · exact h2
    · exact h4 x hx

variable [DecidableEq N]

theorem processTop_ok (rp : S → List S → S) (amp : S) {st : State S M C N T V A B} (h : Inv st.base)
    {i : TopItem S M C N T V A B} (hi : TI i) : ∃ st', processTop rp amp st i = some st' ∧ Inv st'.base := by
  cases i with
  | src s =>
    have := parseItems_ok amp [s] hi ⟨[], []⟩ (by simp [NoDot])
    obtain ⟨b', e', h1, h2⟩ := processAll_ok rp _ this st.base st.errors h
    simp only [parseItems, processAll] at h1
    obtain ⟨x, hx, hx'⟩ := Option.bind_eq_some_iff.mp h1
    cases hx'
    refine ⟨{ st with base := b', errors := e' }, ?_, h2⟩
    unfold processTop State.rules
    simp only
    rw [hx]
    rfl
  | importSheet o layer =>
    obtain ⟨b', h1, h2⟩ := embed_ok h hi.1 hi.2.1 hi.2.2
    unfold processTop State.rules
    simp only [process, h1, Option.map_some]
    exact ⟨_, rfl, h2⟩
  | fontFace f s e => exact ⟨_, rfl, h⟩
  | keyframes name frames =>
    obtain ⟨r, h1⟩ := processKeyframes_ok hi
    unfold processTop State.addKeyframes
    simp only [h1, Option.map_some]
    exact ⟨_, rfl, h⟩
  | error => exact ⟨_, rfl, h⟩
  | unlocated => exact hi.elim

theorem fold_ok (rp : S → List S → S) (amp : S) : ∀ (is : List (TopItem S M C N T V A B)) (st : State S M C N T V A B),
    (∀ i ∈ is, TI i) → Inv st.base → ∃ st', is.foldlM (processTop rp amp) st = some st' ∧ Inv st'.base := by
  intro is
  induction is with
  | nil => intro st _ h; exact ⟨st, rfl, h⟩
  | cons i is ih =>
    intro st hi h
    obtain ⟨st1, h1, h2⟩ := processTop_ok rp amp h (hi i (by simp))
    obtain ⟨st2, h3, h4⟩ := ih st1 (fun x hx => hi x (by simp [hx])) h2
    exact ⟨st2, by rw [List.foldlM_cons, h1]; exact h3, h4⟩

theorem removeEmptyFrom_inv (b : Builder S M C N T V X Y) (i : Nat) (h : Inv b) :
    ∃ b', b.removeEmptyFrom i = some b' ∧ Inv b' := by
  fun_induction Builder.removeEmptyFrom b i with
  | case1 b i hi he heq =>
    unfold Builder.removeId at heq
    rw [if_pos hi] at heq
    cases heq
  | case2 b i hi he b1 hb1 ih =>
    apply ih
    unfold Builder.removeId at hb1
    rw [if_pos hi] at hb1
    cases hb1
    intro s hs
    simp only [List.mem_map] at hs
    obtain ⟨t, ht, rfl⟩ := hs
    have := h t (List.mem_of_mem_filter ht)
    split <;> exact this
  | case3 b i hi he ih => exact ih h
  | case4 b i hi => exact ⟨b, rfl, h⟩

theorem loadStylesheet_ok (hp : CalmParsers p) (rp : S → List S → S) (amp : S) (mode : ErrorMode)
    {imports : Text → Option (FSheet S M C N T V A B)} (him : ∀ u o, imports u = some o → SheetOk o) (ns : List Node)
    (h : HarmlessFile ns) (hw : WholeFile ns) (hf : ∀ u ∈ extractImports ns, (imports u).isSome) :
    ∃ r, File.loadStylesheet p rp amp mode imports ns = some r ∧ ∀ st, r = some st → Inv st.base := by
  obtain ⟨is, h1, h2⟩ := topItems_ok hp him ns [] h hw (by simp) hf
  obtain ⟨st, h3, h4⟩ := fold_ok rp amp is State.start h2 inv_new
  obtain ⟨b, h5, h6⟩ := removeEmptyFrom_inv st.base 0 h4
  unfold File.loadStylesheet
  rw [h1]
  simp only [Option.bind_some, h3]
  split
  · exact ⟨_, rfl, by intro st hst; cases hst⟩
  · rw [show st.base.removeAllEmpty = some b from h5]
    refine ⟨_, rfl, ?_⟩
    intro st' hst
    cases hst
    exact h6

theorem priority_known {l : List Name} {n : Name} (h : Known n l) : (priority l n).isSome := by
  unfold priority
  split
  · rfl
  · rename_i hn
    rcases h with h | h
    · exact absurd h hn
    · unfold position
      rw [if_pos (by simpa using h)]; rfl

theorem build_calm (env : BuildEnv S C V) {st : State S M C N T V A B} (h : Inv st.base) :
    st.build env ≠ .panic ∧ ∀ o, st.build env = .loaded o → SheetOk o := by
  have hne : st.base.build env.names env.typeOk env.spec env.ph ≠ none :=
    have : DecidableEq V := Classical.decEq _
    build_ne_none fun s hs => priority_known (h s hs).1
  unfold State.build
  constructor
  · split
    · rename_i hb; exact absurd hb hne
    · simp
    · simp
  · intro o ho
    split at ho
    · cases ho
    · cases ho
    · rename_i sh hb
      cases ho
      intro s hs
      have := (build_ok hb).1
      simp only at hs
      rw [this, List.mem_mergeSort] at hs
      exact (h s hs).2

theorem loadWith_ok (hp : CalmParsers p) (rp : S → List S → S) (amp : S) (env : BuildEnv S C V) (mode : ErrorMode)
    {imports : Text → Option (FSheet S M C N T V A B)} (him : ∀ u o, imports u = some o → SheetOk o) (ns : List Node)
    (h : HarmlessFile ns) (hw : WholeFile ns) (hf : ∀ u ∈ extractImports ns, (imports u).isSome) :
    loadWith p rp amp env mode imports ns ≠ .panic ∧
      ∀ o, loadWith p rp amp env mode imports ns = .loaded o → SheetOk o := by
  obtain ⟨r, h1, h2⟩ := loadStylesheet_ok hp rp amp mode him ns h hw hf
  unfold loadWith
  rw [h1]
  cases r with
  | none => simp
  | some st => exact build_calm env (h2 st rfl)

theorem hget_insert {K W : Type} [DecidableEq K] (m : HMap K W) (k : K) (v : W) (x : K) :
    (m.insert k v).get? x = if k = x then some v else m.get? x := HMap.get?_insert ..

theorem loadImports_ok {load : Text → Option (Outcome (FSheet S M C N T V A B))}
    (hl : ∀ u, load u ≠ some .panic ∧ ∀ o, load u = some (.loaded o) → SheetOk o) :
    ∀ (us : List Text) (m : HMap Text (FSheet S M C N T V A B)), (∀ u o, m.get? u = some o → SheetOk o) →
    loadImports load us m ≠ some .panic ∧ ∀ m', loadImports load us m = some (.loaded m') →
      (∀ u o, m'.get? u = some o → SheetOk o) ∧ (∀ u ∈ us, (m'.get? u).isSome) ∧
      ∀ u, (m.get? u).isSome → (m'.get? u).isSome := by
  intro us
  induction us with
  | nil =>
    intro m hm
    refine ⟨by simp [loadImports], ?_⟩
    intro m' h
    simp only [loadImports, Option.some.injEq, Outcome.loaded.injEq] at h
    subst h
    exact ⟨hm, by simp, fun _ h => h⟩
  | cons u us ih =>
    intro m hm
    unfold loadImports
    cases hu : load u with
    | none => simp
    | some r =>
      cases r with
      | panic => exact absurd hu (hl u).1
      | error => simp
      | loaded o =>
        simp only
        obtain ⟨h1, h2⟩ := ih (m.insert u o) (by
          intro x y hxy
          rw [hget_insert] at hxy
          split at hxy
          · cases hxy; exact (hl u).2 o hu
          · exact hm x y hxy)
        refine ⟨h1, ?_⟩
        intro m' h
        obtain ⟨h3, h4, h5⟩ := h2 m' h
        refine ⟨h3, ?_, ?_⟩
        · intro x hx
          rcases List.mem_cons.mp hx with rfl | hx
          · exact h5 x (by rw [hget_insert, if_pos rfl]; rfl)
          · exact h4 x hx
        · intro x hx
          apply h5
          rw [hget_insert]
          split
          · rfl
          · exact hx

theorem loadFile_ok (hp : CalmParsers p) (rp : S → List S → S) (amp : S) (env : BuildEnv S C V)
    (mode : Text → ErrorMode) (disk : Text → Option (List Node)) (hd : ∀ path ns, disk path = some ns → HarmlessFile ns)
    (hw : ∀ path ns, disk path = some ns → WholeFile ns) :
    ∀ (fuel : Nat) (path : Text), loadFile p rp amp env mode disk fuel path ≠ some .panic ∧
      ∀ o, loadFile p rp amp env mode disk fuel path = some (.loaded o) → SheetOk o := by
  intro fuel
  induction fuel with
  | zero => intro path; simp [loadFile]
  | succ fuel ih =>
    intro path
    unfold loadFile
    split
    · simp
    · rename_i ns hns
      obtain ⟨h1, h2⟩ := loadImports_ok ih (extractImports ns) [] (by intro u o h; cases h)
      split
      · simp
      · rename_i h; exact absurd h h1
      · simp
      · rename_i m hm
        obtain ⟨h3, h4, _⟩ := h2 m hm
        obtain ⟨h5, h6⟩ := loadWith_ok hp rp amp env (mode path) h3 ns (hd path ns hns) (hw path ns hns) h4
        refine ⟨by simpa using h5, ?_⟩
        intro o ho
        exact h6 o (by simpa using ho)

end

/-! ## crashes -/

/-- the layers known so far are named well -/
def LOk (l : List Name) : Prop := ∀ x ∈ l, x ≠ [] ∧ NoDot x

theorem parents_dot {full : Name} (h : ¬ NoDot full) : ∀ p ∈ (parse full).parents, p = [] ∨ ¬ NoDot p := by
  intro p hp
  obtain ⟨a, b, h1, h2⟩ := parseGo_parents_dot full [] [] p hp
  simp only [List.nil_append] at h1
  subst h1
  cases p with
  | nil => exact Or.inl rfl
  | cons c p =>
    refine Or.inr fun hc => h ?_
    simpa [NoDot, h2] using hc

theorem parents_ne {full : Name} (h : ¬ NoDot full) : (parse full).parents ≠ [] := by
  cases full with
  | nil => simp [NoDot] at h
  | cons c full =>
    simp only [NoDot, List.head?_cons, ne_eq, Option.some.injEq, not_not] at h
    subst h
    unfold parse parseGo
    simp

theorem parents_head {full : Name} (h : NoDot full) (hne : full ≠ []) : ∀ p ∈ (parse full).parents, p ≠ [] ∧ NoDot p :=
  fun p hp => ⟨(parents_noDot h hp).2, (parents_noDot h hp).1⟩

theorem insert_mem {l : List Name} {full : Name} {l' : List Name} (h : LOk l) (h1 : full ≠ []) (h2 : NoDot full) (i : Nat)
    (hl' : l' = l.take i ++ full :: l.drop i) : LOk l' := by
  subst hl'
  intro x hx
  simp only [List.mem_append, List.mem_cons] at hx
  rcases hx with hx | rfl | hx
  · exact h x (List.mem_of_mem_take hx)
  · exact ⟨h1, h2⟩
  · exact h x (List.mem_of_mem_drop hx)

theorem define_crash : ∀ (k : Nat) (full : Name), full.length ≤ k → ∀ l l', LOk l → defineLayer l full = some l' →
    NoDot full ∧ LOk l' := by
  intro k
  induction k with
  | zero =>
    intro full hk l l' hl h
    have : full = [] := List.length_eq_zero_iff.mp (by omega)
    subst this
    unfold defineLayer at h
    simp at h
    subst h
    exact ⟨by simp [NoDot], hl⟩
  | succ k ih =>
    intro full hk l l' hl h
    unfold defineLayer at h
    split at h
    · rename_i h0; cases h
      exact ⟨by simp [NoDot, h0], hl⟩
    · rename_i h0
      split at h
      · rename_i hc; cases h
        exact ⟨(hl full (by simpa [isDefined] using hc)).2, hl⟩
      · simp only at h
        split at h
        · rename_i hpar
          have hd : NoDot full := by
            by_contra hd
            exact parents_ne hd (by simpa using hpar)
          refine ⟨hd, ?_⟩
          have hname := parseGo_no_parents full [] [] hpar
          cases h
          intro x hx
          simp only [parse, hname, List.nil_append, List.mem_append, List.mem_singleton] at hx
          rcases hx with hx | rfl
          · exact hl x hx
          · exact ⟨h0, hd⟩
        · rename_i hpar
          have hfold : ∀ (ps : List {x // x ∈ (parse full).parents}) (l l' : List Name), LOk l →
              ps.foldlM (fun inner p => defineLayer inner p.1) l = some l' → (∀ p ∈ ps, NoDot p.1) ∧ LOk l' := by
            intro ps
            induction ps with
            | nil => intro l l' hl h; cases h; exact ⟨by simp, hl⟩
            | cons p ps ih2 =>
              intro l l' hl h
              rw [List.foldlM_cons] at h
              obtain ⟨l1, h1, h2⟩ := Option.bind_eq_some_iff.mp h
              have hlt := parseGo_parents_lt full [] [] p.1 p.2
              simp only [List.length_nil, Nat.zero_add] at hlt
              obtain ⟨h3, h4⟩ := ih p.1 (by omega) l l1 hl h1
              obtain ⟨h5, h6⟩ := ih2 l1 l' h4 h2
              exact ⟨by
                intro q hq
                rcases List.mem_cons.mp hq with rfl | hq
                · exact h3
                · exact h5 q hq, h6⟩
          split at h
          · cases h
          · rename_i l1 hl1
            obtain ⟨hps, hok⟩ := hfold _ _ _ hl hl1
            split at h
            · cases h
            · rename_i i hi
              have hd : NoDot full := by
                by_contra hd
                unfold findInsertPosition at hi
                split at hi
                · cases hi
                · rename_i parent hparent
                  have hm : parent ∈ (parse full).parents := List.mem_of_getLast? hparent
                  have hn := hps ⟨parent, hm⟩ (by simp)
                  rcases parents_dot hd parent hm with rfl | hbad
                  · unfold position at hi
                    split at hi
                    · rename_i hc
                      exact (hok [] (by simpa using hc)).1 rfl
                    · cases hi
                  · exact hbad hn
              refine ⟨hd, ?_⟩
              cases h
              exact insert_mem hok h0 hd i rfl

theorem defineLayer_crash {l l' : List Name} {full : Name} (hl : LOk l) (h : defineLayer l full = some l') : NoDot full ∧ LOk l' :=
  define_crash _ full (le_refl _) l l' hl h


section
variable [DecidableEq N]

theorem addCssSelectors_lok {id : Nat} {ss : List (CssSelector S M)} : ∀ {b b' : Builder S M C N T V X Y}, LOk b.layers →
    b.addCssSelectors id ss = some b' → LOk b'.layers ∧ ∀ s ∈ ss, NoDot s.layer := by
  unfold Builder.addCssSelectors
  induction ss with
  | nil => intro b b' h h1; cases h1; exact ⟨h, by simp⟩
  | cons s ss ih =>
    intro b b' h h1
    rw [List.foldlM_cons] at h1
    obtain ⟨b1, h2, h3⟩ := Option.bind_eq_some_iff.mp h1
    unfold Builder.addCssSelector at h2
    obtain ⟨l, hl, rfl⟩ := Option.map_eq_some_iff.mp h2
    obtain ⟨h4, h5⟩ := defineLayer_crash h hl
    obtain ⟨h6, h7⟩ := ih (by exact h5) h3
    exact ⟨h6, by
      intro x hx
      rcases List.mem_cons.mp hx with rfl | hx
      · exact h4
      · exact h7 x hx⟩

theorem defineLayers_lok {ls : List Name} {b b' : Builder S M C N T V X Y} (h : LOk b.layers)
    (h1 : b.defineLayers ls = some b') : LOk b'.layers ∧ ∀ l ∈ ls, NoDot l := by
  unfold Builder.defineLayers at h1
  obtain ⟨l', hl, rfl⟩ := Option.map_eq_some_iff.mp h1
  have : ∀ (ls : List Name) (l0 l' : List Name), LOk l0 → ls.foldlM defineLayer l0 = some l' → LOk l' ∧ ∀ l ∈ ls, NoDot l := by
    intro ls
    induction ls with
    | nil => intro l0 l' h h1; cases h1; exact ⟨h, by simp⟩
    | cons x ls ih =>
      intro l0 l' h h1
      rw [List.foldlM_cons] at h1
      obtain ⟨l1, h2, h3⟩ := Option.bind_eq_some_iff.mp h1
      obtain ⟨h4, h5⟩ := defineLayer_crash h h2
      obtain ⟨h6, h7⟩ := ih l1 l' h5 h3
      exact ⟨h6, by
        intro y hy
        rcases List.mem_cons.mp hy with rfl | hy
        · exact h4
        · exact h7 y hy⟩
  exact this ls b.layers l' h hl

theorem embed_lok {o : StyleSheet S M C N T V X Y} {l : Option Name} {b b' : Builder S M C N T V X Y} (h : LOk b.layers)
    (h1 : b.embed o l = some b') : LOk b'.layers := by
  unfold Builder.embed at h1
  revert h1
  generalize o.rulesets.zipIdx = rs
  induction rs generalizing b with
  | nil => intro h1; cases h1; exact h
  | cons r rs ih =>
    intro h1
    rw [List.foldlM_cons] at h1
    obtain ⟨b1, h2, h3⟩ := Option.bind_eq_some_iff.mp h1
    exact ih (addCssSelectors_lok (by exact h) h2).1 h3

theorem foldl_layers (id : Nat) (ds : List (SrcDecl C N T V X Y)) (b : Builder S M C N T V X Y) :
    (ds.foldl (fun b d => b.modify id (fun x => x.addDecl d)) b).layers = b.layers := by
  induction ds generalizing b with
  | nil => rfl
  | cons d ds ih => exact (ih _).trans rfl

theorem processBody_lok (rp : S → List S → S) (body : List (BodyItem S M C N T V X Y)) :
    ∀ (sels : List (CssSelector S M)) (id : Nat) (b : Builder S M C N T V X Y) (e : Nat) (r), LOk b.layers →
    processBody rp sels body id (b, e) = some r → LOk r.1.layers := by
  fun_induction BI body with
  | case1 =>
    intro sels id b e r h h1
    simp only [processBody] at h1
    cases h1; exact h
  | case2 ds rest ih =>
    intro sels id b e r h h1
    simp only [processBody] at h1
    exact ih sels id _ e r (by rw [foldl_layers]; exact h) h1
  | case3 rest ih =>
    intro sels id b e r h h1
    simp only [processBody] at h1
    exact ih sels id b _ r h h1
  | case4 ss body rest ih1 ih2 =>
    intro sels id b e r h h1
    cases ss with
    | none =>
      simp only [processBody] at h1
      obtain ⟨b2, h2, h3⟩ := Option.bind_eq_some_iff.mp h1
      exact ih2 sels _ b2 _ r (addCssSelectors_lok (by exact h) h2).1 h3
    | some ss =>
      simp only [processBody] at h1
      obtain ⟨b2, h2, h3⟩ := Option.bind_eq_some_iff.mp h1
      obtain ⟨b3, h4, h5⟩ := Option.bind_eq_some_iff.mp h3
      obtain ⟨b4, h6, h7⟩ := Option.bind_eq_some_iff.mp h5
      have g1 := (addCssSelectors_lok (by exact h) h2).1
      have g2 := ih1 _ _ b2 e b3 g1 h4
      have g3 := (addCssSelectors_lok (by exact g2) h6).1
      exact ih2 sels _ b4 _ r g3 h7

theorem processAll_lok (rp : S → List S → S) (is : List (SheetItem S M C N T V X Y)) :
    ∀ (b : Builder S M C N T V X Y) (e : Nat) (r), LOk b.layers → processAll rp is (b, e) = some r → LOk r.1.layers := by
  fun_induction SI is with
  | case1 => intro b e r h h1; simp only [processAll] at h1; cases h1; exact h
  | case2 o l rest ih =>
    intro b e r h h1
    simp only [processAll, process] at h1
    obtain ⟨x, h2, h3⟩ := Option.bind_eq_some_iff.mp h1
    obtain ⟨b1, h4, rfl⟩ := Option.map_eq_some_iff.mp h2
    exact ih b1 e r (embed_lok h h4) h3
  | case3 is rest ih1 ih2 =>
    intro b e r h h1
    simp only [processAll, process] at h1
    obtain ⟨⟨b1, e1⟩, h2, h3⟩ := Option.bind_eq_some_iff.mp h1
    exact ih2 b1 e1 r (ih1 b e _ h h2) h3
  | case4 ls rest ih =>
    intro b e r h h1
    simp only [processAll, process] at h1
    obtain ⟨x, h2, h3⟩ := Option.bind_eq_some_iff.mp h1
    obtain ⟨b1, h4, rfl⟩ := Option.map_eq_some_iff.mp h2
    exact ih b1 e r (defineLayers_lok h h4).1 h3
  | case5 sels body rest ih =>
    intro b e r h h1
    simp only [processAll, process] at h1
    obtain ⟨⟨b1, e1⟩, h2, h3⟩ := Option.bind_eq_some_iff.mp h1
    refine ih b1 e1 r ?_ h3
    unfold processRuleset at h2
    cases sels with
    | none => simp only at h2; cases h2; exact h
    | some ss =>
      simp only at h2
      obtain ⟨b2, h4, h5⟩ := Option.bind_eq_some_iff.mp h2
      exact processBody_lok rp body ss _ b2 e _ (addCssSelectors_lok (by exact h) h4).1 h5
  | case6 rest ih =>
    intro b e r h h1
    simp only [processAll, process, Option.bind_some] at h1
    exact ih b _ r h h1

theorem process_lok (rp : S → List S → S) (i : SheetItem S M C N T V X Y) {b : Builder S M C N T V X Y} {e : Nat} {r}
    (h : LOk b.layers) (h1 : process rp i (b, e) = some r) : LOk r.1.layers := by
  refine processAll_lok rp [i] b e r h ?_
  simp only [processAll, h1, Option.bind_some]

theorem processTop_lok (rp : S → List S → S) (amp : S) {st st' : State S M C N T V A B} (h : LOk st.base.layers)
    {i : TopItem S M C N T V A B} (h1 : processTop rp amp st i = some st') : LOk st'.base.layers := by
  cases i with
  | src s =>
    obtain ⟨x, h2, rfl⟩ := Option.map_eq_some_iff.mp h1
    exact process_lok rp _ h h2
  | importSheet o layer =>
    obtain ⟨y, h2, rfl⟩ := Option.map_eq_some_iff.mp h1
    obtain ⟨x, h3, rfl⟩ := Option.map_eq_some_iff.mp h2
    exact process_lok rp _ h h3
  | fontFace f s e => cases h1; exact h
  | keyframes name frames =>
    obtain ⟨x, h3, rfl⟩ := Option.map_eq_some_iff.mp h1
    exact h
  | error => cases h1; exact h
  | unlocated => cases h1

theorem fold_lok (rp : S → List S → S) (amp : S) : ∀ (is : List (TopItem S M C N T V A B)) (st st' : State S M C N T V A B),
    LOk st.base.layers → is.foldlM (processTop rp amp) st = some st' → LOk st'.base.layers ∧
    ∀ ls, .src (.layerStatement ls) ∈ is → ∀ l ∈ ls, NoDot l := by
  intro is
  induction is with
  | nil => intro st st' h h1; cases h1; exact ⟨h, by simp⟩
  | cons i is ih =>
    intro st st' h h1
    rw [List.foldlM_cons] at h1
    obtain ⟨st1, h2, h3⟩ := Option.bind_eq_some_iff.mp h1
    obtain ⟨h4, h5⟩ := ih st1 st' (processTop_lok rp amp h h2) h3
    refine ⟨h4, ?_⟩
    intro ls hls l hl
    rcases List.mem_cons.mp hls with rfl | hls
    · obtain ⟨x, h6, rfl⟩ := Option.map_eq_some_iff.mp h2
      simp only [parseItem, process] at h6
      obtain ⟨b1, h7, rfl⟩ := Option.map_eq_some_iff.mp h6
      have := (defineLayers_lok h h7).2
      exact this l (List.mem_map.mpr ⟨l, hl, by simp [joinLayer]⟩)
    · exact h5 ls hls l hl
end

section
variable {p : Parsers S M C N T V A B}

theorem topItems_mem {imports : Text → Option (FSheet S M C N T V A B)} : ∀ {ns : List Node} {d : List Text} {is},
    topItems p imports d ns = some is → ∀ n ∈ ns, ∃ d' i, topItem p imports d' n = some i ∧ i ∈ is := by
  intro ns
  induction ns with
  | nil => intro d is _ n hn; cases hn
  | cons m ns ih =>
    intro d is h n hn
    unfold topItems at h
    obtain ⟨i, h1, h2⟩ := Option.bind_eq_some_iff.mp h
    obtain ⟨is', h3, rfl⟩ := Option.map_eq_some_iff.mp h2
    rcases List.mem_cons.mp hn with rfl | hn
    · exact ⟨d, i, h1, by simp⟩
    · obtain ⟨d', j, h4, h5⟩ := ih h3 n hn
      exact ⟨d', j, h4, by simp [h5]⟩

theorem bodyItems_crash {f : Flags} {n : Node} (h : bodyItem p f n = none) : ∀ {ns : List Node}, n ∈ ns → bodyItems p f ns = none := by
  intro ns
  induction ns with
  | nil => intro hn; cases hn
  | cons m ns ih =>
    intro hn
    rw [bodyItems]
    rcases List.mem_cons.mp hn with rfl | hn
    · rw [h]; rfl
    · rw [ih hn]
      cases bodyItem p f m <;> rfl

theorem declaration_crash {f : Flags} {name : Text} (value : List Tok) (h : kindOf f name = none) :
    bodyItem p f (.declaration name value) = none := by
  rw [bodyItem]
  unfold declItem parseValue
  rw [h]

theorem prefixEq_of {s : Text} {pre : String} (ha : ∀ d ∈ pre.toList, d.toNat < 128) (h : pre.toList <+: lower s) :
    prefixEq s pre = some true := by
  have hpre : ∀ l : Text, (∀ d ∈ l, d.toNat < 128) → byteLen l = l.length := fun l hl => ascii_len fun c hc => by
    have h2 : c.val ≤ 127 := by
      rw [UInt32.le_iff_toNat_le]
      have : c.val.toNat < 128 := hl c hc
      show c.val.toNat ≤ 127
      omega
    unfold Char.utf8Size
    exact if_pos h2
  obtain ⟨r, hr⟩ := h
  have hs : s = s.take pre.toList.length ++ s.drop pre.toList.length := (List.take_append_drop _ _).symm
  have hl : lower (s.take pre.toList.length) = pre.toList := by
    unfold lower at hr ⊢
    rw [List.map_take, ← hr]
    simp
  have hb : byteLen (s.take pre.toList.length) = byteLen pre.toList := by
    rw [hpre _ ha, ascii_len]
    · have := congrArg List.length hl
      unfold lower at this
      rwa [List.length_map] at this
    · intro c hc
      apply lower_ascii
      apply ha
      rw [← hl]
      exact List.mem_map.mpr ⟨c, hc, rfl⟩
  unfold prefixEq
  have hlen : byteLen pre.toList ≤ byteLen s := by
    rw [← hb]
    conv_rhs => rw [hs]
    unfold byteLen
    rw [List.map_append, List.sum_append]
    omega
  rw [if_neg (by omega)]
  have := slice_ok (s.take pre.toList.length) (s.drop pre.toList.length)
  rw [← hs, hb] at this
  rw [this, Option.map_some, isName_iff.mpr hl]

theorem lookupName_notMem {α : Type} {table : List (String × α)} {name : Text} (h : lower name ∉ table.map (·.1.toList)) :
    lookupName table name = none := by
  unfold lookupName
  rw [Option.map_eq_none_iff, List.find?_eq_none]
  intro e he hn
  exact h (List.mem_map.mpr ⟨e, he, (isName_iff.mp hn).symm⟩)

/-- an unknown transition or animation property without a value -/
theorem motion_crash (p : Parsers S M C N T V A B) {name : Text} (h : UnknownMotion name) :
    bodyItem p ruleFlags (.declaration name []) = none := by
  have hc : ∀ (pre : String), pre.toList <+: lower name → pre.toList.head? ≠ none → pre.toList.head? ≠ some '-' →
      name.take 2 ≠ ['-', '-'] := by
    rintro pre ⟨r, hr⟩ h1 h2 h3
    obtain ⟨rest, rfl⟩ := take_two h3
    have h4 := congrArg List.head? hr
    cases hp : pre.toList with
    | nil => rw [hp] at h1; exact h1 rfl
    | cons c cs =>
      rw [hp] at h4 h2
      simp only [List.cons_append, List.head?_cons, lower, List.map_cons, Option.some.injEq] at h4 h2
      exact h2 (congrArg some (h4.trans (by decide)))
  rw [bodyItem]
  unfold declItem
  rcases h with ⟨h1, h2⟩ | ⟨h1, h2⟩
  · have hk : kindOf ruleFlags name = some .transition := by
      unfold kindOf transitionKind
      rw [prefixEq_of (by decide) h1]
      rw [if_neg (by simpa using fun _ => hc _ h1 (by decide) (by decide))]
      rfl
    have hl : lookupName transitionNames name = none := lookupName_notMem h2
    unfold parseValue unlocatedDecl
    rw [hk]
    simp [parseAs, parseTransition, hl]
  · have hk : kindOf ruleFlags name = some .animation ∨ kindOf ruleFlags name = none := by
      unfold kindOf transitionKind animationKind
      rw [prefixEq_of (by decide) h1]
      rw [if_neg (by simpa using fun _ => hc _ h1 (by decide) (by decide))]
      cases ht : prefixEq name "transition" with
      | none => right; rfl
      | some b =>
        cases b with
        | false => left; rfl
        | true =>
          exfalso
          obtain ⟨r1, e1⟩ := prefixEq_true ht
          obtain ⟨r2, e2⟩ := h1
          have := (congrArg List.head? (e1.trans e2.symm))
          exact absurd this (by simp)
    have hl : lookupName animationNames name = none := lookupName_notMem h2
    unfold parseValue unlocatedDecl
    rcases hk with hk | hk
    · rw [hk]
      simp [parseAs, parseAnimation, hl]
    · rw [hk]
end

end Flair.Proofs.File
