import Verif.Spec.Live
import Verif.Proofs.Matcher
import Verif.Props.Inherit
/-! # Proofs about histories of a running application -/
namespace Flair.Proofs.Live
open Flair.Tree Flair.Selector Flair.Nesting Flair.Sheet Flair.Values Flair.Vars Flair.Media Flair.Live Flair.Invalidation
  Flair.Spec Flair.Props Flair.Matcher
set_option linter.unusedSectionVars false
variable {E C N T V X Y : Type} [DecidableEq E] [DecidableEq N] [DecidableEq V]

/-- what the selectors of the sheet say about `e` -/
def res (w : SWorld E) (sh : StyleSheet Compiled Media.Selector C N T V X Y) (e : E) : List (Option Bool) :=
  sh.selectors.map fun s => matchesSelector w s.1.selector.sel e

/-- all selectors look only where changes are noticed -/
def Looks (sh : StyleSheet Compiled Media.Selector C N T V X Y) : Prop := ∀ s ∈ sh.selectors, WatchSel true s.1.selector.sel

theorem prog_res (w : SWorld E) {sh : StyleSheet Compiled Media.Selector C N T V X Y} (h : Looks sh) (e : E) (fl : FlagMap E) :
    (run w (progOf w sh) [e] fl).1 = res w sh e := by
  unfold progOf res
  rw [Matcher.match_answers w _ (fun s hs => by obtain ⟨x, hx, rfl⟩ := List.mem_map.mp hs; exact h x hx), List.map_map]
  rfl

theorem prog_noticed (w : SWorld E) {sh : StyleSheet Compiled Media.Selector C N T V X Y} (h : Looks sh) :
    Noticed [.self] (progOf w sh) :=
  Matcher.match_noticed _ _ (fun s hs => by obtain ⟨x, hx, rfl⟩ := List.mem_map.mp hs; exact h x hx)

/-! ## media conditions -/

/-- fewer flags -/
def Fewer (a b : MediaChange.Flags) : Prop := (a.info = true → b.info = true) ∧ (a.window = true → b.window = true)

theorem fewer_union_left {a b c : MediaChange.Flags} (h : Fewer (a.union b) c) : Fewer a c ∧ Fewer b c := by
  unfold Fewer MediaChange.Flags.union at *
  simp only [Bool.or_eq_true] at h
  tauto

/-- the features that were read are the same -/
def SameFor (f : MediaChange.Flags) (p q : Provider) : Prop :=
  (f.window = true → q.colorScheme = p.colorScheme) ∧
  (f.info = true → q.resolution = p.resolution ∧ q.width = p.width ∧ q.height = p.height)

theorem same_fewer {f g : MediaChange.Flags} {p q : Provider} (h : Fewer f g) (hs : SameFor g p q) : SameFor f p q :=
  ⟨fun k => hs.1 (h.2 k), fun k => hs.2 (h.1 k)⟩

theorem matches_same {p q : Provider} (m : Media.Selector) (h : SameFor (MediaChange.flagOf m) p q) : m.matches q = m.matches p := by
  cases m with
  | colorScheme c => simp only [Media.Selector.matches, h.1 rfl]
  | viewportWidth r => obtain ⟨_, h2, _⟩ := h.2 rfl; simp only [Media.Selector.matches, h2]
  | viewportHeight r => obtain ⟨_, _, h3⟩ := h.2 rfl; simp only [Media.Selector.matches, h3]
  | aspectRatio r => obtain ⟨_, h2, h3⟩ := h.2 rfl; simp only [Media.Selector.matches, Provider.aspectRatio, h2, h3]
  | resolution r => obtain ⟨h1, _, _⟩ := h.2 rfl; simp only [Media.Selector.matches, h1]

theorem all_same {p q : Provider} : ∀ ms : List Media.Selector, SameFor (mediaRead p ms) p q →
    (ms.all fun m => (m.matches q).getD false) = (ms.all fun m => (m.matches p).getD false) ∧ mediaRead q ms = mediaRead p ms
  | [], _ => ⟨rfl, rfl⟩
  | m :: ms, h => by
    rw [mediaRead] at h
    rw [List.all_cons, List.all_cons, mediaRead, mediaRead]
    by_cases hm : (m.matches p).getD false = true
    · rw [if_pos hm] at h
      have h1 : SameFor (MediaChange.flagOf m) p q := same_fewer (fewer_union_left (c := (MediaChange.flagOf m).union (mediaRead p ms)) ⟨id, id⟩).1 h
      have h2 : SameFor (mediaRead p ms) p q := same_fewer (fewer_union_left (c := (MediaChange.flagOf m).union (mediaRead p ms)) ⟨id, id⟩).2 h
      obtain ⟨k1, k2⟩ := all_same ms h2
      rw [matches_same m h1, k1, k2]
      exact ⟨rfl, rfl⟩
    · rw [if_neg hm] at h
      rw [matches_same m h, if_neg hm, if_neg hm]
      rw [Bool.not_eq_true] at hm
      rw [hm]
      exact ⟨rfl, rfl⟩

theorem allMatch_same {p q : Provider} {ms : List Media.Selector} (h : SameFor (mediaRead p ms) p q) :
    allMatch q ms = allMatch p ms ∧ mediaRead q ms = mediaRead p ms := by
  obtain ⟨h1, h2⟩ := all_same ms h
  refine ⟨?_, h2⟩
  unfold allMatch
  rw [h1]

omit [DecidableEq N] [DecidableEq V] in
theorem idsOf_eq (w : SWorld E) (sh : StyleSheet Compiled Media.Selector C N T V X Y) (p : Provider) (e : E) :
    idsOf sh p (res w sh e) = sh.selectors.filterMap fun s =>
      if matchesSelector w s.1.selector.sel e = some true ∧ allMatch p s.1.media = true then some s.2 else none := by
  unfold idsOf res
  generalize sh.selectors = l
  induction l with
  | nil => rfl
  | cons s l ih => rw [List.map_cons, List.zip_cons_cons, List.filterMap_cons, List.filterMap_cons, ih]

theorem filterMap_congr' {α β : Type} {f g : α → Option β} : ∀ {l : List α}, (∀ x ∈ l, f x = g x) → l.filterMap f = l.filterMap g
  | [], _ => rfl
  | a :: l, h => by
    rw [List.filterMap_cons, List.filterMap_cons, h a (by simp), filterMap_congr' fun x hx => h x (by simp [hx])]

omit [DecidableEq N] [DecidableEq V] in
theorem ids_same {w : SWorld E} {sh : StyleSheet Compiled Media.Selector C N T V X Y} {p q : Provider} {e : E} {f : MediaChange.Flags}
    (hf : ∀ s ∈ sh.selectors, matchesSelector w s.1.selector.sel e = some true → Fewer (mediaRead p s.1.media) f)
    (h : SameFor f p q) : idsOf sh q (res w sh e) = idsOf sh p (res w sh e) := by
  rw [idsOf_eq, idsOf_eq]
  refine filterMap_congr' fun s hs => ?_
  by_cases hm : matchesSelector w s.1.selector.sel e = some true
  · rw [(allMatch_same (same_fewer (hf s hs hm) h)).1]
  · rw [if_neg (fun k => hm k.1), if_neg (fun k => hm k.1)]

omit [DecidableEq N] [DecidableEq V] in
theorem mediaFlags_all (w : SWorld E) (sh : StyleSheet Compiled Media.Selector C N T V X Y) (p : Provider) (e : E) :
    ∀ s ∈ sh.selectors, matchesSelector w s.1.selector.sel e = some true →
      Fewer (mediaRead p s.1.media) (mediaFlags sh p (res w sh e)) := by
  have key : ∀ (l : List (CssSelector Compiled Media.Selector × Nat)) (f0 : MediaChange.Flags),
      let g := (l.zip (l.map fun s => matchesSelector w s.1.selector.sel e)).foldl
        (fun f s => if s.2 = some true then f.union (mediaRead p s.1.1.media) else f) f0
      Fewer f0 g ∧ ∀ s ∈ l, matchesSelector w s.1.selector.sel e = some true → Fewer (mediaRead p s.1.media) g := by
    intro l
    induction l with
    | nil => intro f0; exact ⟨⟨id, id⟩, fun s hs => by cases hs⟩
    | cons a l ih =>
      intro f0
      rw [List.map_cons, List.zip_cons_cons, List.foldl_cons]
      obtain ⟨h1, h2⟩ := ih (if matchesSelector w a.1.selector.sel e = some true then f0.union (mediaRead p a.1.media) else f0)
      dsimp only at h1 h2 ⊢
      by_cases ha : matchesSelector w a.1.selector.sel e = some true
      · rw [if_pos ha] at h1 h2 ⊢
        obtain ⟨k1, k2⟩ := fewer_union_left h1
        refine ⟨k1, fun s hs hm => ?_⟩
        rcases List.mem_cons.mp hs with rfl | hs
        · exact k2
        · exact h2 s hs hm
      · rw [if_neg ha] at h1 h2 ⊢
        refine ⟨h1, fun s hs hm => ?_⟩
        rcases List.mem_cons.mp hs with rfl | hs
        · exact absurd hm ha
        · exact h2 s hs hm
  exact (key sh.selectors ⟨false, false⟩).2

/-! ## what is right about a node that is not marked -/

/-- rules and variables are as they would be calculated now, and changes would be noticed -/
structure Fine (st : Live E C N T V X Y) (e : E) (sh : StyleSheet Compiled Media.Selector C N T V X Y) : Prop where
  sheet : st.sheet e = some sh
  looks : Looks sh
  active : st.active e = idsOf sh (st.window e) (res st.world sh e)
  watched : ∀ x ∈ reads st.world (progOf st.world sh) [e], Watch st.world st.flags x e
  media : ∀ s ∈ sh.selectors, matchesSelector st.world s.1.selector.sel e = some true →
    Fewer (mediaRead (st.window e) s.1.media) (st.media e)
  vars : st.vars e = ownVars sh (st.active e) (st.inline e)

/-- the values that would be set now -/
def valuesNow (names : C → Option Nat) (unset : Nat → PropertyValue V) (st : Live E C N T V X Y) (e : E)
    (sh : StyleSheet Compiled Media.Selector C N T V X Y) : Nat → PropertyValue V :=
  (sh.getPropertyValues names (env st e) (st.active e) (st.inline e) unset).getD unset

/-- between frames; `decl`: the values set last -/
structure LInv (names : C → Option Nat) (unset : Nat → PropertyValue V) (st : Live E C N T V X Y)
    (decl : E → Option (Nat → PropertyValue V)) : Prop where
  ok : Consistent st.world
  fine : ∀ e ∈ st.world.styled, st.marker e = false → ∃ sh, Fine st e sh ∧ decl e = some (valuesNow names unset st e sh)

theorem notice_fine {names : C → Option Nat} {unset : Nat → PropertyValue V} {st : Live E C N T V X Y}
    {decl : E → Option (Nat → PropertyValue V)} (inv : LInv names unset st decl) {i : Input E C N T V X Y}
    (hb : Brings names unset st i) {e : E} (he : e ∈ st.world.styled)
    (hm : (notice i (begin i st)).marker e = false) :
    st.marker e = false ∧ i.modified e = false ∧ i.inline e = st.inline e ∧
      ∀ sh, Fine st e sh → Fine (notice i (begin i st)) e sh := by
  have hm' := hm
  simp only [notice, Invalidation.markChanged, Bool.or_eq_false_iff] at hm
  obtain ⟨hm1, hm4⟩ := hm
  simp only [begin, Bool.or_eq_false_iff] at hm1
  obtain ⟨⟨⟨⟨⟨h0, hmod⟩, hsw⟩, hmk⟩, hinfo⟩, hwin⟩ := hm1
  have hcont : st.world.styled.contains e = true := List.contains_iff_mem.mpr he
  simp only [begin, hcont, Bool.true_and] at hm4
  rw [← Bool.not_eq_true, List.contains_iff_mem] at hm4
  have hreset : (i.modified e || i.swapped e) = false := by rw [hmod, hsw]; rfl
  have hmark : ∀ x ∈ st.world.styled, (i.change x).data = true ∨ (i.change x).inline = true ∧ x = e →
      Watch st.world st.flags x e → False := by
    intro x hx hc hwx
    apply hm4
    rw [List.mem_flatMap]
    refine ⟨x, List.mem_filter.mpr ⟨hx, by rcases hc with hc | ⟨hc, _⟩ <;> simp [hc]⟩, ?_⟩
    have hrx : (i.modified x || i.swapped x) = false := by
      rw [watch_reset inv.ok (reset := fun x => i.modified x || i.swapped x) hb.trees hwx]; exact hreset
    unfold marksOf
    have h1 : (!(i.change x).data && !(st.marker x || i.modified x || i.swapped x || i.mark x ||
      ((i.mediaChange x).info && (st.media x).info) || ((i.mediaChange x).window && (st.media x).window)) && !(i.change x).inline) = false := by
      rcases hc with hc | ⟨hc, _⟩ <;> simp [hc]
    dsimp only
    rw [h1]
    simp only [hrx, Bool.false_eq_true, if_false, List.mem_append]
    have h2 : ((i.change x).data || (i.change x).inline) = true := by rcases hc with hc | ⟨hc, _⟩ <;> simp [hc]
    rw [if_pos h2]
    rcases hwx with h | ⟨h, h'⟩ | ⟨h, h'⟩ | ⟨h, h'⟩
    · exact .inl (.inl (.inl (by simp [h])))
    · exact .inl (.inl (.inr (by rw [if_pos h]; exact h')))
    · exact .inl (.inr (by rw [if_pos h]; exact h'))
    · exact .inr (by rw [if_pos h]; exact h')
  have hinl : i.inline e = st.inline e := by
    by_contra hne
    exact hmark e he (.inr ⟨hb.inl e he hne, rfl⟩) (.inl rfl)
  refine ⟨h0, hmod, hinl, fun sh hf => ?_⟩
  have hsame : ∀ x ∈ st.world.styled, Watch st.world st.flags x e → i.data x = st.world.data x := by
    intro x hx hwx
    by_contra hne
    exact hmark x hx (.inl (hb.data x hx hne)) hwx
  have hshape : SameShape st.world { st.world with data := i.data } := ⟨rfl, rfl, rfl, rfl⟩
  have hstyled : ∀ x ∈ reads st.world (progOf st.world sh) [e], x ∈ st.world.styled :=
    reads_styled st.world _ [e] (by simpa using he)
  have hdat : ∀ x ∈ reads st.world (progOf st.world sh) [e], ({ st.world with data := i.data } : SWorld E).data x = st.world.data x :=
    fun x hx => hsame x (hstyled x hx) (hf.watched x hx)
  obtain ⟨r1, r2⟩ := run_congr hshape (progOf st.world sh) [e] st.flags hdat
  have hprog : progOf ({ st.world with data := i.data } : SWorld E) sh = progOf st.world sh := rfl
  have hres : res { st.world with data := i.data } sh e = res st.world sh e := by
    rw [← prog_res _ hf.looks e st.flags, ← prog_res _ hf.looks e st.flags, hprog, r1]
  have hsel : ∀ s ∈ sh.selectors, matchesSelector { st.world with data := i.data } s.1.selector.sel e =
      matchesSelector st.world s.1.selector.sel e := List.map_inj_left.mp hres
  have hfeat : SameFor (st.media e) (st.window e) (i.window e) := by
    constructor
    · intro hw
      by_contra hne
      rw [hb.scheme e he hne, hw] at hwin
      cases hwin
    · intro hi
      by_contra hne
      rw [hb.info e he (by tauto), hi] at hinfo
      cases hinfo
  have hsheet : i.sheet e = some sh := by
    by_contra hne
    rw [hb.sheets e he sh hf.sheet hne] at hreset
    cases hreset
  refine ⟨hsheet, hf.looks, ?_, ?_, ?_, ?_⟩
  · show st.active e = idsOf sh (i.window e) (res { st.world with data := i.data } sh e)
    rw [hres, ids_same hf.media hfeat, hf.active]
  · intro x hx
    have hx : x ∈ reads ({ st.world with data := i.data } : SWorld E) (progOf st.world sh) [e] := hx
    rw [r2] at hx
    have hwx := hf.watched x hx
    have hrx : (i.modified x || i.swapped x) = false := by
      rw [watch_reset inv.ok (reset := fun x => i.modified x || i.swapped x) hb.trees hwx]; exact hreset
    show Watch { st.world with data := i.data } (fun x => if i.modified x || i.swapped x then Flags.empty else st.flags x) x e
    unfold Watch
    simp only [hrx, Bool.false_eq_true, if_false]
    exact hwx
  · intro s hs hmat
    have hmat : matchesSelector { st.world with data := i.data } s.1.selector.sel e = some true := hmat
    rw [hsel s hs] at hmat
    have h1 := hf.media s hs hmat
    show Fewer (mediaRead (i.window e) s.1.media) (if i.modified e || i.swapped e then ⟨false, false⟩ else st.media e)
    rw [hreset, (allMatch_same (same_fewer h1 hfeat)).2]
    exact h1
  · show (if i.modified e then fun _ => none else st.vars e) = ownVars sh (st.active e) (i.inline e)
    rw [hmod, hinl]
    exact hf.vars

/-! ## the calculation -/

/-- the flags after the loop -/
theorem calc_flags {st : Live E C N T V X Y} (ok : Consistent st.world)
    (hl : ∀ e sh, st.sheet e = some sh → Looks sh) (order : List E) (fl : FlagMap E) :
    Le fl (order.foldl (fun fl e => match due st e, st.sheet e with
      | true, some sh => (run st.world (progOf st.world sh) [e] fl).2
      | _, _ => fl) fl) ∧
    ∀ e ∈ order, ∀ sh, due st e = true → st.sheet e = some sh → ∀ x ∈ reads st.world (progOf st.world sh) [e],
      Watch st.world (order.foldl (fun fl e => match due st e, st.sheet e with
        | true, some sh => (run st.world (progOf st.world sh) [e] fl).2
        | _, _ => fl) fl) x e := by
  induction order generalizing fl with
  | nil => exact ⟨Le.refl _, fun e he => by cases he⟩
  | cons a as ih =>
    rw [List.foldl_cons]
    obtain ⟨i1, i2⟩ := ih (match due st a, st.sheet a with
      | true, some sh => (run st.world (progOf st.world sh) [a] fl).2
      | _, _ => fl)
    refine ⟨Le.trans ?_ i1, ?_⟩
    · split
      · exact run_mono _ _ _ _
      · exact Le.refl _
    · intro e he sh hd hs x hx
      rcases List.mem_cons.mp he with rfl | he
      · refine Watch.mono i1 ?_
        rw [hd, hs]
        exact reads_watched ok e _ [.self] [e] fl (.cons ⟨rfl, .inl rfl⟩ .nil) (prog_noticed _ (hl e sh hs)) x hx
      · exact i2 e he sh hd hs x hx

theorem fresh_some {st : Live E C N T V X Y} {e : E} {sh : StyleSheet Compiled Media.Selector C N T V X Y} (hd : due st e = true)
    (hs : st.sheet e = some sh) (hl : Looks sh) :
    fresh st e = some (idsOf sh (st.window e) (res st.world sh e), mediaFlags sh (st.window e) (res st.world sh e),
      ownVars sh (idsOf sh (st.window e) (res st.world sh e)) (st.inline e)) := by
  unfold fresh
  rw [if_pos hd, hs, Option.map_some]
  unfold matched
  rw [prog_res _ hl]

theorem fresh_none {st : Live E C N T V X Y} {e : E} (hd : due st e = false) : fresh st e = none := by
  unfold fresh
  rw [hd]; rfl

theorem calc_fine {st : Live E C N T V X Y} {i : Input E C N T V X Y} (ok : Consistent st.world)
    (hl : ∀ e sh, st.sheet e = some sh → Looks sh) (hv : ∀ e ∈ st.world.styled, e ∈ i.order) {e : E} (he : e ∈ st.world.styled) :
    (∀ sh, due st e = true → st.sheet e = some sh → Fine (calculate i st) e sh) ∧
    (∀ sh, due st e = false → Fine st e sh → Fine (calculate i st) e sh) := by
  obtain ⟨f1, f2⟩ := calc_flags ok hl i.order st.flags
  refine ⟨fun sh hd hs => ?_, fun sh hd hf => ?_⟩
  · have hfr := fresh_some hd hs (hl e sh hs)
    refine ⟨hs, hl e sh hs, ?_, ?_, ?_, ?_⟩
    · simp only [calculate]
      rw [hfr]
    · exact fun x hx => f2 e (hv e he) sh hd hs x hx
    · intro s hs' hmat
      have := mediaFlags_all st.world sh (st.window e) e s hs' hmat
      simp only [calculate]
      rw [hfr]
      unfold MediaChange.Flags.union Fewer at *
      simp only [Bool.or_eq_true]
      tauto
    · simp only [calculate]
      rw [hfr]
  · have hfr := fresh_none hd
    refine ⟨hf.sheet, hf.looks, ?_, ?_, ?_, ?_⟩
    · simp only [calculate]
      rw [hfr]
      exact hf.active
    · exact fun x hx => (hf.watched x hx).mono f1
    · intro s hs' hmat
      simp only [calculate]
      rw [hfr]
      exact hf.media s hs' hmat
    · simp only [calculate]
      rw [hfr]
      exact hf.vars

/-! ## no `unset` -/

/-- no property that inherits is `unset` -/
def Plain (unset out : Nat → PropertyValue V) : Prop := ∀ p, out p = .unset → unset p ≠ .inherit

theorem plain_set {unset out : Nat → PropertyValue V} (h : Plain unset out) {id : Nat} {v : PropertyValue V}
    (hv : v = .unset → unset id ≠ .inherit) : Plain unset (setIfNeq out id v) := by
  unfold setIfNeq
  split
  · exact h
  · intro p hp
    dsimp only at hp
    split at hp
    · rename_i e; subst e; exact hv hp
    · exact h p hp

theorem plain_fold {α : Type} {unset : Nat → PropertyValue V} {f : (Nat → PropertyValue V) → α → Option (Nat → PropertyValue V)} :
    ∀ (l : List α), (∀ a ∈ l, ∀ out out', Plain unset out → f out a = some out' → Plain unset out') →
    ∀ out out', Plain unset out → l.foldlM f out = some out' → Plain unset out'
  | [], _, out, out', h, e => by
    have : some out = some out' := e
    cases this; exact h
  | a :: l, hl, out, out', h, e => by
    rw [List.foldlM_cons] at e
    cases h1 : f out a with
    | none => rw [h1] at e; cases e
    | some o =>
      rw [h1] at e
      exact plain_fold l (fun b hb => hl b (by simp [hb])) o out' (hl a (by simp) out o h h1) e

theorem plain_values {names : C → Option Nat} {unset : Nat → PropertyValue V} (hu : ∀ p, unset p ≠ .unset)
    {sh : StyleSheet Compiled Media.Selector C N T V X Y} (hr : ∀ r ∈ sh.rulesets, NoUnset names unset r)
    {inl : Option (Ruleset (RProp C N T V) N T X Y)} (hi : ∀ r, inl = some r → NoUnset names unset r)
    (env : N → Option (VarTokens N T)) (ids : List Nat) :
    Plain unset ((sh.getPropertyValues names env ids inl unset).getD unset) := by
  have h0 : Plain unset unset := fun p hp => absurd hp (hu p)
  cases hv : sh.getPropertyValues names env ids inl unset with
  | none => exact h0
  | some out =>
    unfold StyleSheet.getPropertyValues at hv
    rw [Option.bind_eq_some_iff] at hv
    obtain ⟨rs, h1, h2⟩ := hv
    have hrs : ∀ r ∈ rs, NoUnset names unset r := by
      unfold StyleSheet.resolveRulesets at h1
      rw [Option.map_eq_some_iff] at h1
      obtain ⟨l, hl, rfl⟩ := h1
      intro r hr'
      rw [List.mem_append] at hr'
      rcases hr' with hr' | hr'
      · have : ∀ (ids : List Nat) (l : List (Ruleset (RProp C N T V) N T X Y)), ids.mapM (fun id => sh.rulesets[id]?) = some l →
            ∀ r ∈ l, r ∈ sh.rulesets := by
          intro ids
          induction ids with
          | nil => intro l hl r hr; cases hl; cases hr
          | cons a ids ih =>
            intro l hl r hr
            rw [List.mapM_cons] at hl
            cases ha : sh.rulesets[a]? with
            | none => rw [ha] at hl; cases hl
            | some x =>
              rw [ha] at hl
              cases hb : ids.mapM (fun id => sh.rulesets[id]?) with
              | none => rw [hb] at hl; cases hl
              | some y =>
                rw [hb] at hl
                cases hl
                rcases List.mem_cons.mp hr with rfl | hr
                · exact List.mem_of_getElem? ha
                · exact ih y hb r hr
        exact hr r (this ids l hl r hr')
      · exact hi r (by simpa using hr')
    refine plain_fold rs ?_ unset out h0 h2
    intro r hr' out out' hp he
    refine plain_fold r.properties ?_ out out' hp he
    intro p hp' out out' hp he
    have := hrs r hr' p hp'
    cases p with
    | specific id v =>
      simp only [RProp.apply, Option.some.injEq] at he
      subst he
      exact plain_set hp this
    | dynamic parser tokens =>
      dsimp only at this
      unfold RProp.apply at he
      dsimp only at he
      split at he
      · cases he; exact hp
      · split at he
        · cases he; exact hp
        · rename_i toks _ _ vals hpv
          refine plain_fold vals ?_ out out' hp he
          intro v hv out out' hp he
          rw [Option.map_eq_some_iff] at he
          obtain ⟨id, hid, rfl⟩ := he
          exact plain_set hp fun h => this toks vals hpv v hv h id hid

/-! ## one frame -/

/-- the declarations in force after a frame -/
def declNext (names : C → Option Nat) (unset : Nat → PropertyValue V) (st : Live E C N T V X Y)
    (decl : E → Option (Nat → PropertyValue V)) (e : E) : Option (Nat → PropertyValue V) :=
  (newValues names unset st e).or (decl e)

theorem env_same {s t : Live E C N T V X Y} {e : E} (hf : s.world.forest = t.world.forest) (hst : s.world.styled = t.world.styled)
    (hv : ∀ x, x = e ∨ x ∈ ancestors t.world.forest e → x ∈ t.world.styled → s.vars x = t.vars x) : env s e = env t e := by
  funext n
  unfold env getVarTokens
  rw [hf, hst]
  have : ∀ l : List E, (∀ x ∈ l, x ∈ t.world.styled → s.vars x = t.vars x) →
      l.findSome? (fun x => (if x ∈ t.world.styled then some (s.vars x) else none : Option (N → Option (VarTokens N T))).bind
        fun g => g n) =
      l.findSome? (fun x => (if x ∈ t.world.styled then some (t.vars x) else none : Option (N → Option (VarTokens N T))).bind
        fun g => g n) := by
    intro l hl
    induction l with
    | nil => rfl
    | cons x l ih =>
      rw [List.findSome?_cons, List.findSome?_cons, ih fun y hy => hl y (List.mem_cons_of_mem _ hy)]
      by_cases hx : x ∈ t.world.styled
      · rw [hl x List.mem_cons_self hx]
      · simp [hx]
  exact this _ fun x hx => hv x (by simpa using hx)

theorem due_iff {st : Live E C N T V X Y} {e : E} (he : e ∈ st.world.styled) :
    due st e = true ↔ st.marker e = true ∧ ∃ sh, st.sheet e = some sh := by
  simp [due, he, Option.isSome_iff_exists]

theorem below_anc {f : Forest E} {m : E → Bool} (h : ∀ x p, f.parent x = some p → m p = true → m x = true) {a e : E}
    (ha : f.Anc a e) (hm : m a = true) : m e = true := by
  induction ha with
  | child b hb => exact h _ _ hb hm
  | step p b _ hb ih => exact h _ _ hb ih

theorem anc_node {f : Forest E} (wf : f.WF) {x e : E} (ha : f.Anc x e) : x ∈ f.nodes := by
  induction ha with
  | child b hb => exact (wf.parent_mem _ _ hb).1
  | step p b _ _ ih => exact ih

theorem frame_inv [DecidableEq (Nat → ComputedValue V)] {names : C → Option Nat} {s : Inherit.Static Nat V} {roots : List E}
    {st : Live E C N T V X Y} {decl : E → Option (Nat → PropertyValue V)} (inv : LInv names s.unset st decl)
    {i : Input E C N T V X Y} (hb : Brings names s.unset st i) :
    LInv names s.unset (Live.frame names s roots st i)
      (declNext names s.unset (calculate i (notice i (begin i st))) decl) := by
  generalize h2 : notice i (begin i st) = s2
  have w2 : s2.world = { st.world with data := i.data } := by rw [← h2]; rfl
  have ok2 : Consistent s2.world := by rw [w2]; exact ⟨inv.ok.wf, inv.ok.prev, inv.ok.next⟩
  have sh2 : s2.sheet = i.sheet := by rw [← h2]; rfl
  have hl : ∀ e sh, s2.sheet e = some sh → Looks sh := by
    intro e sh h
    rw [sh2] at h
    exact hb.looks e sh h
  have hv : ∀ e ∈ s2.world.styled, e ∈ i.order := by
    rw [w2]; exact hb.visited
  have hframe : Live.frame names s roots st i = settle names s roots i (calculate i s2) := by
    unfold Live.frame; rw [h2]
  rw [hframe]
  refine ⟨ok2, ?_⟩
  intro e he hm
  have he2 : e ∈ s2.world.styled := he
  have he0 : e ∈ st.world.styled := by rw [w2] at he2; exact he2
  have hm : ((calculate i s2).marker e && !due (calculate i s2) e) = false := hm
  obtain ⟨c1, c2⟩ := calc_fine ok2 hl hv he2
  -- the rules and variables
  have hmono : s2.marker e = true → (calculate i s2).marker e = true := by
    intro h; simp only [calculate, h, Bool.true_or]
  have hfine : ∃ sh, Fine (calculate i s2) e sh := by
    by_cases hs2 : s2.marker e = true
    · have h3 := hmono hs2
      rw [h3, Bool.true_and, Bool.not_eq_false'] at hm
      obtain ⟨_, sh, hsh⟩ := (due_iff (st := calculate i s2) he).mp hm
      have hsh : s2.sheet e = some sh := hsh
      exact ⟨sh, c1 sh ((due_iff he2).mpr ⟨hs2, sh, hsh⟩) hsh⟩
    · rw [Bool.not_eq_true] at hs2
      obtain ⟨h0, _, _, h4⟩ := notice_fine inv hb he0 (by rw [h2]; exact hs2)
      obtain ⟨sh, hf, _⟩ := inv.fine e he0 h0
      rw [h2] at h4
      have hd : due s2 e = false := by
        rw [← Bool.not_eq_true, due_iff he2, hs2]; simp
      exact ⟨sh, c2 sh hd (h4 sh hf)⟩
  obtain ⟨sh, hf⟩ := hfine
  refine ⟨sh, ⟨hf.sheet, hf.looks, hf.active, hf.watched, hf.media, hf.vars⟩, ?_⟩
  -- the values
  show declNext names s.unset (calculate i s2) decl e = some (valuesNow names s.unset (calculate i s2) e sh)
  unfold declNext newValues
  by_cases hd3 : due (calculate i s2) e = true
  · rw [if_pos hd3, hf.sheet]; rfl
  · rw [if_neg hd3, Option.none_or]
    rw [Bool.not_eq_true] at hd3
    rw [hd3] at hm
    have hm3 : (calculate i s2).marker e = false := by simpa using hm
    have hs2 : s2.marker e = false := by
      rw [← Bool.not_eq_true]; intro h; rw [hmono h] at hm3; cases hm3
    obtain ⟨h0, hmod, hinl, h4⟩ := notice_fine inv hb he0 (by rw [h2]; exact hs2)
    obtain ⟨sh', hf', hdecl⟩ := inv.fine e he0 h0
    rw [h2] at h4
    have hsh' : sh' = sh := by
      have e1 := (h4 sh' hf').sheet
      have e2 : s2.sheet e = some sh := hf.sheet
      rw [e1] at e2
      exact Option.some.inj e2
    subst hsh'
    have hd2 : due s2 e = false := by
      rw [← Bool.not_eq_true, due_iff he2, hs2]; simp
    have hact : (calculate i s2).active e = st.active e := by
      simp only [calculate]
      rw [fresh_none hd2]
      rw [← h2]; rfl
    have hinl3 : (calculate i s2).inline e = st.inline e := by
      have : (calculate i s2).inline e = i.inline e := by
        show s2.inline e = _
        rw [← h2]; rfl
      rw [this, hinl]
    have henv : env (calculate i s2) e = env st e := by
      refine env_same (by show s2.world.forest = _; rw [w2]) (by show s2.world.styled = _; rw [w2]) ?_
      intro x hx hxs
      have hmx : i.modified x = false := by
        rcases hx with rfl | hx
        · exact hmod
        · rw [← Bool.not_eq_true]
          intro hmx
          have hanc : st.world.forest.Anc x e := (mem_ancestors inv.ok.wf e x).1 hx
          have : i.modified e = true := below_anc hb.below hanc hmx
          rw [this] at hmod; cases hmod
      have hv2 : s2.vars x = st.vars x := by
        rw [← h2]
        show (if i.modified x then fun _ => none else st.vars x) = _
        rw [hmx]; rfl
      rw [← hv2]
      simp only [calculate]
      cases hfx : fresh s2 x with
      | none => rfl
      | some t =>
        obtain ⟨a, b, v⟩ := t
        dsimp only
        by_contra hne
        rcases hx with rfl | hx
        · rw [fresh_none hd2] at hfx; cases hfx
        · have hanc : st.world.forest.Anc x e := (mem_ancestors inv.ok.wf e x).1 hx
          have hforest : s2.world.forest = st.world.forest := by rw [w2]
          have hnode : x ∈ st.world.forest.nodes := anc_node inv.ok.wf hanc
          have : (calculate i s2).marker e = true := by
            simp only [calculate, Bool.or_eq_true, Bool.and_eq_true, decide_eq_true_eq]
            refine .inr ⟨he2, ?_⟩
            rw [List.contains_iff_mem, List.mem_flatMap]
            refine ⟨x, List.mem_filter.mpr ⟨by rw [hforest]; exact hnode, ?_⟩, ?_⟩
            · rw [hfx]; simpa using hne
            · rw [hforest]; exact (Invalidation.mem_descendants inv.ok.wf x e).mpr hanc
          rw [this] at hm3; cases hm3
    rw [hdecl]
    unfold valuesNow
    rw [henv, hact, hinl3]

/-- what the histories keep -/
structure Kept (names : C → Option Nat) (s : Inherit.Static Nat V) (roots : List E) (st : Live E C N T V X Y)
    (decl : E → Option (Nat → PropertyValue V)) [DecidableEq (Nat → ComputedValue V)] : Prop where
  inv : LInv names s.unset st decl
  rootsOk : Inherit.RootsOK st.world.forest roots
  styled : ∀ e, Under st.world.forest roots e → e ∈ st.world.styled
  reach : Reach s (fun m => ∀ p, m p = .unset → s.unset p ≠ .inherit) st.nodes st.world.forest roots decl

theorem frame_kept [DecidableEq (Nat → ComputedValue V)] {names : C → Option Nat} {s : Inherit.Static Nat V}
    (hs : ∀ p, s.unset p ≠ .unset) {roots : List E}
    {st : Live E C N T V X Y} {decl : E → Option (Nat → PropertyValue V)} (k : Kept names s roots st decl)
    {i : Input E C N T V X Y} (hb : Brings names s.unset st i) :
    Kept names s roots (Live.frame names s roots st i)
      (declNext names s.unset (calculate i (notice i (begin i st))) decl) := by
  refine ⟨frame_inv k.inv hb, k.rootsOk, k.styled, ?_⟩
  show Reach s _ (Inherit.frame s i.oracle st.world.forest roots
    (newValues names s.unset (calculate i (notice i (begin i st))))
    (@decide (∃ e, (newValues names s.unset (calculate i (notice i (begin i st))) e).isSome) (Classical.propDecidable _))
    (begin i st).nodes) st.world.forest roots _
  refine .frame st.nodes st.world.forest roots decl (begin i st).nodes st.world.forest roots _ _ i.oracle _ k.reach
    k.inv.ok.wf k.rootsOk ?_ ?_ ?_
  · intro e he
    have hes := k.styled e he
    obtain ⟨n, hn, _⟩ := C16_follow_parent_partial s hs _ _ _ _ k.reach e he
    have hb2 : ∃ n, (begin i st).nodes e = some n := by
      show ∃ n, (if i.modified e then (st.nodes e).map fun _ => resetNode else st.nodes e) = some n
      rw [hn]
      split <;> exact ⟨_, rfl⟩
    obtain ⟨n', hn'⟩ := hb2
    refine ⟨n', hn', ?_⟩
    cases hu : newValues names s.unset (calculate i (notice i (begin i st))) e with
    | some m => exact .inl ⟨by simp, by simp [declNext, hu]⟩
    | none =>
      have hmod : i.modified e = false := by
        rw [← Bool.not_eq_true]
        intro hm
        have hd : due (calculate i (notice i (begin i st))) e = true := by
          refine (due_iff (st := calculate i (notice i (begin i st))) hes).mpr ⟨?_, ?_⟩
          · simp [calculate, notice, Invalidation.markChanged, begin, hm]
          · exact Option.ne_none_iff_exists'.mp (hb.there e hes hm)
        obtain ⟨sh, hsh⟩ := Option.ne_none_iff_exists'.mp (hb.there e hes hm)
        have hsh : (calculate i (notice i (begin i st))).sheet e = some sh := hsh
        unfold newValues at hu
        rw [if_pos hd, hsh] at hu
        cases hu
      have hkeep : ∀ x, i.modified x = false → (begin i st).nodes x = st.nodes x := by
        intro x hx
        show (if i.modified x then (st.nodes x).map fun _ => resetNode else st.nodes x) = _
        rw [hx]; rfl
      refine .inr (.inr ⟨rfl, by simp [declNext, hu], he, rfl, hkeep e hmod, ?_⟩)
      intro q hq
      refine hkeep q ?_
      rw [← Bool.not_eq_true]
      intro hm
      rw [hb.below e q hq hm] at hmod; cases hmod
  · intro h e
    by_contra hne
    simp only [decide_eq_false_iff_not] at h
    exact h ⟨e, by rw [Option.isSome_iff_ne_none]; exact hne⟩
  · intro e m hm
    unfold newValues at hm
    split at hm
    · rw [Option.map_eq_some_iff] at hm
      obtain ⟨sh, h1, rfl⟩ := hm
      exact plain_values hs (hb.rulesets e sh h1) (hb.inlines e) _ _
    · cases hm

theorem run_kept [DecidableEq (Nat → ComputedValue V)] {names : C → Option Nat} {s : Inherit.Static Nat V}
    (hs : ∀ p, s.unset p ≠ .unset) {roots : List E} {st : Live E C N T V X Y} (h : LiveRun names s roots st) :
    ∃ decl, Kept names s roots st decl := by
  induction h with
  | start st hb =>
    refine ⟨fun _ => none, ⟨hb.ok, fun e he hm => ?_⟩, ⟨hb.nodup, hb.top⟩, hb.styled, .start _ _ _ ⟨hb.nodup, hb.top⟩ hb.clean⟩
    rw [hb.marked e he] at hm; cases hm
  | frame st i _ hb ih =>
    obtain ⟨decl, k⟩ := ih
    exact ⟨_, frame_kept hs k hb⟩

end Flair.Proofs.Live
