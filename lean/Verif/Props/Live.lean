import Verif.Proofs.Live
import Verif.Props.Page
/-!
# C96: after any history, what is computed is what is written
-/
namespace Flair.Props
open Flair.Tree Flair.Selector Flair.Nesting Flair.Spec Flair.Sheet Flair.Loader Flair.Vars Flair.Values Flair.Media Flair.Page Flair.SheetTree
  Flair.Live
variable {E C N T V X Y : Type} [DecidableEq E] [DecidableEq N] [DecidableEq V]

/-- What the systems would read if they began anew in the state `st`, with the sheets `sheet`. -/
def pageOf (st : Live E C N T V X Y) (sheet : E → StyleSheet Compiled Media.Selector C N T V X Y) : Page E C N T V X Y :=
  ⟨st.world, st.window, sheet, st.inline⟩

/-- After any history of frames, if the sheets are loaded: no node is marked, and each has the rules, the variables, the
resolver and the declared values that one recalculation of the whole page gives; and the computed values are those that
are inherited from these, although in each frame only the nodes that were marked were recalculated. -/
theorem C96_recalculated_partial [DecidableEq (Nat → ComputedValue V)] (names : C → Option Nat) (s : Inherit.Static Nat V)
    (hs : ∀ p, s.unset p ≠ .unset) (roots : List E) (st : Live E C N T V X Y) (h : LiveRun names s roots st)
    (i : Input E C N T V X Y) (hb : Brings names s.unset st i)
    (sheet : E → StyleSheet Compiled Media.Selector C N T V X Y) (hsheet : ∀ e ∈ st.world.styled, i.sheet e = some (sheet e)) :
    let now := Live.frame names s roots st i
    let page := pageOf now sheet
    (now.world = { st.world with data := i.data } ∧ now.window = i.window ∧ now.inline = i.inline) ∧
    (∀ e ∈ st.world.styled, now.marker e = false ∧ now.active e = page.rules e ∧
      now.vars e = (page.vars e).getD (fun _ => none) ∧ env now e = page.env e) ∧
    ∀ e, Under st.world.forest roots e → ∃ n, now.nodes e = some n ∧
      ∀ p, Inherited s.unset s.initial st.world.forest (fun e => some ((page.values names s.unset e).getD s.unset)) p e
        (n.computed p) := by
  intro now page
  obtain ⟨decl0, k0⟩ := Proofs.Live.run_kept hs h
  have k : Proofs.Live.Kept names s roots now _ := Proofs.Live.frame_kept hs k0 hb
  generalize Proofs.Live.declNext names s.unset (calculate i (notice i (begin i st))) decl0 = decl at k
  have hnow : now.sheet = i.sheet := rfl
  have hmark : ∀ e ∈ st.world.styled, now.marker e = false := by
    intro e he
    have hsome : ((calculate i (notice i (begin i st))).sheet e).isSome = true := by
      show (i.sheet e).isSome = true
      rw [hsheet e he]; rfl
    have hst : e ∈ (calculate i (notice i (begin i st))).world.styled := he
    show ((calculate i (notice i (begin i st))).marker e && !due (calculate i (notice i (begin i st))) e) = false
    unfold due
    rw [hsome, decide_eq_true hst]
    cases (calculate i (notice i (begin i st))).marker e <;> rfl
  have hfine : ∀ e ∈ st.world.styled, Proofs.Live.Fine now e (sheet e) ∧
      decl e = some (Proofs.Live.valuesNow names s.unset now e (sheet e)) := by
    intro e he
    obtain ⟨sh, hf, hd⟩ := k.inv.fine e he (hmark e he)
    have h1 := hf.sheet
    rw [hnow, hsheet e he] at h1
    cases h1
    exact ⟨hf, hd⟩
  have hrules : ∀ e ∈ st.world.styled, now.active e = page.rules e := by
    intro e he
    rw [(hfine e he).1.active, Proofs.Live.idsOf_eq]
    unfold Page.rules StyleSheet.matchingIds
    refine Proofs.Live.filterMap_congr' fun s _ => ?_
    have : (page.accepts e s.1 = true) ↔
        (matchesSelector now.world s.1.selector.sel e = some true ∧ allMatch (now.window e) s.1.media = true) := by
      simp only [Page.accepts, Bool.and_eq_true, decide_eq_true_eq]
      rfl
    by_cases hc : page.accepts e s.1 = true
    · rw [if_pos hc, if_pos (this.mp hc)]
    · rw [if_neg hc, if_neg (fun h => hc (this.mpr h))]
  have hvars : ∀ e ∈ st.world.styled, now.vars e = (page.vars e).getD (fun _ => none) := by
    intro e he
    rw [(hfine e he).1.vars, hrules e he]
    have he' : e ∈ page.world.styled := he
    unfold Page.vars
    rw [if_pos he']
    rfl
  have henv : ∀ e, env now e = page.env e := by
    intro e
    funext n
    unfold env Page.env getVarTokens
    show List.findSome? _ (e :: ancestors st.world.forest e) = List.findSome? _ (e :: ancestors st.world.forest e)
    congr 1
    funext x
    show (if x ∈ st.world.styled then some (now.vars x) else none : Option (N → Option (VarTokens N T))).bind (fun m => m n) = _
    by_cases hx : x ∈ st.world.styled
    · rw [if_pos hx, hvars x hx]
      cases page.vars x <;> rfl
    · have : page.vars x = none := by
        unfold Page.vars
        exact if_neg hx
      rw [if_neg hx, this]
  refine ⟨⟨rfl, rfl, rfl⟩, fun e he => ⟨hmark e he, hrules e he, hvars e he, henv e⟩, fun e he => ?_⟩
  obtain ⟨n, h1, h2⟩ := C16_follow_parent_partial s hs _ _ _ _ k.reach e he
  refine ⟨n, h1, fun p => Inherit.Inherited_congr (h2 p) fun x hx => ?_⟩
  have hxs : x ∈ st.world.styled := by
    rcases hx with rfl | hx
    · exact k.styled x he
    · exact k.styled x (Inherit.Under_anc k.rootsOk he hx)
  rw [(hfine x hxs).2]
  unfold Proofs.Live.valuesNow Page.values
  rw [henv x, hrules x hxs]
  rfl

/-- After any history: if the sheets in effect are those loaded from the sources that are written, and so the inline styles,
then every node has the variables, the resolver and the declared values CSS gives for what is written and for what the
elements and windows are *now*, and the computed values that are inherited from these. -/
theorem C96_css_partial [DecidableEq (Nat → ComputedValue V)] (names : C → Option Nat) (typeOk : Nat → V → Bool)
    (ph : V → PropertyValue V) (hph : PhDone ph) (mode : ErrorMode) (hmode : mode ≠ .returnError) (s : Inherit.Static Nat V)
    (hs : ∀ p, s.unset p ≠ .unset) (roots : List E) (st : Live E C N T V X Y) (h : LiveRun names s roots st)
    (i : Input E C N T V X Y) (hb : Brings names s.unset st i)
    (ok : ElementsOk { st.world with data := i.data }) (text : Text E C N T V X Y)
    (ht : TextOk names typeOk ph { st.world with data := i.data } text)
    (hload : ∀ e ∈ st.world.styled, ∃ sh,
      loadTree names typeOk (·.spec) ph replaceAmp ampSel mode (text.src e) = some (some sh) ∧ i.sheet e = some sh)
    (hinl : ∀ e, InlineOf names (text.inl e) (i.inline e)) :
    let now := Live.frame names s roots st i
    ∃ decl : E → Nat → PropertyValue V,
      Styled names ph s.unset { st.world with data := i.data } i.window text now.vars (env now) decl ∧
      ∀ e, Under st.world.forest roots e → ∃ n, now.nodes e = some n ∧
        ∀ p, Inherited s.unset s.initial st.world.forest (fun e => some (decl e)) p e (n.computed p) := by
  intro now
  obtain ⟨sheet, h1, h2⟩ := C95_page_partial names typeOk ph hph mode hmode _ ok text ht
  have hsheet : ∀ e ∈ st.world.styled, i.sheet e = some (sheet e) := by
    intro e he
    obtain ⟨sh, l1, l3⟩ := hload e he
    rw [h1 e] at l1; cases l1
    exact l3
  obtain ⟨decl, d1, d2, _⟩ := h2 i.inline hinl i.window s.unset
  obtain ⟨_, r1, r2⟩ := C96_recalculated_partial names s hs roots st h i hb sheet hsheet
  obtain ⟨decl0, k0⟩ := Proofs.Live.run_kept hs h
  have hpage : pageOf (Live.frame names s roots st i) sheet = ⟨{ st.world with data := i.data }, i.window, sheet, i.inline⟩ := rfl
  rw [hpage] at r1 r2
  refine ⟨decl, ⟨?_, ?_, ?_⟩, ?_⟩
  · intro e he
    obtain ⟨ms, a1, a2⟩ := d2.own e he
    refine ⟨ms, a1, fun n => ?_⟩
    have := a2 n
    show Cascade _ _ _ n ((Live.frame names s roots st i).vars e n)
    rw [(r1 e he).2.2.1]
    revert this
    dsimp only
    cases (Page.mk { st.world with data := i.data } i.window sheet i.inline).vars e <;> exact id
  · intro e he n
    have := d2.seen e he n
    show NearestDef _ _ e (env (Live.frame names s roots st i) e n)
    rw [(r1 e he).2.2.2]
    have heq : (fun x => if x ∈ st.world.styled then now.vars x n else none) =
        fun x => if x ∈ st.world.styled then
          ((Page.mk { st.world with data := i.data } i.window sheet i.inline).vars x).bind (· n) else none := by
      funext x
      by_cases hx : x ∈ st.world.styled
      · rw [if_pos hx, if_pos hx, (r1 x hx).2.2.1]
        cases (Page.mk { st.world with data := i.data } i.window sheet i.inline).vars x <;> rfl
      · rw [if_neg hx, if_neg hx]
    show NearestDef st.world.forest (fun x => if x ∈ st.world.styled then now.vars x n else none) e _
    rw [heq]
    exact this
  · intro e he
    obtain ⟨ms, minl, a1, a2, a3⟩ := d2.declared e he
    have henv : env now e = _ := (r1 e he).2.2.2
    exact ⟨ms, minl, by rw [henv]; exact a1, by rw [henv]; exact a2, a3⟩
  · intro e he
    obtain ⟨n, n1, n2⟩ := r2 e he
    refine ⟨n, n1, fun p => Inherit.Inherited_congr (n2 p) fun x hx => ?_⟩
    have hxs : x ∈ st.world.styled := by
      rcases hx with rfl | hx
      · exact k0.styled x he
      · exact k0.styled x (Inherit.Under_anc k0.rootsOk he hx)
    rw [(d1 x hxs).2]
    rfl

/-! ## Example -/

/-- `.a` -/
private def liveA : Compiled := compiled (.subject (.cons (.cls "a") .nil))
/-- `.a > label` -/
private def liveL : Compiled := compiled (.link (.subject (.cons (.cls "a") .nil)) .child (.cons (.localName "label") .nil))
/-- what a value with a variable gives -/
private def liveParse (ts : List Nat) : Option (List (PropRef Nat × PropertyValue Nat)) := ts.head?.map fun t => [(.id 0, .value t)]
/-- `.a { --9: 7 }  .a > label { 0: var(--9) }` -/
private def liveSrc : List (Src Compiled Media.Selector Nat Nat Nat Nat Nat Nat) :=
  [.rule (some [liveA]) [.decls [.var 9 [.token 7]]],
   .rule (some [liveL]) [.decls [.prop (.dynamic liveParse [.var 9])]]]
/-- its sheet -/
private def liveSheet : StyleSheet Compiled Media.Selector Nat Nat Nat Nat Nat Nat :=
  ⟨[⟨[(9, [.token 7])], [], [], []⟩, ⟨[], [.dynamic liveParse [.var 9]], [], []⟩], [(⟨[], [], liveA⟩, 0), (⟨[], [], liveL⟩, 1)]⟩
private def liveBuilder : Builder Compiled Media.Selector Nat Nat Nat Nat Nat Nat :=
  ⟨[], [⟨[(9, [.token 7])], [], [], []⟩, ⟨[], [.dynamic liveParse [.var 9]], [], []⟩], [(⟨[], [], liveA⟩, 0), (⟨[], [], liveL⟩, 1)]⟩

private theorem liveLoad : loadStylesheet replaceAmp ampSel .printError liveSrc = some (some liveBuilder) := by
  have h : processAll replaceAmp (parseItems ampSel ⟨[], []⟩ liveSrc) (Builder.new, 0) = some (liveBuilder, 0) := by
    have hd : ∀ l, Layers.defineLayer l [] = some l := fun l => by rw [Layers.defineLayer, if_pos rfl]
    simp only [liveSrc, parseItems, parseItem, parseBody, processAll, process, processRuleset, processBody,
      Option.map_some, List.map_cons, List.map_nil, Builder.addCssSelectors, Builder.addCssSelector, List.foldlM_cons,
      List.foldlM_nil, hd]
    rfl
  have he : liveBuilder.removeEmptyFrom 0 = some liveBuilder := by
    rw [Builder.removeEmptyFrom, dif_pos (by decide), if_neg (by simp [liveBuilder, Ruleset.isEmpty])]
    rw [Builder.removeEmptyFrom, dif_pos (by decide), if_neg (by simp [liveBuilder, Ruleset.isEmpty])]
    rw [Builder.removeEmptyFrom, dif_neg (by decide)]
  rw [loadStylesheet, h, Option.bind_some]
  show (if 0 > 0 ∧ _ then _ else Option.map some (liveBuilder.removeEmptyFrom 0)) = _
  rw [he]
  simp

private theorem liveBuild : liveBuilder.build (fun _ => none) (fun _ _ => true) (·.spec) .value = some (.ok liveSheet) := by
  have h1 : liveBuilder.firstOrphan = none := by decide
  have h2 : liveBuilder.selectors.mergeSort (selectorLe liveBuilder.layers (·.spec)) = liveBuilder.selectors := by
    apply List.mergeSort_of_pairwise
    decide
  rw [Builder.build, h1]
  dsimp only
  rw [h2]
  rfl

private theorem liveTree : loadTree (fun _ => none) (fun _ _ => true) (·.spec) .value replaceAmp ampSel .printError
    [.own liveSrc] = some (some liveSheet) := by
  have h : loadImported (fun _ => none) (fun _ _ => true) (·.spec) .value replaceAmp ampSel [.own liveSrc] =
      some (some liveSrc) := by
    simp only [loadImported, Option.map_some, List.append_nil]
  unfold loadTree
  rw [h]
  dsimp only
  unfold finish
  rw [liveLoad]
  dsimp only
  rw [liveBuild]

/-- A panel (0) of the classes `c`, with a label (1) and a button (2) with a label (3) -/
private def liveWorld (c : List String) : SWorld (Fin 4) :=
  fourWorld (fun x => if x = 0 then [1, 2] else if x = 2 then [3] else [])
    (fun x => if x = 0 then none else if x = 3 then some 2 else some 0) fun x =>
    if x = 0 then { isRoot := true, classes := c }
    else if x = 2 then { typeName := some "button", id := some "b" }
    else { typeName := some "label" }

private theorem liveWorld_ok (c : List String) : ElementsOk (liveWorld c) :=
  fourWorld_ok (by decide) (by decide) (by decide) (by
    intro x
    have : x = 0 ∨ x = 1 ∨ x = 2 ∨ x = 3 := by revert x; decide
    rcases this with rfl | rfl | rfl | rfl <;> simp)

private def liveWindow : Provider := ⟨none, none, none, none⟩

/-- nothing is loaded -/
private def liveStart : Live (Fin 4) Nat Nat Nat Nat Nat Nat :=
  ⟨liveWorld ["a"], fun _ => liveWindow, fun _ => none, fun _ => none, fun _ => Invalidation.Flags.empty,
    fun _ => ⟨false, false⟩, fun _ => true, fun _ => [], fun _ _ => none, fun _ => some resetNode⟩

/-- the sheet is loaded, the panel has the classes `c`, and those of the nodes in `changed` are reported -/
private def liveInput (c : List String) (changed : List (Fin 4)) : Live.Input (Fin 4) Nat Nat Nat Nat Nat Nat where
  data := (liveWorld c).data
  window _ := liveWindow
  sheet _ := some liveSheet
  inline _ := none
  change x := ⟨changed.contains x, false, false⟩
  mediaChange _ := ⟨false, false⟩
  modified _ := false
  swapped _ := false
  mark _ := false
  order := [0, 1, 2, 3]
  oracle := ⟨fun _ => false, fun _ _ => false⟩

private def liveText : Text (Fin 4) Nat Nat Nat Nat Nat Nat := ⟨fun _ => [.own liveSrc], fun _ => [], fun _ => []⟩

private theorem liveBrings {st : Live (Fin 4) Nat Nat Nat Nat Nat Nat} {c d : List String} {changed : List (Fin 4)}
    (hw : st.world = liveWorld c) (hwin : ∀ x, st.window x = liveWindow) (hinl : ∀ x, st.inline x = none)
    (hsh : ∀ x, st.sheet x = none ∨ st.sheet x = some liveSheet) (h : c = d ∨ (0 : Fin 4) ∈ changed) :
    Brings (fun _ => none) (fun _ => .inherit) st (liveInput d changed) where
  data x _ hne := by
    rw [hw] at hne
    have all : ∀ x : Fin 4, x = 0 ∨ x = 1 ∨ x = 2 ∨ x = 3 := by decide
    have := all x
    rcases h with rfl | h
    · exact absurd rfl hne
    · rcases this with rfl | rfl | rfl | rfl
      · simpa [liveInput] using h
      all_goals exact absurd rfl hne
  inl x _ hne := absurd (hinl x).symm hne
  scheme x _ hne := absurd (by rw [hwin]; rfl) hne
  info x _ hne := by rw [hwin] at hne; simp [liveInput] at hne
  visited x _ := all4 x
  sheets x _ sh h1 h2 := by
    rcases hsh x with h | h
    · rw [h] at h1; cases h1
    · rw [h] at h1; exact absurd h1 h2
  trees _ _ _ := rfl
  below _ _ _ h := h
  there _ _ h := by cases h
  looks x sh h s hs := by
    cases h
    simp only [liveSheet, List.mem_cons, List.not_mem_nil, or_false] at hs
    rcases hs with rfl | rfl <;> simp [liveA, liveL, compiled, WatchSel, WatchCompound, WatchSimple]
  rulesets x sh h r hr := by
    cases h
    simp only [liveSheet, List.mem_cons, List.not_mem_nil, or_false] at hr
    rcases hr with rfl | rfl
    · intro p hp; cases hp
    · intro p hp
      simp only [List.mem_singleton] at hp
      subst hp
      intro ts vals hv v hm he
      simp only [liveParse, Option.map_eq_some_iff] at hv
      obtain ⟨t, _, rfl⟩ := hv
      simp only [List.mem_singleton] at hm
      subst hm
      cases he
  inlines _ _ h := by cases h

/-- A history: the sheet is loaded; then the panel loses its class, so that its label has no value any more.  All that
`C96_css_partial` expects is met. -/
example [DecidableEq (Nat → ComputedValue Nat)] :
    let s : Inherit.Static Nat Nat := ⟨fun _ => .inherit, fun _ => 0⟩
    let st1 := Live.frame (fun _ => none) s [0] liveStart (liveInput ["a"] [])
    LiveRun (fun _ => none) s [0] st1 ∧
    Brings (fun _ => none) s.unset st1 (liveInput [] [0]) ∧
    ElementsOk { st1.world with data := (liveInput [] [0]).data } ∧
    TextOk (fun _ => none) (fun _ _ => true) .value { st1.world with data := (liveInput [] [0]).data } liveText ∧
    (∀ e ∈ st1.world.styled, ∃ sh, loadTree (fun _ => none) (fun _ _ => true) (·.spec) .value replaceAmp ampSel .printError
      (liveText.src e) = some (some sh) ∧ (liveInput [] [0]).sheet e = some sh) ∧
    ∀ e, InlineOf (fun _ => none) (liveText.inl e) ((liveInput [] [0]).inline e) := by
  intro s st1
  refine ⟨.frame _ _ (.start _ ⟨?_, by decide, by decide, fun e _ => all4 e, fun _ _ => rfl, fun _ _ => rfl⟩)
    (liveBrings rfl (fun _ => rfl) (fun _ => rfl) (fun _ => .inl rfl) (.inl rfl)),
    liveBrings (c := ["a"]) rfl (fun _ => rfl) (fun _ => rfl) (fun _ => .inr rfl) (.inr (by simp)), liveWorld_ok [], ?_,
    fun e _ => ⟨_, liveTree, rfl⟩, fun e => rfl⟩
  · have h := (liveWorld_ok ["a"]).sound
    refine ⟨h.wf, by decide, by decide⟩
  · constructor
    · intro e; simp [liveText, liveSrc, TreeProper, Proper, BodyProper]
    · intro e
      simp only [TreeHistory, treeLayers, liveText, liveSrc, docLayers, bodyLayers, List.append_nil]
      decide
    · intro e; simp [liveText, Tolerated]
    · intro e
      simp [TreeSource, liveText, liveSrc, liveA, liveL, SourceOk, BodyOk, SelectorOk, compiled, SelOk, CompoundOk, SimpleOk, FlatSel, FlatCompound, FlatSimple,
        FreeSel, FreeCompound, FreeSimple, aim, selWeight, compoundWeight, simpleWeight, Weight.Small, Weight.plus, Weight.zero]
    · intro e m hm
      simp only [liveText, liveSrc, treeMeant, docMeant, bodyMeant, List.map_cons, List.map_nil, List.append_nil, List.cons_append, List.nil_append,
        List.mem_cons, List.not_mem_nil, or_false] at hm
      rcases hm with rfl | rfl
      · simp [DeclOk, RefsOk]
      · simp only [DeclOk, RefsOk, true_and]
        intro ts vals hv v hm
        simp only [liveParse, Option.map_eq_some_iff] at hv
        obtain ⟨t, _, rfl⟩ := hv
        simp only [List.mem_singleton] at hm
        subst hm
        simp [resolveRef]
    · intro e d hd
      cases hd
end Flair.Props
