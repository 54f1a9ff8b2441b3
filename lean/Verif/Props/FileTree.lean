import Verif.Proofs.FileTree2
import Verif.Props.File
/-!
# C102: what the files on a disk say
-/
namespace Flair.Props
set_option linter.unusedSectionVars false
open Flair.File Flair.Spec Flair.Sheet Flair.Layers Flair.Vars Flair.Values Flair.Loader Flair.SheetTree
open Flair.Proofs.File Flair.Proofs.FileTree
variable {S M C N T V A B : Type} [DecidableEq N] [DecidableEq V]

section
variable (p : Parsers S M C N T V A B) (rp : S → List S → S) (amp : S) (env : BuildEnv S C V) (mode : Text → ErrorMode)
  (disk : Text → Option (List Node))

/-- C102.  A file of a disk that loads, with everything it imports: there is one and only one way to read the files
(`FileTree`), and every element gets, for each property, for each variable, and for whatever its transition and animation
declarations assign, the winner of the cascade over the declarations of all the files, one by one in the order in which
they would be written if each `@import` were replaced by the contents of the file, in its layer (`treeDecls`).  All these
declarations are acceptable, and no file that asks for it (`ReturnError`) has an error in its rules. -/
theorem C102_files (hph : PhDone env.ph) (hs : SomeSelectors p)
    (hd : ∀ path nodes, disk path = some nodes → PlainLayers nodes) (f : Nat) (path : Text) (o : FSheet S M C N T V A B)
    (h : loadFile p rp amp env mode disk f path = some (.loaded o)) :
    ∃ parts ds, FileTree p mode disk path parts ∧ (∀ parts', FileTree p mode disk path parts' → parts' = parts) ∧
      TreeHistory rp amp parts ds ∧
      (mode path = .returnError → ¬ FileError parts) ∧ Tolerated parts ∧
      (∀ r ∈ treeDecls rp amp parts, ∀ d ∈ r.decls, DeclOk env.names env.typeOk env.ph d) ∧
      ∀ (isMatch : CssSelector S M → Bool) (inl : List (FDecl C N T V A B))
        (inline : Option (Ruleset (RProp C N T V) N T (TDecl B) (ADecl A))) (_ : InlineOf env.names inl inline),
        (∀ (vars : N → Option (VarTokens N T)) (ms : List (MRule Nat (PropertyValue V)))
          (_ : List.Forall₂ (SeenAs env.spec isMatch (Gives env.names env.ph vars)) (treeDecls rp amp parts) ms)
          (minl : List (List (Nat × PropertyValue V)))
          (_ : List.Forall₂ (Gives env.names .value vars) inl minl) (init : Nat → PropertyValue V),
          ∃ out, o.base.getPropertyValues env.names vars (o.base.matchingIds isMatch) inline init = some out ∧
            ∀ p, ∃ w, Cascade ds ms minl p w ∧ out p = w.getD (init p)) ∧
        (∀ (ms : List (MRule N (VarTokens N T)))
          (_ : List.Forall₂ (SeenAs env.spec isMatch (fun d l => l = givesVars d)) (treeDecls rp amp parts) ms),
          ∃ vars, o.base.getVars (o.base.matchingIds isMatch) inline = some vars ∧
            ∀ n, Cascade ds ms (inl.map givesVars) n (vars.get? n)) ∧
        (∀ (K W : Type) [DecidableEq K] (eff : TDecl B → List (K × W)) (ms : List (MRule K W))
          (_ : List.Forall₂ (SeenAs env.spec isMatch (fun d l => l = (givesTransitions d).flatMap eff))
            (treeDecls rp amp parts) ms),
          ∃ xs, o.base.getTransitions (o.base.matchingIds isMatch) inline = some xs ∧
            ∀ k, Cascade ds ms (inl.map fun d => (givesTransitions d).flatMap eff) k (lastWrite (xs.flatMap eff) k)) ∧
        ∀ (K W : Type) [DecidableEq K] (eff : ADecl A → List (K × W)) (ms : List (MRule K W))
          (_ : List.Forall₂ (SeenAs env.spec isMatch (fun d l => l = (givesAnimations d).flatMap eff))
            (treeDecls rp amp parts) ms),
          ∃ ys, o.base.getAnimations (o.base.matchingIds isMatch) inline = some ys ∧
            ∀ k, Cascade ds ms (inl.map fun d => (givesAnimations d).flatMap eff) k (lastWrite (ys.flatMap eff) k) := by
  obtain ⟨parts, ht, hl⟩ := file_tree f path o h
  obtain ⟨hp, hlay⟩ := tree_proper rp amp hs hd ht
  obtain ⟨ds, hds⟩ := history_of hlay
  obtain ⟨_, h2, h3⟩ := C101_tree env.names env.typeOk env.spec env.ph rp amp hph (mode path) parts hp ds hds
  obtain ⟨a, b, c⟩ := h2.mp ⟨_, hl⟩
  exact ⟨parts, ds, ht, fun parts' h' => tree_unique h' _ ht, hds, a, b, c, h3 _ hl⟩

/-- no file is refused -/
private theorem tolerated_of (hm : StrictOk p mode disk) {path : Text} {parts}
    (h : FileTree p mode disk path parts) : Tolerated parts := by
  refine FileTree.rec (motive_1 := fun _ parts _ => Tolerated parts) (motive_2 := fun _ parts _ => Tolerated parts)
    ?_ ?_ ?_ ?_ ?_ h
  · intro path nodes parts _ _ ih; exact ih
  · rw [Tolerated]; trivial
  · intro n u l ns parts rest _ hf _ ih1 ih2
    rw [Tolerated]
    refine ⟨fun e => ?_, ih1, ih2⟩
    have hf' := hf
    cases hf' with
    | file _ nodes _ hd _ => exact (hm u nodes parts e hd hf).2
  · intro n ns rest _ _ ih; exact ih
  · intro n ns rest _ _ _ ih
    rw [Tolerated]
    exact ih

/-- C102, the other direction: a file loads when all the files can be found (and do not import each other in a circle),
none of them has anything the loader crashes on (see C82), those that ask for errors to be returned have none (`StrictOk`),
and every declaration is acceptable. -/
theorem C102_loads (hph : PhDone env.ph) (hs : SomeSelectors p) (hc : CalmParsers p)
    (hd : ∀ path nodes, disk path = some nodes → PlainLayers nodes ∧ HarmlessFile nodes ∧ WholeFile nodes)
    (hm : StrictOk p mode disk) (path : Text) (parts : List (Part S M C N T V (TDecl B) (ADecl A)))
    (h : FileTree p mode disk path parts)
    (hok : ∀ r ∈ treeDecls rp amp parts, ∀ d ∈ r.decls, DeclOk env.names env.typeOk env.ph d) :
    ∃ f o, loadFile p rp amp env mode disk f path = some (.loaded o) := by
  have hacc := tree_noCycle h
  induction hacc generalizing parts with
  | intro path _ ih =>
    cases h with
    | file _ nodes _ hp hn =>
      have himp : ∀ u ∈ extractImports nodes, ∃ f r, loadFile p rp amp env mode disk f u = some r ∧ ∃ o, r = .loaded o := by
        intro u hu
        obtain ⟨n, hnn, hi⟩ := extractImports_iff.mp hu
        obtain ⟨ps, hps, hps2⟩ := tree_imports (names := env.names) (typeOk := env.typeOk) (ph := env.ph) rp amp hn n hnn u hi
        obtain ⟨f, o, ho⟩ := ih u ⟨nodes, hp, n, hnn, hi⟩ ps hps (hps2 hok)
        exact ⟨f, _, ho, o, rfl⟩
      obtain ⟨f, hf⟩ := common_fuel (Q := fun _ r => ∃ o, r = .loaded o) _ himp
      obtain ⟨m, hmm⟩ := loadImports_total (load := loadFile p rp amp env mode disk f) (extractImports nodes) [] (by
        intro u hu
        obtain ⟨r, h1, o, rfl⟩ := hf u hu
        exact ⟨o, h1⟩)
      have hload : loadFile p rp amp env mode disk (f + 1) path = some (loadWith p rp amp env (mode path) m.get? nodes) := by
        rw [loadFile, hp]
        simp only [hmm]
      have hcalm := C82_no_crash_partial p hc rp amp env mode disk (fun path nodes h => (hd path nodes h).2) (f + 1) path
      rw [hload] at hcalm
      cases hw : loadWith p rp amp env (mode path) m.get? nodes with
      | panic => exact absurd (congrArg some hw) hcalm
      | loaded o => exact ⟨f + 1, o, by rw [hload, hw]⟩
      | error =>
        exfalso
        have hget := loadImports_get hmm
        have hprev : ∀ u o, m.get? u = some o → ∃ parts, FileTree p mode disk u parts ∧
            loadTree env.names env.typeOk env.spec env.ph rp amp (mode u) parts = some (some o.base) := by
          intro u o ho
          by_cases hu : u ∈ extractImports nodes
          · obtain ⟨s, s1, s2⟩ := hget.1 u hu
            rw [ho] at s2
            cases s2
            exact file_tree f u o s1
          · rw [hget.2 u hu] at ho
            cases ho
        obtain ⟨parts', ht, hl⟩ : ∃ parts', FileTree p mode disk path parts' ∧
            loadTree env.names env.typeOk env.spec env.ph rp amp (mode path) parts' = some none := by
          by_cases hmode : mode path = .returnError
          · exact with_tree_error_strict hprev hp (hm path nodes parts hmode hp (.file path nodes parts hp hn)).1 hw
          · exact with_tree_error hprev hp hmode hw
        have e := tree_unique ht _ (.file path nodes parts hp hn)
        subst e
        obtain ⟨hpr, hlay⟩ := tree_proper rp amp hs (fun path nodes h => (hd path nodes h).1) ht
        obtain ⟨ds, hds⟩ := history_of hlay
        obtain ⟨_, h2, _⟩ := C101_tree env.names env.typeOk env.spec env.ph rp amp hph (mode path) parts' hpr ds hds
        obtain ⟨sh, hsh⟩ := h2.mpr ⟨fun e => (hm path nodes parts' e hp ht).2, tolerated_of p mode disk hm ht, hok⟩
        rw [hl] at hsh
        cases hsh
end

/-! ## Example -/

theorem within_nil {n : Node} : ¬ Within n [] := by
  intro h
  match h with
  | .here _ _ h => cases h
  | .inRule _ _ _ _ _ h1 _ => cases h1
  | .inBlock _ _ _ _ _ h1 _ => cases h1

theorem within_step {n m : Node} {ns : List Node} : Within n (m :: ns) ↔ Within n [m] ∨ Within n ns := by
  constructor
  · intro h
    match h with
    | .here _ _ h =>
      rcases List.mem_cons.mp h with rfl | h
      · exact Or.inl (.here _ _ List.mem_cons_self)
      · exact Or.inr (.here _ _ h)
    | .inRule _ l p b _ h1 h2 =>
      rcases List.mem_cons.mp h1 with rfl | h1
      · exact Or.inl (.inRule _ _ _ _ _ List.mem_cons_self h2)
      · exact Or.inr (.inRule _ _ _ _ _ h1 h2)
    | .inBlock _ l p b _ h1 h2 =>
      rcases List.mem_cons.mp h1 with rfl | h1
      · exact Or.inl (.inBlock _ _ _ _ _ List.mem_cons_self h2)
      · exact Or.inr (.inBlock _ _ _ _ _ h1 h2)
  · rintro (h | h)
    · exact within_mono (by simp) h
    · exact within_cons h

theorem within_qualified {n : Node} {l p b} : Within n [.qualified l p b] ↔ n = .qualified l p b ∨ Within n b := by
  constructor
  · intro h
    match h with
    | .here _ _ h => exact Or.inl (by simpa using h)
    | .inRule _ _ _ _ _ h1 h2 => simp only [List.mem_singleton, Node.qualified.injEq] at h1; obtain ⟨_, _, rfl⟩ := h1; exact Or.inr h2
    | .inBlock _ _ _ _ _ h1 _ => simp at h1
  · rintro (rfl | h)
    · exact .here _ _ (by simp)
    · exact .inRule _ l p b _ (by simp) h

theorem within_at {n : Node} {l p b} : Within n [.atRule l p (some b)] ↔ n = .atRule l p (some b) ∨ Within n b := by
  constructor
  · intro h
    match h with
    | .here _ _ h => exact Or.inl (by simpa using h)
    | .inBlock _ _ _ _ _ h1 h2 => simp only [List.mem_singleton, Node.atRule.injEq, Option.some.injEq] at h1; obtain ⟨_, _, rfl⟩ := h1; exact Or.inr h2
    | .inRule _ _ _ _ _ h1 _ => simp at h1
  · rintro (rfl | h)
    · exact .here _ _ (by simp)
    · exact .inBlock _ l p b _ (by simp) h

theorem within_leaf {n m : Node} (h1 : ∀ l p b, m ≠ .qualified l p b) (h2 : ∀ l p b, m ≠ .atRule l p (some b)) :
    Within n [m] ↔ n = m := by
  constructor
  · intro h
    match h with
    | .here _ _ h => simpa using h
    | .inBlock _ _ _ _ _ h _ => exact absurd (List.mem_singleton.mp h).symm (h2 _ _ _)
    | .inRule _ _ _ _ _ h _ => exact absurd (List.mem_singleton.mp h).symm (h1 _ _ _)
  · rintro rfl
    exact .here _ _ (by simp)

/-- `a.css`: `@import "b.css" layer(base); a { w: abc }`. -/
private def fileA : List Node :=
  [.atRule "import".toList [.string "b.css".toList, .func "layer".toList [.ident "base".toList]] none,
   .qualified none [.ident "a".toList] [.declaration "w".toList [.ident "abc".toList]]]

/-- `b.css`: `a { w: a } @layer l { a { w: ab } }` and a rule that cannot be read. -/
private def fileB : List Node :=
  [.qualified none [.ident "a".toList] [.declaration "w".toList [.ident "a".toList]],
   .atRule "layer".toList [.ident "l".toList] (some [.qualified none [.ident "a".toList] [.declaration "w".toList [.ident "ab".toList]]]),
   .bad]

private def diskAB : Text → Option (List Node) := fun path =>
  if path = "a.css".toList then some fileA else if path = "b.css".toList then some fileB else none

private theorem disk_cases {path : Text} {nodes : List Node} (h : diskAB path = some nodes) : nodes = fileA ∨ nodes = fileB := by
  unfold diskAB at h
  split at h
  · cases h; exact Or.inl rfl
  · split at h
    · cases h; exact Or.inr rfl
    · cases h

/-- Parsers that read a property `w` whose value is the length of a word. -/
def lengthParsers : Parsers Unit Unit Unit Unit Unit Nat Unit Unit :=
  ⟨fun _ _ => some [()], fun _ => none,
    fun _ ts => match ts with | [.ident s] => .ok [.specific 7 (.value s.length)] | _ => .err,
    fun _ => none, fun _ => (), fun _ _ => .err, fun _ _ => .err⟩

def lengthEnv : BuildEnv Unit Unit Nat := ⟨fun _ => none, fun _ _ => true, fun _ => 0, .value⟩

/-- the errors of the first file are returned -/
private def modeAB (u : Text) : ErrorMode := if u = "a.css".toList then .returnError else .printWarn

private def partsA : List (Part Unit Unit Unit Unit Unit Nat (TDecl Unit) (ADecl Unit)) :=
  [.sheet (some "base".toList) (modeAB "b.css".toList)
    [.own [.rule (some [()]) [.decls [.prop (.specific (.id 7) (.value 1))]]],
     .own [.layerBlock ["l".toList] [.rule (some [()]) [.decls [.prop (.specific (.id 7) (.value 2))]]]],
     .own [.error]],
   .own [.rule (some [()]) [.decls [.prop (.specific (.id 7) (.value 3))]]]]

theorem read_w (s : Text) (n : Nat) (hn : s.length = n) :
    readRule lengthParsers (.qualified none [.ident "a".toList] [.declaration "w".toList [.ident s]]) =
      .rule (some [()]) [.decls [.prop (.specific (.id 7) (.value n))]] := by
  subst hn
  simp [readRule, readBody, readItem, readDecl, lengthParsers, declared, RProp.toBProp, lower]

private theorem goodA : PlainLayers fileA ∧ HarmlessFile fileA ∧ WholeFile fileA := by
  have hA : ∀ n, Within n fileA ↔ n ∈ fileA ∨ n = .declaration "w".toList [.ident "abc".toList] := by
    intro n
    unfold fileA
    rw [within_step, within_leaf (by simp) (by simp), within_qualified, within_leaf (by simp) (by simp)]
    simp [or_assoc]
  have hw : HarmlessName "w".toList := ⟨Or.inl (by decide), Or.inl (by decide)⟩
  have hnA : ∀ s, NameIn s [.string "b.css".toList, .func "layer".toList [.ident "base".toList]] → s = "base".toList := by
    intro s h
    cases h with
    | direct _ h => simp at h
    | inside f args _ h h' => simp at h; obtain ⟨_, rfl⟩ := h; simpa using h'
  have hl : ∀ name prelude block, Within (.atRule name prelude block) fileA →
      prelude = [.string "b.css".toList, .func "layer".toList [.ident "base".toList]] := by
    intro name prelude block h
    rcases (hA _).mp h with h | h
    · simp only [fileA, List.mem_cons, List.not_mem_nil, or_false, reduceCtorEq, Node.atRule.injEq] at h
      exact h.2.1
    · cases h
  refine ⟨?_, ⟨?_, ?_, ?_, ?_⟩, ⟨?_, ?_⟩⟩
  · intro name prelude block h _ s hs
    rw [hl _ _ _ h] at hs
    rw [hnA s hs]
    decide
  · intro name value h
    rcases (hA _).mp h with h | h
    · simp [fileA] at h
    · cases h; exact Or.inr hw
  · intro name prelude block h
    rcases (hA _).mp h with h | h
    · simp [fileA] at h
    · cases h
  · intro name prelude block h _ s hs
    rw [hl _ _ _ h] at hs
    rw [hnA s hs]
    unfold NoDot
    decide
  · intro name h
    rcases (hA _).mp h with h | h
    · simp [fileA] at h
    · cases h
  · intro name block h
    simp [fileA] at h
  · rw [show fileA.filterMap keyframesName = [] from rfl]; exact List.nodup_nil

private theorem goodB : PlainLayers fileB ∧ HarmlessFile fileB ∧ WholeFile fileB := by
  have hB : ∀ n, Within n fileB ↔ n ∈ fileB ∨ n = .declaration "w".toList [.ident "a".toList] ∨
      n = .declaration "w".toList [.ident "ab".toList] ∨
      n = .qualified none [.ident "a".toList] [.declaration "w".toList [.ident "ab".toList]] := by
    intro n
    unfold fileB
    rw [within_step, within_qualified, within_leaf (by simp) (by simp), within_step, within_at, within_qualified,
      within_leaf (by simp) (by simp), within_leaf (by simp) (by simp)]
    simp only [List.mem_cons, List.not_mem_nil, or_false]
    tauto
  have hw : HarmlessName "w".toList := ⟨Or.inl (by decide), Or.inl (by decide)⟩
  have hnB : ∀ s, NameIn s [.ident "l".toList] → s = "l".toList := by
    intro s h
    cases h with
    | direct _ h => simpa using h
    | inside f args _ h h' => simp at h
  have hl : ∀ name prelude block, Within (.atRule name prelude block) fileB → prelude = [.ident "l".toList] := by
    intro name prelude block h
    rcases (hB _).mp h with h | h | h | h
    · simp only [fileB, List.mem_cons, List.not_mem_nil, or_false, reduceCtorEq, Node.atRule.injEq, false_or] at h
      exact h.2.1
    · cases h
    · cases h
    · cases h
  refine ⟨?_, ⟨?_, ?_, ?_, ?_⟩, ⟨?_, ?_⟩⟩
  · intro name prelude block h _ s hs
    rw [hl _ _ _ h] at hs
    rw [hnB s hs]
    decide
  · intro name value h
    rcases (hB _).mp h with h | h | h | h
    · simp [fileB] at h
    · cases h; exact Or.inr hw
    · cases h; exact Or.inr hw
    · cases h
  · intro name prelude block h
    rcases (hB _).mp h with h | h | h | h
    · simp [fileB] at h
    · cases h
    · cases h
    · cases h
  · intro name prelude block h _ s hs
    rw [hl _ _ _ h] at hs
    rw [hnB s hs]
    unfold NoDot
    decide
  · intro name h
    rcases (hB _).mp h with h | h | h | h
    · simp [fileB] at h
    · cases h
    · cases h
    · cases h
  · intro name block h
    simp [fileB] at h
  · rw [show fileB.filterMap keyframesName = [] from rfl]; exact List.nodup_nil

private theorem treeA : FileTree lengthParsers modeAB diskAB "a.css".toList partsA := by
  have hq : ∀ l ts b, (∀ u k, ¬ ImportsAs (.qualified l ts b) u k) := by
    intro l ts b u k h
    cases h
  refine .file _ fileA _ (if_pos rfl) (.imported _ _ _ _ _ _ (.layer _ _ _ _ _ (by decide) (Or.inl rfl) (by decide))
    (.file _ fileB _ (by unfold diskAB; rw [if_neg (by decide), if_pos rfl]) ?_) ?_)
  · have := NodesTree.own (p := lengthParsers) (mode := modeAB) (disk := diskAB) _ _ _
      (hq none [.ident "a".toList] [.declaration "w".toList [.ident "a".toList]]) (fun h => h)
      (.own (.atRule "layer".toList [.ident "l".toList] (some [.qualified none [.ident "a".toList] [.declaration "w".toList [.ident "ab".toList]]]))
        _ _ (by intro u k h; cases h) (by rintro (⟨h, _⟩ | ⟨h, _⟩) <;> exact absurd h (by decide))
        (.own .bad _ _ (by intro u k h; cases h) (fun h => h) .nil))
    rw [read_w _ 1 rfl] at this
    have hb : readRule lengthParsers (.atRule "layer".toList [.ident "l".toList] (some [.qualified none [.ident "a".toList] [.declaration "w".toList [.ident "ab".toList]]])) =
        .layerBlock ["l".toList] [.rule (some [()]) [.decls [.prop (.specific (.id 7) (.value 2))]]] := by
      rw [readRule, if_neg (by decide), if_pos (by decide)]
      simp only [oneName, readRules, read_w "ab".toList 2 rfl]
    rw [hb, show readRule lengthParsers .bad = .error by rw [readRule]] at this
    exact this
  · have := NodesTree.own (p := lengthParsers) (mode := modeAB) (disk := diskAB) _ _ _
      (hq none [.ident "a".toList] [.declaration "w".toList [.ident "abc".toList]]) (fun h => h) .nil
    rw [read_w _ 3 rfl] at this
    exact this

/-- The files load, although the errors of the first one are returned (the second one has an error): the hypotheses of both
theorems hold for them. -/
example : SomeSelectors lengthParsers ∧ CalmParsers lengthParsers ∧ StrictOk lengthParsers modeAB diskAB ∧
    (∀ path nodes, diskAB path = some nodes → PlainLayers nodes ∧ HarmlessFile nodes ∧ WholeFile nodes) ∧
    FileTree lengthParsers modeAB diskAB "a.css".toList partsA ∧
    treeDecls (fun s _ => s) () partsA =
      [⟨[⟨"base".toList, [], ()⟩], [.prop (.specific (.id 7) (.value 1))]⟩,
       ⟨[⟨"base.l".toList, [], ()⟩], [.prop (.specific (.id 7) (.value 2))]⟩,
       ⟨[⟨[], [], ()⟩], [.prop (.specific (.id 7) (.value 3))]⟩] ∧
    ∃ f o, loadFile lengthParsers (fun s _ => s) () lengthEnv modeAB diskAB f "a.css".toList = some (.loaded o) := by
  have h1 : SomeSelectors lengthParsers := by intro _ _ h; cases h
  have h2 : CalmParsers lengthParsers := by
    refine ⟨?_, (by intro _ _ h; cases h), (by intro _ _ h; cases h)⟩
    intro name ts h
    simp only [lengthParsers] at h
    split at h <;> cases h
  have h3 : ∀ path nodes, diskAB path = some nodes → PlainLayers nodes ∧ HarmlessFile nodes ∧ WholeFile nodes := by
    intro path nodes h
    rcases disk_cases h with rfl | rfl
    · exact goodA
    · exact goodB
  have h5 : treeDecls (fun s _ => s) () partsA =
      [⟨[⟨"base".toList, [], ()⟩], [.prop (.specific (.id 7) (.value 1))]⟩,
       ⟨[⟨"base.l".toList, [], ()⟩], [.prop (.specific (.id 7) (.value 2))]⟩,
       ⟨[⟨[], [], ()⟩], [.prop (.specific (.id 7) (.value 3))]⟩] := by
    simp [partsA, treeDecls, docDecls, bodyDecls, nestName, inLayer]
  have h4 : StrictOk lengthParsers modeAB diskAB := by
    intro path nodes parts hm hd ht
    have hp : path = "a.css".toList := by
      unfold modeAB at hm
      split at hm
      · assumption
      · cases hm
    subst hp
    have hn : nodes = fileA := by
      rw [show diskAB "a.css".toList = some fileA from if_pos rfl] at hd
      cases hd; rfl
    subst hn
    have e : parts = partsA := tree_unique ht _ treeA
    subst e
    refine ⟨?_, ?_⟩
    rotate_left
    · simp only [partsA, FileError, or_false]
      intro h
      cases h with
      | inBody _ _ h =>
        cases h with
        | later _ h => cases h
      | later _ h => cases h
    intro n hn ha
    simp only [fileA, List.mem_cons, List.not_mem_nil, or_false] at hn
    rcases hn with rfl | rfl <;> simp [ApartRule] at ha
  refine ⟨h1, h2, h4, h3, treeA, h5, C102_loads _ _ _ _ _ _ (fun _ _ _ => rfl) h1 h2 h3 h4 _ _ treeA ?_⟩
  rw [h5]
  intro r hr d hd
  simp only [List.mem_cons, List.not_mem_nil, or_false] at hr
  rcases hr with rfl | rfl | rfl <;> simp only [List.mem_singleton] at hd <;> subst hd <;> exact ⟨7, rfl, fun _ _ _ _ => rfl⟩

end Flair.Props
