import Verif.Props.FileTree
/-!
# C108: a style sheet given as a text in the code
-/
namespace Flair.Props
set_option linter.unusedSectionVars false
open Flair.File Flair.Spec Flair.Sheet Flair.Layers Flair.Vars Flair.Values Flair.Loader Flair.SheetTree
open Flair.Proofs.File Flair.Proofs.FileTree
variable {S M C N T V A B : Type} [DecidableEq N] [DecidableEq V]

section
variable (p : Parsers S M C N T V A B) (rp : S → List S → S) (amp : S) (env : BuildEnv S C V)

/-- C108: a text without `@import` gives the same sheet, or fails in the same way, as a file with this text whose errors are
returned (so that C102 tells what it means); a text with an `@import` is an error. -/
theorem C108_as_file (nodes : List Node) :
    ((∀ n ∈ nodes, ∀ u, ¬ ImportRule n u) → ∀ (disk : Text → Option (List Node)) (path : Text) (fuel : Nat),
      disk path = some nodes →
      loadFile p rp amp env (fun _ => .returnError) disk (fuel + 1) path = some (loadInline p rp amp env nodes)) ∧
    ((∃ n ∈ nodes, ∃ u, ImportRule n u) → loadInline p rp amp env nodes = .error) := by
  constructor
  · intro h disk path fuel hd
    have he : extractImports nodes = [] := by
      rw [List.eq_nil_iff_forall_not_mem]
      intro u hu
      obtain ⟨n, hn, hi⟩ := extractImports_iff.mp hu
      exact h n hn u hi
    rw [loadFile, hd]
    simp only [he, loadImports, loadInline, List.isEmpty_nil, if_true]
    rfl
  · rintro ⟨n, hn, u, hi⟩
    unfold loadInline
    rw [if_neg]
    intro he
    have := extractImports_iff.mpr ⟨n, hn, hi⟩
    rw [List.isEmpty_iff.mp he] at this
    cases this

/-- the parts of a text without imports -/
private theorem inline_tree {mode : Text → ErrorMode} {disk : Text → Option (List Node)} :
    ∀ nodes : List Node, (∀ n ∈ nodes, ∀ u, ¬ ImportRule n u) → NodesTree p mode disk nodes (ownRules p nodes) := by
  intro nodes
  induction nodes with
  | nil => intro _; exact .nil
  | cons n ns ih =>
    intro h1
    have ih' := ih (fun m hm => h1 m (List.mem_cons_of_mem _ hm))
    by_cases ha : ApartRule n
    · have e : ownRules p (n :: ns) = ownRules p ns := by
        unfold ownRules
        rw [List.filter_cons_of_neg (by simpa using ha)]
      rw [e]
      exact .apart _ _ _ ha ih'
    · have e : ownRules p (n :: ns) = .own [readRule p n] :: ownRules p ns := by
        unfold ownRules
        rw [List.filter_cons_of_pos (by simpa using ha)]
        rfl
      rw [e]
      exact .own _ _ _ (fun u l hi => h1 n List.mem_cons_self u (importsAs_rule hi)) ha ih'

private theorem inline_tolerated (nodes : List Node) : Tolerated (ownRules p nodes) := by
  have : ∀ l : List Node, Tolerated (l.map fun n => Part.own (S := S) (X := TDecl B) (Y := ADecl A) [readRule p n]) := by
    intro l
    induction l with
    | nil => rw [List.map_nil, Tolerated]; trivial
    | cons n ns ih => rw [List.map_cons, Tolerated]; exact ih
  exact this _

/-- C108 (partial: for texts without what crashes the loader, see C82): a text is accepted exactly if it has no `@import`,
no error in any of its rules (`@font-face` and `@keyframes` too), and all its declarations are acceptable; and it is accepted
or refused, nothing else. -/
theorem C108_accepts_partial (hph : PhDone env.ph) (hs : SomeSelectors p) (hc : CalmParsers p) (nodes : List Node)
    (hd : PlainLayers nodes ∧ HarmlessFile nodes ∧ WholeFile nodes) :
    ((∃ o, loadInline p rp amp env nodes = .loaded o) ↔
      (∀ n ∈ nodes, ∀ u, ¬ ImportRule n u) ∧ (∀ n ∈ nodes, ApartRule n → CleanRule p n) ∧
      ¬ FileError (ownRules p nodes) ∧
      ∀ r ∈ treeDecls rp amp (ownRules p nodes), ∀ d ∈ r.decls,
        DeclOk env.names env.typeOk env.ph d) ∧
    ((∃ o, loadInline p rp amp env nodes = .loaded o) ∨ loadInline p rp amp env nodes = .error) := by
  have hcalm := C82_no_crash_inline_partial p hc rp amp env nodes hd.2.1 hd.2.2
  have himp : ∀ u o, (fun _ => none : Text → Option (FSheet S M C N T V A B)) u = some o →
      ∃ parts, FileTree p (fun _ => .returnError) (fun _ => some nodes) u parts ∧
        loadTree env.names env.typeOk env.spec env.ph rp amp .returnError parts = some (some o.base) := by
    intro u o h; cases h
  have key : (∀ n ∈ nodes, ∀ u, ¬ ImportRule n u) →
      FileTree p (fun _ => .returnError) (fun _ => some nodes) [] (ownRules p nodes) ∧
      loadInline p rp amp env nodes = loadWith p rp amp env .returnError (fun _ => none) nodes ∧
      ((∃ sh, loadTree env.names env.typeOk env.spec env.ph rp amp .returnError
        (ownRules p nodes) = some (some sh)) ↔
        ¬ FileError (ownRules p nodes) ∧
        ∀ r ∈ treeDecls rp amp (ownRules p nodes), ∀ d ∈ r.decls,
          DeclOk env.names env.typeOk env.ph d) := by
    intro h
    have ht : FileTree p (fun _ => .returnError) (fun _ => some nodes) [] (ownRules p nodes) :=
      .file _ _ _ rfl (inline_tree p nodes h)
    refine ⟨ht, ?_, ?_⟩
    · unfold loadInline
      rw [if_pos]
      rw [List.isEmpty_iff, List.eq_nil_iff_forall_not_mem]
      intro u hu
      obtain ⟨n, hn, hi⟩ := extractImports_iff.mp hu
      exact h n hn u hi
    · obtain ⟨hp, hlay⟩ := tree_proper rp amp hs (fun path ns h => by cases h; exact hd.1) ht
      obtain ⟨ds, hds⟩ := history_of hlay
      obtain ⟨_, h2, _⟩ := C101_tree env.names env.typeOk env.spec env.ph rp amp hph .returnError _ hp ds hds
      rw [h2]
      constructor
      · rintro ⟨a, _, c⟩; exact ⟨a rfl, c⟩
      · rintro ⟨a, c⟩; exact ⟨fun _ => a, inline_tolerated p nodes, c⟩
  constructor
  · constructor
    · rintro ⟨o, ho⟩
      have h1 : ∀ n ∈ nodes, ∀ u, ¬ ImportRule n u := by
        intro n hn u hi
        rw [(C108_as_file p rp amp env nodes).2 ⟨n, hn, u, hi⟩] at ho
        cases ho
      obtain ⟨ht, he, hiff⟩ := key h1
      rw [he] at ho
      obtain ⟨parts, k1, k2⟩ := with_tree (mode := fun _ => .returnError) (disk := fun _ => some nodes) (path := [])
        himp rfl ho
      have e := tree_unique k1 _ ht
      subst e
      exact ⟨h1, loaded_clean ho, hiff.mp ⟨_, k2⟩⟩
    · rintro ⟨h1, hna, h2⟩
      obtain ⟨ht, he, hiff⟩ := key h1
      obtain ⟨sh, hsh⟩ := hiff.mpr h2
      rw [he] at hcalm ⊢
      cases hw : loadWith p rp amp env .returnError (fun _ => none) nodes with
      | panic => exact absurd hw hcalm
      | loaded o => exact ⟨o, rfl⟩
      | error =>
        obtain ⟨parts, k1, k2⟩ := with_tree_error_strict (mode := fun _ => .returnError) (disk := fun _ => some nodes)
          (path := []) himp rfl hna hw
        have e := tree_unique k1 _ ht
        subst e
        rw [k2] at hsh
        cases hsh
  · cases hw : loadInline p rp amp env nodes with
    | panic => exact absurd hw hcalm
    | loaded o => exact .inl ⟨o, rfl⟩
    | error => exact .inr rfl

end

/-! ## Example -/

/-- `@font-face { font-family: "f"; src: "g" }` -/
private def fontNode : Node := .atRule "font-face".toList [] (some [
  .declaration "font-family".toList [.string "f".toList], .declaration "src".toList [.string "g".toList]])

/-- `a { w: abc }`, and the font. -/
private def inlineNodes : List Node :=
  [.qualified none [.ident "a".toList] [.declaration "w".toList [.ident "abc".toList]], fontNode]

private theorem own_inline : ownRules lengthParsers inlineNodes =
    [.own [readRule lengthParsers (.qualified none [.ident "a".toList] [.declaration "w".toList [.ident "abc".toList]])]] := by
  unfold ownRules inlineNodes
  rw [List.filter_cons_of_pos (by simp [ApartRule]), List.filter_cons_of_neg (by simp [ApartRule, fontNode]; decide)]
  rfl

/-- It is accepted, by `C108_accepts_partial`; with a stray `}` or the like behind it, it is refused. -/
example :
    (PlainLayers inlineNodes ∧ HarmlessFile inlineNodes ∧ WholeFile inlineNodes) ∧ ApartRule fontNode ∧
    (∃ o, loadInline lengthParsers (fun s _ => s) () lengthEnv inlineNodes = .loaded o) ∧
    FileError (ownRules lengthParsers [Node.bad]) ∧
    ¬ CleanRule lengthParsers (.atRule "font-face".toList [] (some [.declaration "x".toList []])) := by
  have hW : ∀ n, Within n inlineNodes → n = fontNode ∨ (∃ p b, n = .qualified none p b) ∨
      n = .declaration "w".toList [.ident "abc".toList] ∨
      n = .declaration "font-family".toList [.string "f".toList] ∨ n = .declaration "src".toList [.string "g".toList] := by
    intro n h
    unfold inlineNodes fontNode at h
    rw [within_step, within_qualified, within_leaf (by simp) (by simp), within_at, within_step, within_leaf (by simp) (by simp),
      within_leaf (by simp) (by simp)] at h
    rcases h with (h | h) | h | h | h
    · exact .inr (.inl ⟨_, _, h⟩)
    · exact .inr (.inr (.inl h))
    · exact .inl h
    · exact .inr (.inr (.inr (.inl h)))
    · exact .inr (.inr (.inr (.inr h)))
  have hw : HarmlessName "w".toList := ⟨Or.inl (by decide), Or.inl (by decide)⟩
  have hw2 : HarmlessName "font-family".toList :=
    ⟨Or.inr ⟨"font-fami".toList, "ly".toList, by decide, by decide⟩, Or.inr ⟨"font-famil".toList, "y".toList, by decide, by decide⟩⟩
  have hw3 : HarmlessName "src".toList := ⟨Or.inl (by decide), Or.inl (by decide)⟩
  have hn : ∀ name prelude block, Within (.atRule name prelude block) inlineNodes → name = "font-face".toList ∧ prelude = [] := by
    intro name prelude block h
    rcases hW _ h with h | ⟨_, _, h⟩ | h | h | h <;> cases h
    exact ⟨rfl, rfl⟩
  have hf1 : ¬ (lower "font-face".toList = "layer".toList ∨ lower "font-face".toList = "import".toList) := by decide
  have hd : PlainLayers inlineNodes ∧ HarmlessFile inlineNodes ∧ WholeFile inlineNodes := by
    refine ⟨?_, ⟨?_, ?_, ?_, ?_⟩, ⟨?_, ?_⟩⟩
    · intro name prelude block h hl
      obtain ⟨rfl, rfl⟩ := hn _ _ _ h
      exact absurd hl hf1
    · intro name value h
      rcases hW _ h with h | ⟨_, _, h⟩ | h | h | h <;> cases h
      · exact Or.inr hw
      · exact Or.inr hw2
      · exact Or.inr hw3
    · intro lead prelude block h
      rcases hW _ h with h | ⟨_, _, h⟩ | h | h | h <;> cases h
    · intro name prelude block h hl
      obtain ⟨rfl, rfl⟩ := hn _ _ _ h
      exact absurd hl hf1
    · intro name h
      rcases hW _ h with h | ⟨_, _, h⟩ | h | h | h <;> cases h
    · intro name block h hl
      simp only [inlineNodes, fontNode, List.mem_cons, List.not_mem_nil, or_false, reduceCtorEq, false_or, Node.atRule.injEq,
        true_and, Option.some.injEq] at h
      obtain ⟨rfl, rfl⟩ := h
      exact ⟨"f".toList, "g".toList, .mk _ _ _ _ (by decide) (by decide) (by decide)⟩
    · decide
  have hfont : CleanRule lengthParsers fontNode := by
    refine ⟨fun _ m hm => ?_, fun h => absurd h (by decide)⟩
    simp only [List.mem_cons, List.not_mem_nil, or_false] at hm
    rcases hm with rfl | rfl
    · exact .inl (by decide)
    · exact .inr (by decide)
  have h1 : SomeSelectors lengthParsers := by intro _ _ h; cases h
  have h2 : CalmParsers lengthParsers := by
    refine ⟨?_, (by intro _ _ h; cases h), (by intro _ _ h; cases h)⟩
    intro name ts h
    simp only [lengthParsers] at h
    split at h <;> cases h
  refine ⟨hd, .inl ⟨by decide, rfl⟩,
    ((C108_accepts_partial lengthParsers (fun s _ => s) () lengthEnv (fun _ _ _ => rfl) h1 h2 _ hd).1).mpr ⟨?_, ?_, ?_, ?_⟩, ?_, ?_⟩
  · intro n hm u h
    simp only [inlineNodes, fontNode, List.mem_cons, List.not_mem_nil, or_false] at hm
    rcases hm with rfl | rfl <;> cases h
  · intro n hm ha
    simp only [inlineNodes, List.mem_cons, List.not_mem_nil, or_false] at hm
    rcases hm with rfl | rfl
    · exact absurd ha (fun h => h)
    · exact hfont
  · rw [own_inline]
    simp only [read_w "abc".toList 3 rfl, FileError, or_false]
    intro h
    cases h with
    | inBody _ _ h =>
      cases h with
      | later _ h => cases h
    | later _ h => cases h
  · rw [own_inline]
    simp only [read_w "abc".toList 3 rfl]
    intro r hr d hdm
    simp [treeDecls, docDecls, bodyDecls] at hr
    subst hr
    simp only [List.mem_singleton] at hdm
    subst hdm
    exact ⟨7, rfl, fun _ _ _ _ => rfl⟩
  · unfold ownRules
    rw [List.filter_cons_of_pos (by simp [ApartRule])]
    simp only [List.filter_nil, List.map_cons, List.map_nil, FileError, or_false]
    rw [show readRule lengthParsers Node.bad = .error by rw [readRule]]
    exact .here _
  · intro h
    rcases h.1 (by decide) _ List.mem_cons_self with h | h
    · exact h rfl
    · exact h rfl

end Flair.Props
