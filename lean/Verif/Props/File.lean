import Verif.Proofs.File2
/-!
# C82–C84: reading a file

C82: what crashes the loader, and that nothing else does.  C83: keyframes and font faces.  C84: imports.
-/
namespace Flair.Props
set_option linter.unusedSectionVars false
open Flair.File Flair.Spec Flair.Sheet Flair.Loader Flair.Proofs.File Flair.Values
open Flair.Calc (Res)
open Flair.Keyframes (KB Item)
variable {S M C N T V A B : Type} [DecidableEq N]

/-! ## C82 -/

/-- **C82, partial** (the property is that no file crashes the loader, see `C82_name_crashes`, `C82_layer_crashes`,
`C82_font_face_crashes`, `C82_keyframes_crashes` and `C82_empty_crashes`): a file does not crash the loader when it and all
files are harmless and whole, whatever the error mode, the registries and the imports, and however many errors it has
(as long as those with a location can be reported, see C97). -/
theorem C82_no_crash_partial (p : Parsers S M C N T V A B) (hp : CalmParsers p) (rp : S → List S → S) (amp : S)
    (env : BuildEnv S C V) (mode : Text → ErrorMode) (disk : Text → Option (List Node))
    (hd : ∀ path nodes, disk path = some nodes → HarmlessFile nodes ∧ WholeFile nodes) (fuel : Nat) (path : Text) :
    loadFile p rp amp env mode disk fuel path ≠ some .panic :=
  (loadFile_ok hp rp amp env mode disk (fun path nodes h => (hd path nodes h).1) (fun path nodes h => (hd path nodes h).2)
    fuel path).1

/-- **C82, partial**: neither does a harmless and whole text crash the parser of inline sheets. -/
theorem C82_no_crash_inline_partial (p : Parsers S M C N T V A B) (hp : CalmParsers p) (rp : S → List S → S) (amp : S)
    (env : BuildEnv S C V) (nodes : List Node) (h : HarmlessFile nodes) (hw : WholeFile nodes) :
    loadInline p rp amp env nodes ≠ .panic := by
  unfold loadInline
  split
  · rename_i he
    refine (loadWith_ok hp rp amp env .returnError (by intro u o h; cases h) nodes h hw ?_).1
    intro u hu
    rw [List.isEmpty_iff.mp he] at hu
    cases hu
  · simp

/-- **C82** (refuted): the name of a property with a character across the end of its 9th or 10th byte
crashes the loader, in the body of any rule of the file, in every mode, whatever else the file contains. -/
theorem C82_name_crashes (p : Parsers S M C N T V A B) (rp : S → List S → S) (amp : S) (env : BuildEnv S C V)
    (mode : ErrorMode) (imports : Text → Option (FSheet S M C N T V A B)) (nodes : List Node) (lead prelude block)
    (hr : .qualified lead prelude block ∈ nodes) (name : Text) (value : List Tok)
    (hd : .declaration name value ∈ block) (hc : ¬ IsCustom name) (hn : ¬ HarmlessName name) :
    loadWith p rp amp env mode imports nodes = .panic := by
  have hb : bodyItems p ruleFlags block = none :=
    bodyItems_crash (declaration_crash value (kindOf_crash ruleFlags ⟨rfl, rfl⟩ hc hn)) hd
  have ht : topItems p imports [] nodes = none := by
    cases h : topItems p imports [] nodes with
    | none => rfl
    | some is =>
      obtain ⟨d, i, h1, _⟩ := topItems_mem h _ hr
      simp only [topItem, ruleItem, hb] at h1
      cases h1
  unfold loadWith File.loadStylesheet
  rw [ht]
  rfl

/-- The names that crash: 9 ASCII characters and then a character of two bytes, for instance. -/
theorem C82_crashing_name (s : Text) (hs : s.length = 9) (ha : ∀ c ∈ s, c.utf8Size = 1) (c : Char) (hc : 1 < c.utf8Size)
    (rest : Text) : ¬ HarmlessName (s ++ c :: rest) := by
  intro h
  have hb : ∀ t : Text, byteLen t = utf8Length t := fun _ => rfl
  rcases h.2 with h | ⟨a, b, hab, h⟩
  · have h2 := ascii_len ha
    rw [hs, hb] at h2
    unfold utf8Length at h h2
    simp only [List.map_append, List.map_cons, List.sum_append, List.sum_cons] at h
    omega
  · have h2 := ascii_len ha
    rw [hs, hb] at h2
    rw [List.append_eq_append_iff] at hab
    rcases hab with ⟨a', h3, h4⟩ | ⟨b', h3, h4⟩
    · cases a' with
      | nil =>
        simp only [List.append_nil] at h3
        subst h3
        omega
      | cons x a' =>
        simp only [List.cons_append, List.cons.injEq] at h4
        rw [h3, ← h4.1] at h
        unfold utf8Length at h h2
        simp only [List.map_append, List.map_cons, List.sum_append, List.sum_cons] at h
        omega
    · rw [h3] at h2
      unfold utf8Length at h h2
      simp only [List.map_append, List.sum_append] at h2
      omega

example : ¬ HarmlessName "transitioén".toList :=
  C82_crashing_name "transitio".toList rfl (by decide) 'é' (by decide) ['n']

/-- **C82** (refuted): a name of a layer that starts with a dot (`@layer \.x;`) crashes the loader. -/
theorem C82_layer_crashes (p : Parsers S M C N T V A B) (rp : S → List S → S) (amp : S) (env : BuildEnv S C V)
    (mode : ErrorMode) (imports : Text → Option (FSheet S M C N T V A B)) (nodes : List Node) (name : Text) (l : Text)
    (hr : .atRule name [.ident l] none ∈ nodes) (hn : lower name = "layer".toList) (hl : ¬ NoDot l) :
    loadWith p rp amp env mode imports nodes = .panic := by
  have hs : File.loadStylesheet p rp amp mode imports nodes = none := by
    unfold File.loadStylesheet
    cases h : topItems p imports [] nodes with
    | none => rfl
    | some is =>
      simp only [Option.bind_some]
      obtain ⟨d, i, h1, h2⟩ := topItems_mem h _ hr
      have e : ∀ s : String, s.toList ≠ "layer".toList → isName name s = false := by
        intro s hs
        unfold isName
        rw [hn]
        simpa using fun h => hs h.symm
      have hi : i = .src (.layerStatement [l]) := by
        unfold topItem at h1
        simp only at h1
        rw [e "font-face" (by decide), e "keyframes" (by decide), e "import" (by decide)] at h1
        simp only [Bool.false_eq_true, ↓reduceIte, ruleItem, Option.map_some, Option.some.injEq] at h1
        rw [← h1]
        unfold atStatement
        rw [if_pos (isName_iff.mpr hn)]
        rfl
      subst hi
      cases hf : is.foldlM (processTop rp amp) State.start with
      | none => rfl
      | some st =>
        exact absurd ((fold_lok rp amp is State.start st (by intro x hx; cases hx) hf).2 [l] h2 l (by simp)) hl
  unfold loadWith
  rw [hs]

/-- A top level item that cannot be reported crashes the loader. -/
private theorem unlocated_crashes (p : Parsers S M C N T V A B) (rp : S → List S → S) (amp : S) (env : BuildEnv S C V)
    (mode : ErrorMode) (imports : Text → Option (FSheet S M C N T V A B)) (nodes : List Node)
    (h : ∀ is, topItems p imports [] nodes = some is → .unlocated ∈ is) :
    loadWith p rp amp env mode imports nodes = .panic := by
  have hs : File.loadStylesheet p rp amp mode imports nodes = none := by
    unfold File.loadStylesheet
    cases ht : topItems p imports [] nodes with
    | none => rfl
    | some is =>
      have hm := h is ht
      have hf : ∀ (is : List (TopItem S M C N T V A B)) (st : State S M C N T V A B), .unlocated ∈ is →
          is.foldlM (processTop rp amp) st = none := by
        intro is
        induction is with
        | nil => intro st hm; cases hm
        | cons i is ih =>
          intro st hm
          rw [List.foldlM_cons]
          rcases List.mem_cons.mp hm with h | h
          · subst h; rfl
          · cases processTop rp amp st i with
            | none => rfl
            | some st => exact ih st h
      simp only [Option.bind_some, hf is _ hm, Option.bind_none]
  unfold loadWith
  rw [hs]

/-- **C82** (refuted): a `@font-face` rule without a family or without a source crashes the loader. -/
theorem C82_font_face_crashes (p : Parsers S M C N T V A B) (rp : S → List S → S) (amp : S) (env : BuildEnv S C V)
    (mode : ErrorMode) (imports : Text → Option (FSheet S M C N T V A B)) (nodes : List Node) (name : Text)
    (block : List Node) (hn : lower name = "font-face".toList) (hr : .atRule name [] (some block) ∈ nodes)
    (hf : block.filterMap familyOf = [] ∨ block.filterMap sourceOf = []) :
    loadWith p rp amp env mode imports nodes = .panic := by
  refine unlocated_crashes p rp amp env mode imports nodes fun is h => ?_
  obtain ⟨d, i, h1, h2⟩ := topItems_mem h _ hr
  unfold topItem at h1
  simp only at h1
  rw [if_pos (isName_iff.mpr hn)] at h1
  cases h1
  obtain ⟨f1, f2⟩ := fontFold block (none, none, 0)
  unfold fontFaceItem at h2
  generalize (block.map fontItem).foldl fontStep (none, none, 0) = r at f1 f2 h2
  obtain ⟨r1, r2, r3⟩ := r
  rcases hf with hf | hf
  · rw [hf] at f1
    simp only [List.getLast?_nil, Option.none_or] at f1
    subst f1
    exact h2
  · rw [hf] at f2
    simp only [List.getLast?_nil, Option.none_or] at f2
    subst f2
    cases r1 <;> exact h2

/-- **C82** (refuted): two `@keyframes` rules with the same name crash the loader. -/
theorem C82_keyframes_crashes (p : Parsers S M C N T V A B) (rp : S → List S → S) (amp : S) (env : BuildEnv S C V)
    (mode : ErrorMode) (imports : Text → Option (FSheet S M C N T V A B)) (nodes : List Node)
    (hd : ¬ (nodes.filterMap keyframesName).Nodup) : loadWith p rp amp env mode imports nodes = .panic := by
  refine unlocated_crashes p rp amp env mode imports nodes fun is h => ?_
  have key : ∀ (ns : List Node) (d : List Text) (is), topItems p imports d ns = some is →
      (¬ (ns.filterMap keyframesName).Nodup ∨ ∃ k ∈ ns.filterMap keyframesName, k ∈ d) → .unlocated ∈ is := by
    intro ns
    induction ns with
    | nil => intro d is _ h; simp at h
    | cons n ns ih =>
      intro d is h hb
      unfold topItems at h
      obtain ⟨i, h1, h2⟩ := Option.bind_eq_some_iff.mp h
      obtain ⟨is', h3, rfl⟩ := Option.map_eq_some_iff.mp h2
      cases hk : keyframesName n with
      | none =>
        rw [List.filterMap_cons_none hk] at hb
        refine List.mem_cons_of_mem _ (ih _ _ h3 ?_)
        rcases hb with hb | ⟨k, hb, hd⟩
        · exact Or.inl hb
        · exact Or.inr ⟨k, hb, List.mem_append_left _ hd⟩
      | some k =>
        rw [List.filterMap_cons_some hk] at hb
        have hi : i = .unlocated ∧ k ∈ d ∨ declares i = [k] := by
          unfold keyframesName at hk
          split at hk
          · rename_i name k' b
            split at hk
            · rename_i hn
              cases hk
              unfold topItem at h1
              have hne : isName name "font-face" ≠ true := by
                rw [ne_eq, isName_iff, hn]; decide
              simp only at h1
              rw [if_neg hne, if_pos (isName_iff.mpr hn)] at h1
              simp only [oneIdent, keyframesItem] at h1
              obtain ⟨fs, _, rfl⟩ := Option.map_eq_some_iff.mp h1
              by_cases hd : k ∈ d
              · left; rw [if_pos hd]; exact ⟨rfl, hd⟩
              · right; rw [if_neg hd]; rfl
            · cases hk
          · cases hk
        rcases hi with ⟨rfl, _⟩ | hi
        · simp
        · refine List.mem_cons_of_mem _ (ih _ _ h3 ?_)
          rw [hi]
          by_cases hin : k ∈ ns.filterMap keyframesName
          · exact Or.inr ⟨k, hin, by simp⟩
          · rcases hb with hb | ⟨k', hb, hd⟩
            · rw [List.nodup_cons] at hb
              exact Or.inl fun h => hb ⟨hin, h⟩
            · rcases List.mem_cons.mp hb with rfl | hb
              · by_cases hdup : (ns.filterMap keyframesName).Nodup
                · exfalso
                  -- the name was declared before: the item is an error
                  have hnd : declares i = [] := by
                    unfold keyframesName at hk
                    split at hk
                    · rename_i name k2 b
                      split at hk
                      · rename_i hn
                        cases hk
                        unfold topItem at h1
                        have hne : isName name "font-face" ≠ true := by
                          rw [ne_eq, isName_iff, hn]; decide
                        simp only at h1
                        rw [if_neg hne, if_pos (isName_iff.mpr hn)] at h1
                        simp only [oneIdent, keyframesItem] at h1
                        obtain ⟨fs, _, rfl⟩ := Option.map_eq_some_iff.mp h1
                        rw [if_pos hd]
                        rfl
                      · cases hk
                    · cases hk
                  rw [hi] at hnd
                  cases hnd
                · exact Or.inl hdup
              · exact Or.inr ⟨k', hb, List.mem_append_left _ hd⟩
  exact key nodes [] is h (Or.inl hd)

/-- **C82** (refuted): an unknown property whose name starts like that of a transition or an animation crashes the
loader when it has no value (`transition-behavior:;`). -/
theorem C82_empty_crashes (p : Parsers S M C N T V A B) (rp : S → List S → S) (amp : S) (env : BuildEnv S C V)
    (mode : ErrorMode) (imports : Text → Option (FSheet S M C N T V A B)) (nodes : List Node) (lead prelude block)
    (hr : .qualified lead prelude block ∈ nodes) (name : Text) (hd : .declaration name [] ∈ block)
    (hn : UnknownMotion name) : loadWith p rp amp env mode imports nodes = .panic := by
  have hb : bodyItems p ruleFlags block = none := bodyItems_crash (motion_crash p hn) hd
  have ht : topItems p imports [] nodes = none := by
    cases h : topItems p imports [] nodes with
    | none => rfl
    | some is =>
      obtain ⟨d, i, h1, _⟩ := topItems_mem h _ hr
      simp only [topItem, ruleItem, hb] at h1
      cases h1
  unfold loadWith File.loadStylesheet
  rw [ht]
  rfl

example : UnknownMotion "Transition-Behavior".toList ∧ UnknownMotion "animation-composition".toList ∧
    ¬ UnknownMotion "transition-delay".toList ∧ ¬ UnknownMotion "width".toList := by
  unfold UnknownMotion
  decide

/-- Two of the ways to crash: a file on its own, whose parsers never panic. -/
theorem C82_crashes : ∃ (disk : Text → Option (List Node)) (p : Parsers Unit Unit Unit Unit Unit Unit Unit Unit),
    CalmParsers p ∧ ∀ mode, (∀ env, loadFile p (fun s _ => s) () env mode disk 1 "a.css".toList = some .panic) ∧
      ∀ env, loadFile p (fun s _ => s) () env mode disk 1 "b.css".toList = some .panic := by
  refine ⟨fun path =>
    if path = "a.css".toList then some [.qualified none [] [.declaration "transitioén".toList []]]
    else if path = "b.css".toList then some [.atRule "layer".toList [.ident ".x".toList] none] else none,
    ⟨fun _ _ => some [()], fun _ => none, fun _ _ => .err, fun _ => none, fun _ => (), fun _ _ => .err, fun _ _ => .err⟩,
    ⟨by simp, by simp, by simp⟩, ?_⟩
  intro mode
  constructor
  · intro env
    unfold loadFile
    rw [if_pos rfl]
    have hi : extractImports [.qualified none [] [.declaration "transitioén".toList []]] = [] := rfl
    simp only [hi, loadImports]
    exact congrArg some (C82_name_crashes _ _ _ _ _ _ _ none [] _ (List.mem_singleton.mpr rfl) "transitioén".toList [] (List.mem_singleton.mpr rfl)
      (by rintro ⟨r, h⟩; have h2 : some 't' = some '-' := congrArg List.head? h; exact absurd h2 (by decide))
      (C82_crashing_name "transitio".toList rfl (by decide) 'é' (by decide) ['n']))
  · intro env
    unfold loadFile
    rw [if_neg (by decide), if_pos rfl]
    have hi : extractImports [.atRule "layer".toList [.ident ".x".toList] none] = [] := rfl
    simp only [hi, loadImports]
    rw [C82_layer_crashes _ _ _ _ _ _ _ "layer".toList ".x".toList (List.mem_singleton.mpr rfl) (by decide)
      (by simp [NoDot])]

/-- A harmless file. -/
example : HarmlessFile [.qualified (some "a".toList) [] [.declaration "width".toList [.number 1], .declaration "--transitioé".toList []],
    .atRule "layer".toList [.ident "base".toList] none] := by
  have hb : ∀ n, Within n [.declaration "width".toList [.number 1], .declaration "--transitioé".toList []] →
      n = .declaration "width".toList [.number 1] ∨ n = .declaration "--transitioé".toList [] := by
    intro n h
    match h with
    | .here _ _ h => simpa using h
    | .inRule _ _ _ _ _ h1 _ => simp at h1
    | .inBlock _ _ _ _ _ h1 _ => simp at h1
  have hn : ∀ n, Within n [.qualified (some "a".toList) [] [.declaration "width".toList [.number 1], .declaration "--transitioé".toList []],
      .atRule "layer".toList [.ident "base".toList] none] →
      n = .qualified (some "a".toList) [] [.declaration "width".toList [.number 1], .declaration "--transitioé".toList []] ∨
      n = .atRule "layer".toList [.ident "base".toList] none ∨
      n = .declaration "width".toList [.number 1] ∨ n = .declaration "--transitioé".toList [] := by
    intro n h
    match h with
    | .here _ _ h =>
      simp only [List.mem_cons, List.not_mem_nil, or_false] at h
      tauto
    | .inRule _ _ _ _ _ h1 h2 =>
      simp only [List.mem_cons, List.not_mem_nil, or_false, Node.qualified.injEq, reduceCtorEq] at h1
      obtain ⟨_, _, rfl⟩ := h1
      have := hb n h2
      tauto
    | .inBlock _ _ _ _ _ h1 _ => simp at h1
  refine ⟨?_, ?_, ?_, ?_⟩
  · intro name value h
    rcases hn _ h with h | h | h | h <;> cases h
    · exact Or.inr ⟨Or.inl (by decide), Or.inl (by decide)⟩
    · exact Or.inl ⟨_, rfl⟩
  · intro name prelude block h
    rcases hn _ h with h | h | h | h <;> cases h
    exact Or.inr ⟨Or.inl (by decide), Or.inl (by decide)⟩
  · intro name prelude block h _ s hs
    rcases hn _ h with h | h | h | h <;> cases h
    cases hs with
    | direct _ h => simp only [List.mem_singleton, Tok.ident.injEq] at h; subst h; exact ⟨by decide, by simp [NoDot]⟩
    | inside f args _ h1 _ => simp at h1
  · intro name h
    rcases hn _ h with h | h | h | h <;> cases h
    unfold UnknownMotion
    decide

/-- A whole file. -/
example : WholeFile [.atRule "font-face".toList [] (some [
      .declaration "font-family".toList [.string "Fira".toList], .declaration "src".toList [.url "fira.ttf".toList]]),
    .atRule "keyframes".toList [.ident "a".toList] (some []), .atRule "keyframes".toList [.ident "b".toList] (some [])] := by
  constructor
  · intro name block hm hn
    simp only [List.mem_cons, Node.atRule.injEq, List.not_mem_nil, or_false, true_and, Option.some.injEq, reduceCtorEq,
      false_and, and_false, List.ne_cons_self, List.nil_eq] at hm
    obtain ⟨rfl, rfl⟩ := hm
    exact ⟨"Fira".toList, "fira.ttf".toList, .mk _ _ _ _ (by decide) (by decide) (by decide)⟩
  · decide

/-! ## C83 -/

/-- **C83**: a sheet that loads has the animations of its own `@keyframes` rules and of the files it
imports, the last one of each name, with the keyframes that are written (see C34 for
`Keyframes.keyframes`); its own rules have different names. -/
theorem C83_animations (p : Parsers S M C N T V A B) (rp : S → List S → S) (amp : S) (env : BuildEnv S C V)
    (mode : ErrorMode) (imports : Text → Option (FSheet S M C N T V A B)) (nodes : List Node)
    (o : FSheet S M C N T V A B) (h : loadWith p rp amp env mode imports nodes = .loaded o) :
    ∃ as, Animations p imports [] nodes as ∧ ∀ k, o.keyframes.get? k = lastNamed as k := by
  obtain ⟨is, st, h1, h2, h3, h4⟩ := loadWith_state h
  obtain ⟨⟨as, a1, a2⟩, _⟩ := topFold rp amp nodes [] [] is State.start st (by simp) h1 h2
  refine ⟨as, a1, ?_⟩
  intro k
  rw [h3, HMap.get?_extend, a2, lastNamed_eq]
  simp [State.start, HMap.get?]

/-- **C83**: and the font faces of its own `@font-face` rules and of the files it imports, in order. -/
theorem C83_fonts (p : Parsers S M C N T V A B) (rp : S → List S → S) (amp : S) (env : BuildEnv S C V)
    (mode : ErrorMode) (imports : Text → Option (FSheet S M C N T V A B)) (nodes : List Node)
    (o : FSheet S M C N T V A B) (h : loadWith p rp amp env mode imports nodes = .loaded o) :
    Fonts imports nodes o.fonts := by
  obtain ⟨is, st, h1, h2, h3, h4⟩ := loadWith_state h
  obtain ⟨_, fs, a1, a2⟩ := topFold rp amp nodes [] [] is State.start st (by simp) h1 h2
  rw [h4, a2]
  exact a1

/-- What is written determines the animations. -/
theorem C83_unique (p : Parsers S M C N T V A B) (imports : Text → Option (FSheet S M C N T V A B)) (done : List Text)
    (nodes : List Node) (as bs) (h1 : Animations p imports done nodes as) (h2 : Animations p imports done nodes bs) :
    as = bs := animations_unique h1 h2

/-- A file with an animation, a font face, and nothing wrong in it. -/
def C83_file : List Node :=
  [.atRule "keyframes".toList [.ident "spin".toList] (some [
      .qualified none [.ident "from".toList, .comma, .percentage 50] [.declaration "width".toList [.number 1]],
      .qualified none [.ident "To".toList] [.declaration "animation-timing-function".toList [.ident "linear".toList]]]),
   .atRule "font-face".toList [] (some [
      .declaration "font-family".toList [.string "Fira".toList],
      .declaration "src".toList [.url "fira.ttf".toList]])]

/-- Parsers that accept anything. -/
def C83_parsers : Parsers Unit Unit Unit Unit Unit Nat Unit Unit :=
  ⟨fun _ _ => some [()], fun _ => none, fun _ _ => .ok [.specific 7 (.value 1)], fun _ => none, fun _ => (),
    fun _ _ => .ok (), fun _ _ => .err⟩

/-- The file loads, with the font face and an animation of three keyframes. -/
theorem C83_loads (mode : ErrorMode) : ∃ o, loadWith C83_parsers (fun s _ => s) ()
      ⟨fun _ => none, fun _ _ => true, fun _ => 0, .value⟩ mode (fun _ => none) C83_file = .loaded o ∧
    o.fonts = [("Fira".toList, "fira.ttf".toList)] ∧
    o.keyframes.get? "spin".toList = some [⟨0, [.specific 7 (.value 1)], none⟩, ⟨1 / 2, [.specific 7 (.value 1)], none⟩,
      ⟨1, [], some ()⟩] := by
  have hk : processKeyframes (S := Unit) (M := Unit) (C := Unit) (N := Unit) (T := Unit) (V := Nat) (A := Unit) (B := Unit)
      [.valid [0, 1 / 2] [.decls [.prop (.specific (.id 7) (.value 1))]], .valid [1] [.decls [.animation (some .timing, ())]]] =
      some ([⟨0, [.specific 7 (.value 1)], none⟩, ⟨1 / 2, [.specific 7 (.value 1)], none⟩, ⟨1, [], some ()⟩], 0) := by
    have hs : Keyframes.keyframes (D := BProp Unit Unit Unit Nat) (E := Unit) (Keyframes.callsOf
        [([0, 1 / 2], [.props [.specific (.id 7) (.value 1)]]), ([1], [.easing ()])]) =
        [⟨0, [.specific (.id 7) (.value 1)], none⟩, ⟨1 / 2, [.specific (.id 7) (.value 1)], none⟩, ⟨1, [], some ()⟩] := by
      norm_num [Keyframes.keyframes, Keyframes.callsOf, Keyframes.callOf, Keyframes.build, Keyframes.new, Keyframes.add,
        Keyframes.timeEq, List.mergeSort, List.MergeSort.Internal.splitInTwo, List.merge]
    have hr : ([.valid [0, 1 / 2] [.decls [.prop (.specific (.id 7) (.value 1))]],
        .valid [1] [.decls [.animation (some .timing, ())]]] : List (Frame Unit Unit Unit Unit Unit Nat Unit Unit)).mapM keyframeRule =
        some [([([0, 1 / 2], [.props [.specific (.id 7) (.value 1)]])], 0), ([([1], [.easing ()])], 0)] := rfl
    unfold processKeyframes
    rw [hr]
    simp only [Option.bind_some, List.flatMap_cons, List.flatMap_nil, List.append_nil, List.cons_append, List.nil_append]
    rw [hs]
    rfl
  have ht : topItems C83_parsers (fun _ => none) [] C83_file = some
      [.keyframes "spin".toList [.valid [0, 1 / 2] [.decls [.prop (.specific (.id 7) (.value 1))]],
        .valid [1] [.decls [.animation (some .timing, ())]]],
       .fontFace "Fira".toList "fira.ttf".toList 0] := by
    have h1 : keyframeTimes [.ident "from".toList, .comma, .percentage 50] = some [0, 1 / 2] :=
      keyframeTimes_iff.mpr (.more _ _ _ _ (.start _ (by decide)) (.one _ _ (by
        have := TimeWord.percentage 50 (by norm_num) (by norm_num)
        norm_num at this
        exact this)))
    have h2 : keyframeTimes [.ident "To".toList] = some [1] :=
      keyframeTimes_iff.mpr (.one _ _ (.finish _ (by decide)))
    have h3 : frameItem C83_parsers (.qualified none [.ident "from".toList, .comma, .percentage 50]
        [.declaration "width".toList [.number 1]]) = some (.valid [0, 1 / 2] [.decls [.prop (.specific (.id 7) (.value 1))]]) := by
      unfold frameItem
      simp only [h1]
      rfl
    have h4 : frameItem C83_parsers (.qualified none [.ident "To".toList]
        [.declaration "animation-timing-function".toList [.ident "linear".toList]]) =
        some (.valid [1] [.decls [.animation (some .timing, ())]]) := by
      unfold frameItem
      simp only [h2]
      rfl
    have h5 : keyframesItem C83_parsers [] "spin".toList [
        .qualified none [.ident "from".toList, .comma, .percentage 50] [.declaration "width".toList [.number 1]],
        .qualified none [.ident "To".toList] [.declaration "animation-timing-function".toList [.ident "linear".toList]]] =
        some (.keyframes "spin".toList [.valid [0, 1 / 2] [.decls [.prop (.specific (.id 7) (.value 1))]],
        .valid [1] [.decls [.animation (some .timing, ())]]]) := by
      unfold keyframesItem
      rw [mapM_cons_some.mpr ⟨_, _, h3, mapM_cons_some.mpr ⟨_, _, h4, rfl, rfl⟩, rfl⟩]
      rfl
    unfold C83_file topItems
    have h6 : topItem C83_parsers (fun _ => none) [] (.atRule "keyframes".toList [.ident "spin".toList] (some [
        .qualified none [.ident "from".toList, .comma, .percentage 50] [.declaration "width".toList [.number 1]],
        .qualified none [.ident "To".toList] [.declaration "animation-timing-function".toList [.ident "linear".toList]]])) = _ := h5
    rw [h6]
    rfl
  have hst : (⟨[], [], []⟩ : Builder Unit Unit Unit Unit Unit Nat (TDecl Unit) (ADecl Unit)).removeAllEmpty = some ⟨[], [], []⟩ := by
    unfold Builder.removeAllEmpty Builder.removeEmptyFrom
    rfl
  have hl : File.loadStylesheet C83_parsers (fun s _ => s) () mode (fun _ => none) C83_file = some (some
      ⟨⟨[], [], []⟩, 0, [("Fira".toList, "fira.ttf".toList)], [("spin".toList,
        [⟨0, [.specific 7 (.value 1)], none⟩, ⟨1 / 2, [.specific 7 (.value 1)], none⟩, ⟨1, [], some ()⟩])]⟩) := by
    unfold File.loadStylesheet
    rw [ht]
    simp only [Option.bind_some, List.foldlM_cons, List.foldlM_nil, processTop, hk, State.addKeyframes, Option.map_some,
      State.start, Option.bind_eq_bind, Option.pure_def]
    rw [if_neg (by simp)]
    have : (Builder.new : Builder Unit Unit Unit Unit Unit Nat (TDecl Unit) (ADecl Unit)).removeAllEmpty = some ⟨[], [], []⟩ := hst
    rw [this]
    rfl
  have hb : (⟨⟨[], [], []⟩, 0, [("Fira".toList, "fira.ttf".toList)], [("spin".toList,
        [⟨0, [.specific 7 (.value 1)], none⟩, ⟨1 / 2, [.specific 7 (.value 1)], none⟩, ⟨1, [], some ()⟩])]⟩ :
      State Unit Unit Unit Unit Unit Nat Unit Unit).build ⟨fun _ => none, fun _ _ => true, fun _ => 0, .value⟩ =
      .loaded ⟨⟨[], []⟩, [("Fira".toList, "fira.ttf".toList)], [("spin".toList,
        [⟨0, [.specific 7 (.value 1)], none⟩, ⟨1 / 2, [.specific 7 (.value 1)], none⟩, ⟨1, [], some ()⟩])]⟩ := by
    unfold State.build Builder.build
    simp [Builder.firstOrphan, validateProps, HMap.extend, HMap.insert]
  refine ⟨_, by unfold loadWith; rw [hl]; exact hb, rfl, rfl⟩

/-! ## C84 -/

section
variable (p : Parsers S M C N T V A B) (rp : S → List S → S) (amp : S) (env : BuildEnv S C V)
  (mode : Text → ErrorMode) (disk : Text → Option (List Node))

/-- **C84**: how loading a file ends does not depend on the bound of the model. -/
theorem C84_unique (path : Text) (f g : Nat) (r s) (h1 : loadFile p rp amp env mode disk f path = some r)
    (h2 : loadFile p rp amp env mode disk g path = some s) : r = s := by
  rcases Nat.le_total f g with h | h
  · have := loadFile_mono (p := p) h h1
    rw [h2] at this; cases this; rfl
  · have := loadFile_mono (p := p) h h2
    rw [h1] at this; cases this; rfl

/-- **C84**: a file loads exactly when all the files it imports load and it can be read with them. -/
theorem C84_loads_iff (path : Text) (o : FSheet S M C N T V A B) :
    (∃ f, loadFile p rp amp env mode disk f path = some (.loaded o)) ↔
      ∃ nodes imports, disk path = some nodes ∧
        (∀ u, (∃ n ∈ nodes, ImportRule n u) →
          ∃ f s, loadFile p rp amp env mode disk f u = some (.loaded s) ∧ imports u = some s) ∧
        (∀ u, ¬ (∃ n ∈ nodes, ImportRule n u) → imports u = none) ∧
        loadWith p rp amp env (mode path) imports nodes = .loaded o := by
  constructor
  · rintro ⟨f, h⟩
    cases f with
    | zero => cases h
    | succ f =>
      unfold loadFile at h
      split at h
      · cases h
      · rename_i nodes hn
        split at h
        · cases h
        · cases h
        · cases h
        · rename_i m hm
          obtain ⟨h1, h2⟩ := loadImports_get hm
          refine ⟨nodes, m.get?, hn, ?_, ?_, by simpa using h⟩
          · intro u hu
            obtain ⟨s, h3, h4⟩ := h1 u (extractImports_iff.mpr hu)
            exact ⟨f, s, h3, h4⟩
          · intro u hu
            rw [h2 u (fun h => hu (extractImports_iff.mp h))]
  · rintro ⟨nodes, imports, h1, h2, h3, h4⟩
    obtain ⟨f, hf⟩ := common_fuel (p := p) (rp := rp) (amp := amp) (env := env) (mode := mode) (disk := disk)
      (Q := fun u r => ∃ s, r = .loaded s ∧ imports u = some s) (extractImports nodes) (by
        intro u hu
        obtain ⟨f, s, h5, h6⟩ := h2 u (extractImports_iff.mp hu)
        exact ⟨f, _, h5, s, rfl, h6⟩)
    refine ⟨f + 1, ?_⟩
    unfold loadFile
    rw [h1]
    simp only
    obtain ⟨m, hm⟩ := loadImports_total (load := loadFile p rp amp env mode disk f) (extractImports nodes) [] (by
      intro u hu
      obtain ⟨r, h5, s, rfl, _⟩ := hf u hu
      exact ⟨s, h5⟩)
    rw [hm]
    simp only
    obtain ⟨h5, h6⟩ := loadImports_get hm
    have : m.get? = imports := by
      funext u
      by_cases hu : u ∈ extractImports nodes
      · obtain ⟨s, h7, h8⟩ := h5 u hu
        obtain ⟨r, h9, s', rfl, h10⟩ := hf u hu
        rw [h7] at h9
        cases h9
        rw [h8, h10]
      · rw [h6 u hu, h3 u (fun h => hu (extractImports_iff.mpr h))]
    rw [this, h4]

/-- **C84**: a file that loads is on top of no cycle of imports. -/
theorem C84_no_cycle (path : Text) (f : Nat) (o) (h : loadFile p rp amp env mode disk f path = some (.loaded o)) :
    NoCycle disk path := by
  induction f generalizing path o with
  | zero => cases h
  | succ f ih =>
    refine Acc.intro path ?_
    rintro b ⟨nodes, hn, hb⟩
    unfold loadFile at h
    rw [hn] at h
    simp only at h
    split at h
    · cases h
    · cases h
    · cases h
    · rename_i m hm
      obtain ⟨s, h3, _⟩ := (loadImports_get hm).1 b (extractImports_iff.mpr hb)
      exact ih b s h3

/-- **C84**: so the files of a cycle never load. -/
theorem C84_cycle_never_loads (path : Text) (h : Relation.TransGen (ImportsFile disk) path path) (f : Nat) (o) :
    loadFile p rp amp env mode disk f path ≠ some (.loaded o) := by
  intro hl
  have hacc := C84_no_cycle p rp amp env mode disk path f o hl
  have hacc2 := hacc.transGen
  have hirr : ∀ x, Acc (Relation.TransGen fun b a => ImportsFile disk a b) x →
      ¬ Relation.TransGen (fun b a => ImportsFile disk a b) x x := by
    intro x hx
    induction hx with
    | intro x _ ih => intro hxx; exact ih x hxx hxx
  refine hirr path hacc2 ?_
  have := Relation.transGen_swap (r := fun b a => ImportsFile disk a b) (a := path) (b := path)
  exact this.mp h

/-- **C84**: without a cycle, loading always ends. -/
theorem C84_ends (path : Text) (h : NoCycle disk path) : ∃ f r, loadFile p rp amp env mode disk f path = some r := by
  induction h with
  | intro path _ ih =>
    cases hn : disk path with
    | none => exact ⟨1, .error, by unfold loadFile; rw [hn]⟩
    | some nodes =>
      obtain ⟨f, hf⟩ := common_fuel (p := p) (rp := rp) (amp := amp) (env := env) (mode := mode) (disk := disk)
        (Q := fun _ _ => True) (extractImports nodes) (by
          intro u hu
          obtain ⟨f, r, h5⟩ := ih u ⟨nodes, hn, extractImports_iff.mp hu⟩
          exact ⟨f, r, h5, trivial⟩)
      obtain ⟨r, hr⟩ := loadImports_ends (load := loadFile p rp amp env mode disk f) (extractImports nodes) [] (by
        intro u hu
        obtain ⟨r, h5, _⟩ := hf u hu
        exact ⟨r, h5⟩)
      refine ⟨f + 1, ?_⟩
      unfold loadFile
      rw [hn]
      simp only
      rw [hr]
      cases r <;> exact ⟨_, rfl⟩

/-- **C84** (a defect): files whose first import is one of them again (a file that imports itself, for
instance): loading them never ends, not even with an error. -/
theorem C84_never_ends (loop : Text → Prop)
    (h : ∀ a, loop a → ∃ pre n post b, disk a = some (pre ++ n :: post) ∧ (∀ m ∈ pre, ∀ u, ¬ ImportRule m u) ∧
      ImportRule n b ∧ loop b) (path : Text) (hp : loop path) (f : Nat) :
    loadFile p rp amp env mode disk f path = none := by
  induction f generalizing path with
  | zero => rfl
  | succ f ih =>
    obtain ⟨pre, n, post, b, h1, h2, h3, h4⟩ := h path hp
    unfold loadFile
    rw [h1]
    have : extractImports (pre ++ n :: post) = b :: extractImports post := by
      unfold extractImports
      rw [List.filterMap_append, List.filterMap_cons, importRule_iff.mp h3]
      have hpre : pre.filterMap importOf = [] := by
        rw [List.filterMap_eq_nil_iff]
        intro m hm
        cases hi : importOf m with
        | none => rfl
        | some u => exact absurd (importRule_iff.mpr hi) (h2 m hm u)
      rw [hpre]
      rfl
    simp only [this, loadImports]
    rw [ih b h4]

/-- **C84**: an import that does not load makes the file not load, whatever the error mode. -/
theorem C84_failed_import (a b : Text) (h : ImportsFile disk a b)
    (hb : ∀ f o, loadFile p rp amp env mode disk f b ≠ some (.loaded o)) (f : Nat) (o) :
    loadFile p rp amp env mode disk f a ≠ some (.loaded o) := by
  intro hl
  obtain ⟨nodes, imports, h1, h2, _⟩ := (C84_loads_iff p rp amp env mode disk a o).mp ⟨f, hl⟩
  obtain ⟨nodes', h3, h4⟩ := h
  rw [h1] at h3
  cases h3
  obtain ⟨g, s, h5, _⟩ := h2 b h4
  exact hb g s h5
end

/-- Two files: the first imports the second, whose only rule cannot be read. -/
def C84_disk : Text → Option (List Node) := fun path =>
  if path = "a.css".toList then some [.atRule "import".toList [.string "b.css".toList] none]
  else if path = "b.css".toList then some [.bad]
  else if path = "c.css".toList then some [.atRule "import".toList [.string "c.css".toList] none]
  else none

private theorem disk_a : C84_disk "a.css".toList = some [.atRule "import".toList [.string "b.css".toList] none] := if_pos rfl
private theorem disk_b : C84_disk "b.css".toList = some [.bad] := by
  unfold C84_disk
  rw [if_neg (by decide), if_pos rfl]
private theorem disk_c : C84_disk "c.css".toList = some [.atRule "import".toList [.string "c.css".toList] none] := by
  unfold C84_disk
  rw [if_neg (by decide), if_neg (by decide), if_pos rfl]

private def env0 : BuildEnv Unit Unit Nat := ⟨fun _ => none, fun _ _ => true, fun _ => 0, .value⟩

private theorem removeNil : (⟨[], [], []⟩ : Builder Unit Unit Unit Unit Unit Nat (TDecl Unit) (ADecl Unit)).removeAllEmpty = some ⟨[], [], []⟩ := by
  unfold Builder.removeAllEmpty Builder.removeEmptyFrom
  rfl

private theorem buildNil (e : Nat) : (⟨⟨[], [], []⟩, e, [], []⟩ : State Unit Unit Unit Unit Unit Nat Unit Unit).build env0 =
    .loaded ⟨⟨[], []⟩, [], []⟩ := by
  unfold State.build Builder.build
  simp [Builder.firstOrphan, validateProps, HMap.extend]

private theorem load_b (mode : Text → ErrorMode) (f : Nat) :
    loadFile C83_parsers (fun s _ => s) () env0 mode C84_disk (f + 1) "b.css".toList =
      some (if mode "b.css".toList = .returnError then .error else .loaded ⟨⟨[], []⟩, [], []⟩) := by
  unfold loadFile
  rw [disk_b]
  simp only [show extractImports [.bad] = [] from rfl, loadImports, Option.some.injEq]
  unfold loadWith File.loadStylesheet
  have ht : topItems C83_parsers (HMap.get? []) [] [.bad] = some [.src .error] := by
    simp [topItems, topItem, ruleItem, declares]
  rw [ht]
  have hf : [(.src .error : TopItem Unit Unit Unit Unit Unit Nat Unit Unit)].foldlM (processTop (fun s _ => s) ()) State.start =
      some ⟨⟨[], [], []⟩, 1, [], []⟩ := by
    simp [processTop, parseItem, process, State.rules, State.start, Builder.new]
  simp only [Option.bind_some, hf]
  split
  · rename_i h
    split at h
    · cases h
    · rw [removeNil] at h; cases h
  · rename_i h
    split at h
    · rename_i hc; rw [if_pos hc.2]
    · rw [removeNil] at h; cases h
  · rename_i st h
    split at h
    · cases h
    · rename_i hc
      rw [removeNil] at h
      cases h
      rw [buildNil, if_neg (fun hm => hc ⟨by simp, hm⟩)]

/-- **C84** (a defect): the error mode of a file does not reach the files it imports: a file with the mode
"return the errors" loads although a file it imports, with the default mode, has an error. -/
theorem C84_mode_not_passed : ∃ (p : Parsers Unit Unit Unit Unit Unit Nat Unit Unit) (env : BuildEnv Unit Unit Nat)
    (disk : Text → Option (List Node)) (mode : Text → ErrorMode) (a b : Text) (o : _), ImportsFile disk a b ∧
    mode a = .returnError ∧ (∃ f, loadFile p (fun s _ => s) () env mode disk f a = some (.loaded o)) ∧
    ∀ f, loadFile p (fun s _ => s) () env (fun _ => .returnError) disk (f + 1) b = some .error := by
  refine ⟨C83_parsers, env0, C84_disk, fun u => if u = "b.css".toList then .printWarn else .returnError, "a.css".toList, "b.css".toList,
    ⟨⟨[], []⟩, [], []⟩, ⟨_, disk_a, _, List.mem_singleton.mpr rfl, .plain _ _ _ (by decide) (Or.inl rfl)⟩, by decide, ⟨2, ?_⟩, ?_⟩
  · unfold loadFile
    rw [disk_a]
    simp only [show extractImports [.atRule "import".toList [.string "b.css".toList] none] = ["b.css".toList] from rfl, loadImports]
    rw [load_b]
    rw [if_neg (by decide)]
    simp only [Option.some.injEq]
    unfold loadWith File.loadStylesheet
    have ht : topItems C83_parsers (HMap.get? (HMap.insert [] "b.css".toList (⟨⟨[], []⟩, [], []⟩ : FSheet Unit Unit Unit Unit Unit Nat Unit Unit))) []
        [.atRule "import".toList [.string "b.css".toList] none] = some [.importSheet ⟨⟨[], []⟩, [], []⟩ none] := rfl
    rw [ht]
    have hf : [(.importSheet ⟨⟨[], []⟩, [], []⟩ none : TopItem Unit Unit Unit Unit Unit Nat Unit Unit)].foldlM
        (processTop (fun s _ => s) ()) State.start = some ⟨⟨[], [], []⟩, 0, [], []⟩ := by
      simp [processTop, process, State.rules, State.start, Builder.new, Builder.embed, State.addFrom]
    simp only [Option.bind_some, hf]
    rw [if_neg (by simp)]
    rw [removeNil]
    exact buildNil 0
  · intro f
    rw [load_b]
    rfl

/-- A file that imports itself: loading it never ends. -/
example (f : Nat) : loadFile C83_parsers (fun s _ => s) () env0 (fun _ => .printWarn) C84_disk f "c.css".toList = none :=
  C84_never_ends _ _ _ _ _ _ (fun a => a = "c.css".toList) (by
    rintro a rfl
    exact ⟨[], _, [], _, disk_c, by simp, .plain _ _ _ (by decide) (Or.inl rfl), rfl⟩) _ rfl f

/-- Files without a cycle. -/
example : NoCycle C84_disk "a.css".toList := by
  have hb : NoCycle C84_disk "b.css".toList := by
    refine Acc.intro _ ?_
    rintro x ⟨nodes, h1, n, hn, h2⟩
    rw [disk_b] at h1
    cases h1
    cases List.mem_singleton.mp hn
    cases h2
  refine Acc.intro _ ?_
  rintro x ⟨nodes, h1, n, hn, h2⟩
  rw [disk_a] at h1
  cases h1
  cases List.mem_singleton.mp hn
  have : x = "b.css".toList := by
    have h3 := importRule_iff.mp h2
    have h4 : importOf (.atRule "import".toList [.string "b.css".toList] none) = some "b.css".toList := rfl
    rw [h4] at h3
    cases h3
    rfl
  rw [this]
  exact hb

end Flair.Props
