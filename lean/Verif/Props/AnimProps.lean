import Verif.Spec.AnimProps
import Verif.Tactics
/-!
# C37, C38, C54: animation and transition lists and shorthands
-/
namespace Flair.AnimProps
open Flair.Animation Flair.Spec
variable {N E P I : Type}

theorem removeAll_apply [DecidableEq P] (reset : List P) (o : Out P N E) (p : P) :
    removeAll reset o p = if p ∈ reset then none else o p := by
  unfold removeAll
  induction reset generalizing o with
  | nil => simp
  | cons q qs ih =>
    simp only [List.foldl_cons, ih, List.mem_cons, Out.put]
    by_cases h : p ∈ qs <;> by_cases h' : p = q <;> simp [h, h']

theorem pushDefaults_apply [DecidableEq P] (reset : List P) (hn : reset.Nodup) (o : Out P N E) (p : P) :
    pushDefaults reset o p = if p ∈ reset then some ((o p).getD [] ++ [.default]) else o p := by
  unfold pushDefaults
  induction reset generalizing o with
  | nil => simp
  | cons q qs ih =>
    simp only [List.nodup_cons] at hn
    simp only [List.foldl_cons, ih hn.2, List.mem_cons, Out.put]
    by_cases h' : p = q
    · subst h'; simp [hn.1]
    · simp [h']

theorem foldlM_store [DecidableEq P] (i : Nat) (a : List (P × Val N E)) (o : Out P N E)
    (L : P → List (Val N E)) (c : P → Val N E) (hL : ∀ p, (L p).length = i)
    (ho : ∀ p, o p = some (L p ++ [c p])) :
    ∃ o', a.foldlM (store i) o = some o' ∧
      ∀ p, o' p = some (L p ++ [((a.filter fun e => e.1 = p).getLast?.map Prod.snd).getD (c p)]) := by
  induction a generalizing o c with
  | nil => exact ⟨o, rfl, by simpa using ho⟩
  | cons e es ih =>
    have hs : store i o e = some (o.put e.1 (some (L e.1 ++ [e.2]))) := by
      unfold store
      simp [ho, hL]
    obtain ⟨o', h1, h2⟩ := ih (o.put e.1 (some (L e.1 ++ [e.2])))
      (fun p => if p = e.1 then e.2 else c p) (by
        intro p
        by_cases h : p = e.1
        · subst h; simp [Out.put]
        · simp [Out.put, h, ho])
    refine ⟨o', by simp [List.foldlM_cons, hs, h1], ?_⟩
    intro p
    rw [h2]
    by_cases h : p = e.1
    · subst h
      simp only [↓reduceIte, List.filter_cons, decide_true, List.getLast?_cons, Option.map_some,
        Option.getD_some]
      rcases (es.filter fun e' => e'.1 = e.1).getLast? with _ | x <;> simp
    · have : e.1 ≠ p := fun h' => h h'.symm
      simp [h, this]

theorem oneAnimation_spec [DecidableEq P] (reset : List P) (hn : reset.Nodup) (hr : ∀ p, p ∈ reset) (i : Nat)
    (o : Out P N E) (a : List (P × Val N E)) (hl : ∀ p, ((o p).getD []).length = i) :
    ∃ o', oneAnimation reset i o a = some o' ∧ ∀ p, o' p = some ((o p).getD [] ++ [component a p]) :=
  foldlM_store i a _ (fun p => (o p).getD []) (fun _ => .default) hl
    (fun p => by rw [pushDefaults_apply reset hn, if_pos (hr p)])

theorem animationsFrom_spec [DecidableEq P] (reset : List P) (hn : reset.Nodup) (hr : ∀ p, p ∈ reset) (i : Nat)
    (o : Out P N E) (as : List (List (P × Val N E))) (hl : ∀ p, ((o p).getD []).length = i) :
    ∃ o', animationsFrom reset i o as = some o' ∧
      ∀ p, o' p = if as = [] then o p else some ((o p).getD [] ++ as.map fun a => component a p) := by
  induction as generalizing i o with
  | nil => exact ⟨o, rfl, by simp⟩
  | cons a as ih =>
    obtain ⟨o1, h1, h2⟩ := oneAnimation_spec reset hn hr i o a hl
    obtain ⟨o2, h3, h4⟩ := ih (i + 1) o1 (by intro p; rw [h2]; simp [hl])
    refine ⟨o2, by simp [animationsFrom, h1, h3], ?_⟩
    intro p
    rw [h4, h2]
    by_cases has : as = [] <;> simp [has]

theorem stepDecl_spec [DecidableEq P] (reset : List P) (hn : reset.Nodup) (hr : ∀ p, p ∈ reset)
    (o : Out P N E) (d : Decl P N E) :
    ∃ o', stepDecl reset o d = some o' ∧ ∀ p, o' p = (effect p d).getD (o p) := by
  rcases d with ⟨_ | as⟩ | ⟨q, _ | vs⟩
  · exact ⟨_, rfl, fun p => by rw [removeAll_apply, if_pos (hr p)]; rfl⟩
  · obtain ⟨o', h1, h2⟩ := animationsFrom_spec reset hn hr 0 (removeAll reset o) as
      (by intro p; rw [removeAll_apply, if_pos (hr p)]; rfl)
    refine ⟨o', h1, fun p => ?_⟩
    rw [h2, removeAll_apply, if_pos (hr p)]
    rcases as with _ | ⟨a, as⟩ <;> simp [effect]
  · exact ⟨o, rfl, fun p => by simp [effect]⟩
  · refine ⟨_, rfl, fun p => ?_⟩
    by_cases h : p = q <;> simp [effect, Out.put, h]

theorem foldlM_decl [DecidableEq P] (reset : List P) (hn : reset.Nodup) (hr : ∀ p, p ∈ reset)
    (ds : List (Decl P N E)) (o : Out P N E) :
    ∃ o', ds.foldlM (stepDecl reset) o = some o' ∧
      ∀ p, o' p = ((ds.filterMap (effect p)).getLast?).getD (o p) := by
  induction ds generalizing o with
  | nil => exact ⟨o, rfl, by simp⟩
  | cons d ds ih =>
    obtain ⟨o1, h1, h2⟩ := stepDecl_spec reset hn hr o d
    obtain ⟨o2, h3, h4⟩ := ih o1
    refine ⟨o2, by simp [List.foldlM_cons, h1, h3], fun p => ?_⟩
    rw [h4, h2]
    rcases he : effect p d with _ | x
    · simp [he]
    · simp only [List.filterMap_cons, he, List.getLast?_cons, Option.getD_some]

theorem resolveToOutput_spec [DecidableEq P] (reset : List P) (hn : reset.Nodup) (hr : ∀ p, p ∈ reset)
    (ds : List (Decl P N E)) : resolveToOutput reset ds = some (finalList ds) := by
  obtain ⟨o, h1, h2⟩ := foldlM_decl reset hn hr ds (fun _ => none)
  unfold resolveToOutput
  rw [h1]
  congr 1
  funext p
  exact h2 p

theorem mem_resetA (p : AId) : p ∈ resetA := by cases p <;> decide
theorem mem_resetT (p : TId) : p ∈ resetT := by cases p <;> decide

theorem propertyIndex_eq (o : Out P N E) (p : P) (i : Nat) : propertyIndex o p i = entryAt (o p) i := by
  unfold propertyIndex entryAt
  rcases o p with _ | vs
  · rfl
  · simp only [Option.bind_some]
    by_cases h : i < vs.length
    · simp [h]
    · simp [h]

theorem assign_eq (e0 : E) (n : N) (a1 a2 a3 a4 a5 a6 a7) :
    (AConfig.new e0 n).assign a1 a2 a3 a4 a5 a6 a7 =
      ⟨n, a7.getD e0, ⟨a2.getD 0, a1.getD 0, a3.getD .normal, a5.getD (some 1), a4.getD .none, a6.getD false⟩⟩ := by
  cases a1 <;> cases a2 <;> cases a3 <;> cases a4 <;> cases a5 <;> cases a6 <;> cases a7 <;> rfl

theorem durationIn_eq (x : Option (Val N E)) : (x.bind Val.asDuration).getD 0 = durationIn x := by
  rcases x with _ | v
  · rfl
  · cases v <;> rfl
theorem timingIn_eq (e0 : E) (x : Option (Val N E)) : (x.bind Val.asTiming).getD e0 = timingIn e0 x := by
  rcases x with _ | v
  · rfl
  · cases v <;> rfl
theorem directionIn_eq (x : Option (Val N E)) : (x.bind Val.asDirection).getD .normal = directionIn x := by
  rcases x with _ | v
  · rfl
  · cases v <;> rfl
theorem countIn_eq (x : Option (Val N E)) : (x.bind Val.asIterationCount).getD (some 1) = countIn x := by
  rcases x with _ | v
  · rfl
  · cases v <;> rfl
theorem fillIn_eq (x : Option (Val N E)) : (x.bind Val.asFillMode).getD .none = fillIn x := by
  rcases x with _ | v
  · rfl
  · cases v <;> rfl
theorem pausedIn_eq (x : Option (Val N E)) : (x.bind Val.asPlayState).getD false = pausedIn x := by
  rcases x with _ | v
  · rfl
  · cases v <;> rfl

theorem aconfig_eq (e0 : E) (o : Out AId N E) (x : Nat × N) : aconfig e0 o x = animationAt e0 o x.1 x.2 := by
  unfold aconfig animationAt
  simp only [propertyIndex_eq, assign_eq, durationIn_eq, timingIn_eq, directionIn_eq, countIn_eq, fillIn_eq,
    pausedIn_eq]

theorem tconfig_eq (e0 : E) (o : Out TId N E) (x : Nat × N) : tconfig e0 o x = (x.2, transitionAt e0 o x.1) := by
  unfold tconfig transitionAt
  simp only [propertyIndex_eq, ← durationIn_eq, ← timingIn_eq]
  rcases (entryAt (o .duration) x.1).bind Val.asDuration with _ | _ <;>
  rcases (entryAt (o .delay) x.1).bind Val.asDuration with _ | _ <;>
  rcases (entryAt (o .timing) x.1).bind Val.asTiming with _ | _ <;> rfl

theorem namesFrom_length (i : Nat) (vs : List (Val N E)) : (namesFrom i vs).length = vs.countP isName := by
  induction vs generalizing i with
  | nil => rfl
  | cons v vs ih =>
    rw [namesFrom, List.length_append, ih, List.countP_cons]
    cases v <;> simp [Val.asName, isName] <;> omega

theorem namesFrom_get (k : Nat) (vs : List (Val N E)) (i : Nat) (n : N) (h : vs[i]? = some (.name n)) :
    (namesFrom k vs)[(vs.take i).countP isName]? = some (k + i, n) := by
  induction vs generalizing k i with
  | nil => simp at h
  | cons v vs ih =>
    rcases i with _ | i
    · simp only [List.getElem?_cons_zero, Option.some.injEq] at h
      subst h
      simp [namesFrom, Val.asName]
    · simp only [List.getElem?_cons_succ] at h
      have := ih (k + 1) i h
      rw [namesFrom, List.take_succ_cons, List.countP_cons]
      cases v <;> simp [Val.asName, isName, this] <;> omega

theorem collectMap_aux [DecidableEq I] (ps : List (I × TOptions E)) (m : I → Option (TOptions E)) (i : I) :
    ps.foldl (fun m p j => if j = p.1 then some p.2 else m j) m i =
      ((ps.filter fun p => i = p.1).getLast?.map Prod.snd).or (m i) := by
  induction ps generalizing m with
  | nil => simp
  | cons p ps ih =>
    simp only [List.foldl_cons, ih]
    by_cases h : i = p.1
    · simp only [h, ↓reduceIte, List.filter_cons, decide_true, List.getLast?_cons, Option.map_some,
        Option.some_or]
      rcases (ps.filter fun q => p.1 = q.1).getLast? with _ | x <;> simp
    · simp [h]

theorem mem_pairsOf (resolve : N → Resolved I) (c : N × TOptions E) (x : I × TOptions E) :
    x ∈ pairsOf resolve c ↔ covers resolve c.1 x.1 ∧ x.2 = c.2 := by
  unfold pairsOf covers
  rcases resolve c.1 with j | js | _
  · simp [Prod.ext_iff]
  · simp only [List.mem_map]
    constructor
    · rintro ⟨j, hj, rfl⟩; exact ⟨hj, rfl⟩
    · rintro ⟨hj, h⟩; exact ⟨x.1, hj, by rw [← h]⟩
  · simp

end Flair.AnimProps

namespace Flair.Props
open Flair.AnimProps Flair.Spec Flair.Animation
variable {N E P I : Type}

/-! ## C38 -/

/-- **C38** (animation): for every sequence of declarations, of shorthands and longhands in any order, the
resolution does not crash and each longhand ends with the list of the last declaration that has an effect
on it. -/
theorem C38_animation (ds : List (Decl AId N E)) : resolveToOutput resetA ds = some (finalList ds) :=
  resolveToOutput_spec resetA (by decide) mem_resetA ds

/-- **C38** (transition). -/
theorem C38_transition (ds : List (Decl TId N E)) : resolveToOutput resetT ds = some (finalList ds) :=
  resolveToOutput_spec resetT (by decide) mem_resetT ds

/-- **C38**, read off: what a shorthand declares does not depend on what was declared before it; whatever
longhands come before, they are forgotten. -/
theorem C38_shorthand_resets (before : List (Decl AId N E)) (vs) (after : List (Decl AId N E)) :
    resolveToOutput resetA (before ++ .shorthand vs :: after) = resolveToOutput resetA (.shorthand vs :: after) := by
  rw [C38_animation, C38_animation]
  congr 1
  funext p
  unfold finalList
  have : ∃ x, effect p (.shorthand vs : Decl AId N E) = some x := by
    rcases vs with _ | (_ | ⟨a, as⟩)
    · exact ⟨_, rfl⟩
    · exact ⟨_, rfl⟩
    · exact ⟨_, rfl⟩
  obtain ⟨x, hx⟩ := this
  simp [List.filterMap_append, hx, List.getLast?_append, List.getLast?_cons]

/-- **C38**, read off: a longhand after everything else overrides. -/
theorem C38_longhand_overrides (before : List (Decl AId N E)) (p : AId) (vs : List (Val N E)) (q : AId) :
    (resolveToOutput resetA (before ++ [.single p (some vs)])).map (fun o => o q) =
      (resolveToOutput resetA before).map (fun o => if q = p then some vs else o q) := by
  rw [C38_animation, C38_animation]
  simp only [Option.map_some, Option.some.injEq]
  unfold finalList
  by_cases h : q = p <;> simp [List.filterMap_append, effect, h]

private def exD1 : List (Decl AId Nat Nat) :=
  [.single .duration (some [.duration 9]),
   .single .playState (some [.playState true]),
   .shorthand (some [[(.name, .name 1), (.duration, .duration 5)], [(.name, .name 2)]]),
   .single .delay (some [.duration 3]),
   .single .duration none]

/-- `animation-duration: 9; animation-play-state: paused; animation: n1 5, n2; animation-delay: 3;` and an
invalid `animation-duration`. -/
example : finalList exD1 .duration = some [.duration 5, .default] ∧ finalList exD1 .playState =
    some [.default, .default] ∧ finalList exD1 .delay = some [.duration 3] := ⟨rfl, rfl, rfl⟩

/-! ## C37 -/

/-- **C37** (animation): there is one animation per listed name, in order, and the one listed at index `i`
takes the `i`-th value of every other list, or the last one of a shorter list, or the default. -/
theorem C37_animation (e0 : E) (o : AId → Option (List (Val N E))) :
    (animationConfigs e0 o).length = ((o .name).getD []).countP isName ∧
    ∀ (i : Nat) n, ((o .name).getD [])[i]? = some (.name n) →
      (animationConfigs e0 o)[(((o .name).getD []).take i).countP isName]? = some (animationAt e0 o i n) := by
  refine ⟨by simp [animationConfigs, namesFrom_length], fun i n h => ?_⟩
  simp [animationConfigs, List.getElem?_map, namesFrom_get 0 _ i n h, aconfig_eq]

/-- **C37**, when every entry is a name (as in `animation-name: a, b`). -/
theorem C37_animation_names (e0 : E) (o : AId → Option (List (Val N E))) (names : List N)
    (h : o .name = some (names.map .name)) :
    animationConfigs e0 o = names.mapIdx (animationAt e0 o) := by
  have hall : ∀ l : List N, (l.map (Val.name (E := E))).countP isName = l.length := by
    intro l
    induction l with
    | nil => rfl
    | cons a l ih => simp [List.countP_cons, isName, ih]
  apply List.ext_getElem?
  intro i
  rw [List.getElem?_mapIdx]
  obtain ⟨hlen, hget⟩ := C37_animation e0 o
  rw [h] at hlen hget
  simp only [Option.getD_some, hall] at hlen hget
  rcases hi : names[i]? with _ | n
  · simp only [Option.map_none, List.getElem?_eq_none_iff] at hi ⊢
    omega
  · have := hget i n (by simp [hi])
    rw [← List.map_take, hall, List.length_take] at this
    have hlt := (List.getElem?_eq_some_iff.1 hi).1
    rw [Nat.min_eq_left (by omega)] at this
    simpa using this

/-- **C37** (transition). -/
theorem C37_transition (e0 : E) (o : TId → Option (List (Val N E))) :
    (transitionConfigs e0 o).length = ((o .property).getD []).countP isName ∧
    ∀ (i : Nat) n, ((o .property).getD [])[i]? = some (.name n) →
      (transitionConfigs e0 o)[(((o .property).getD []).take i).countP isName]? = some (n, transitionAt e0 o i) := by
  refine ⟨by simp [transitionConfigs, namesFrom_length], fun i n h => ?_⟩
  simp [transitionConfigs, List.getElem?_map, namesFrom_get 0 _ i n h, tconfig_eq]

/-- Two animations from `exD1`: the second one reads the last delay and the default duration. -/
example : ∃ o, resolveToOutput resetA exD1 = some o ∧
    (animationConfigs 0 o).map (fun c => (c.name, c.options.duration, c.options.delay, c.options.paused)) =
      [(1, 5, 3, false), (2, 0, 3, false)] := ⟨_, C38_animation exD1, rfl⟩

/-! ## C54 -/

/-- **C54**: a property has transition options exactly when some listed name covers it (as itself or as a
longhand of a shorthand), and they are those of the last such entry. -/
theorem C54_options [DecidableEq I] (e0 : E) (resolve : N → Resolved I) (o : TId → Option (List (Val N E)))
    (i : I) (t : TOptions E) :
    transitionOptions e0 resolve o i = some t ↔
      ∃ before c after, transitionConfigs e0 o = before ++ c :: after ∧ covers resolve c.1 i ∧ c.2 = t ∧
        ∀ c' ∈ after, ¬ covers resolve c'.1 i := by
  unfold transitionOptions collectMap
  rw [collectMap_aux]
  simp only [Option.or_none, Option.map_eq_some_iff]
  generalize transitionConfigs e0 o = cs
  induction cs using List.reverseRecOn with
  | nil => simp
  | append_singleton cs c ih =>
    rw [List.flatMap_append, List.filter_append]
    by_cases hc : covers resolve c.1 i
    · have hmem : ∀ x ∈ (pairsOf resolve c).filter (fun p => i = p.1), x = (i, c.2) := by
        intro x hx
        rw [List.mem_filter, mem_pairsOf] at hx
        simp only [decide_eq_true_eq] at hx
        exact Prod.ext hx.2.symm hx.1.2
      have hne : (pairsOf resolve c).filter (fun p => i = p.1) ≠ [] := by
        apply List.ne_nil_of_mem (a := (i, c.2))
        rw [List.mem_filter, mem_pairsOf]
        simp [hc]
      have hlast : ((pairsOf resolve c).filter (fun p => i = p.1)).getLast? = some (i, c.2) := by
        rw [List.getLast?_eq_some_getLast hne]
        exact congrArg some (hmem _ (List.getLast_mem hne))
      simp only [List.flatMap_singleton, List.getLast?_append, hlast, Option.some_or]
      constructor
      · rintro ⟨a, ha, rfl⟩
        cases ha
        exact ⟨cs, c, [], rfl, hc, rfl, by simp⟩
      · rintro ⟨b, c', a, he, hc', rfl, ha⟩
        refine ⟨_, rfl, ?_⟩
        rcases List.eq_nil_or_concat a with rfl | ⟨a', x, rfl⟩
        · have := List.append_inj_right' he rfl
          simp only [List.cons.injEq, and_true] at this
          rw [this]
        · have he' : cs ++ [c] = (b ++ c' :: a') ++ [x] := by simp [he]
          have := List.append_inj_right' he' rfl
          simp only [List.cons.injEq, and_true] at this
          subst this
          exact absurd hc (ha c (by simp))
    · have hnil : (pairsOf resolve c).filter (fun p => i = p.1) = [] := by
        rw [List.filter_eq_nil_iff]
        intro x hx
        rw [mem_pairsOf] at hx
        simp only [decide_eq_true_eq]
        intro h
        rw [← h] at hx
        exact hc hx.1
      simp only [List.flatMap_singleton, hnil, List.append_nil, ih]
      constructor
      · rintro ⟨b, c', a, rfl, h1, h2, h3⟩
        refine ⟨b, c', a ++ [c], by simp, h1, h2, ?_⟩
        intro x hx
        rcases List.mem_append.1 hx with hx | hx
        · exact h3 x hx
        · simp only [List.mem_singleton] at hx; subst hx; exact hc
      · rintro ⟨b, c', a, he, h1, h2, h3⟩
        rcases List.eq_nil_or_concat a with rfl | ⟨a', x, rfl⟩
        · have := List.append_inj_right' he rfl
          simp only [List.cons.injEq, and_true] at this
          subst this
          exact absurd h1 hc
        · have he' : cs ++ [c] = (b ++ c' :: a') ++ [x] := by simp [he]
          have h4 := List.append_inj_left' he' rfl
          exact ⟨b, c', a', h4, h1, h2, fun y hy => h3 y (by simp [hy])⟩

private def exR : Nat → Resolved Nat
  | 0 => .shorthand [10, 11]
  | 1 => .property 10
  | _ => .error

private def exT : Out TId Nat Nat := fun p =>
  match p with
  | .property => some [.name 0, .name 1, .name 7]
  | .duration => some [.duration 4, .duration 5]
  | _ => none

/-- `transition-property: margin, margin-left, nonsense; transition-duration: 4, 5`: property 10 takes the
second entry, property 11 the first one. -/
example : (transitionOptions 0 exR exT 10).map TOptions.duration = some 5 ∧
    (transitionOptions 0 exR exT 11).map TOptions.duration = some 4 ∧
    (transitionOptions 0 exR exT 12).map TOptions.duration = none := ⟨rfl, rfl, rfl⟩

/-- **C54**, read off: a shorthand listed last gives its options to each of its longhands. -/
theorem C54_shorthand [DecidableEq I] (e0 : E) (resolve : N → Resolved I) (o : TId → Option (List (Val N E)))
    (before : List (N × TOptions E)) (n : N) (t : TOptions E) (is : List I)
    (h : transitionConfigs e0 o = before ++ [(n, t)]) (hr : resolve n = .shorthand is) (i : I) (hi : i ∈ is) :
    transitionOptions e0 resolve o i = some t := by
  rw [C54_options]
  exact ⟨before, (n, t), [], h, by simp [covers, hr, hi], rfl, by simp⟩

end Flair.Props
