import Verif.Model.Matcher
import Verif.Spec.Watch
import Verif.Proofs.Invalidation
/-! # Proofs about the matcher as a program -/
namespace Flair.Proofs.Matcher
open Flair.Tree Flair.Invalidation Flair.Selector Flair.Matcher Flair.Spec
variable {E A X Y : Type} [DecidableEq E]

/-! ## What the program answers -/

/-- `a`, with the handles `hs`, gives `x` and the further handles `ext` -/
def Does (w : SWorld E) (hs : List E) (a : Act A X) (x : X) (ext : List E) : Prop :=
  ∀ k fl, ∃ fl', run w (a hs.length k) hs fl = run w (k x (hs ++ ext).length) (hs ++ ext) fl'

theorem does_pure (w : SWorld E) (hs : List E) (x : X) : Does w hs (pure x : Act A X) x [] := by
  intro k fl
  refine ⟨fl, ?_⟩
  rw [List.append_nil]; rfl

theorem does_bind {w : SWorld E} {hs ext ext2 : List E} {a : Act A X} {f : X → Act A Y} {x : X} {y : Y} (h1 : Does w hs a x ext)
    (h2 : Does w (hs ++ ext) (f x) y ext2) : Does w hs (a >>= f) y (ext ++ ext2) := by
  intro k fl
  obtain ⟨fl1, e1⟩ := h1 (fun x len => f x len k) fl
  obtain ⟨fl2, e2⟩ := h2 k fl1
  refine ⟨fl2, ?_⟩
  show run w (a hs.length fun x len => f x len k) hs fl = _
  rw [e1, e2, List.append_assoc]

theorem does_read {w : SWorld E} {hs : List E} {h : Nat} {e : E} (he : hs[h]? = some e) :
    Does w hs (readA h : Act A _) (some (w.data e)) [] := by
  intro k fl
  refine ⟨fl, ?_⟩
  rw [List.append_nil]
  show run w (.read h _) hs fl = _
  rw [run, he]; rfl

theorem does_empty {w : SWorld E} {hs : List E} {h : Nat} {e : E} (he : hs[h]? = some e) :
    Does w hs (emptyA h : Act A _) (w.forest.children e).isEmpty [] := by
  intro k fl
  refine ⟨fl, ?_⟩
  rw [List.append_nil]
  show run w (.isEmpty h _) hs fl = _
  rw [run, he]; rfl

theorem does_move {w : SWorld E} {hs : List E} {h : Nat} {e : E} (he : hs[h]? = some e) (d : Dir) :
    Does w hs (moveA d h : Act A _) ((w.step d e).map fun _ => hs.length) (w.step d e).toList := by
  intro k fl
  show ∃ fl', run w (.move d h _) hs fl = _
  rw [run, he, Option.bind_some]
  cases hb : w.step d e with
  | none => exact ⟨fl, by simp⟩
  | some y => exact ⟨fl.insert y d.flag, by simp⟩

theorem get_ext {hs ext : List E} {h : Nat} {e : E} (he : hs[h]? = some e) : (hs ++ ext)[h]? = some e := by
  rw [List.getElem?_append_left (List.getElem?_eq_some_iff.mp he).1]; exact he

theorem does_chain {w : SWorld E} (d : Dir) : ∀ (n : Nat) {hs : List E} {h : Nat} {e : E}, hs[h]? = some e →
    ∃ ls ext, Does w hs (chainA d n h : Act A _) ls ext ∧
      List.Forall₂ (fun l x => (hs ++ ext)[l]? = some x) ls (chain w d n e)
  | 0, hs, h, e, _ => ⟨[], [], does_pure w hs [], by simp [chain]⟩
  | n + 1, hs, h, e, he => by
    have hm : Does w hs (moveA d h : Act A _) _ _ := does_move he d
    cases hb : w.step d e with
    | none =>
      rw [hb] at hm
      refine ⟨[], [] ++ [], does_bind hm (does_pure w _ []), ?_⟩
      rw [chain, hb]; exact .nil
    | some y =>
      rw [hb] at hm
      have hy : (hs ++ [y])[hs.length]? = some y := by simp
      obtain ⟨ls, ext, h1, h2⟩ := does_chain (w := w) d n hy
      refine ⟨hs.length :: ls, [y] ++ (ext ++ []), does_bind hm (does_bind h1 (does_pure w _ _)), ?_⟩
      rw [chain, hb, List.append_nil]
      rw [← List.append_assoc]
      exact .cons (get_ext hy) h2

/-- an answer with some handles -/
def Answers (w : SWorld E) (hs : List E) (a : Act A X) (x : X) : Prop := ∃ ext, Does w hs a x ext

theorem answers_both {w : SWorld E} {hs : List E} {a b : Act A (Option Bool)} {x y : Option Bool} (ha : Answers w hs a x)
    (hb : ∀ ext, Answers w (hs ++ ext) b y) : Answers w hs (bothA a b) (bothM x y) := by
  obtain ⟨ext, ha⟩ := ha
  obtain ⟨ext2, hb⟩ := hb ext
  unfold bothA bothM
  match x with
  | some true => exact ⟨_, does_bind ha hb⟩
  | some false => exact ⟨_, does_bind ha (does_pure w _ _)⟩
  | none => exact ⟨_, does_bind ha (does_pure w _ _)⟩

theorem answers_either {w : SWorld E} {hs : List E} {a b : Act A (Option Bool)} {x y : Option Bool} (ha : Answers w hs a x)
    (hb : ∀ ext, Answers w (hs ++ ext) b y) : Answers w hs (eitherA a b) (eitherM x y) := by
  obtain ⟨ext, ha⟩ := ha
  obtain ⟨ext2, hb⟩ := hb ext
  unfold eitherA eitherM
  match x with
  | some false => exact ⟨_, does_bind ha hb⟩
  | some true => exact ⟨_, does_bind ha (does_pure w _ _)⟩
  | none => exact ⟨_, does_bind ha (does_pure w _ _)⟩

/-- a test of an element by its handle -/
def Tests (w : SWorld E) (t : Nat → Act A (Option Bool)) (f : E → Option Bool) : Prop :=
  ∀ hs h e, hs[h]? = some e → Answers w hs (t h) (f e)

theorem answers_once {w : SWorld E} {t : Nat → Act A (Option Bool)} {f : E → Option Bool} (ht : Tests w t f) (d : Dir)
    {hs : List E} {h : Nat} {e : E} (he : hs[h]? = some e) : Answers w hs (onceA d t h) (anyM f (w.step d e).toList) := by
  have hm : Does w hs (moveA d h : Act A _) _ _ := does_move he d
  unfold onceA
  cases hb : w.step d e with
  | none => rw [hb] at hm; exact ⟨_, does_bind hm (does_pure w _ _)⟩
  | some y =>
    rw [hb] at hm
    obtain ⟨ext, h2⟩ := ht (hs ++ [y]) hs.length y (by simp)
    refine ⟨_, does_bind (ext2 := ext) hm ?_⟩
    · have : anyM f (some y).toList = f y := by
        simp only [Option.toList_some, anyM]
        match hf : f y with
        | some true => rfl
        | some false => rfl
        | none => rfl
      rw [this]
      exact h2

omit [DecidableEq E] in
theorem anyM_cons (f : E → Option Bool) (x : E) (xs : List E) : anyM f (x :: xs) = eitherM (f x) (anyM f xs) := by
  unfold eitherM
  rw [anyM]

theorem answers_walk {w : SWorld E} {t : Nat → Act A (Option Bool)} {f : E → Option Bool} (ht : Tests w t f) (d : Dir) :
    ∀ (n : Nat) {hs : List E} {h : Nat} {e : E}, hs[h]? = some e → Answers w hs (walkA d t n h) (anyM f (chain w d n e))
  | 0, hs, h, e, he => ⟨_, does_pure w hs _⟩
  | n + 1, hs, h, e, he => by
    have hm : Does w hs (moveA d h : Act A _) _ _ := does_move he d
    unfold walkA
    cases hb : w.step d e with
    | none =>
      rw [hb] at hm
      rw [chain, hb]
      exact ⟨_, does_bind hm (does_pure w _ _)⟩
    | some y =>
      rw [hb] at hm
      rw [chain, hb]
      dsimp only
      rw [anyM_cons]
      have hy : (hs ++ [y])[hs.length]? = some y := by simp
      obtain ⟨ext, h2⟩ := answers_either (ht (hs ++ [y]) hs.length y hy) fun ext =>
        answers_walk ht d n (get_ext (ext := ext) hy)
      exact ⟨_, does_bind hm h2⟩

theorem answers_count {w : SWorld E} {t : Nat → Act A (Option Bool)} {f : E → Option Bool} (ht : Tests w t f) :
    ∀ (xs : List E) {hs : List E} {ls : List Nat}, List.Forall₂ (fun l x => hs[l]? = some x) ls xs →
      Answers w hs (countA t ls) (countM f xs)
  | [], hs, _, .nil => ⟨_, does_pure w hs _⟩
  | x :: xs, hs, _, .cons (l₁ := ls) h1 h2 => by
    obtain ⟨ext, ha⟩ := ht hs _ x h1
    unfold countA countM
    match hf : f x with
    | none =>
      rw [hf] at ha
      exact ⟨_, does_bind ha (does_pure w _ _)⟩
    | some b =>
      rw [hf] at ha
      obtain ⟨ext2, hb⟩ := answers_count ht xs (hs := hs ++ ext) (ls := ls) (h2.imp fun _ _ h => get_ext h)
      exact ⟨_, does_bind ha (does_bind hb (does_pure w _ _))⟩

theorem answers_bind {w : SWorld E} {hs ext : List E} {a : Act A X} {x : X} {f : X → Act A Y} {y : Y} (h : Does w hs a x ext)
    (h' : Answers w (hs ++ ext) (f x) y) : Answers w hs (a >>= f) y := by
  obtain ⟨ext2, h'⟩ := h'
  exact ⟨_, does_bind h h'⟩

theorem answers_bind_pure {w : SWorld E} {hs : List E} {a : Act A X} {x : X} (f : X → Y) (h : Answers w hs a x) :
    Answers w hs (a >>= fun x => pure (f x)) (f x) := by
  obtain ⟨ext, h⟩ := h
  exact ⟨_, does_bind h (does_pure w _ _)⟩

omit [DecidableEq E] in
theorem countM_filter (f : E → Bool) : ∀ xs : List E, countM (fun x => some (f x)) xs = some (xs.filter f).length
  | [] => rfl
  | x :: xs => by
    rw [countM]
    dsimp only
    rw [countM_filter f xs, List.filter_cons, Option.map_some]
    cases f x <;> simp

theorem own_answers {w : SWorld E} {hs : List E} {h : Nat} {e : E} (he : hs[h]? = some e) {s : Simple}
    (hs' : ownTest s (w.data e) = matchSimple w none s e) :
    Answers w hs (do let d ← readA h; pure (d.bind (ownTest s)) : Act A _) (matchSimple w none s e) := by
  have := answers_bind_pure (A := A) (fun d : Option NodeData => d.bind (ownTest s)) ⟨_, does_read (w := w) he⟩
  rw [← hs']
  exact this

mutual
theorem simple_answers (w : SWorld E) (side : Bool) : ∀ (s : Simple), WatchSimple side s →
    Tests w (simpleA (A := A) (w.forest.nodes.length + 1) s) (matchSimple w none s)
  | .empty, _ => fun hs h e he => by
    have := answers_bind_pure (A := A) (fun b : Bool => some b) ⟨_, does_empty (w := w) he⟩
    simp only [simpleA, matchSimple, isEmpty]
    have e1 : (w.forest.children e).head?.isNone = (w.forest.children e).isEmpty := by
      cases w.forest.children e <;> rfl
    rw [e1]; exact this
  | .nth a b fe, _ => fun hs h e he => by
    simp only [simpleA, matchSimple]
    split
    · have := answers_bind_pure (A := A) (fun r : Option Nat => some r.isNone) ⟨_, does_move (w := w) he (nthDir fe)⟩
      rw [Option.isNone_map] at this
      exact this
    · obtain ⟨ls, ext, h1, h2⟩ := does_chain (A := A) (w := w) (nthDir fe) (w.forest.nodes.length + 1) he
      have := answers_bind_pure (A := A) (fun l : List Nat => some (matchesIndex a b (1 + l.length))) ⟨_, h1⟩
      rw [h2.length_eq] at this
      exact this
  | .nthOfType a b fe, _ => fun hs h e he => by
    simp only [simpleA, matchSimple]
    obtain ⟨ls, ext, h1, h2⟩ := does_chain (A := A) (w := w) (nthDir fe) (w.forest.nodes.length + 1) he
    have ht : Tests (A := A) w (fun x => do
        let o ← readA x
        pure ((some (w.data e)).bind fun d => o.map fun o => sameType d o))
        (fun x => some (isSameType w e x)) := by
      intro hs h x hx
      exact answers_bind_pure (fun o : Option NodeData => (some (w.data e)).bind fun d => o.map fun o => sameType d o)
        ⟨_, does_read hx⟩
    obtain ⟨ext2, h3⟩ := answers_count ht (chain w (nthDir fe) (w.forest.nodes.length + 1) e) h2
    rw [countM_filter] at h3
    have h0 : Does w hs (readA h : Act A _) _ [] := does_read he
    refine answers_bind h0 ?_
    rw [List.append_nil]
    refine answers_bind h1 ?_
    exact answers_bind_pure (fun o : Option Nat => o.map fun (c : Nat) => matchesIndex a b (1 + (c : Int))) ⟨_, h3⟩
  | .nthOf a b fe sels, hW => fun hs h e he => by
    simp only [simpleA, matchSimple]
    have ht := sels_answers w side sels (by simpa only [WatchSimple] using hW.2)
    refine answers_both (ht hs h e he) fun ext => ?_
    obtain ⟨ls, ext1, h1, h2⟩ := does_chain (A := A) (w := w) (nthDir fe) (w.forest.nodes.length + 1) (get_ext (ext := ext) he)
    obtain ⟨ext2, h3⟩ := answers_count ht (chain w (nthDir fe) (w.forest.nodes.length + 1) e) h2
    have e1 : ∀ o : Option Nat, (o.map fun (c : Nat) => matchesIndex a b (1 + (c : Int))) =
        Option.map (fun n => matchesIndex a b (1 + n)) (do let a ← o; pure (a : Int)) := by
      intro o; cases o <;> rfl
    rw [← e1]
    refine answers_bind h1 ?_
    exact answers_bind_pure (fun o : Option Nat => o.map fun (c : Nat) => matchesIndex a b (1 + (c : Int))) ⟨_, h3⟩
  | .not sels, hW => fun hs h e he => by
    simp only [simpleA, matchSimple]
    exact answers_bind_pure (fun r : Option Bool => r.map (!·)) (sels_answers w side sels (by simpa only [WatchSimple] using hW) hs h e he)
  | .is sels, hW => fun hs h e he => by
    simp only [simpleA, matchSimple]
    exact sels_answers w side sels (by simpa only [WatchSimple] using hW) hs h e he
  | .where_ sels, hW => fun hs h e he => by
    simp only [simpleA, matchSimple]
    exact sels_answers w side sels (by simpa only [WatchSimple] using hW) hs h e he
  | .has _, hW => (by simp only [WatchSimple] at hW)
  | .universal, _ => fun hs h e he => by simp only [simpleA]; exact own_answers he rfl
  | .anyNamespace, _ => fun hs h e he => by simp only [simpleA]; exact own_answers he rfl
  | .noNamespace, _ => fun hs h e he => by simp only [simpleA]; exact own_answers he rfl
  | .localName _, _ => fun hs h e he => by simp only [simpleA]; exact own_answers he rfl
  | .id _, _ => fun hs h e he => by simp only [simpleA]; exact own_answers he rfl
  | .cls _, _ => fun hs h e he => by simp only [simpleA]; exact own_answers he rfl
  | .attrExists _, _ => fun hs h e he => by simp only [simpleA]; exact own_answers he rfl
  | .attr _ _ _, _ => fun hs h e he => by simp only [simpleA]; exact own_answers he rfl
  | .root, _ => fun hs h e he => by simp only [simpleA]; exact own_answers he rfl
  | .scope, _ => fun hs h e he => by simp only [simpleA]; exact own_answers he rfl
  | .state _, _ => fun hs h e he => by simp only [simpleA]; exact own_answers he rfl
  | .parent, _ => fun hs h e he => by simp only [simpleA]; exact own_answers he rfl
  | .anchor, _ => fun hs h e he => by simp only [simpleA]; exact own_answers he rfl
  | .pseudoElement _, _ => fun hs h e he => by simp only [simpleA]; exact own_answers he rfl
theorem compound_answers (w : SWorld E) (side : Bool) : ∀ (c : Compound), WatchCompound side c →
    Tests w (compoundA (A := A) (w.forest.nodes.length + 1) c) (matchCompound w none c)
  | .nil, _ => fun hs h e he => by simp only [compoundA, matchCompound]; exact ⟨_, does_pure w hs _⟩
  | .cons s c, hW => fun hs h e he => by
    simp only [WatchCompound] at hW
    simp only [compoundA, matchCompound]
    exact answers_both (simple_answers w side s hW.1 hs h e he) fun ext =>
      compound_answers w side c hW.2 _ h e (get_ext he)
theorem sel_answers (w : SWorld E) (side : Bool) : ∀ (s : Sel), WatchSel side s →
    Tests w (selA (A := A) (w.forest.nodes.length + 1) s) (matchSel w none s)
  | .subject c, hW => fun hs h e he => by
    simp only [WatchSel] at hW
    simp only [selA, matchSel]
    exact compound_answers w side c hW hs h e he
  | .link l k c, hW => fun hs h e he => by
    simp only [WatchSel] at hW
    simp only [selA, matchSel]
    refine answers_both (compound_answers w side c hW.1 hs h e he) fun ext => ?_
    have he' := get_ext (ext := ext) he
    cases k with
    | child => exact answers_once (sel_answers w false l hW.2) .parent he'
    | desc => exact answers_walk (sel_answers w false l hW.2) .parent _ he'
    | next => exact answers_once (sel_answers w true l hW.2.2) .prev he'
    | later => exact answers_walk (sel_answers w true l hW.2.2) .prev _ he'
    | pseudo => exact answers_once (sel_answers w false l hW.2) .parent he'
theorem sels_answers (w : SWorld E) (side : Bool) : ∀ (ss : Sels), WatchSels side ss →
    Tests w (anySelA (A := A) (w.forest.nodes.length + 1) ss) (matchAny w none ss)
  | .nil, _ => fun hs h e he => by simp only [anySelA, matchAny]; exact ⟨_, does_pure w hs _⟩
  | .cons s ss, hW => fun hs h e he => by
    simp only [WatchSels] at hW
    simp only [anySelA, matchAny]
    exact answers_either (sel_answers w side s hW.1 hs h e he) fun ext => sels_answers w side ss hW.2 _ h e (get_ext he)
end

theorem sheet_answers (w : SWorld E) : ∀ (ss : List Sel) {hs : List E} {e : E}, (∀ s ∈ ss, WatchSel true s) → hs[0]? = some e →
    Answers w hs (sheetA (A := A) (w.forest.nodes.length + 1) ss) (ss.map fun s => matchesSelector w s e)
  | [], hs, e, _, _ => ⟨_, does_pure w hs _⟩
  | s :: ss, hs, e, hW, he => by
    obtain ⟨ext, h1⟩ := sel_answers (A := A) w true s (hW s (by simp)) hs 0 e he
    obtain ⟨ext2, h2⟩ := sheet_answers w ss (hs := hs ++ ext) (fun s h => hW s (by simp [h])) (get_ext he)
    exact ⟨_, does_bind h1 (does_bind h2 (does_pure w _ _))⟩

/-- the program finds what the selectors say -/
theorem match_answers (w : SWorld E) (ss : List Sel) (hW : ∀ s ∈ ss, WatchSel true s) (e : E) (fl : FlagMap E) :
    (run w (matchProg (w.forest.nodes.length + 1) ss) [e] fl).1 = ss.map fun s => matchesSelector w s e := by
  obtain ⟨ext, h⟩ := sheet_answers (A := List (Option Bool)) w ss (hs := [e]) hW rfl
  obtain ⟨fl', h⟩ := h (fun r _ => .ret r) fl
  have : run w (matchProg (w.forest.nodes.length + 1) ss) [e] fl = _ := h
  rw [this]; rfl

/-! ## Where the program looks -/

/-- the part moves only to places whose changes are noticed; `P`: what is known of its result and its new handles -/
def Quiet (ks : List Kind) (a : Act A X) (P : X → List Kind → Prop) : Prop :=
  ∀ k, (∀ x ext, P x ext → Noticed (ks ++ ext) (k x (ks ++ ext).length)) → Noticed ks (a ks.length k)

theorem quiet_pure {ks : List Kind} {x : X} {P : X → List Kind → Prop} (h : P x []) : Quiet ks (pure x : Act A X) P := by
  intro k hk
  have := hk x [] h
  rw [List.append_nil] at this
  exact this

theorem quiet_bind {ks : List Kind} {a : Act A X} {f : X → Act A Y} {P : X → List Kind → Prop} {Q : Y → List Kind → Prop}
    (h1 : Quiet ks a P) (h2 : ∀ x ext, P x ext → Quiet (ks ++ ext) (f x) fun y ext2 => Q y (ext ++ ext2)) :
    Quiet ks (a >>= f) Q := by
  intro k hk
  refine h1 (fun x len => f x len k) fun x ext hP => ?_
  refine h2 x ext hP k fun y ext2 hQ => ?_
  have := hk y (ext ++ ext2) hQ
  rw [← List.append_assoc] at this
  exact this

theorem quiet_read (ks : List Kind) (h : Nat) : Quiet ks (readA h : Act A _) fun _ ext => ext = [] := by
  intro k hk d
  have := hk d [] rfl
  rw [List.append_nil] at this
  exact this

theorem quiet_empty (ks : List Kind) (h : Nat) : Quiet ks (emptyA h : Act A _) fun _ ext => ext = [] := by
  intro k hk d
  have := hk d [] rfl
  rw [List.append_nil] at this
  exact this

theorem quiet_move {ks : List Kind} {h : Nat} {kd kd' : Kind} {d : Dir} (hk : ks[h]? = some kd) (hg : kd.go d = some kd') :
    Quiet ks (moveA d h : Act A _) fun r ext => (r = none ∧ ext = []) ∨ (r = some ks.length ∧ ext = [kd']) := by
  intro k hP
  refine ⟨?_, ?_⟩
  · have := hP none [] (.inl ⟨rfl, rfl⟩)
    rw [List.append_nil] at this
    exact this
  · intro kd2 h2
    rw [hk] at h2
    cases h2
    refine ⟨kd', hg, ?_⟩
    have := hP (some ks.length) [kd'] (.inr ⟨rfl, rfl⟩)
    simpa using this

/-- nothing is known of the result -/
def Calm (ks : List Kind) (a : Act A X) : Prop := Quiet ks a fun _ _ => True

theorem calm_pure (ks : List Kind) (x : X) : Calm ks (pure x : Act A X) := quiet_pure trivial

theorem calm_bind {ks : List Kind} {a : Act A X} {f : X → Act A Y} {P : X → List Kind → Prop} (h1 : Quiet ks a P)
    (h2 : ∀ x ext, P x ext → Calm (ks ++ ext) (f x)) : Calm ks (a >>= f) := quiet_bind h1 h2

theorem calm_both {ks : List Kind} {a b : Act A (Option Bool)} (ha : Calm ks a) (hb : ∀ ext, Calm (ks ++ ext) b) :
    Calm ks (bothA a b) := by
  refine calm_bind ha fun x ext _ => ?_
  match x with
  | some true => exact hb ext
  | some false => exact calm_pure _ _
  | none => exact calm_pure _ _

theorem calm_either {ks : List Kind} {a b : Act A (Option Bool)} (ha : Calm ks a) (hb : ∀ ext, Calm (ks ++ ext) b) :
    Calm ks (eitherA a b) := by
  refine calm_bind ha fun x ext _ => ?_
  match x with
  | some false => exact hb ext
  | some true => exact calm_pure _ _
  | none => exact calm_pure _ _

theorem kind_ext {ks ext : List Kind} {h : Nat} {kd : Kind} (he : ks[h]? = some kd) : (ks ++ ext)[h]? = some kd := by
  rw [List.getElem?_append_left (List.getElem?_eq_some_iff.mp he).1]; exact he

theorem quiet_chain {d : Dir} (hd : d = .prev ∨ d = .next) : ∀ (n : Nat) {ks : List Kind} {h : Nat} {kd : Kind},
    ks[h]? = some kd → (kd = .self ∨ kd = .side) →
    Quiet ks (chainA d n h : Act A _) fun ls ext => ∀ l ∈ ls, (ks ++ ext)[l]? = some .side
  | 0, ks, h, kd, _, _ => quiet_pure (by simp)
  | n + 1, ks, h, kd, hk, hkd => by
    have hg : kd.go d = some .side := by
      rcases hd with rfl | rfl <;> rcases hkd with rfl | rfl <;> rfl
    refine quiet_bind (quiet_move hk hg) ?_
    rintro x ext (⟨rfl, rfl⟩ | ⟨rfl, rfl⟩)
    · exact quiet_pure (by simp)
    · refine quiet_bind (quiet_chain hd n (kd := .side) (by simp) (.inr rfl)) fun ls ext h => ?_
      refine quiet_pure ?_
      intro l hl
      simp only [List.append_nil]
      rw [← List.append_assoc]
      rcases List.mem_cons.mp hl with rfl | hl
      · exact kind_ext (by simp)
      · exact h l hl

/-- siblings may be looked at only from the element and its siblings -/
def Okay (side : Bool) (kd : Kind) : Prop := kd ≠ .below ∧ (side = true → kd = .self ∨ kd = .side)

/-- a test that moves only to noticed places -/
def CalmTest (t : Nat → Act A X) (side : Bool) : Prop := ∀ ks h kd, ks[h]? = some kd → Okay side kd → Calm ks (t h)

theorem calm_once {t : Nat → Act A (Option Bool)} {side : Bool} (ht : CalmTest t side) {ks : List Kind} {h : Nat} {kd kd' : Kind}
    {d : Dir} (hk : ks[h]? = some kd) (hg : kd.go d = some kd') (ho : Okay side kd') : Calm ks (onceA d t h) := by
  refine calm_bind (quiet_move hk hg) ?_
  rintro x ext (⟨rfl, rfl⟩ | ⟨rfl, rfl⟩)
  · exact calm_pure _ _
  · exact ht _ _ kd' (by simp) ho

theorem calm_walk {t : Nat → Act A (Option Bool)} {side : Bool} (ht : CalmTest t side) {d : Dir} {kd' : Kind}
    (hg' : kd'.go d = some kd') (ho : Okay side kd') : ∀ (n : Nat) {ks : List Kind} {h : Nat} {kd : Kind}, ks[h]? = some kd →
    kd.go d = some kd' → Calm ks (walkA d t n h)
  | 0, ks, h, kd, _, _ => calm_pure _ _
  | n + 1, ks, h, kd, hk, hg => by
    refine calm_bind (quiet_move hk hg) ?_
    rintro x ext (⟨rfl, rfl⟩ | ⟨rfl, rfl⟩)
    · exact calm_pure _ _
    · exact calm_either (ht _ _ kd' (by simp) ho) fun ext => calm_walk ht hg' ho n (kind_ext (by simp)) hg'

theorem calm_count {t : Nat → Act A (Option Bool)} {side : Bool} (ht : CalmTest t side) (ho : Okay side .side) :
    ∀ (ls : List Nat) {ks : List Kind}, (∀ l ∈ ls, ks[l]? = some .side) → Calm ks (countA t ls)
  | [], ks, _ => calm_pure _ _
  | l :: ls, ks, h => by
    refine calm_bind (ht ks l .side (h l (by simp)) ho) fun x ext _ => ?_
    match x with
    | none => exact calm_pure _ _
    | some b =>
      exact calm_bind (calm_count ht ho ls (ks := ks ++ ext) fun l hl => kind_ext (h l (by simp [hl]))) fun _ _ _ => calm_pure _ _

theorem nthDir_side (fe : Bool) : nthDir fe = .prev ∨ nthDir fe = .next := by cases fe <;> simp [nthDir]

theorem calm_own (s : Simple) : CalmTest (fun h => (do let d ← readA h; pure (d.bind (ownTest s)) : Act A (Option Bool))) side :=
  fun ks h _ _ _ => calm_bind (quiet_read ks h) fun _ _ _ => calm_pure _ _

mutual
theorem simple_calm (n : Nat) (side : Bool) : ∀ (s : Simple), WatchSimple side s → CalmTest (simpleA (A := A) n s) side
  | .empty, _ => fun ks h kd hk ho => by
    simp only [simpleA]
    exact calm_bind (quiet_empty ks h) fun _ _ _ => calm_pure _ _
  | .nth a b fe, hW => fun ks h kd hk ho => by
    simp only [WatchSimple] at hW
    simp only [simpleA]
    have hkd := ho.2 hW
    split
    · have hg : kd.go (nthDir fe) = some .side := by
        rcases nthDir_side fe with e | e <;> rw [e] <;> rcases hkd with rfl | rfl <;> rfl
      exact calm_bind (quiet_move hk hg) fun _ _ _ => calm_pure _ _
    · exact calm_bind (quiet_chain (nthDir_side fe) n hk hkd) fun _ _ _ => calm_pure _ _
  | .nthOfType a b fe, hW => fun ks h kd hk ho => by
    simp only [WatchSimple] at hW
    simp only [simpleA]
    refine calm_bind (quiet_read ks h) ?_
    rintro d _ rfl
    rw [List.append_nil]
    refine calm_bind (quiet_chain (nthDir_side fe) n hk (ho.2 hW)) fun ls ext hls => ?_
    refine calm_bind (calm_count (side := true) ?_ ⟨by simp, fun _ => .inr rfl⟩ ls hls) fun _ _ _ => calm_pure _ _
    exact fun ks h _ _ _ => calm_bind (quiet_read ks h) fun _ _ _ => calm_pure _ _
  | .nthOf a b fe sels, hW => fun ks h kd hk ho => by
    simp only [WatchSimple] at hW
    simp only [simpleA]
    have ht := sels_calm n side sels hW.2
    refine calm_both (ht ks h kd hk ho) fun ext => ?_
    refine calm_bind (quiet_chain (nthDir_side fe) n (kind_ext hk) (ho.2 hW.1)) fun ls ext hls => ?_
    exact calm_bind (calm_count ht ⟨by simp, fun _ => .inr rfl⟩ ls hls) fun _ _ _ => calm_pure _ _
  | .not sels, hW => fun ks h kd hk ho => by
    simp only [WatchSimple] at hW
    simp only [simpleA]
    exact calm_bind (sels_calm n side sels hW ks h kd hk ho) fun _ _ _ => calm_pure _ _
  | .is sels, hW => fun ks h kd hk ho => by
    simp only [WatchSimple] at hW
    simp only [simpleA]
    exact sels_calm n side sels hW ks h kd hk ho
  | .where_ sels, hW => fun ks h kd hk ho => by
    simp only [WatchSimple] at hW
    simp only [simpleA]
    exact sels_calm n side sels hW ks h kd hk ho
  | .has _, hW => (by simp only [WatchSimple] at hW)
  | .universal, _ => fun ks h kd hk ho => by simp only [simpleA]; exact calm_own _ ks h kd hk ho
  | .anyNamespace, _ => fun ks h kd hk ho => by simp only [simpleA]; exact calm_own _ ks h kd hk ho
  | .noNamespace, _ => fun ks h kd hk ho => by simp only [simpleA]; exact calm_own _ ks h kd hk ho
  | .localName _, _ => fun ks h kd hk ho => by simp only [simpleA]; exact calm_own _ ks h kd hk ho
  | .id _, _ => fun ks h kd hk ho => by simp only [simpleA]; exact calm_own _ ks h kd hk ho
  | .cls _, _ => fun ks h kd hk ho => by simp only [simpleA]; exact calm_own _ ks h kd hk ho
  | .attrExists _, _ => fun ks h kd hk ho => by simp only [simpleA]; exact calm_own _ ks h kd hk ho
  | .attr _ _ _, _ => fun ks h kd hk ho => by simp only [simpleA]; exact calm_own _ ks h kd hk ho
  | .root, _ => fun ks h kd hk ho => by simp only [simpleA]; exact calm_own _ ks h kd hk ho
  | .scope, _ => fun ks h kd hk ho => by simp only [simpleA]; exact calm_own _ ks h kd hk ho
  | .state _, _ => fun ks h kd hk ho => by simp only [simpleA]; exact calm_own _ ks h kd hk ho
  | .parent, _ => fun ks h kd hk ho => by simp only [simpleA]; exact calm_own _ ks h kd hk ho
  | .anchor, _ => fun ks h kd hk ho => by simp only [simpleA]; exact calm_own _ ks h kd hk ho
  | .pseudoElement _, _ => fun ks h kd hk ho => by simp only [simpleA]; exact calm_own _ ks h kd hk ho
theorem compound_calm (n : Nat) (side : Bool) : ∀ (c : Compound), WatchCompound side c → CalmTest (compoundA (A := A) n c) side
  | .nil, _ => fun ks h kd hk ho => by simp only [compoundA]; exact calm_pure _ _
  | .cons s c, hW => fun ks h kd hk ho => by
    simp only [WatchCompound] at hW
    simp only [compoundA]
    exact calm_both (simple_calm n side s hW.1 ks h kd hk ho) fun ext => compound_calm n side c hW.2 _ h kd (kind_ext hk) ho
theorem sel_calm (n : Nat) (side : Bool) : ∀ (s : Sel), WatchSel side s → CalmTest (selA (A := A) n s) side
  | .subject c, hW => fun ks h kd hk ho => by
    simp only [WatchSel] at hW
    simp only [selA]
    exact compound_calm n side c hW ks h kd hk ho
  | .link l k c, hW => fun ks h kd hk ho => by
    simp only [WatchSel] at hW
    simp only [selA]
    refine calm_both (compound_calm n side c hW.1 ks h kd hk ho) fun ext => ?_
    have hk' : (ks ++ ext)[h]? = some kd := kind_ext hk
    have hup : kd.go .parent = some .above := by
      cases kd with
      | below => exact absurd rfl ho.1
      | self => rfl
      | side => rfl
      | above => rfl
    have hab : Okay false .above := ⟨by simp, by simp⟩
    have hsd : Okay true .side := ⟨by simp, fun _ => .inr rfl⟩
    have hpv : side = true → kd.go .prev = some .side := by
      intro h
      rcases ho.2 h with rfl | rfl <;> rfl
    cases k with
    | child => exact calm_once (sel_calm n false l hW.2) hk' hup hab
    | desc => exact calm_walk (sel_calm n false l hW.2) rfl hab n hk' hup
    | next => exact calm_once (sel_calm n true l hW.2.2) hk' (hpv hW.2.1) hsd
    | later => exact calm_walk (sel_calm n true l hW.2.2) rfl hsd n hk' (hpv hW.2.1)
    | pseudo => exact calm_once (sel_calm n false l hW.2) hk' hup hab
theorem sels_calm (n : Nat) (side : Bool) : ∀ (ss : Sels), WatchSels side ss → CalmTest (anySelA (A := A) n ss) side
  | .nil, _ => fun ks h kd hk ho => by simp only [anySelA]; exact calm_pure _ _
  | .cons s ss, hW => fun ks h kd hk ho => by
    simp only [WatchSels] at hW
    simp only [anySelA]
    exact calm_either (sel_calm n side s hW.1 ks h kd hk ho) fun ext => sels_calm n side ss hW.2 _ h kd (kind_ext hk) ho
end

theorem sheet_calm (n : Nat) : ∀ (ss : List Sel) {ks : List Kind}, (∀ s ∈ ss, WatchSel true s) → ks[0]? = some .self →
    Calm ks (sheetA (A := A) n ss)
  | [], ks, _, _ => calm_pure _ _
  | s :: ss, ks, hW, hk => by
    refine calm_bind (sel_calm n true s (hW s (by simp)) ks 0 .self hk ⟨by simp, fun _ => .inl rfl⟩) fun _ ext _ => ?_
    exact calm_bind (sheet_calm n ss (fun s h => hW s (by simp [h])) (kind_ext hk)) fun _ _ _ => calm_pure _ _

/-- the program looks only where changes are noticed -/
theorem match_noticed (n : Nat) (ss : List Sel) (hW : ∀ s ∈ ss, WatchSel true s) : Noticed [.self] (matchProg n ss) :=
  sheet_calm n ss (ks := [.self]) hW rfl (fun r _ => .ret r) fun _ _ _ => trivial

end Flair.Proofs.Matcher
