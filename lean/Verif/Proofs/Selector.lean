import Verif.Spec.Selector
import Verif.Proofs.Tree
import Verif.Tactics
/-! # Lemmas on the matching of selectors -/
namespace Flair.Proofs.Selector
open Flair.Tree Flair.Selector Flair.Spec Flair.Invalidation
variable {E : Type} [DecidableEq E]
set_option linter.unusedSectionVars false

/-- The test says whether `P`. -/
def Says (m : Option Bool) (P : Prop) : Prop := (P ∧ m = some true) ∨ (¬ P ∧ m = some false)

theorem says_of {b : Bool} {P : Prop} (h : b = true ↔ P) : Says (some b) P := by
  cases b
  · exact .inr ⟨fun p => by simpa using h.mpr p, rfl⟩
  · exact .inl ⟨h.mp rfl, rfl⟩

theorem says_iff {m : Option Bool} {P Q : Prop} (h : Says m P) (e : P ↔ Q) : Says m Q := by
  rcases h with ⟨p, h⟩ | ⟨p, h⟩
  · exact .inl ⟨e.mp p, h⟩
  · exact .inr ⟨fun q => p (e.mpr q), h⟩

theorem says_and {a b : Option Bool} {P Q : Prop} (ha : Says a P) (hb : Says b Q) : Says (bothM a b) (P ∧ Q) := by
  rcases ha with ⟨p, rfl⟩ | ⟨p, rfl⟩
  · rcases hb with ⟨q, rfl⟩ | ⟨q, rfl⟩
    · exact .inl ⟨⟨p, q⟩, rfl⟩
    · exact .inr ⟨fun h => q h.2, rfl⟩
  · exact .inr ⟨fun h => p h.1, rfl⟩

theorem says_any {X : Type} {f : X → Option Bool} {P : X → Prop} (l : List X) (h : ∀ x ∈ l, Says (f x) (P x)) :
    Says (anyM f l) (∃ x ∈ l, P x) := by
  induction l with
  | nil => exact .inr ⟨by simp, rfl⟩
  | cons x xs ih =>
    rcases h x (by simp) with ⟨p, e⟩ | ⟨p, e⟩
    · exact .inl ⟨⟨x, by simp, p⟩, by simp [anyM, e]⟩
    · rcases ih (fun y hy => h y (by simp [hy])) with ⟨q, e'⟩ | ⟨q, e'⟩
      · exact .inl ⟨by obtain ⟨y, hy, py⟩ := q; exact ⟨y, by simp [hy], py⟩, by simp [anyM, e, e']⟩
      · refine .inr ⟨?_, by simp [anyM, e, e']⟩
        rintro ⟨y, hy, py⟩
        rcases List.mem_cons.mp hy with rfl | hy
        · exact p py
        · exact q ⟨y, hy, py⟩

theorem says_or {a : Option Bool} {b : Option Bool} {P Q : Prop} (ha : Says a P) (hb : Says b Q) :
    Says (eitherM a b) (P ∨ Q) := by
  rcases ha with ⟨p, rfl⟩ | ⟨p, rfl⟩
  · exact .inl ⟨.inl p, rfl⟩
  · rcases hb with ⟨q, rfl⟩ | ⟨q, rfl⟩
    · exact .inl ⟨.inr q, rfl⟩
    · exact .inr ⟨by tauto, rfl⟩

theorem says_not {a : Option Bool} {P : Prop} (ha : Says a P) : Says (a.map (!·)) (¬ P) := by
  rcases ha with ⟨p, rfl⟩ | ⟨p, rfl⟩
  · exact .inr ⟨by tauto, rfl⟩
  · exact .inl ⟨p, rfl⟩

theorem count_says {f : E → Option Bool} {P : E → Prop} (l : List E) (h : ∀ x ∈ l, Says (f x) (P x)) :
    ∃ n, countM f l = some n ∧ CountIs P l n := by
  induction l with
  | nil => exact ⟨0, rfl, .nil⟩
  | cons x xs ih =>
    obtain ⟨n, hn, hc⟩ := ih fun y hy => h y (by simp [hy])
    rcases h x (by simp) with ⟨p, e⟩ | ⟨p, e⟩
    · exact ⟨n + 1, by simp [countM, e, hn], .yes p hc⟩
    · exact ⟨n, by simp [countM, e, hn], .no p hc⟩

theorem count_fun {P : E → Prop} {l : List E} {n m : Nat} (h : CountIs P l n) (h' : CountIs P l m) : n = m := by
  induction h generalizing m with
  | nil => cases h'; rfl
  | yes p _ ih => cases h' with
    | yes _ h' => rw [ih h']
    | no q _ => exact absurd p q
  | no p _ ih => cases h' with
    | yes q _ => exact absurd q p
    | no _ h' => exact ih h'

theorem count_append {P : E → Prop} {l l' : List E} {n m : Nat} (h : CountIs P l n) (h' : CountIs P l' m) :
    CountIs P (l ++ l') (n + m) := by
  induction h with
  | nil => simpa using h'
  | yes p _ ih => rw [Nat.add_right_comm]; exact .yes p ih
  | no p _ ih => exact .no p ih

theorem count_reverse {P : E → Prop} {l : List E} {n : Nat} (h : CountIs P l n) : CountIs P l.reverse n := by
  induction h with
  | nil => exact .nil
  | yes p _ ih => rw [List.reverse_cons]; exact count_append ih (.yes p .nil)
  | no p _ ih => rw [List.reverse_cons]; simpa using count_append ih (.no p .nil)

theorem count_filter {P : E → Prop} {f : E → Bool} (h : ∀ x, f x = true ↔ P x) (l : List E) :
    CountIs P l (l.filter f).length := by
  induction l with
  | nil => exact .nil
  | cons x xs ih =>
    by_cases hx : f x = true
    · simp only [List.filter_cons, hx, if_true, List.length_cons]; exact .yes ((h x).mp hx) ih
    · simp only [List.filter_cons, hx, if_false, Bool.false_eq_true]; exact .no (fun p => hx ((h x).mpr p)) ih

theorem count_all (l : List E) : CountIs (fun _ => True) l l.length := by
  induction l with
  | nil => exact .nil
  | cons x xs ih => exact .yes trivial ih

theorem count_congr {P Q : E → Prop} {l : List E} {n : Nat} (h : CountIs P l n) (e : ∀ x ∈ l, (P x ↔ Q x)) :
    CountIs Q l n := by
  induction h with
  | nil => exact .nil
  | yes p _ ih => exact .yes ((e _ (by simp)).mp p) (ih fun x hx => e x (by simp [hx]))
  | no p _ ih => exact .no (fun q => p ((e _ (by simp)).mpr q)) (ih fun x hx => e x (by simp [hx]))

theorem index_iff (a b : Int) (i : Nat) : matchesIndex a b (1 + i) = true ↔ InSequence a b (i + 1) := by
  unfold matchesIndex InSequence
  by_cases ha : a = 0
  · subst ha
    simp only [if_true, beq_iff_eq]
    constructor
    · intro h; exact ⟨0, by push_cast; omega⟩
    · rintro ⟨n, hn⟩; push_cast at hn; omega
  · simp only [ha, if_false, Bool.and_eq_true, decide_eq_true_eq, beq_iff_eq]
    constructor
    · rintro ⟨h1, h2⟩
      refine ⟨(Int.tdiv (1 + i - b) a).toNat, ?_⟩
      rw [Int.toNat_of_nonneg h1, h2]; push_cast; omega
    · rintro ⟨n, hn⟩
      have e : (1 + (i : Int) - b) = a * n := by push_cast at hn; omega
      rw [e, Int.mul_tdiv_cancel_left _ ha]
      exact ⟨by omega, rfl⟩

/-! ## The moves -/

theorem step_parent {w : SWorld E} (ok : ElementsOk w) (e x : E) :
    w.step .parent e = some x ↔ w.forest.parent e = some x := by
  simp only [World.step, World.target, Option.filter_eq_some_iff, List.contains_iff_mem]
  exact ⟨fun h => h.1, fun h => ⟨h, (ok.styled _ _ h).2⟩⟩

theorem step_parent_eq {w : SWorld E} (ok : ElementsOk w) (e : E) : w.step .parent e = w.forest.parent e := by
  apply Option.ext
  intro x
  exact step_parent ok e x

theorem chain_parent {w : SWorld E} (ok : ElementsOk w) (n : Nat) (e : E) :
    chain w .parent n e = ancestorsN w.forest n e := by
  induction n generalizing e with
  | zero => rfl
  | succ n ih =>
    simp only [chain, ancestorsN, step_parent_eq ok]
    cases w.forest.parent e with
    | none => rfl
    | some p => simp [ih]

theorem mem_chain_parent {w : SWorld E} (ok : ElementsOk w) (e x : E) :
    x ∈ chainAll w .parent e ↔ w.forest.Anc x e := by
  rw [chainAll, chain_parent ok]
  exact mem_ancestors ok.sound.wf e x

theorem child_styled {w : SWorld E} (ok : ElementsOk w) {x p : E} (h : x ∈ w.forest.children p) : x ∈ w.styled :=
  (ok.styled x p ((ok.sound.wf.mem_iff _ _).mp h)).1

theorem chain_none {w : SWorld E} {d : Dir} {e : E} (h : w.target d e = none) (n : Nat) : chain w d n e = [] := by
  cases n with
  | zero => rfl
  | succ n => simp [chain, World.step, h]

theorem chain_prev {w : SWorld E} (ok : ElementsOk w) {p : E} (n : Nat) (l1 : List E) :
    ∀ (e : E) (l2 : List E), w.forest.parent e = some p → w.forest.children p = l1 ++ e :: l2 → l1.length ≤ n →
      chain w .prev n e = l1.reverse := by
  induction n generalizing l1 with
  | zero => intro e l2 _ _ h; simp at h; simp [h, chain]
  | succ n ih =>
    intro e l2 hp hc hn
    have hnb := ((ok.sound.neighbours e).2 p l1 l2 hp hc).1
    dsimp only at hnb
    rcases List.eq_nil_or_concat l1 with rfl | ⟨l, x, rfl⟩
    · rw [chain_none (by simpa [World.target] using hnb)]; rfl
    · have hx : x ∈ w.forest.children p := by rw [hc]; simp
      have hpx := (ok.sound.wf.mem_iff _ _).mp hx
      have hs : w.step .prev e = some x := by
        simp only [World.step, World.target, Option.filter_eq_some_iff, List.contains_iff_mem]
        exact ⟨by rw [hnb]; simp, child_styled ok hx⟩
      simp only [chain, hs]
      rw [ih l x (e :: l2) hpx (by rw [hc]; simp) (by simpa using hn)]
      simp

theorem chain_next {w : SWorld E} (ok : ElementsOk w) {p : E} (n : Nat) (l2 : List E) :
    ∀ (e : E) (l1 : List E), w.forest.parent e = some p → w.forest.children p = l1 ++ e :: l2 → l2.length ≤ n →
      chain w .next n e = l2 := by
  induction n generalizing l2 with
  | zero => intro e l2 _ _ h; simp at h; simp [h, chain]
  | succ n ih =>
    intro e l1 hp hc hn
    have hnb := ((ok.sound.neighbours e).2 p l1 l2 hp hc).2
    dsimp only at hnb
    cases l2 with
    | nil => rw [chain_none (by simpa [World.target] using hnb)]
    | cons x l =>
      have hx : x ∈ w.forest.children p := by rw [hc]; simp
      have hpx := (ok.sound.wf.mem_iff _ _).mp hx
      have hs : w.step .next e = some x := by
        simp only [World.step, World.target, Option.filter_eq_some_iff, List.contains_iff_mem]
        exact ⟨by rw [hnb]; simp, child_styled ok hx⟩
      simp only [chain, hs]
      rw [ih l x (l1 ++ [e]) hpx (by rw [hc]; simp) (by simpa using hn)]

theorem take_before {l l1 l2 : List E} {e : E} (hn : l.Nodup) (h : l = l1 ++ e :: l2) :
    l.takeWhile (· ≠ e) = l1 ∧ (l.dropWhile (· ≠ e)).tail = l2 := by
  have h1 : ∀ x ∈ l1, x ≠ e := by
    rintro x hx rfl
    rw [h] at hn
    exact (List.nodup_append.mp hn).2.2 x hx x (by simp) rfl
  subst h
  rw [List.takeWhile_append_of_pos (by simpa using h1), List.dropWhile_append_of_pos (by simpa using h1)]
  simp

theorem length_le {w : SWorld E} (ok : ElementsOk w) (p : E) :
    (w.forest.children p).length ≤ w.forest.nodes.length :=
  nodup_length_le (ok.sound.wf.nodup p) fun a ha => (ok.sound.wf.parent_mem p a ((ok.sound.wf.mem_iff _ _).mp ha)).2

theorem preceding_eq {w : SWorld E} (ok : ElementsOk w) (e : E) :
    chainAll w .prev e = (precedingOf w everyOne e).reverse := by
  unfold chainAll precedingOf
  cases hp : w.forest.parent e with
  | none => rw [chain_none (by simpa [World.target] using ((ok.sound.neighbours e).1 hp).1)]; rfl
  | some p =>
    obtain ⟨l1, l2, hc⟩ := List.append_of_mem ((ok.sound.wf.mem_iff p e).mpr hp)
    have hl := length_le ok p
    rw [hc] at hl
    rw [chain_prev ok _ l1 e l2 hp hc (by simp at hl; omega)]
    simp only [(take_before (ok.sound.wf.nodup p) hc).1]
    congr 1
    exact (List.filter_eq_self.mpr fun _ _ => rfl).symm

theorem following_eq {w : SWorld E} (ok : ElementsOk w) (e : E) :
    chainAll w .next e = followingOf w everyOne e := by
  unfold chainAll followingOf
  cases hp : w.forest.parent e with
  | none => rw [chain_none (by simpa [World.target] using ((ok.sound.neighbours e).1 hp).2)]
  | some p =>
    obtain ⟨l1, l2, hc⟩ := List.append_of_mem ((ok.sound.wf.mem_iff p e).mpr hp)
    have hl := length_le ok p
    rw [hc] at hl
    rw [chain_next ok _ l2 e l1 hp hc (by simp at hl; omega)]
    simp only [(take_before (ok.sound.wf.nodup p) hc).2]
    exact (List.filter_eq_self.mpr fun _ _ => rfl).symm

theorem chain_head (w : SWorld E) (d : Dir) (e : E) : (chainAll w d e).head? = w.step d e := by
  simp only [chainAll, chain]
  cases w.step d e <;> rfl

theorem step_prev {w : SWorld E} (ok : ElementsOk w) (e : E) :
    w.step .prev e = (precedingOf w everyOne e).getLast? := by
  rw [← chain_head, preceding_eq ok, List.head?_reverse]

theorem step_next {w : SWorld E} (ok : ElementsOk w) (e : E) :
    w.step .next e = (followingOf w everyOne e).head? := by
  rw [← chain_head, following_eq ok]

theorem mem_following {w : SWorld E} (ok : ElementsOk w) (e x : E) :
    x ∈ followingOf w everyOne e ↔ e ∈ precedingOf w everyOne x := by
  unfold followingOf precedingOf
  constructor
  · intro h
    cases hp : w.forest.parent e with
    | none => simp [hp] at h
    | some p =>
      obtain ⟨l1, l2, hc⟩ := List.append_of_mem ((ok.sound.wf.mem_iff p e).mpr hp)
      simp only [hp, (take_before (ok.sound.wf.nodup p) hc).2, List.mem_filter] at h
      obtain ⟨m1, m2, hm⟩ := List.append_of_mem h.1
      have hx : w.forest.parent x = some p := (ok.sound.wf.mem_iff p x).mp (by rw [hc, hm]; simp)
      have hc' : w.forest.children p = (l1 ++ e :: m1) ++ x :: m2 := by rw [hc, hm]; simp
      simp only [hx, (take_before (ok.sound.wf.nodup p) hc').1, List.mem_filter]
      exact ⟨by simp, rfl⟩
  · intro h
    cases hp : w.forest.parent x with
    | none => simp [hp] at h
    | some p =>
      obtain ⟨l1, l2, hc⟩ := List.append_of_mem ((ok.sound.wf.mem_iff p x).mpr hp)
      simp only [hp, (take_before (ok.sound.wf.nodup p) hc).1, List.mem_filter] at h
      obtain ⟨m1, m2, hm⟩ := List.append_of_mem h.1
      have hx : w.forest.parent e = some p := (ok.sound.wf.mem_iff p e).mp (by rw [hc, hm]; simp)
      have hc' : w.forest.children p = m1 ++ e :: (m2 ++ x :: l2) := by rw [hc, hm]; simp
      simp only [hx, (take_before (ok.sound.wf.nodup p) hc').2, List.mem_filter]
      exact ⟨by simp, rfl⟩

theorem sibling_parent {w : SWorld E} (ok : ElementsOk w) {c : E → Bool} {e x : E} (h : x ∈ precedingOf w c e) :
    ∃ p, w.forest.parent e = some p ∧ w.forest.parent x = some p := by
  unfold precedingOf at h
  cases hp : w.forest.parent e with
  | none => simp [hp] at h
  | some p =>
    simp only [hp, List.mem_filter] at h
    exact ⟨p, rfl, (ok.sound.wf.mem_iff p x).mp ((List.takeWhile_sublist _).mem h.1)⟩

/-! ## Descendants -/

theorem children_walk {w : SWorld E} (ok : ElementsOk w) (e : E) :
    (match w.step .child e with | none => [] | some c => c :: chainAll w .next c) = w.forest.children e := by
  cases hc : w.forest.children e with
  | nil => simp [World.step, World.target, hc]
  | cons c l =>
    have hm : c ∈ w.forest.children e := by simp [hc]
    have hs : w.step .child e = some c := by
      simp only [World.step, World.target, Option.filter_eq_some_iff, List.contains_iff_mem]
      exact ⟨by simp [hc], child_styled ok hm⟩
    simp only [hs]
    have hl := length_le ok e
    rw [hc] at hl
    rw [chainAll, chain_next ok _ l c [] ((ok.sound.wf.mem_iff _ _).mp hm) (by simpa using hc) (by simp at hl; omega)]

theorem subtree_succ {w : SWorld E} (ok : ElementsOk w) (n : Nat) (e : E) :
    subtree w (n + 1) e = (w.forest.children e).flatMap fun x => x :: subtree w n x := by
  rw [← children_walk ok e]
  simp only [subtree]
  cases w.step .child e <;> rfl

theorem anc_step (f : Forest E) (n : Nat) (x e : E) :
    e ∈ ancestorsN f (n + 1) x ↔ f.parent x = some e ∨ ∃ c ∈ ancestorsN f n x, f.parent c = some e := by
  induction n generalizing x with
  | zero =>
    simp only [ancestorsN]
    cases f.parent x <;> simp [eq_comm]
  | succ n ih =>
    rw [ancestorsN]
    cases hp : f.parent x with
    | none => simp [ancestorsN, hp]
    | some p =>
      simp only [List.mem_cons, ih p]
      rw [ancestorsN]
      simp only [hp, List.mem_cons, Option.some.injEq]
      constructor
      · rintro (rfl | h | ⟨c, hc, h⟩)
        · exact .inl rfl
        · exact .inr ⟨p, .inl rfl, h⟩
        · exact .inr ⟨c, .inr hc, h⟩
      · rintro (rfl | ⟨c, rfl | hc, h⟩)
        · exact .inl rfl
        · exact .inr (.inl h)
        · exact .inr (.inr ⟨c, hc, h⟩)

theorem mem_subtree {w : SWorld E} (ok : ElementsOk w) (n : Nat) (e x : E) :
    x ∈ subtree w n e ↔ e ∈ ancestorsN w.forest n x := by
  induction n generalizing e with
  | zero => simp [subtree, ancestorsN]
  | succ n ih =>
    rw [subtree_succ ok, anc_step]
    simp only [List.mem_flatMap, List.mem_cons, ih, ok.sound.wf.mem_iff]
    constructor
    · rintro ⟨c, hc, rfl | h⟩
      · exact .inl hc
      · exact .inr ⟨c, h, hc⟩
    · rintro (h | ⟨c, hc, h⟩)
      · exact ⟨x, h, .inl rfl⟩
      · exact ⟨c, h, .inr hc⟩

theorem mem_below {w : SWorld E} (ok : ElementsOk w) (e x : E) :
    x ∈ subtree w (w.forest.nodes.length + 1) e ↔ w.forest.Anc e x := by
  rw [mem_subtree ok]
  exact mem_ancestors ok.sound.wf x e

/-! ## Combinators -/

theorem mem_candidates {w : SWorld E} (ok : ElementsOk w) (e x : E) (k : Link) :
    x ∈ candidates w e k ↔ Linked w everyOne e x k := by
  cases k with
  | child => simp [candidates, Linked, step_parent_eq ok]
  | desc => simp only [candidates, Linked, mem_chain_parent ok]
  | next => simp [candidates, Linked, step_prev ok]
  | later => simp [candidates, Linked, preceding_eq ok]
  | pseudo => simp [candidates, Linked, step_parent_eq ok]

theorem linked_styled {w : SWorld E} (ok : ElementsOk w) {e x : E} {k : Link} (h : Linked w everyOne e x k) :
    x ∈ w.styled := by
  cases k with
  | child => exact (ok.styled _ _ h).2
  | pseudo => exact (ok.styled _ _ h).2
  | desc =>
    have h' : w.forest.Anc x e := h
    clear h
    induction h' with
    | child e h => exact (ok.styled _ _ h).2
    | step p e _ _ ih => exact ih
  | next =>
    obtain ⟨p, _, hx⟩ := sibling_parent ok (List.mem_of_getLast? h)
    exact (ok.styled _ _ hx).1
  | later =>
    obtain ⟨p, _, hx⟩ := sibling_parent ok h
    exact (ok.styled _ _ hx).1

/-- Below or beside: where `:has()` looks, by the first combinator. -/
def Region (w : SWorld E) (e x : E) : Link → Prop
  | .child => w.forest.Anc e x
  | .desc => w.forest.Anc e x
  | .next => ∃ s, e ∈ precedingOf w everyOne s ∧ (x = s ∨ w.forest.Anc s x)
  | .later => ∃ s, e ∈ precedingOf w everyOne s ∧ (x = s ∨ w.forest.Anc s x)
  | .pseudo => False

theorem mem_hasCandidates {w : SWorld E} (ok : ElementsOk w) (e x : E) (k : Link) :
    x ∈ hasCandidates w e k ↔ Region w e x k := by
  cases k <;>
    simp only [hasCandidates, Region, mem_below ok, List.mem_flatMap, List.mem_cons, following_eq ok,
      mem_following ok, List.not_mem_nil]

theorem anc_sibling {w : SWorld E} (ok : ElementsOk w) {a y x : E} (h : y ∈ precedingOf w everyOne x)
    (ha : w.forest.Anc a y) : w.forest.Anc a x := by
  obtain ⟨p, hx, hy⟩ := sibling_parent ok h
  rw [Anc_iff_parent] at ha ⊢
  obtain ⟨q, hq, h'⟩ := ha
  rw [hy] at hq
  exact ⟨q, by rw [hx]; exact hq, h'⟩

theorem preceding_trans {w : SWorld E} (ok : ElementsOk w) {a b c : E} (h : a ∈ precedingOf w everyOne b)
    (h' : b ∈ precedingOf w everyOne c) : a ∈ precedingOf w everyOne c := by
  obtain ⟨p, hc, hb⟩ := sibling_parent ok h'
  obtain ⟨l1, l2, e⟩ := List.append_of_mem ((ok.sound.wf.mem_iff p c).mpr hc)
  simp only [precedingOf, hc, (take_before (ok.sound.wf.nodup p) e).1, List.mem_filter] at h' ⊢
  obtain ⟨m1, m2, e'⟩ := List.append_of_mem h'.1
  have e2 : w.forest.children p = m1 ++ b :: (m2 ++ c :: l2) := by rw [e, e']; simp
  simp only [precedingOf, hb, (take_before (ok.sound.wf.nodup p) e2).1, List.mem_filter] at h
  exact ⟨by rw [e']; simp [h.1], rfl⟩

theorem linked_below {w : SWorld E} (ok : ElementsOk w) {a x y : E} {k : Link} (h : Linked w everyOne x y k)
    (ha : w.forest.Anc a y) : w.forest.Anc a x := by
  cases k with
  | child => exact .step y x ha h
  | pseudo => exact .step y x ha h
  | desc => exact Anc.trans' ha h
  | next => exact anc_sibling ok (List.mem_of_getLast? h) ha
  | later => exact anc_sibling ok h ha

theorem linked_beside {w : SWorld E} (ok : ElementsOk w) {e s x : E} {k : Link} (h : Linked w everyOne x s k)
    (he : e ∈ precedingOf w everyOne s) : ∃ s, e ∈ precedingOf w everyOne s ∧ (x = s ∨ w.forest.Anc s x) := by
  cases k with
  | child => exact ⟨s, he, .inr (.child _ h)⟩
  | pseudo => exact ⟨s, he, .inr (.child _ h)⟩
  | desc => exact ⟨s, he, .inr h⟩
  | next => exact ⟨x, preceding_trans ok he (List.mem_of_getLast? h), .inl rfl⟩
  | later => exact ⟨x, preceding_trans ok he h, .inl rfl⟩

theorem region_step {w : SWorld E} (ok : ElementsOk w) {e x y : E} {k k' : Link} (h : Linked w everyOne x y k')
    (hy : Region w e y k) : Region w e x k := by
  cases k with
  | child => exact linked_below ok h hy
  | desc => exact linked_below ok h hy
  | next =>
    obtain ⟨s, hs, rfl | ha⟩ := hy
    · exact linked_beside ok h hs
    · exact ⟨s, hs, .inr (linked_below ok h ha)⟩
  | later =>
    obtain ⟨s, hs, rfl | ha⟩ := hy
    · exact linked_beside ok h hs
    · exact ⟨s, hs, .inr (linked_below ok h ha)⟩
  | pseudo => exact hy

theorem region_start {w : SWorld E} {e x : E} {k : Link} (h : Linked w everyOne x e k) (hk : k ≠ .pseudo) :
    Region w e x k := by
  cases k with
  | child => exact .child _ h
  | desc => exact h
  | next => exact ⟨x, List.mem_of_getLast? h, .inl rfl⟩
  | later => exact ⟨x, h, .inl rfl⟩
  | pseudo => exact absurd rfl hk

theorem region_of {w : SWorld E} (ok : ElementsOk w) {e : E} {k : Link} :
    ∀ (s : Sel) (x : E), Anchored k s → SelMeans w everyOne noParent (some e) s x → Region w e x k
  | .subject _, _, h, _ => absurd h (by simp [Anchored])
  | .link l k' c, x, h, hm => by
    simp only [SelMeans] at hm
    obtain ⟨_, y, hl, hm⟩ := hm
    simp only [Anchored] at h
    rcases h with ⟨rfl, rfl, hk⟩ | h
    · simp only [SelMeans, CompoundMeans, SimpleMeans] at hm
      have : y = e := by simpa [eq_comm] using hm.2
      subst this
      exact region_start hl hk
    · exact region_step ok hl (region_of ok l y h hm)

/-! ## The main theorem -/

theorem nth_says {w : SWorld E} (ok : ElementsOk w) {P : E → Prop} {a b : Int} {fromEnd : Bool} {e : E} {n : Nat}
    (h : CountIs P (nthSiblings w fromEnd e) n) :
    matchesIndex a b (1 + n) = true ↔ NthAmong w everyOne P a b fromEnd e := by
  rw [index_iff]
  have h' : CountIs P (if fromEnd then followingOf w everyOne e else precedingOf w everyOne e) n := by
    unfold nthSiblings at h
    cases fromEnd
    · simp only [Bool.false_eq_true, if_false, preceding_eq ok] at h ⊢
      simpa using count_reverse h
    · simpa only [if_true, following_eq ok] using h
  unfold NthAmong
  constructor
  · intro hs; exact ⟨n, h', hs⟩
  · rintro ⟨m, hm, hs⟩
    rwa [count_fun h' hm]

theorem nth_edge {w : SWorld E} (ok : ElementsOk w) (fromEnd : Bool) (e : E) :
    (w.step (if fromEnd then .next else .prev) e).isNone = true ↔
      NthAmong w everyOne (fun _ => True) 0 1 fromEnd e := by
  rw [← nth_says ok (count_all _), ← chain_head]
  unfold nthSiblings matchesIndex
  cases chainAll w (if fromEnd = true then Dir.next else Dir.prev) e with
  | nil => simp
  | cons x l =>
    simp only [List.head?_cons, Option.isNone_some, if_true, List.length_cons, beq_iff_eq, Bool.false_eq_true, false_iff]
    push_cast; omega

mutual
theorem simple_says {w : SWorld E} (ok : ElementsOk w) (anchor : Option E) :
    ∀ (s : Simple) (e : E), e ∈ w.styled → SimpleOk false s →
      Says (matchSimple w anchor s e) (SimpleMeans w everyOne noParent anchor s e)
  | .universal, e, _, _ => by rw [matchSimple, SimpleMeans]; exact says_of (by simp)
  | .anyNamespace, e, _, _ => by rw [matchSimple, SimpleMeans]; exact says_of (by simp)
  | .noNamespace, e, _, h => by simp [SimpleOk] at h
  | .localName n, e, _, _ => by rw [matchSimple, SimpleMeans]; exact says_of (by simp [hasLocalName])
  | .id i, e, _, _ => by
    rw [matchSimple, SimpleMeans]
    refine says_of ?_
    unfold hasId
    cases (w.data e).id <;> simp
  | .cls c, e, _, _ => by rw [matchSimple, SimpleMeans]; exact says_of (by simp [hasClass])
  | .attrExists k, e, _, _ => by
    rw [matchSimple, SimpleMeans]
    exact says_of (by simp [hasAttr, Option.isSome_iff_exists])
  | .attr ns k op, e, _, _ => by
    rw [matchSimple, SimpleMeans]
    refine says_of ?_
    unfold attrMatches
    by_cases h : ns ≠ .any ∧ ns ≠ .specific ""
    · rw [if_pos h]; simp only [Bool.false_eq_true, false_iff]; tauto
    · rw [if_neg h]
      have h' : ns = .any ∨ ns = .specific "" := by tauto
      cases (w.data e).attributes k <;> simp [h']
  | .root, e, he, _ => by rw [matchSimple, SimpleMeans]; exact says_of (ok.root e he)
  | .scope, e, he, _ => by rw [matchSimple, SimpleMeans]; exact says_of (ok.root e he)
  | .empty, e, _, _ => by
    rw [matchSimple, SimpleMeans]
    refine says_of ?_
    unfold Selector.isEmpty
    cases w.forest.children e with
    | nil => simp
    | cons x l => simp only [List.head?_cons, Option.isNone_some, Bool.false_eq_true, false_iff]
                  exact fun h => by simpa [everyOne] using h x (by simp)
  | .state s, e, _, _ => by
    rw [matchSimple, SimpleMeans]
    refine says_of ?_
    unfold matchState
    cases s <;> rfl
  | .nth a b fromEnd, e, _, _ => by
    rw [matchSimple, SimpleMeans]
    split
    · next h =>
      obtain ⟨rfl, rfl⟩ := h
      exact says_of (nth_edge ok fromEnd e)
    · exact says_of (nth_says ok (count_all _))
  | .nthOfType a b fromEnd, e, _, _ => by
    rw [matchSimple, SimpleMeans]
    refine says_of (nth_says ok (count_filter (fun x => ?_) _))
    unfold isSameType
    cases (w.data e).typeName with
    | none => simp
    | some t => simp only [Option.isSome_some, Bool.true_and, beq_iff_eq, Option.some.injEq]
                exact ⟨fun h => ⟨t, h.symm, rfl⟩, fun ⟨_, h, h'⟩ => by rw [h, h']⟩
  | .nthOf a b fromEnd sels, e, he, h => by
    rw [matchSimple, SimpleMeans]
    rw [SimpleOk] at h
    refine says_and (any_says ok anchor sels e he h) ?_
    have hst : ∀ x ∈ nthSiblings w fromEnd e, x ∈ w.styled := by
      intro x hx
      unfold nthSiblings at hx
      cases fromEnd
      · simp only [Bool.false_eq_true, if_false, preceding_eq ok, List.mem_reverse] at hx
        exact linked_styled (k := .later) ok hx
      · simp only [if_true, following_eq ok, mem_following ok] at hx
        obtain ⟨p, hx, _⟩ := sibling_parent ok hx
        exact (ok.styled _ _ hx).1
    obtain ⟨n, hn, hc⟩ := count_says (f := fun x => matchAny w anchor sels x)
      (P := fun x => AnyMeans w everyOne noParent anchor sels x) (nthSiblings w fromEnd e)
      fun x hx => any_says ok anchor sels x (hst x hx) h
    rw [hn]
    exact says_of (nth_says ok hc)
  | .not sels, e, he, h => by
    rw [matchSimple, SimpleMeans]
    rw [SimpleOk] at h
    exact says_not (any_says ok anchor sels e he h)
  | .is sels, e, he, h => by
    rw [matchSimple, SimpleMeans]
    rw [SimpleOk] at h
    exact any_says ok anchor sels e he h
  | .where_ sels, e, he, h => by
    rw [matchSimple, SimpleMeans]
    rw [SimpleOk] at h
    exact any_says ok anchor sels e he h
  | .parent, e, _, h => by simp [SimpleOk] at h
  | .has rels, e, he, h => by
    rw [matchSimple, SimpleMeans]
    rw [SimpleOk] at h
    exact has_says ok rels e he h
  | .anchor, e, _, _ => by rw [matchSimple, SimpleMeans]; exact says_of (by simp)
  | .pseudoElement p, e, _, _ => by rw [matchSimple, SimpleMeans]; exact says_of (by simp [matchPseudo])

theorem compound_says {w : SWorld E} (ok : ElementsOk w) (anchor : Option E) :
    ∀ (c : Compound) (e : E), e ∈ w.styled → CompoundOk false c →
      Says (matchCompound w anchor c e) (CompoundMeans w everyOne noParent anchor c e)
  | .nil, e, _, _ => by rw [matchCompound, CompoundMeans]; exact says_of (by simp)
  | .cons s c, e, he, h => by
    rw [matchCompound, CompoundMeans]
    rw [CompoundOk] at h
    exact says_and (simple_says ok anchor s e he h.1) (compound_says ok anchor c e he h.2)

theorem sel_says {w : SWorld E} (ok : ElementsOk w) (anchor : Option E) :
    ∀ (s : Sel) (e : E), e ∈ w.styled → SelOk false s → Says (matchSel w anchor s e) (SelMeans w everyOne noParent anchor s e)
  | .subject c, e, he, h => by
    rw [matchSel, SelMeans]
    rw [SelOk] at h
    exact says_iff (compound_says ok anchor c e he h) (by simp [everyOne])
  | .link l k c, e, he, h => by
    rw [matchSel, SelMeans]
    rw [SelOk] at h
    refine says_iff (says_and (compound_says ok anchor c e he h.2)
      (says_any (P := fun x => SelMeans w everyOne noParent anchor l x) (candidates w e k) fun x hx => ?_)) ?_
    · exact sel_says ok anchor l x (linked_styled ok ((mem_candidates ok e x k).mp hx)) h.1
    · simp only [mem_candidates ok, everyOne, true_or, true_and]

theorem any_says {w : SWorld E} (ok : ElementsOk w) (anchor : Option E) :
    ∀ (s : Sels) (e : E), e ∈ w.styled → SelsOk false s → Says (matchAny w anchor s e) (AnyMeans w everyOne noParent anchor s e)
  | .nil, e, _, _ => by rw [matchAny, AnyMeans]; exact says_of (by simp)
  | .cons s ss, e, he, h => by
    rw [matchAny, AnyMeans]
    rw [SelsOk] at h
    exact says_or (sel_says ok anchor s e he h.1) (any_says ok anchor ss e he h.2)

theorem has_says {w : SWorld E} (ok : ElementsOk w) :
    ∀ (r : Rels) (e : E), e ∈ w.styled → RelsOk false r → Says (matchHas w r e) (HasMeans w everyOne noParent r e)
  | .nil, e, _, _ => by rw [matchHas, HasMeans]; exact says_of (by simp)
  | .cons k s rs, e, he, h => by
    rw [matchHas, HasMeans]
    rw [RelsOk] at h
    refine says_or (says_iff (says_any (P := fun x => SelMeans w everyOne noParent (some e) s x) (hasCandidates w e k)
      fun x hx => ?_) ?_) (has_says ok rs e he h.2.2)
    · refine sel_says ok (some e) s x ?_ h.2.1
      have hr := (mem_hasCandidates ok e x k).mp hx
      have hanc : ∀ a, w.forest.Anc a x → x ∈ w.styled := by
        intro a ha
        obtain ⟨p, hp, _⟩ := Anc_iff_parent.mp ha
        exact (ok.styled _ _ hp).1
      have hbes : (∃ s, e ∈ precedingOf w everyOne s ∧ (x = s ∨ w.forest.Anc s x)) → x ∈ w.styled := by
        rintro ⟨s, hs, rfl | ha⟩
        · obtain ⟨p, hp, _⟩ := sibling_parent ok hs
          exact (ok.styled _ _ hp).1
        · exact hanc _ ha
      cases k with
      | child => exact hanc _ hr
      | desc => exact hanc _ hr
      | next => exact hbes hr
      | later => exact hbes hr
      | pseudo => exact absurd hr (by simp [Region])
    · constructor
      · rintro ⟨x, _, hx⟩; exact ⟨x, hx⟩
      · rintro ⟨x, hx⟩; exact ⟨x, (mem_hasCandidates ok e x k).mpr (region_of ok s x h.1 hx), hx⟩
end

end Flair.Proofs.Selector
