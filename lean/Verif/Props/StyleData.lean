import Verif.Spec.StyleData
import Verif.Tactics
import Mathlib.Data.List.Dedup
/-!
# C22 : focus states, C23 : class lists, C56 : recalculation marks, C58 : style data follows components
-/
namespace Flair.Props
open Flair.Spec Flair.StyleData
variable {E V : Type}

/-! ## C22 -/

private theorem focus_inv [DecidableEq E] {focus : Option E} {vis : Option Bool}
    {data : E → Option FocusState} {prev : Option E} (h : FocusRun NotWhileFocused focus vis data prev) :
    prev = focus ∧ FocusOk focus (vis.getD false) data := by
  induction h with
  | start data hd =>
    refine ⟨rfl, fun e s hs => ?_⟩
    rw [hd e s hs]; simp
  | @frame focus vis data prev focus' vis' data' fchanged vchanged _ hf hv hvc hd ih =>
    obtain ⟨rfl, ih⟩ := ih
    have hfv : (vis'.map fun v => (v, vchanged)).any (·.1) =
        vis'.getD false := by cases vis' <;> rfl
    have hvcd : (vis'.map fun v => (v, vchanged)).any (·.2) =
        (vis'.isSome && vchanged) := by cases vis' <;> rfl
    unfold syncInputFocus
    dsimp only
    rw [hvcd, hfv]
    by_cases hsame : focus' = prev
    · subst hsame
      rw [if_pos (by simp)]
      have hdat : ∀ e s, data' e = some s → data e = some s ∨ (focus' ≠ some e ∧ s = ⟨false, false⟩) := by
        intro e s hs
        rcases hd e with h | h | ⟨h, hl⟩
        · exact Or.inl (h ▸ hs)
        · rw [h] at hs; cases hs
        · rw [h] at hs; cases hs
          exact Or.inr ⟨fun hc => hl ⟨hc, hc⟩, rfl⟩
      by_cases hvcc : (vis'.isSome && vchanged) = true
      · rw [if_pos hvcc]
        refine ⟨rfl, fun e s hs => ?_⟩
        simp only at hs
        by_cases he : focus' = some e
        · rw [if_pos he] at hs
          cases hde : data' e with
          | none => rw [hde] at hs; cases hs
          | some s0 =>
            rw [hde] at hs
            cases hs
            rcases hdat e s0 hde with h | h
            · exact ⟨(ih e s0 h).1, by simp [he]⟩
            · exact absurd he h.1
        · rw [if_neg he] at hs
          rcases hdat e s hs with h | ⟨_, rfl⟩
          · have := ih e s h
            refine ⟨this.1, ?_⟩
            have h2 := this.2
            simp only [he, false_and, iff_false] at h2 ⊢
            exact h2
          · simp [he]
      · rw [if_neg hvcc]
        refine ⟨rfl, fun e s hs => ?_⟩
        have hvis : vis' = vis := by
          by_contra hne
          have hc := hvc hne
          cases vis' with
          | none => exact absurd rfl (hv (fun h => hne h.symm))
          | some v => rw [hc] at hvcc; exact hvcc rfl
        rw [hvis]
        rcases hdat e s hs with h | ⟨he, rfl⟩
        · exact ih e s h
        · simp [he]
    · rw [if_neg (by simp [hf hsame, hsame])]
      refine ⟨rfl, fun e s hs => ?_⟩
      simp only at hs
      by_cases he : focus' = some e
      · rw [if_pos he] at hs
        rw [if_neg (fun hp => hsame (he.trans hp.symm))] at hs
        cases hde : data' e with
        | none => rw [hde] at hs; cases hs
        | some s0 => rw [hde] at hs; cases hs; simp [he]
      · rw [if_neg he] at hs
        by_cases hp : prev = some e
        · rw [if_pos hp] at hs
          cases hde : data' e with
          | none => rw [hde] at hs; cases hs
          | some s0 => rw [hde] at hs; cases hs; simp [he]
        · rw [if_neg hp] at hs
          rcases hd e with h | h | ⟨h, _⟩
          · have := ih e s (h ▸ hs)
            simp only [hp, he, false_and, iff_false] at this ⊢
            exact this
          · rw [h] at hs; cases hs
          · rw [h] at hs; cases hs; simp [he]

/-- C22, partial.  After every pass, in every history, the focus states are right.  Missing (false, see
`C22_late_style`): entities that get (new) style data while they are focused and stay focused. -/
theorem C22_focus_partial [DecidableEq E] (focus : Option E) (vis : Option Bool)
    (data : E → Option FocusState) (prev : Option E) (h : FocusRun NotWhileFocused focus vis data prev) :
    FocusOk focus (vis.getD false) data := (focus_inv h).2

/-- C22 is false: entity 0 is focused before it is styled; once styled, it does not get `:focus`. -/
theorem C22_late_style : ∃ (data : Nat → Option FocusState) (prev : Option Nat) (s : FocusState),
    FocusRun Anytime (some 0) none data prev ∧ data 0 = some s ∧ s.focused = false := by
  have r1 := FocusRun.frame (late := Anytime) (some 0) none (fun _ => none) true false
    (.start (fun _ => none) (by simp)) (by simp) (by simp) (by simp) (by simp)
  have r2 := FocusRun.frame (late := Anytime) (some 0) none
    (fun e => if e = 0 then some ⟨false, false⟩ else none) false false r1 (by simp) (by simp) (by simp)
    (by intro e; by_cases h : e = 0 <;> simp [h, Anytime])
  exact ⟨_, _, ⟨false, false⟩, r2, by decide, rfl⟩

/-- A history in which the focus moves and visibility is switched on. -/
example : ∃ data prev, FocusRun NotWhileFocused (some 1) (some true) data prev ∧
    data 0 = some ⟨false, false⟩ ∧ data 1 = some ⟨true, true⟩ := by
  have r1 := FocusRun.frame (E := Nat) (late := NotWhileFocused) (some 0) (some false)
    (fun e => if e ≤ 1 then some ⟨false, false⟩ else none) true true
    (.start (fun e => if e ≤ 1 then some ⟨false, false⟩ else none) (by simp)) (by simp) (by simp)
    (by simp) (by simp)
  have r2 := FocusRun.frame (late := NotWhileFocused) (some 1) (some true) _ true true r1 (by simp)
    (by simp) (by simp) (fun e => Or.inl rfl)
  exact ⟨_, _, r2, by decide, by decide⟩

/-! ## C23 -/

private theorem findIdx_none {l : ClassList} {c : List Char} : l.findIdx? (· == c) = none ↔ c ∉ l := by
  rw [List.findIdx?_eq_none_iff]
  constructor
  · intro h hc; simpa using h c hc
  · rintro h x hx; simp; rintro rfl; exact h hx

private theorem eraseIdx_found {l : ClassList} {c : List Char} {i : Nat} (hnd : l.Nodup)
    (h : l.findIdx? (· == c) = some i) : c ∈ l ∧ l.eraseIdx i = l.filter (fun x => x ≠ c) := by
  obtain ⟨hi, hc, hb⟩ := List.findIdx?_eq_some_iff_getElem.mp h
  have hc : l[i] = c := by simpa using hc
  refine ⟨hc ▸ List.getElem_mem hi, ?_⟩
  have hsplit : l = l.take i ++ c :: l.drop (i + 1) := by
    rw [← hc, List.getElem_cons_drop, List.take_append_drop]
  have hl : l.eraseIdx i = l.take i ++ l.drop (i + 1) := List.eraseIdx_eq_take_drop_succ ..
  rw [hl]
  have hnd' := hnd
  rw [hsplit] at hnd'
  have h1 : c ∉ l.take i := fun hm => (List.disjoint_of_nodup_append hnd') hm (by simp)
  have h2 : c ∉ l.drop (i + 1) := (List.nodup_cons.mp (List.nodup_append.mp hnd').2.1).1
  conv => rhs; rw [hsplit]
  rw [List.filter_append, List.filter_cons]
  simp only [ne_eq, not_true_eq_false, decide_false, Bool.false_eq_true, if_false]
  rw [List.filter_eq_self.mpr, List.filter_eq_self.mpr]
  · intro a ha; simp; rintro rfl; exact h2 ha
  · intro a ha; simp; rintro rfl; exact h1 ha

private theorem op_eq {l : ClassList} (hnd : l.Nodup) (op : ClassOp) :
    op.apply l = match op with
      | .add c => if c ∈ l then l else l ++ [c]
      | .remove c => l.filter (fun x => x ≠ c)
      | .toggle c => if c ∈ l then l.filter (fun x => x ≠ c) else l ++ [c] := by
  have hno : ∀ c, c ∉ l → l.filter (fun x => x ≠ c) = l := by
    intro c hc
    rw [List.filter_eq_self]; intro a ha; simp; rintro rfl; exact hc ha
  cases op with
  | add c => simp [ClassOp.apply, add]
  | remove c =>
    simp only [ClassOp.apply, remove]
    cases h : l.findIdx? (· == c) with
    | none => simp only; rw [hno c (findIdx_none.mp h)]
    | some i => exact (eraseIdx_found hnd h).2
  | toggle c =>
    simp only [ClassOp.apply, toggle]
    cases h : l.findIdx? (· == c) with
    | none => simp only; rw [if_neg (findIdx_none.mp h)]
    | some i => simp only; rw [if_pos (eraseIdx_found hnd h).1]; exact (eraseIdx_found hnd h).2

private theorem op_step {l : ClassList} (hnd : l.Nodup) (op : ClassOp) :
    (op.apply l).Nodup ∧ (∀ x, x ∈ op.apply l ↔ op.onSet (· ∈ l) x) ∧
    (op.apply l).filter (fun x => x ≠ op.name) = l.filter (fun x => x ≠ op.name) ∧
    (op.name ∉ l → op.name ∈ op.apply l → (op.apply l).getLast? = some op.name) ∧
    (op.name ∈ l → op.name ∈ op.apply l → op.apply l = l) := by
  have happ : ∀ c, c ∉ l → (l ++ [c]).Nodup := by
    intro c hc
    rw [List.nodup_append]
    refine ⟨hnd, by simp, ?_⟩
    intro a ha b hb; simp at hb; subst hb; rintro rfl; exact hc ha
  rw [op_eq hnd]
  cases op with
  | add c =>
    simp only [ClassOp.onSet, ClassOp.name]
    by_cases hc : c ∈ l
    · simp only [hc, if_true]
      refine ⟨hnd, fun x => ⟨Or.inr, ?_⟩, by simp, by simp, by simp⟩
      rintro (rfl | h)
      · exact hc
      · exact h
    · simp only [hc, if_false]
      refine ⟨happ c hc, fun x => ?_, by simp [List.filter_append], by simp, by simp⟩
      simp [or_comm]
  | remove c =>
    simp only [ClassOp.onSet, ClassOp.name]
    refine ⟨hnd.filter _, fun x => by simp [and_comm], by rw [List.filter_filter]; congr 1; funext a; by_cases h : a = c <;> simp [h], by simp, by simp⟩
  | toggle c =>
    simp only [ClassOp.onSet, ClassOp.name]
    by_cases hc : c ∈ l
    · simp only [hc, if_true]
      refine ⟨hnd.filter _, fun x => ?_, by rw [List.filter_filter]; congr 1; funext a; by_cases h : a = c <;> simp [h], by simp, by simp⟩
      by_cases hx : x = c <;> simp [hx, hc]
    · simp only [hc, if_false]
      refine ⟨happ c hc, fun x => ?_, by simp [List.filter_append], by simp, by simp⟩
      by_cases hx : x = c <;> simp [hx, hc]

private theorem addAll {l : ClassList} (hnd : l.Nodup) (cs : List (List Char)) :
    (cs.foldl add l).Nodup ∧ (∀ x, x ∈ cs.foldl add l ↔ x ∈ l ∨ x ∈ cs) ∧
    ((l ++ cs).Nodup → cs.foldl add l = l ++ cs) := by
  induction cs generalizing l with
  | nil => simp [hnd]
  | cons c cs ih =>
    obtain ⟨h1, h2, _⟩ := op_step hnd (.add c)
    have h1 : (add l c).Nodup := h1
    have h2 : ∀ x, x ∈ add l c ↔ x = c ∨ x ∈ l := h2
    obtain ⟨i1, i2, i3⟩ := ih h1
    refine ⟨i1, fun x => ?_, fun h => ?_⟩
    · rw [List.foldl_cons, i2, h2]; simp; tauto
    · have hc : c ∉ l := fun hm => (List.disjoint_of_nodup_append h) hm (by simp)
      have : add l c = l ++ [c] := by simp [add, hc]
      rw [List.foldl_cons, i3 (by rw [this]; simpa using h), this]
      simp

/-- C23.  Start from a class list made of any names (in any number of repetitions) and perform any
operations: no name is listed twice; `contains` answers as the mathematical set does; an operation does
not change the order of the other names, puts a newly added name last, and does not move a name that
stays. -/
theorem C23_class_list (cs : List (List Char)) (ops : List ClassOp) :
    let l := ops.foldl ClassOp.apply (newWithClasses cs)
    l.Nodup ∧
    (∀ c, contains l c = true ↔ ops.foldl ClassOp.onSet (· ∈ cs) c) ∧
    ∀ op : ClassOp, (op.apply l).filter (fun x => x ≠ op.name) = l.filter (fun x => x ≠ op.name) ∧
      (contains l op.name = false → contains (op.apply l) op.name = true →
        (op.apply l).getLast? = some op.name) ∧
      (contains l op.name = true → contains (op.apply l) op.name = true → op.apply l = l) := by
  have key : ∀ (ops : List ClassOp) (l : ClassList) (s : List Char → Prop), l.Nodup → (∀ x, x ∈ l ↔ s x) →
      (ops.foldl ClassOp.apply l).Nodup ∧ ∀ x, x ∈ ops.foldl ClassOp.apply l ↔ ops.foldl ClassOp.onSet s x := by
    intro ops
    induction ops with
    | nil => intro l s h1 h2; exact ⟨h1, h2⟩
    | cons op ops ih =>
      intro l s h1 h2
      obtain ⟨j1, j2, _⟩ := op_step h1 op
      have : (fun x => x ∈ l) = s := funext fun x => propext (h2 x)
      exact ih _ _ j1 (fun x => by rw [j2, this])
  have h0 := addAll (l := []) (by simp) cs
  obtain ⟨h1, h2⟩ := key ops (newWithClasses cs) (· ∈ cs) h0.1 (fun x => by
    have := h0.2.1 x
    simpa [newWithClasses] using this)
  refine ⟨h1, fun c => by simp only [contains, List.contains_iff_mem]; exact h2 c, fun op => ?_⟩
  obtain ⟨_, _, k1, k2, k3⟩ := op_step h1 op
  exact ⟨k1, fun a b => k2 (by simpa [contains] using a) (by simpa [contains] using b),
    fun a b => k3 (by simpa [contains] using a) (by simpa [contains] using b)⟩

/-- C23, toggling twice gives the same set. -/
theorem C23_toggle_twice (cs : List (List Char)) (ops : List ClassOp) (c x : List Char) :
    let l := ops.foldl ClassOp.apply (newWithClasses cs)
    contains (toggle (toggle l c) c) x = contains l x := by
  intro l
  have h := C23_class_list cs ops
  obtain ⟨_, h1, _⟩ := h
  obtain ⟨_, h2, _⟩ := C23_class_list cs (ops ++ [ClassOp.toggle c, ClassOp.toggle c])
  have e : (ops ++ [ClassOp.toggle c, ClassOp.toggle c]).foldl ClassOp.apply (newWithClasses cs) =
      toggle (toggle l c) c := by rw [List.foldl_append]; rfl
  rw [e] at h2
  rw [Bool.eq_iff_iff, h2, h1, List.foldl_append]
  simp only [List.foldl_cons, List.foldl_nil, ClassOp.onSet]
  by_cases hx : x = c <;> simp [hx]

private theorem split_word (ws : Char → Bool) (w rest cur : List Char) (hw : ∀ c ∈ w, ws c = false) :
    splitWs ws (w ++ rest) cur = splitWs ws rest (cur ++ w) := by
  induction w generalizing cur with
  | nil => simp
  | cons c w ih =>
    rw [List.cons_append, splitWs, hw c (by simp)]
    simp only [Bool.false_eq_true, if_false]
    rw [ih _ (fun d hd => hw d (by simp [hd]))]
    simp

private theorem splitWs_mem (ws : Char → Bool) (s cur : List Char) (hcur : ∀ x ∈ cur, ws x = false) (w : List Char) :
    w ∈ splitWs ws s cur ↔
      (∃ a b, s = a ++ b ∧ w = cur ++ a ∧ w ≠ [] ∧ (∀ x ∈ a, ws x = false) ∧ (∀ c ∈ b.head?, ws c = true)) ∨
      (∃ p c s', s = p ++ c :: s' ∧ ws c = true ∧ IsWordOf ws s' w) := by
  induction s generalizing cur with
  | nil =>
    simp only [splitWs]
    by_cases h : cur = []
    · subst h
      simp
    · simp only [h, if_false, List.mem_singleton]
      constructor
      · rintro rfl
        exact Or.inl ⟨[], [], rfl, by simp, h, by simp, by simp⟩
      · rintro (⟨a, b, h1, h2, _⟩ | ⟨p, c, s', h1, _⟩)
        · obtain ⟨rfl, rfl⟩ := List.append_eq_nil_iff.mp h1.symm
          simpa using h2
        · simp at h1
  | cons c s ih =>
    simp only [splitWs]
    by_cases hc : ws c = true
    · have hrest : w ∈ splitWs ws s [] ↔ IsWordOf ws s w ∨ ∃ p c' s', s = p ++ c' :: s' ∧ ws c' = true ∧ IsWordOf ws s' w := by
        rw [ih [] (by simp)]
        constructor
        · rintro (⟨a, b, h1, h2, h3, h4, h5⟩ | h)
          · exact Or.inl ⟨b, by simpa using h2 ▸ h1, h3, by simpa [h2] using h4, h5⟩
          · exact Or.inr h
        · rintro (⟨b, h1, h2, h3, h4⟩ | h)
          · exact Or.inl ⟨w, b, h1, by simp, h2, h3, h4⟩
          · exact Or.inr h
      have hr2 : (∃ p c' s', c :: s = p ++ c' :: s' ∧ ws c' = true ∧ IsWordOf ws s' w) ↔ w ∈ splitWs ws s [] := by
        rw [hrest]
        constructor
        · rintro ⟨p, c', s', h1, h2, h3⟩
          cases p with
          | nil => cases h1; exact Or.inl h3
          | cons p0 p => cases h1; exact Or.inr ⟨p, c', s', rfl, h2, h3⟩
        · rintro (h | ⟨p, c', s', rfl, h2, h3⟩)
          · exact ⟨[], c, s, rfl, hc, h⟩
          · exact ⟨c :: p, c', s', rfl, h2, h3⟩
      rw [hr2]
      have hl : (∃ a b, c :: s = a ++ b ∧ w = cur ++ a ∧ w ≠ [] ∧ (∀ x ∈ a, ws x = false) ∧
          (∀ c ∈ b.head?, ws c = true)) ↔ w = cur ∧ cur ≠ [] := by
        constructor
        · rintro ⟨a, b, h1, h2, h3, h4, _⟩
          cases a with
          | nil => simp at h2; exact ⟨h2, h2 ▸ h3⟩
          | cons a0 a => cases h1; have := h4 c (by simp); rw [hc] at this; cases this
        · rintro ⟨rfl, h⟩
          exact ⟨[], c :: s, rfl, by simp, h, by simp, by simp [hc]⟩
      rw [hl]
      by_cases h : cur = []
      · simp [hc, h]
      · simp [hc, h]
    · have hc' : ws c = false := by simpa using hc
      simp only [hc', Bool.false_eq_true, if_false]
      rw [ih (cur ++ [c]) (by intro x hx; rcases List.mem_append.mp hx with h | h; exact hcur x h; simp at h; rw [h]; exact hc')]
      constructor
      · rintro (⟨a, b, rfl, h2, h3, h4, h5⟩ | ⟨p, c', s', rfl, h2, h3⟩)
        · exact Or.inl ⟨c :: a, b, rfl, by simpa using h2, h3, by simpa [hc'] using h4, h5⟩
        · exact Or.inr ⟨c :: p, c', s', rfl, h2, h3⟩
      · rintro (⟨a, b, h1, h2, h3, h4, h5⟩ | ⟨p, c', s', h1, h2, h3⟩)
        · cases a with
          | nil =>
            simp only [List.nil_append] at h1
            subst h1
            have := h5 c (by simp)
            rw [hc'] at this; cases this
          | cons a0 a =>
            cases h1
            exact Or.inl ⟨a, b, rfl, by simpa using h2, h3, fun x hx => h4 x (by simp [hx]), h5⟩
        · cases p with
          | nil => cases h1; rw [hc'] at h2; cases h2
          | cons p0 p => cases h1; exact Or.inr ⟨p, c', s', rfl, h2, h3⟩

/-- C23, a class list made from a text (`class="..."`): its classes are exactly the words of the text, that is, the
longest pieces without white space; no word is listed twice. -/
theorem C23_text_words (ws : Char → Bool) (s w : List Char) :
    (new ws s).Nodup ∧ (contains (new ws s) w = true ↔ IsWord ws s w) := by
  obtain ⟨h1, h2, _⟩ := C23_class_list (splitWs ws s []) []
  refine ⟨h1, ?_⟩
  have h2 := h2 w
  simp only [List.foldl_nil] at h2
  rw [show contains (new ws s) w = contains (newWithClasses (splitWs ws s [])) w from rfl, h2,
    splitWs_mem ws s [] (by simp)]
  constructor
  · rintro (⟨a, b, rfl, h2, h3, h4, h5⟩ | ⟨p, c, s', rfl, hc, h⟩)
    · simp only [List.nil_append] at h2
      subst h2
      exact Or.inl ⟨b, rfl, h3, h4, h5⟩
    · exact Or.inr ⟨p, c, s', rfl, hc, h⟩
  · rintro (⟨b, rfl, h3, h4, h5⟩ | h)
    · exact Or.inl ⟨w, b, rfl, by simp, h3, h4, h5⟩
    · exact Or.inr h

/-- `"  a  bc"` has the words `a` and `bc`. -/
example : new (· == ' ') "  a  bc".toList = ["a".toList, "bc".toList] := by decide +kernel

/-- C23, the text of a class list reads back as the same list (for class names that are possible in a
text: not empty, no white space). -/
theorem C23_text_roundtrip (ws : Char → Bool) (hsp : ws ' ' = true) (l : ClassList) (hnd : l.Nodup)
    (hw : ∀ c ∈ l, c ≠ [] ∧ ∀ x ∈ c, ws x = false) : new ws (display l) = l := by
  have key : splitWs ws (display l) [] = l := by
    clear hnd
    induction l with
    | nil => simp [display, splitWs]
    | cons c l ih =>
      obtain ⟨h1, h2⟩ := hw c (by simp)
      have ih := ih (fun d hd => hw d (by simp [hd]))
      cases l with
      | nil =>
        have : display [c] = c ++ [] := by simp [display, List.intercalate]
        rw [this, split_word ws c [] [] h2]
        simp [splitWs, h1]
      | cons d l =>
        have : display (c :: d :: l) = c ++ ' ' :: display (d :: l) := by
          simp [display, List.intercalate]
        rw [this, split_word ws c _ [] h2, splitWs, hsp]
        simp [h1, ih]
  unfold new
  rw [key]
  have := (addAll (l := []) (by simp) l).2.2 (by simpa using hnd)
  simpa [newWithClasses] using this

private def exOps : List ClassOp := [.toggle ['a'], .add ['c'], .add ['b']]

/-- C23 on a concrete history. -/
example : exOps.foldl ClassOp.apply (newWithClasses [['a'], ['b'], ['a']]) = [['b'], ['c']] ∧
    new (· == ' ') (display [['b'], ['c']]) = [['b'], ['c']] := by
  refine ⟨by decide, ?_⟩
  exact C23_text_roundtrip _ (by decide) _ (by decide) (by decide)

/-! ## C56 -/

private theorem marker_inv (ops : List MOp) :
    (Marker.default.run ops).1.recalc = true ∨ (Marker.default.run ops).1.reset = true ↔
      Due (Marker.default.run ops).2 := by
  have key : ∀ (ops : List MOp) (m : Marker) (h : List (MOp × Bool)),
      (m.recalc = true ∨ m.reset = true ↔ Due h) →
      ((m.run ops).1.recalc = true ∨ (m.run ops).1.reset = true ↔ Due (h ++ (m.run ops).2)) := by
    intro ops
    induction ops with
    | nil => intro m h hm; simpa [Marker.run] using hm
    | cons op ops ih =>
      intro m h hm
      unfold Marker.run
      simp only
      rw [← List.singleton_append, ← List.append_assoc]
      apply ih
      -- how one more step changes `Due`
      have trig : (op = .mark ∨ op = .requestReset ∨ op = .resetPass true) → Due (h ++ [(op, false)]) :=
        fun ho => Or.inr ⟨h, (op, false), [], by simp, by simp, ho⟩
      have quiet : ¬ (op = .mark ∨ op = .requestReset ∨ op = .resetPass true) →
          (Due (h ++ [(op, false)]) ↔ Due h) := by
        intro hno
        constructor
        · rintro (hall | ⟨l1, o, l2, he, hl, ho⟩)
          · exact Or.inl (fun x hx => hall x (by simp [hx]))
          · rcases List.eq_nil_or_concat l2 with rfl | ⟨l, y, rfl⟩
            · have := List.append_inj' he rfl
              cases this.2
              exact absurd ho hno
            · have : h ++ [(op, false)] = (l1 ++ o :: l) ++ [y] := by simpa using he
              obtain ⟨h1, h2⟩ := List.append_inj' this rfl
              exact Or.inr ⟨l1, o, l, h1, fun x hx => hl x (by simp [hx]), ho⟩
        · rintro (hall | ⟨l1, o, l2, he, hl, ho⟩)
          · refine Or.inl (fun x hx => ?_)
            rcases List.mem_append.mp hx with hx | hx
            · exact hall x hx
            · simp at hx; rw [hx]
          · refine Or.inr ⟨l1, o, l2 ++ [(op, false)], by rw [he]; simp, fun x hx => ?_, ho⟩
            rcases List.mem_append.mp hx with hx | hx
            · exact hl x hx
            · simp at hx; rw [hx]
      cases op with
      | requestReset => simp only [Marker.step]; exact ⟨fun _ => trig (by simp), fun _ => by simp⟩
      | mark => simp only [Marker.step]; exact ⟨fun _ => trig (by simp), fun _ => by simp⟩
      | resetPass added =>
        simp only [Marker.step]
        cases added with
        | true =>
          simp only [Bool.or_true, if_true]
          exact ⟨fun _ => trig (by simp), fun _ => by simp⟩
        | false =>
          simp only [Bool.or_false]
          split
          · rename_i hr
            rw [quiet (by simp)]
            exact ⟨fun _ => hm.mp (Or.inr hr), fun _ => by simp⟩
          · rw [quiet (by simp)]; exact hm
      | stylePass loaded =>
        have hq := quiet (by simp)
        simp only [Marker.step]
        split
        · simp only; rw [hq]; exact hm
        · rename_i hn
          split
          · simp only; rw [hq]; exact hm
          · simp only [Marker.needsRecalc, Bool.not_and, Bool.not_not, Bool.not_eq_true,
              Bool.or_eq_false_iff, Bool.not_eq_false'] at hn
            rw [hn.1]
            simp only [Bool.false_eq_true, or_self, false_iff]
            rintro (hall | ⟨l1, o, l2, he, hl, ho⟩)
            · have := hall (.stylePass loaded, true) (by simp); cases this
            · rcases List.eq_nil_or_concat l2 with rfl | ⟨l, y, rfl⟩
              · have := List.append_inj' he rfl
                cases this.2
                simp at ho
              · have : h ++ [(.stylePass loaded, true)] = (l1 ++ o :: l) ++ [y] := by simpa using he
                obtain ⟨_, h2⟩ := List.append_inj' this rfl
                cases h2
                have := hl _ (by simp : ((MOp.stylePass loaded, true) : MOp × Bool) ∈ l.concat (.stylePass loaded, true))
                cases this
  have := key ops .default [] (by simp [Marker.default, Due])
  simpa using this

/-- C56.  In every history, a recalculation that is due is never lost: the next frame (reset pass, then
style pass with a loaded sheet) performs it, and only if one is due. -/
theorem C56_marks_kept (ops : List MOp) :
    ((((Marker.default.run ops).1.step (.resetPass false)).1.step (.stylePass true)).2 = true) ↔
      Due (Marker.default.run ops).2 := by
  rw [← marker_inv]
  generalize (Marker.default.run ops).1 = m
  obtain ⟨a, b⟩ := m
  cases a <;> cases b <;> simp [Marker.step, Marker.needsRecalc]

/-- C56, a reset request takes precedence: no style is recalculated between the request and the next
reset pass. -/
theorem C56_reset_first (m : Marker) (ops : List MOp) (h : ∀ a, .resetPass a ∉ ops) :
    ∀ x ∈ ((m.step .requestReset).1.run ops).2, x.2 = false := by
  have key : ∀ (ops : List MOp) (m : Marker), m.reset = true → (∀ a, .resetPass a ∉ ops) →
      ∀ x ∈ (m.run ops).2, x.2 = false := by
    intro ops
    induction ops with
    | nil => intro m _ _ x hx; simp [Marker.run] at hx
    | cons op ops ih =>
      intro m hm hno x hx
      have hstep : (m.step op).1.reset = true ∧ (m.step op).2 = false := by
        cases op with
        | requestReset => simp [Marker.step]
        | mark => simp [Marker.step, hm]
        | resetPass a => exact absurd (by simp) (hno a)
        | stylePass l => simp [Marker.step, Marker.needsRecalc, hm]
      simp only [Marker.run, List.mem_cons] at hx
      rcases hx with rfl | hx
      · exact hstep.2
      · exact ih _ hstep.1 (fun a ha => hno a (by simp [ha])) x hx
  exact key ops _ rfl h

/-- A history with a recalculation, then a mark while the sheet is not loaded. -/
example : Due (Marker.default.run [.resetPass true, .stylePass true, .mark, .stylePass false]).2 ∧
    ¬ Due (Marker.default.run [.resetPass true, .stylePass true, .stylePass true]).2 := by
  constructor
  · rw [← C56_marks_kept]; decide
  · rw [← C56_marks_kept]; decide

/-! ## C58 -/

theorem edits_facts (es : List (Edit V)) (v : Option V) :
    (((es.foldl Comp.edit (.quiet v)).changed = false ∧ (es.foldl Comp.edit (.quiet v)).added = false ∧
        (es.foldl Comp.edit (.quiet v)).removed = false ∧ (es.foldl Comp.edit (.quiet v)).value = v) ∨
      ((es.foldl Comp.edit (.quiet v)).value.isSome = true ∧ (es.foldl Comp.edit (.quiet v)).changed = true ∧
        (v = none → (es.foldl Comp.edit (.quiet v)).added = true)) ∨
      ((es.foldl Comp.edit (.quiet v)).value = none ∧
        ((es.foldl Comp.edit (.quiet v)).removed = true ∨ v = none))) := by
  have key : ∀ (es : List (Edit V)) (c : Comp V) ,
      ((c.changed = false ∧ c.added = false ∧ c.removed = false ∧ c.value = v) ∨
        (c.value.isSome = true ∧ c.changed = true ∧ (v = none → c.added = true)) ∨
        (c.value = none ∧ (c.removed = true ∨ v = none))) →
      (((es.foldl Comp.edit c).changed = false ∧ (es.foldl Comp.edit c).added = false ∧
          (es.foldl Comp.edit c).removed = false ∧ (es.foldl Comp.edit c).value = v) ∨
        ((es.foldl Comp.edit c).value.isSome = true ∧ (es.foldl Comp.edit c).changed = true ∧
          (v = none → (es.foldl Comp.edit c).added = true)) ∨
        ((es.foldl Comp.edit c).value = none ∧ ((es.foldl Comp.edit c).removed = true ∨ v = none))) := by
    intro es
    induction es with
    | nil => intro c h; exact h
    | cons e es ih =>
      intro c h
      rw [List.foldl_cons]
      apply ih
      cases e with
      | set x =>
        refine Or.inr (Or.inl ⟨rfl, rfl, fun hv => ?_⟩)
        rcases h with ⟨_, _, _, h⟩ | ⟨_, _, h⟩ | ⟨h, _⟩
        · simp [Comp.edit, h, hv]
        · simp [Comp.edit, h hv]
        · simp [Comp.edit, h]
      | remove =>
        refine Or.inr (Or.inr ⟨rfl, ?_⟩)
        rcases h with ⟨_, _, _, h⟩ | ⟨h, _, _⟩ | ⟨_, h | h⟩
        · cases v with
          | none => exact Or.inr rfl
          | some x => exact Or.inl (by simp [Comp.edit, h])
        · exact Or.inl (by simp [Comp.edit, h])
        · exact Or.inl (by simp [Comp.edit, h])
        · exact Or.inr h
  exact key es _ (Or.inl ⟨rfl, rfl, rfl, rfl⟩)

theorem marker_step (edits : List (Edit V)) {v : Option V} {d : Bool} (ih : d = true ↔ v ≠ none) :
    syncMarker (edits.foldl Comp.edit (.quiet v)) d = true ↔ (edits.foldl Comp.edit (.quiet v)).value ≠ none := by
  unfold syncMarker
  rcases edits_facts edits v with ⟨_, h2, h3, h4⟩ | ⟨h1, h2, h3⟩ | ⟨h1, h2⟩
  · rw [h2, h3, h4]; simpa using ih
  · by_cases hv : v = none
    · rw [h3 hv]
      simp only [Bool.true_or, if_true, h1, true_iff]
      intro hn; rw [hn] at h1; cases h1
    · split
      · simp only [h1, true_iff]
        intro hn; rw [hn] at h1; cases h1
      · rw [ih]
        refine ⟨fun _ hn => ?_, fun _ => hv⟩
        rw [hn] at h1; cases h1
  · rw [h1]
    by_cases hr : (edits.foldl Comp.edit (.quiet v)).removed = true
    · simp [hr]
    · have hv := h2.resolve_left hr
      rw [hv] at ih
      split
      · simp
      · exact ih

/-- C58 for `:active`, `:disabled`, `:checked`: after every pass, in every history of edits, the state
is set iff the entity has the marker component.  Partial: for entities that did not have the marker before the
frame in which they got their style data (see `C58_marker_late`). -/
theorem C58_marker_states_partial (v : Option V) (stored : Bool)
    (h : CopyRun (fun _ => syncMarker) false NotBefore AnyEdits v stored) : stored = true ↔ v ≠ none := by
  induction h with
  | styled edits hs _ => exact marker_step edits (by rw [hs]; simp)
  | frame edits _ _ ih => exact marker_step edits ih

/-- C58 is false for the states: an entity that is already marked (say, `Checked`) gets its style data; it is not
`:checked`. -/
theorem C58_marker_late : CopyRun (fun _ => syncMarker) false AnyStart AnyEdits (some ()) false :=
  CopyRun.styled (sys := fun _ => syncMarker) (v := some ()) [] trivial trivial

private theorem name_step (b : Bool) (edits : List (Edit V)) {v d : Option V} (hok : NoReinsert v edits)
    (ih : d = v ∨ (b = true ∧ d = none)) :
    trackName b (edits.foldl Comp.edit (.quiet v)) d = (edits.foldl Comp.edit (.quiet v)).value := by
  have hrem : ∀ (es : List (Edit V)) (c : Comp V), (∀ l1 l2, es = l1 ++ .remove :: l2 → ∀ x ∈ l2, x = .remove) →
      c.removed = false → (es.foldl Comp.edit c).removed = true → (es.foldl Comp.edit c).value = none := by
    intro es
    induction es with
    | nil => intro c _ h1 h2; rw [List.foldl_nil, h1] at h2; cases h2
    | cons e es ihe =>
      intro c h h1 h2
      cases e with
      | set x =>
        exact ihe _ (fun l1 l2 he => h (.set x :: l1) l2 (by simp [he])) (by simp [Comp.edit, h1]) h2
      | remove =>
        have hall := h [] es rfl
        have : ∀ (es : List (Edit V)) (c : Comp V), c.value = none → (∀ x ∈ es, x = Edit.remove) →
            (es.foldl Comp.edit c).value = none := by
          intro es
          induction es with
          | nil => intro c hc _; exact hc
          | cons y es ihy =>
            intro c hc hy
            rw [List.foldl_cons, hy y (by simp)]
            exact ihy _ rfl (fun x hx => hy x (by simp [hx]))
        exact this es _ rfl hall
  unfold trackName
  by_cases hr : (edits.foldl Comp.edit (.quiet v)).removed = true
  · rw [if_pos hr, hrem edits _ hok rfl hr]
  · rw [if_neg hr]
    rcases edits_facts edits v with ⟨h1, _, _, h4⟩ | ⟨h1, h2, h3⟩ | ⟨h1, h2⟩
    · rw [h4, h1]
      rcases ih with ih | ⟨hb, ih⟩
      · cases v <;> simp [ih]
      · cases v <;> simp [ih, hb]
    · cases hval : (edits.foldl Comp.edit (.quiet v)).value with
      | none => rw [hval] at h1; cases h1
      | some x => simp [h2]
    · rw [h1]
      have := h2.resolve_left hr
      simp only
      rcases ih with ih | ⟨_, ih⟩
      · rw [ih, this]
      · exact ih

/-- C58 for the id, partial: it is the name, whether the name was given before or after the entity got its style
data, unless the name is removed and inserted again between two passes (see `C58_name_lost`). -/
theorem C58_name_partial (v stored : Option V)
    (h : CopyRun trackName none AnyStart NoReinsert v stored) : stored = v := by
  induction h with
  | styled edits _ hok => exact name_step true edits hok (Or.inr ⟨rfl, rfl⟩)
  | frame edits _ hok ih => exact name_step false edits hok (Or.inl ih)

/-- C58 is false for the id: the name is removed and set again in one frame; the entity has no id. -/
theorem C58_name_lost : CopyRun trackName none NotBefore AnyEdits (some 2) (none : Option Nat) := by
  have r1 := CopyRun.styled (sys := trackName) (init := (none : Option Nat)) (start := NotBefore) (ok := AnyEdits)
    (v := none) [.set 1] rfl trivial
  exact CopyRun.frame [.remove, .set 2] r1 trivial

theorem changed_step (edits : List (Edit V)) {v : Option V} {init d : V} (hok : NoRemoval v edits)
    (ih : d = v.getD init) :
    applyChanged (edits.foldl Comp.edit (.quiet v)) d = (edits.foldl Comp.edit (.quiet v)).value.getD init := by
  unfold applyChanged
  rcases edits_facts edits v with ⟨h1, _, _, h4⟩ | ⟨h1, h2, h3⟩ | ⟨h1, h2⟩
  · rw [h4, h1]; cases v <;> simpa using ih
  · cases hval : (edits.foldl Comp.edit (.quiet v)).value with
    | none => rw [hval] at h1; cases h1
    | some x => simp [h2]
  · rw [h1]
    have hrem : ∀ (es : List (Edit V)) (c : Comp V), .remove ∉ es → c.removed = false →
        (es.foldl Comp.edit c).removed = false := by
      intro es
      induction es with
      | nil => intro c _ h; exact h
      | cons e es ihe =>
        intro c hn hc
        cases e with
        | set x => exact ihe _ (fun h => hn (by simp [h])) (by simp [Comp.edit, hc])
        | remove => exact absurd (by simp) hn
    have hv := h2.resolve_left (by rw [hrem edits _ hok rfl]; simp)
    simp only
    rw [ih, hv]

/-- C58 for classes and attributes, partial: they are those of the component (none when it was never
there), as long as it is not removed (see `C58_classes_kept`) and was not there before the frame in which the entity
got its style data (see `C58_classes_late`). -/
theorem C58_classes_partial (init : V) (v : Option V) (stored : V)
    (h : CopyRun (fun _ => applyChanged) init NotBefore NoRemoval v stored) : stored = v.getD init := by
  induction h with
  | styled edits hs hok => exact changed_step edits hok (by rw [hs]; rfl)
  | frame edits _ hok ih => exact changed_step edits hok ih

/-- C58 is false for classes: an entity whose class list component was removed keeps its classes. -/
theorem C58_classes_kept : CopyRun (fun _ => applyChanged) ([] : List Nat) NotBefore AnyEdits none [7] := by
  have r1 := CopyRun.styled (sys := fun _ => applyChanged) (init := ([] : List Nat)) (start := NotBefore)
    (ok := AnyEdits) (v := none) [.set [7]] rfl trivial
  exact CopyRun.frame [.remove] r1 trivial

/-- C58 is false for classes: an entity that has a class list before it gets its style data has no classes, also
after any number of further passes in which nothing changes. -/
theorem C58_classes_late (n : Nat) : ∃ d : List Nat,
    d = [] ∧ Nat.repeat (fun d => applyChanged (.quiet (some [7])) d) n
      (applyChanged (.quiet (some [7])) []) = d ∧
    CopyRun (fun _ => applyChanged) ([] : List Nat) AnyStart NoRemoval (some [7]) d := by
  refine ⟨[], rfl, ?_, CopyRun.styled (sys := fun _ => applyChanged) (v := some [7]) [] trivial (by simp [NoRemoval])⟩
  induction n with
  | zero => rfl
  | succ n ih => simp only [Nat.repeat]; rw [ih]; rfl

example : ∃ s, CopyRun (V := Unit) (fun _ => syncMarker) false NotBefore AnyEdits (some ()) s :=
  ⟨_, .styled (v := none) [.set (), .remove, .set ()] rfl trivial⟩

example : ∃ s, CopyRun (V := Nat) trackName none AnyStart NoReinsert (some 3) s :=
  ⟨_, .styled (v := some 1) [.set 2, .set 3] trivial (by
    intro l1 l2 h
    have : Edit.remove ∈ [Edit.set 2, Edit.set 3] := by rw [h]; simp
    simp at this)⟩

example : ∃ s, CopyRun (V := List Nat) (fun _ => applyChanged) [] NotBefore NoRemoval (some [3]) s :=
  ⟨_, .styled (v := none) [.set [2], .set [3]] rfl (by simp [NoRemoval])⟩

end Flair.Props
