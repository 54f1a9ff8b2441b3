import Verif.Spec.Cascade
import Verif.Tactics
/-!
# A rule with several declarations is as good as several rules with one declaration
-/
namespace Flair.Spec
set_option linter.unusedSectionVars false
variable {K W : Type}

/-- one rule per declaration -/
def explode (rules : List (MRule K W)) : List (MRule K W) :=
  rules.flatMap fun r => r.decls.map fun d => ⟨r.matching, [d]⟩

/-- number of declarations before rule `i` -/
def offset : List (MRule K W) → Nat → Nat
  | [], _ => 0
  | _ :: _, 0 => 0
  | r :: rs, i + 1 => r.decls.length + offset rs i

theorem explode_get (rules : List (MRule K W)) : ∀ (i d : Nat) (r : MRule K W) (x : List (K × W)),
    rules[i]? = some r → r.decls[d]? = some x →
    (explode rules)[offset rules i + d]? = some ⟨r.matching, [x]⟩ := by
  induction rules with
  | nil => intro i d r x h; simp at h
  | cons r0 rs ih =>
    intro i d r x h hd
    cases i with
    | zero =>
      simp only [List.getElem?_cons_zero, Option.some.injEq] at h
      subst h
      have hlt := (List.getElem?_eq_some_iff.mp hd).1
      simp only [explode, List.flatMap_cons, offset, Nat.zero_add]
      rw [List.getElem?_append_left (by simpa using hlt)]
      simp [hd]
    | succ i =>
      simp only [List.getElem?_cons_succ] at h
      simp only [explode, List.flatMap_cons, offset]
      rw [List.getElem?_append_right (by simp; omega)]
      have := ih i d r x h hd
      rw [← this]
      simp only [List.length_map, explode]
      congr 1
      omega

theorem explode_inv (rules : List (MRule K W)) : ∀ (j : Nat) (m : MRule K W),
    (explode rules)[j]? = some m → ∃ i d r x, rules[i]? = some r ∧ r.decls[d]? = some x ∧
      j = offset rules i + d ∧ m = ⟨r.matching, [x]⟩ := by
  induction rules with
  | nil => intro j m h; simp [explode] at h
  | cons r0 rs ih =>
    intro j m h
    simp only [explode, List.flatMap_cons] at h
    by_cases hj : j < r0.decls.length
    · rw [List.getElem?_append_left (by simpa using hj)] at h
      simp only [List.getElem?_map, Option.map_eq_some_iff] at h
      obtain ⟨x, hx, rfl⟩ := h
      exact ⟨0, j, r0, x, rfl, hx, by simp [offset], rfl⟩
    · rw [List.getElem?_append_right (by simp; omega)] at h
      obtain ⟨i, d, r, x, h1, h2, h3, h4⟩ := ih _ _ h
      refine ⟨i + 1, d, r, x, h1, h2, ?_, h4⟩
      simp only [List.length_map] at h3
      simp only [offset]
      omega

theorem offset_lt (rules : List (MRule K W)) : ∀ (i j d : Nat) (r : MRule K W), rules[i]? = some r →
    d < r.decls.length → i < j → offset rules i + d < offset rules j ∨ rules[j]? = none := by
  induction rules with
  | nil => intro i j d r h; simp at h
  | cons r0 rs ih =>
    intro i j d r h hd hij
    cases j with
    | zero => omega
    | succ j =>
      cases i with
      | zero =>
        simp only [List.getElem?_cons_zero, Option.some.injEq] at h
        subst h
        left; simp only [offset]; omega
      | succ i =>
        rcases ih i j d r (by simpa using h) hd (by omega) with h' | h'
        · left; simp only [offset]; omega
        · right; simpa using h'

/-- the occurrence in the exploded list -/
def Occ.move (rules : List (MRule K W)) (o : Occ) : Occ :=
  match o.origin with
  | .sheet l s r => ⟨.sheet l s (offset rules r + o.decl), 0, o.sub⟩
  | .inline => o

theorem cand_move {rules : List (MRule K W)} {inline : List (List (K × W))} {o : Occ} {k : K} {w : W}
    (h : Cand rules inline o k w) : Cand (explode rules) inline (o.move rules) k w := by
  obtain ⟨origin, decl, sub⟩ := o
  cases origin with
  | inline => exact h
  | sheet l s r =>
    obtain ⟨m, d, h1, h2, h3, h4⟩ := h
    exact ⟨_, d, explode_get rules r decl m d h1 h3, h2, rfl, h4⟩

theorem cand_back {rules : List (MRule K W)} {inline : List (List (K × W))} {o' : Occ} {k : K} {w : W}
    (h : Cand (explode rules) inline o' k w) :
    ∃ o : Occ, o.move rules = o' ∧ Cand rules inline o k w := by
  obtain ⟨origin, decl, sub⟩ := o'
  cases origin with
  | inline => exact ⟨⟨.inline, decl, sub⟩, rfl, h⟩
  | sheet l s r =>
    obtain ⟨m, d, h1, h2, h3, h4⟩ := h
    obtain ⟨i, j, m', x, g1, g2, g3, rfl⟩ := explode_inv rules _ _ h1
    have hd : decl = 0 ∧ x = d := by
      cases decl with
      | zero => simpa using h3
      | succ n => simp at h3
    obtain ⟨rfl, rfl⟩ := hd
    refine ⟨⟨.sheet l s i, j, sub⟩, ?_, m', x, g1, h2, g2, h4⟩
    simp only [Occ.move]

    rw [g3]

theorem weaker_move {ds : List Path} {rules : List (MRule K W)} {inline : List (List (K × W))}
    {o o' : Occ} {k k' : K} {w w' : W} (h : Cand rules inline o k w) (h' : Cand rules inline o' k' w')
    (hw : Weaker ds o o') : Weaker ds (o.move rules) (o'.move rules) := by
  obtain ⟨origin, decl, sub⟩ := o
  obtain ⟨origin', decl', sub'⟩ := o'
  cases origin with
  | inline => cases origin' <;> exact hw
  | sheet l s r =>
    cases origin' with
    | inline => trivial
    | sheet l' s' r' =>
      obtain ⟨m, d, h1, h2, h3, h4⟩ := h
      obtain ⟨m', d', h1', h2', h3', h4'⟩ := h'
      simp only [Weaker, Occ.move] at hw ⊢
      rcases hw with hw | ⟨rfl, hw⟩
      · exact Or.inl hw
      · refine Or.inr ⟨rfl, ?_⟩
        rcases hw with hw | ⟨rfl, hw⟩
        · exact Or.inl hw
        · refine Or.inr ⟨rfl, ?_⟩
          rcases hw with hw | ⟨rfl, hw⟩
          · left
            rcases offset_lt rules r r' decl m h1 (List.getElem?_eq_some_iff.mp h3).1 hw with g | g
            · omega
            · rw [h1'] at g; cases g
          · rcases hw with hw | ⟨rfl, hw⟩
            · left; omega
            · right; exact ⟨rfl, Or.inr ⟨trivial, hw⟩⟩

theorem move_inj {rules : List (MRule K W)} {inline : List (List (K × W))}
    {o o' : Occ} {k k' : K} {w w' : W} (h : Cand rules inline o k w) (h' : Cand rules inline o' k' w')
    (he : o.move rules = o'.move rules) : o = o' := by
  obtain ⟨origin, decl, sub⟩ := o
  obtain ⟨origin', decl', sub'⟩ := o'
  cases origin with
  | inline =>
    cases origin' with
    | inline => exact he
    | sheet l' s' r' => simp [Occ.move] at he
  | sheet l s r =>
    cases origin' with
    | inline => simp [Occ.move] at he
    | sheet l' s' r' =>
      obtain ⟨m, d, h1, h2, h3, h4⟩ := h
      obtain ⟨m', d', h1', h2', h3', h4'⟩ := h'
      simp only [Occ.move, Occ.mk.injEq, Origin.sheet.injEq, true_and] at he
      obtain ⟨⟨rfl, rfl, he⟩, rfl⟩ := he
      have hlt := (List.getElem?_eq_some_iff.mp h3).1
      have hlt' := (List.getElem?_eq_some_iff.mp h3').1
      rcases Nat.lt_trichotomy r r' with hr | rfl | hr
      · rcases offset_lt rules r r' decl m h1 hlt hr with g | g
        · omega
        · rw [h1'] at g; cases g
      · have : decl = decl' := by omega
        subst this; rfl
      · rcases offset_lt rules r' r decl' m' h1' hlt' hr with g | g
        · omega
        · rw [h1] at g; cases g

theorem cascade_explode {ds : List Path} {rules : List (MRule K W)} {inline : List (List (K × W))}
    {k : K} {v : Option W} (h : Cascade ds rules inline k v) : Cascade ds (explode rules) inline k v := by
  cases v with
  | none =>
    intro o' w hc
    obtain ⟨o, _, hc'⟩ := cand_back hc
    exact h o w hc'
  | some w =>
    obtain ⟨o, hc, hbest⟩ := h
    refine ⟨o.move rules, cand_move hc, ?_⟩
    intro o' w' hc'
    obtain ⟨o1, rfl, hc1⟩ := cand_back hc'
    rcases hbest o1 w' hc1 with rfl | hw
    · exact Or.inl rfl
    · exact Or.inr (weaker_move hc1 hc hw)


/-- same rule up to the order in which the matching selectors are listed -/
def SameView (a b : MRule K W) : Prop := (∀ x, x ∈ a.matching ↔ x ∈ b.matching) ∧ a.decls = b.decls

theorem cand_congr {rules rules' : List (MRule K W)} (h : List.Forall₂ SameView rules rules')
    {inline : List (List (K × W))} {o : Occ} {k : K} {w : W} (hc : Cand rules inline o k w) :
    Cand rules' inline o k w := by
  unfold Cand at hc ⊢
  split
  · rename_i l s r he
    rw [he] at hc
    obtain ⟨m, d, h1, h2, h3, h4⟩ := hc
    have hlen := h.length_eq
    have hlt := (List.getElem?_eq_some_iff.mp h1)
    obtain ⟨hlt, hm⟩ := hlt
    have hg := List.forall₂_iff_get.mp h
    have h5 := hg.2 r hlt (by omega)
    refine ⟨rules'[r]'(by omega), d, List.getElem?_eq_getElem (by omega), ?_, ?_, h4⟩
    · rw [← hm] at h2
      exact (h5.1 _).mp h2
    · rw [← hm] at h3
      have := h5.2
      simp only [List.get_eq_getElem] at this
      rw [← this]; exact h3
  · rename_i he
    rw [he] at hc
    exact hc

theorem SameView.symm {a b : MRule K W} (h : SameView a b) : SameView b a :=
  ⟨fun x => (h.1 x).symm, h.2.symm⟩

theorem cascade_congr {ds : List Path} {rules rules' : List (MRule K W)}
    (h : List.Forall₂ SameView rules rules') {inline : List (List (K × W))} {k : K} {v : Option W}
    (hc : Cascade ds rules inline k v) : Cascade ds rules' inline k v := by
  have h' : List.Forall₂ SameView rules' rules := by
    have := h.flip
    exact this.imp (fun a b hab => SameView.symm hab)
  cases v with
  | none => intro o w hc'; exact hc o w (cand_congr h' hc')
  | some w =>
    obtain ⟨o, h1, h2⟩ := hc
    exact ⟨o, cand_congr h h1, fun o' w' hc' => h2 o' w' (cand_congr h' hc')⟩

end Flair.Spec
