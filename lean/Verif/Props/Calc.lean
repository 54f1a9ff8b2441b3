import Verif.Spec.Calc
import Verif.Tactics
import Mathlib.Tactic.Linarith
import Mathlib.Tactic.Ring
import Mathlib.Tactic.NormNum
/-!
# Proofs about calc()
-/
namespace Flair.Calc
open Flair.Spec
variable {A T : Type}

/-! ## Parsing -/

/-- A product as the parser builds it. -/
def mulBy (e : Expr T) (fs : List (Bool × ℚ)) : Expr T := .mul e (factorsValue fs)

mutual
/-- The tree the parser builds for an item. -/
def compileItem (value : Tok A → Option T) : CalcItem A → Option (Expr T)
  | .literal t => (value t).map .value
  | .group _ e => (compileSum value false e).map .sum

/-- The summands the parser builds for a sum. -/
def compileSum (value : Tok A → Option T) (minus : Bool) : CalcSum A → Option (List (Bool × Expr T))
  | .last i fs => (compileItem value i).map fun e => [(minus, if fs.isEmpty then e else mulBy e fs)]
  | .more i fs m rest => (compileItem value i).bind fun e =>
      (compileSum value m rest).map fun es => (minus, mulBy e fs) :: es
end

theorem annotate_append (value : Tok A → Option T) (a b : List (Tok A)) :
    annotate value (a ++ b) = annotate value a ++ annotate value b := by
  induction a with
  | nil => simp [annotate]
  | cons t ts ih => simp [annotate, ih]

theorem annotate_fst (value : Tok A → Option T) (ts : List (Tok A)) :
    (annotate value ts).map (·.1) = ts := by
  induction ts with
  | nil => simp [annotate]
  | cons t ts ih => simp [annotate, ih]

theorem annotate_snd (value : Tok A → Option T) (ts : List (Tok A)) :
    ∀ p ∈ annotate value ts, p.2 = item value p.1 ∧ p.1 ∈ ts := by
  induction ts with
  | nil => simp [annotate]
  | cons t ts ih =>
    intro p hp
    simp only [annotate, List.mem_cons] at hp
    rcases hp with rfl | hp
    · simp
    · have := ih p hp
      exact ⟨this.1, by simp [this.2]⟩

/-- Where a list of factors ends. -/
def Stops {B : Type} : List (Tok A × B) → Prop
  | [] => True
  | (t, _) :: _ => t ≠ .delim '*' ∧ t ≠ .delim '/'

theorem factors_stop {B : Type} (ts : List (Tok A × B)) (h : Stops ts) (q : ℚ) : factors ts q = .ok (q, ts) := by
  fun_cases factors ts q
  · rfl
  · simp [Stops] at h
  · simp [Stops] at h
  · simp [Stops] at h
  · simp [Stops] at h
  · rfl

theorem factors_text (value : Tok A → Option T) (fs : List (Bool × ℚ)) (rest : List (Tok A × Res (Expr T)))
    (h : Stops rest) (q : ℚ) :
    factors (annotate value (factorsText fs) ++ rest) q = .ok (q * factorsValue fs, rest) := by
  induction fs generalizing q with
  | nil => simp [factorsText, annotate, factors_stop rest h, factorsValue]
  | cons f fs ih =>
    obtain ⟨d, x⟩ := f
    have hv : factorsValue ((d, x) :: fs) = (if d then x⁻¹ else x) * factorsValue fs := by
      simp [factorsValue]
    rw [hv]
    cases d
    · simp only [factorsText, annotate, List.cons_append, Bool.false_eq_true, ↓reduceIte, factors, ih, mul_assoc]
    · simp only [factorsText, annotate, List.cons_append, ↓reduceIte, factors, ih, mul_assoc, div_eq_mul_inv]

theorem stops_more (value : Tok A → Option T) (minus : Bool) (ts : List (Tok A)) :
    Stops (annotate value (Tok.delim (if minus then '-' else '+') :: ts)) := by
  cases minus <;> simp [annotate, Stops]

theorem item_literal (value : Tok A → Option T) (t : Tok A) (h1 : ∀ ts, t ≠ .paren ts) (h2 : ∀ ts, t ≠ .func ts) :
    item value t = ofValue (value t) := by
  cases t with
  | number q => simp [item]
  | delim c => simp [item]
  | paren ts => exact absurd rfl (h1 ts)
  | func ts => exact absurd rfl (h2 ts)
  | other a => simp [item]

mutual
theorem item_text (value : Tok A → Option T) :
    (i : CalcItem A) → i.Only (Literal value) (fun _ => True) (fun _ => True) →
      ∃ e, compileItem value i = some e ∧ item value i.text = .ok e
  | .literal t, h => by
    obtain ⟨h0, h1, h2⟩ := h
    obtain ⟨v, hv⟩ := Option.isSome_iff_exists.1 h0
    refine ⟨.value v, by simp [compileItem, hv], ?_⟩
    rw [CalcItem.text, item_literal value t h1 h2, hv, ofValue]
  | .group fn e, h => by
    obtain ⟨es, h1, h2⟩ := sum_text value e (by simpa [CalcItem.Only] using h)
    refine ⟨.sum es, by simp [compileItem, h1], ?_⟩
    cases fn
    · simp [CalcItem.text, item, h2]
    · simp [CalcItem.text, item, h2]

theorem sum_text (value : Tok A → Option T) :
    (s : CalcSum A) → s.Only (Literal value) (fun _ => True) (fun _ => True) →
      ∃ es, compileSum value false s = some es ∧ sum (annotate value s.text) = .ok (.sum es)
  | s, h => by
    obtain ⟨es, h1, h2⟩ := tail_text value s h
    refine ⟨es false, h1 false, ?_⟩
    obtain ⟨e, rest, h3, h4⟩ := h2
    unfold sum
    rw [h3]
    simp only [Res.bind]
    exact h4 false []

/-- The heart: a text is read as a product and what follows it. -/
theorem tail_text (value : Tok A → Option T) :
    (s : CalcSum A) → s.Only (Literal value) (fun _ => True) (fun _ => True) →
      ∃ es : Bool → List (Bool × Expr T), (∀ m, compileSum value m s = some (es m)) ∧
        ∃ e rest, product (annotate value s.text) = .ok (e, rest) ∧
          ∀ m ops, sumLoop (ops ++ [(m, e)]) rest = .ok (.sum (ops ++ es m))
  | .last i fs, h => by
    obtain ⟨e, h1, h2⟩ := item_text value i h.1
    refine ⟨fun m => [(m, if fs.isEmpty then e else mulBy e fs)], fun m => by simp [compileSum, h1], ?_⟩
    cases fs with
    | nil =>
      refine ⟨e, [], ?_, ?_⟩
      · simp [CalcSum.text, annotate, factorsText, product, h2, Res.bind]
      · intro m ops; simp [sumLoop]
    | cons f fs =>
      have hf := factors_text value (f :: fs) [] trivial 1
      rw [List.append_nil, one_mul] at hf
      refine ⟨mulBy e (f :: fs), [], ?_, ?_⟩
      · simp only [CalcSum.text, annotate, product, h2, Res.bind]
        rw [if_neg (by cases f; simp [factorsText, annotate]), hf]
        rfl
      · intro m ops; simp [sumLoop]
  | .more i fs minus rest, h => by
    obtain ⟨e, h1, h2⟩ := item_text value i h.1
    obtain ⟨es, h3, e', rest', h4, h5⟩ := tail_text value rest h.2.2.2
    refine ⟨fun m => (m, mulBy e fs) :: es minus, fun m => by simp [compileSum, h1, h3], ?_⟩
    have hf := factors_text value fs _ (stops_more value minus rest.text) 1
    rw [one_mul] at hf
    refine ⟨mulBy e fs, annotate value (.delim (if minus then '-' else '+') :: rest.text), ?_, ?_⟩
    · simp only [CalcSum.text, annotate_append, annotate, product, h2, Res.bind]
      rw [if_neg (by simp)]
      simp only [annotate] at hf
      rw [hf]
      rfl
    · intro m ops
      rw [annotate, sumLoop]
      split
      · rename_i h; rw [h4] at h; cases h
      · rename_i h; rw [h4] at h; cases h
      · rename_i r h
        rw [h4] at h
        cases h
        have := h5 minus (ops ++ [(m, mulBy e fs)])
        cases minus
        · simp only [Bool.false_eq_true, ↓reduceIte]
          rw [this]
          simp
        · simp only [↓reduceIte]
          rw [this]
          simp
end

/-- What the factor loop accepts is a text of factors. -/
theorem factors_of_ok {B : Type} (ts : List (Tok A × B)) (q : ℚ) (r : ℚ × List (Tok A × B))
    (h : factors ts q = .ok r) :
    ∃ (fs : List (Bool × ℚ)) (pre : List (Tok A × B)), ts = pre ++ r.2 ∧ pre.map (·.1) = factorsText fs := by
  fun_induction factors ts q with
  | case1 q => cases h; exact ⟨[], [], rfl, rfl⟩
  | case2 b x c ts q ih =>
    obtain ⟨fs, pre, h1, h2⟩ := ih h
    refine ⟨(false, x) :: fs, (.delim '*', b) :: (.number x, c) :: pre, by rw [h1]; rfl, ?_⟩
    simp [factorsText, h2]
  | case3 b x c ts q ih =>
    obtain ⟨fs, pre, h1, h2⟩ := ih h
    refine ⟨(true, x) :: fs, (.delim '/', b) :: (.number x, c) :: pre, by rw [h1]; rfl, ?_⟩
    simp [factorsText, h2]
  | case4 => cases h
  | case5 => cases h
  | case6 => cases h; exact ⟨[], [], rfl, rfl⟩

/-- What a product accepts is the text of an item and factors. -/
theorem product_of_ok (value : Tok A → Option T) (ts : List (Tok A × Res (Expr T)))
    (hi : ∀ p ∈ ts, ∀ e, p.2 = .ok e → ∃ i : CalcItem A, i.text = p.1 ∧ i.Only (Literal value) (fun _ => True) (fun _ => True))
    (r : Expr T × List (Tok A × Res (Expr T))) (h : product ts = .ok r) :
    ∃ (i : CalcItem A) (fs : List (Bool × ℚ)) (pre : List (Tok A × Res (Expr T))),
      ts = pre ++ r.2 ∧ pre.map (·.1) = i.text :: factorsText fs ∧ i.Only (Literal value) (fun _ => True) (fun _ => True) := by
  match ts with
  | [] => cases h
  | (t, it) :: ts =>
    rcases it with e | _ | _
    · obtain ⟨i, h1, h2⟩ := hi (t, .ok e) (by simp) e rfl
      simp only [product, Res.bind] at h
      split at h
      · rename_i hts
        cases h
        rw [List.isEmpty_iff] at hts
        subst hts
        exact ⟨i, [], [(t, .ok e)], by simp, by simp [h1, factorsText], h2⟩
      · cases hf : factors ts (1 : ℚ) with
        | ok q =>
          rw [hf] at h
          cases h
          obtain ⟨fs, pre, h3, h4⟩ := factors_of_ok ts 1 q hf
          exact ⟨i, fs, (t, .ok e) :: pre, by simp [← h3], by simp [h1, h4], h2⟩
        | err => rw [hf] at h; cases h
        | panic => rw [hf] at h; cases h
    · cases h
    · cases h

theorem sumLoop_of_ok (value : Tok A → Option T) (n : Nat) (ts : List (Tok A × Res (Expr T))) (hn : ts.length ≤ n)
    (hi : ∀ p ∈ ts, ∀ e, p.2 = .ok e → ∃ i : CalcItem A, i.text = p.1 ∧ i.Only (Literal value) (fun _ => True) (fun _ => True))
    (ops : List (Bool × Expr T)) (e : Expr T) (h : sumLoop ops ts = .ok e) :
    ts = [] ∨ ∃ (m : Bool) (s : CalcSum A), ts.map (·.1) = .delim (if m then '-' else '+') :: s.text ∧
      s.Only (Literal value) (fun _ => True) (fun _ => True) := by
  induction n generalizing ts ops with
  | zero => left; exact List.length_eq_zero_iff.1 (by omega)
  | succ n ih =>
    match ts with
    | [] => exact .inl rfl
    | (t, it) :: ts =>
      right
      rw [sumLoop] at h
      split at h
      · cases h
      · cases h
      · rename_i r hp
        obtain ⟨i, fs, pre, h1, h2, h3⟩ := product_of_ok value ts (fun p hp => hi p (by simp [hp])) r hp
        have key : ∀ (m : Bool) ops, t = .delim (if m then '-' else '+') → sumLoop ops r.2 = .ok e →
            ∃ (m : Bool) (s : CalcSum A), ((t, it) :: ts).map (·.1) = .delim (if m then '-' else '+') :: s.text ∧
              s.Only (Literal value) (fun _ => True) (fun _ => True) := by
          intro m ops ht h
          have hlen := product_length ts r hp
          rcases ih r.2 (by simp at hn; omega) (fun p hp => hi p (by rw [h1]; simp [hp])) ops h with hr | ⟨m', s, hs1, hs2⟩
          · refine ⟨m, .last i fs, ?_, h3, trivial⟩
            rw [h1, hr]
            simp [h2, ht, CalcSum.text]
          · refine ⟨m, .more i fs m' s, ?_, h3, trivial, trivial, hs2⟩
            rw [h1]
            simp [h2, ht, CalcSum.text, hs1]
        split at h
        · exact key false _ rfl h
        · exact key true _ rfl h
        · cases h

/-- What `parse_calc_item` accepts is the text of an item, and likewise for sums. -/
theorem item_of_ok (value : Tok A → Option T) (t : Tok A) :
    ∀ e, item value t = .ok e → ∃ i : CalcItem A, i.text = t ∧ i.Only (Literal value) (fun _ => True) (fun _ => True) := by
  have sumOk : ∀ ts : List (Tok A), (∀ t ∈ ts, ∀ e, item value t = .ok e →
      ∃ i : CalcItem A, i.text = t ∧ i.Only (Literal value) (fun _ => True) (fun _ => True)) →
      ∀ e, sum (annotate value ts) = .ok e →
      ∃ s : CalcSum A, s.text = ts ∧ s.Only (Literal value) (fun _ => True) (fun _ => True) := by
    intro ts hts e h
    have hi : ∀ p ∈ annotate value ts, ∀ e, p.2 = .ok e →
        ∃ i : CalcItem A, i.text = p.1 ∧ i.Only (Literal value) (fun _ => True) (fun _ => True) := by
      intro p hp e he
      obtain ⟨h1, h2⟩ := annotate_snd value ts p hp
      exact hts p.1 h2 e (h1 ▸ he)
    unfold sum at h
    cases hp : product (annotate value ts) with
    | err => rw [hp] at h; cases h
    | panic => rw [hp] at h; cases h
    | ok r =>
      rw [hp] at h
      simp only [Res.bind] at h
      obtain ⟨i, fs, pre, h1, h2, h3⟩ := product_of_ok value _ hi r hp
      have hfst := annotate_fst value ts
      rcases sumLoop_of_ok value _ r.2 le_rfl (fun p hp => hi p (by rw [h1]; simp [hp])) _ e h with hr | ⟨m, s, hs1, hs2⟩
      · refine ⟨.last i fs, ?_, h3, trivial⟩
        rw [← hfst, h1, hr]
        simp [h2, CalcSum.text]
      · refine ⟨.more i fs m s, ?_, h3, trivial, trivial, hs2⟩
        rw [← hfst, h1]
        simp [h2, CalcSum.text, hs1]
  refine Tok.rec (motive_1 := fun t => ∀ e, item value t = .ok e →
      ∃ i : CalcItem A, i.text = t ∧ i.Only (Literal value) (fun _ => True) (fun _ => True))
    (motive_2 := fun ts => ∀ t ∈ ts, ∀ e, item value t = .ok e →
      ∃ i : CalcItem A, i.text = t ∧ i.Only (Literal value) (fun _ => True) (fun _ => True)) ?_ ?_ ?_ ?_ ?_ ?_ ?_ t
  · intro q e h
    rw [item] at h
    refine ⟨.literal _, rfl, ?_, by simp, by simp⟩
    cases hv : value _ with
    | some v => rfl
    | none => rw [hv] at h; cases h
  · intro c e h
    rw [item] at h
    refine ⟨.literal _, rfl, ?_, by simp, by simp⟩
    cases hv : value _ with
    | some v => rfl
    | none => rw [hv] at h; cases h
  · intro ts hts e h
    rw [item] at h
    obtain ⟨s, h1, h2⟩ := sumOk ts hts e h
    exact ⟨.group false s, by simp [CalcItem.text, h1], h2⟩
  · intro ts hts e h
    rw [item] at h
    obtain ⟨s, h1, h2⟩ := sumOk ts hts e h
    exact ⟨.group true s, by simp [CalcItem.text, h1], h2⟩
  · intro a e h
    rw [item] at h
    refine ⟨.literal _, rfl, ?_, by simp, by simp⟩
    cases hv : value _ with
    | some v => rfl
    | none => rw [hv] at h; cases h
  · simp
  · intro t ts h1 h2 u hu
    rcases List.mem_cons.1 hu with rfl | hu
    · exact h1
    · exact h2 u hu

/-! ## Evaluation -/
section
variable {W : Type} [AddCommGroup W] [Module ℚ W]

mutual
theorem evalItem_rep (value : Tok A → Option T) (o : Ops T) (lit : Tok A → W) (rep : T → W → Prop)
    (l : Tok A → Prop) (f : List (Bool × ℚ) → Prop) (sg : Bool → Prop)
    (hl : ∀ t v, l t → value t = some v → rep v (lit t)) (hz : rep o.zero 0)
    (ha : ∀ a b c x y, o.add a b = some c → rep a x → rep b y → rep c (x + y))
    (hs : sg true → ∀ a b c x y, o.sub a b = some c → rep a x → rep b y → rep c (x - y))
    (hm : ∀ fs, f fs → ∀ a b x, o.mul a (factorsValue fs) = some b → rep a x → rep b (factorsValue fs • x))
    (hf : sg false) :
    (i : CalcItem A) → (e : Expr T) → compileItem value i = some e → i.Only l f sg → (v : T) →
      eval o e = some v → rep v (i.value lit)
  | .literal t, e, h1, h2, v, h3 => by
    simp only [compileItem, Option.map_eq_some_iff] at h1
    obtain ⟨w, hw, rfl⟩ := h1
    simp only [eval, Option.some.injEq] at h3
    subst h3
    exact hl t w h2 hw
  | .group fn s, e, h1, h2, v, h3 => by
    simp only [compileItem, Option.map_eq_some_iff] at h1
    obtain ⟨es, hes, rfl⟩ := h1
    simp only [eval] at h3
    have := evalSum_rep value o lit rep l f sg hl hz ha hs hm hf s false hf es hes h2 o.zero 0 hz v h3
    rw [zero_add] at this
    exact this

theorem evalSum_rep (value : Tok A → Option T) (o : Ops T) (lit : Tok A → W) (rep : T → W → Prop)
    (l : Tok A → Prop) (f : List (Bool × ℚ) → Prop) (sg : Bool → Prop)
    (hl : ∀ t v, l t → value t = some v → rep v (lit t)) (hz : rep o.zero 0)
    (ha : ∀ a b c x y, o.add a b = some c → rep a x → rep b y → rep c (x + y))
    (hs : sg true → ∀ a b c x y, o.sub a b = some c → rep a x → rep b y → rep c (x - y))
    (hm : ∀ fs, f fs → ∀ a b x, o.mul a (factorsValue fs) = some b → rep a x → rep b (factorsValue fs • x))
    (hf : sg false) :
    (s : CalcSum A) → (m : Bool) → sg m → (es : List (Bool × Expr T)) → compileSum value m s = some es →
      s.Only l f sg → (acc : T) → (x : W) → rep acc x → (v : T) → evalSum o acc es = some v →
      rep v (x + s.value lit m)
  | .last i fs, m, hsm, es, h1, h2, acc, x, hx, v, h3 => by
    simp only [compileSum, Option.map_eq_some_iff] at h1
    obtain ⟨e, he, rfl⟩ := h1
    simp only [evalSum] at h3
    rw [Option.bind_eq_some_iff] at h3
    obtain ⟨w, hw, h3⟩ := h3
    rw [Option.bind_eq_some_iff] at h3
    obtain ⟨u, hu, h3⟩ := h3
    cases h3
    have hrep : rep w (factorsValue fs • i.value lit) := by
      split at hw
      · rename_i hfs
        rw [List.isEmpty_iff] at hfs
        subst hfs
        have := evalItem_rep value o lit rep l f sg hl hz ha hs hm hf i e he h2.1 w hw
        simpa [factorsValue] using this
      · simp only [mulBy, eval] at hw
        rw [Option.bind_eq_some_iff] at hw
        obtain ⟨w', hw', hw⟩ := hw
        exact hm fs h2.2 _ _ _ hw (evalItem_rep value o lit rep l f sg hl hz ha hs hm hf i e he h2.1 w' hw')
    simp only [CalcSum.value]
    cases m
    · simp only [Bool.false_eq_true, ↓reduceIte, one_smul] at hu ⊢
      exact ha _ _ _ _ _ hu hx hrep
    · simp only [↓reduceIte, neg_smul, one_smul] at hu ⊢
      rw [← sub_eq_add_neg]
      exact hs hsm _ _ _ _ _ hu hx hrep
  | .more i fs m' rest, m, hsm, es, h1, h2, acc, x, hx, v, h3 => by
    simp only [compileSum] at h1
    rw [Option.bind_eq_some_iff] at h1
    obtain ⟨e, he, h1⟩ := h1
    rw [Option.map_eq_some_iff] at h1
    obtain ⟨es', hes, rfl⟩ := h1
    simp only [evalSum] at h3
    rw [Option.bind_eq_some_iff] at h3
    obtain ⟨w, hw, h3⟩ := h3
    rw [Option.bind_eq_some_iff] at h3
    obtain ⟨u, hu, h3⟩ := h3
    obtain ⟨o1, o2, o3, o4⟩ := h2
    have hrep : rep w (factorsValue fs • i.value lit) := by
      simp only [mulBy, eval] at hw
      rw [Option.bind_eq_some_iff] at hw
      obtain ⟨w', hw', hw⟩ := hw
      exact hm fs o2 _ _ _ hw (evalItem_rep value o lit rep l f sg hl hz ha hs hm hf i e he o1 w' hw')
    simp only [CalcSum.value]
    rw [← add_assoc]
    refine evalSum_rep value o lit rep l f sg hl hz ha hs hm hf rest m' o3 es' hes o4 u _ ?_ v h3
    cases m
    · simp only [Bool.false_eq_true, ↓reduceIte, one_smul] at hu ⊢
      exact ha _ _ _ _ _ hu hx hrep
    · simp only [↓reduceIte, neg_smul, one_smul] at hu ⊢
      rw [← sub_eq_add_neg]
      exact hs hsm _ _ _ _ _ hu hx hrep
end
end

mutual
theorem evalItem_some (value : Tok A → Option T) (o : Ops T) (G : T → Prop) (l : Tok A → Prop)
    (f : List (Bool × ℚ) → Prop) (sg : Bool → Prop)
    (hl : ∀ t, l t → ∃ v, value t = some v ∧ G v) (hz : G o.zero)
    (ha : ∀ a b, G a → G b → ∃ c, o.add a b = some c ∧ G c)
    (hs : ∀ a b, G a → G b → ∃ c, o.sub a b = some c ∧ G c)
    (hm : ∀ a q, G a → ∃ c, o.mul a q = some c ∧ G c) :
    (i : CalcItem A) → i.Only l f sg → ∃ e v, compileItem value i = some e ∧ eval o e = some v ∧ G v
  | .literal t, h => by
    obtain ⟨v, hv, hg⟩ := hl t h
    exact ⟨.value v, v, by simp [compileItem, hv], by simp [eval], hg⟩
  | .group fn s, h => by
    obtain ⟨es, h1, h2⟩ := evalSum_some value o G l f sg hl hz ha hs hm s h
    obtain ⟨v, h3, h4⟩ := h2 false o.zero hz
    exact ⟨.sum (es false), v, by simp [compileItem, h1], by simpa [eval] using h3, h4⟩

theorem evalSum_some (value : Tok A → Option T) (o : Ops T) (G : T → Prop) (l : Tok A → Prop)
    (f : List (Bool × ℚ) → Prop) (sg : Bool → Prop)
    (hl : ∀ t, l t → ∃ v, value t = some v ∧ G v) (hz : G o.zero)
    (ha : ∀ a b, G a → G b → ∃ c, o.add a b = some c ∧ G c)
    (hs : ∀ a b, G a → G b → ∃ c, o.sub a b = some c ∧ G c)
    (hm : ∀ a q, G a → ∃ c, o.mul a q = some c ∧ G c) :
    (s : CalcSum A) → s.Only l f sg → ∃ es : Bool → List (Bool × Expr T), (∀ m, compileSum value m s = some (es m)) ∧
      ∀ m acc, G acc → ∃ v, evalSum o acc (es m) = some v ∧ G v
  | .last i fs, h => by
    obtain ⟨e, v, h1, h2, h3⟩ := evalItem_some value o G l f sg hl hz ha hs hm i h.1
    refine ⟨fun m => [(m, if fs.isEmpty then e else mulBy e fs)], fun m => by simp [compileSum, h1], ?_⟩
    intro m acc hacc
    obtain ⟨w, hw, hgw⟩ : ∃ w, eval o (if fs.isEmpty then e else mulBy e fs) = some w ∧ G w := by
      split
      · exact ⟨v, h2, h3⟩
      · obtain ⟨c, hc, hgc⟩ := hm v (factorsValue fs) h3
        exact ⟨c, by simp [mulBy, eval, h2, hc], hgc⟩
    cases m
    · obtain ⟨c, hc, hgc⟩ := ha acc w hacc hgw
      exact ⟨c, by simp only [evalSum, hw, Option.bind_some, Bool.false_eq_true, ↓reduceIte, hc], hgc⟩
    · obtain ⟨c, hc, hgc⟩ := hs acc w hacc hgw
      exact ⟨c, by simp only [evalSum, hw, Option.bind_some, ↓reduceIte, hc], hgc⟩
  | .more i fs m' rest, h => by
    obtain ⟨e, v, h1, h2, h3⟩ := evalItem_some value o G l f sg hl hz ha hs hm i h.1
    obtain ⟨es, h4, h5⟩ := evalSum_some value o G l f sg hl hz ha hs hm rest h.2.2.2
    refine ⟨fun m => (m, mulBy e fs) :: es m', fun m => by simp [compileSum, h1, h4], ?_⟩
    intro m acc hacc
    obtain ⟨w, hw, hgw⟩ := hm v (factorsValue fs) h3
    have hw' : eval o (mulBy e fs) = some w := by simp [mulBy, eval, h2, hw]
    cases m
    · obtain ⟨c, hc, hgc⟩ := ha acc w hacc hgw
      obtain ⟨u, hu, hgu⟩ := h5 m' c hgc
      exact ⟨u, by simp [evalSum, hw', hc, hu], hgu⟩
    · obtain ⟨c, hc, hgc⟩ := hs acc w hacc hgw
      obtain ⟨u, hu, hgu⟩ := h5 m' c hgc
      exact ⟨u, by simp [evalSum, hw', hc, hu], hgu⟩
end


/-! ## No crash -/

theorem factors_stops {B : Type} (ts : List (Tok A × B)) (q : ℚ) (r : ℚ × List (Tok A × B))
    (h : factors ts q = .ok r) : Stops r.2 := by
  fun_induction factors ts q with
  | case1 q => cases h; trivial
  | case2 b x c ts q ih => exact ih h
  | case3 b x c ts q ih => exact ih h
  | case4 => cases h
  | case5 => cases h
  | case6 ts q h1 h2 h3 h4 h5 =>
    cases h
    match ts with
    | [] => trivial
    | (t, b) :: ts =>
      refine ⟨?_, ?_⟩
      · rintro rfl; exact h4 b ts rfl
      · rintro rfl; exact h5 b ts rfl

theorem factors_no_panic {B : Type} (ts : List (Tok A × B)) (q : ℚ) : factors ts q ≠ .panic := by
  fun_induction factors ts q with
  | case1 q => simp
  | case2 b x c ts q ih => exact ih
  | case3 b x c ts q ih => exact ih
  | case4 => simp
  | case5 => simp
  | case6 => simp

/-- `separatedList` for annotated lists. -/
def sepA (after : Bool) (ts : List (Tok A × Res (Expr T))) : Prop := separatedList after (ts.map (·.1))

theorem sepA_suffix (pre ts : List (Tok A × Res (Expr T))) (fs : List (Bool × ℚ)) (after : Bool)
    (t : Tok A) (hpre : pre.map (·.1) = t :: factorsText fs) (ht : t.isDelim = false)
    (h : sepA after (pre ++ ts)) : sepA true ts := by
  unfold sepA at h ⊢
  rw [List.map_append, hpre, List.cons_append, separatedList] at h
  obtain ⟨-, -, h⟩ := h
  rw [ht] at h
  generalize ts.map (·.1) = us at h
  clear hpre
  induction fs with
  | nil => exact h
  | cons f fs ih =>
    obtain ⟨d, q⟩ := f
    simp only [factorsText, List.cons_append, separatedList] at h
    exact ih h.2.2.2.2

theorem product_no_panic (ts : List (Tok A × Res (Expr T))) (hi : ∀ p ∈ ts, p.2 ≠ .panic) :
    product ts ≠ .panic := by
  match ts with
  | [] => simp [product]
  | (t, it) :: ts =>
    rcases it with e | _ | _
    · simp only [product, Res.bind]
      split
      · simp
      · cases hf : factors ts (1 : ℚ) with
        | ok q => simp
        | err => simp
        | panic => exact absurd hf (factors_no_panic ts 1)
    · simp [product, Res.bind]
    · exact absurd rfl (hi (t, .panic) (by simp))

/-- The shape of what a product leaves. -/
theorem product_rest (value : Tok A → Option T) (hv : ∀ c, value (.delim c) = none)
    (ts : List (Tok A × Res (Expr T)))
    (hi : ∀ p ∈ ts, p.2 = item value p.1) (after : Bool) (hs : sepA after ts)
    (r : Expr T × List (Tok A × Res (Expr T))) (h : product ts = .ok r) :
    (∃ pre, ts = pre ++ r.2) ∧ Stops r.2 ∧ sepA true r.2 := by
  match ts with
  | [] => cases h
  | (t, it) :: ts =>
    have hit := hi (t, it) (by simp)
    simp only at hit
    rcases it with e | _ | _
    · have htd : t.isDelim = false := by
        cases t with
        | delim c => rw [item, hv] at hit; cases hit
        | _ => rfl
      simp only [product, Res.bind] at h
      split at h
      · rename_i hts
        cases h
        exact ⟨⟨(t, .ok e) :: ts, by simp⟩, trivial, by simp [sepA, separatedList]⟩
      · cases hf : factors ts (1 : ℚ) with
        | ok q =>
          rw [hf] at h
          cases h
          obtain ⟨fs, pre, h3, h4⟩ := factors_of_ok ts 1 q hf
          refine ⟨⟨(t, .ok e) :: pre, by simp [← h3]⟩, factors_stops ts 1 q hf, ?_⟩
          refine sepA_suffix ((t, .ok e) :: pre) q.2 fs after t (by simp [h4]) htd ?_
          rw [List.cons_append, ← h3]
          exact hs
        | err => rw [hf] at h; cases h
        | panic => rw [hf] at h; cases h
    · cases h
    · cases h

theorem sumLoop_no_panic (value : Tok A → Option T) (hv : ∀ c, value (.delim c) = none) (n : Nat)
    (ts : List (Tok A × Res (Expr T))) (hn : ts.length ≤ n)
    (hi : ∀ p ∈ ts, p.2 = item value p.1 ∧ p.2 ≠ .panic) (hst : Stops ts) (hs : sepA true ts)
    (ops : List (Bool × Expr T)) : sumLoop ops ts ≠ .panic := by
  induction n generalizing ts ops with
  | zero =>
    have : ts = [] := List.length_eq_zero_iff.1 (by omega)
    subst this
    simp [sumLoop]
  | succ n ih =>
    match ts with
    | [] => simp [sumLoop]
    | (t, it) :: ts =>
      rw [sumLoop]
      have hs' : sepA (!t.isDelim) ts := hs.2.2
      have hop : t.isOp = true := hs.1 rfl
      split
      · simp
      · rename_i h
        exact absurd h (product_no_panic ts fun p hp => (hi p (by simp [hp])).2)
      · rename_i r h
        obtain ⟨⟨pre, h1⟩, h2, h3⟩ := product_rest value hv ts (fun p hp => (hi p (by simp [hp])).1) _ hs' r h
        have hlen := product_length ts r h
        have hrec : ∀ ops, sumLoop ops r.2 ≠ .panic := fun ops =>
          ih r.2 (by simp at hn; omega) (fun p hp => hi p (by rw [h1]; simp [hp])) h2 h3 ops
        split
        · exact hrec _
        · exact hrec _
        · rename_i g1 g2
          simp only [Stops] at hst
          cases t with
          | delim c =>
            simp only [Tok.isOp, Bool.or_eq_true, beq_iff_eq] at hop
            rcases hop with ((rfl | rfl) | rfl) | rfl
            · exact absurd rfl g1
            · exact absurd rfl g2
            · exact absurd rfl hst.1
            · exact absurd rfl hst.2
          | _ => simp [Tok.isOp] at hop

theorem sum_no_panic (value : Tok A → Option T) (hv : ∀ c, value (.delim c) = none) (ts : List (Tok A))
    (hi : ∀ t ∈ ts, item value t ≠ .panic) (hs : separatedList false ts) :
    sum (annotate value ts) ≠ .panic := by
  have hi' : ∀ p ∈ annotate value ts, p.2 = item value p.1 ∧ p.2 ≠ .panic := by
    intro p hp
    obtain ⟨h1, h2⟩ := annotate_snd value ts p hp
    exact ⟨h1, h1 ▸ hi _ h2⟩
  have hsA : sepA false (annotate value ts) := by
    unfold sepA
    rw [annotate_fst]
    exact hs
  unfold sum
  cases h : product (annotate value ts) with
  | err => simp [Res.bind]
  | panic => exact absurd h (product_no_panic _ fun p hp => (hi' p hp).2)
  | ok r =>
    simp only [Res.bind]
    obtain ⟨⟨pre, h1⟩, h2, h3⟩ := product_rest value hv _ (fun p hp => (hi' p hp).1) false hsA r h
    exact sumLoop_no_panic value hv _ r.2 le_rfl (fun p hp => hi' p (by rw [h1]; simp [hp])) h2 h3 _

theorem separatedList_mem (after : Bool) (ts : List (Tok A)) (h : separatedList after ts) :
    ∀ t ∈ ts, tokSeparated t := by
  induction ts generalizing after with
  | nil => simp
  | cons u us ih =>
    rw [separatedList] at h
    intro t ht
    rcases List.mem_cons.1 ht with rfl | ht
    · exact h.2.1
    · exact ih _ h.2.2 t ht

theorem item_no_panic (value : Tok A → Option T) (hv : ∀ c, value (.delim c) = none) (t : Tok A) :
    tokSeparated t → item value t ≠ .panic := by
  have hov : ∀ x : Option T, ofValue x ≠ .panic := by intro x; cases x <;> simp [ofValue]
  refine Tok.rec (motive_1 := fun t => tokSeparated t → item value t ≠ .panic)
    (motive_2 := fun ts => ∀ t ∈ ts, tokSeparated t → item value t ≠ .panic) ?_ ?_ ?_ ?_ ?_ ?_ ?_ t
  · intro q _; rw [item]; exact hov _
  · intro q _; rw [item]; exact hov _
  · intro ts ih h
    rw [item]
    rw [tokSeparated] at h
    exact sum_no_panic value hv ts (fun t ht => ih t ht (separatedList_mem _ ts h t ht)) h
  · intro ts ih h
    rw [item]
    rw [tokSeparated] at h
    exact sum_no_panic value hv ts (fun t ht => ih t ht (separatedList_mem _ ts h t ht)) h
  · intro q _; rw [item]; exact hov _
  · simp
  · intro t ts h1 h2 u hu
    rcases List.mem_cons.1 hu with rfl | hu
    · exact h1
    · exact h2 u hu

end Flair.Calc

namespace Flair.Props
open Flair.Calc Flair.Spec

/-- **C44** (syntax): what is accepted as a calc() expression are exactly the sums of products of values,
nested to any depth. -/
theorem C44_accepted {A T : Type} (value : Tok A → Option T) (ts : List (Tok A)) :
    (∃ e, parseCalcOrValue value (.func ts) = .ok e) ↔
      ∃ s : CalcSum A, s.text = ts ∧ s.Only (Literal value) (fun _ => True) (fun _ => True) := by
  constructor
  · rintro ⟨e, h⟩
    have h' : item value (.func ts) = .ok e := by rw [item]; exact h
    obtain ⟨i, h1, h2⟩ := item_of_ok value (.func ts) e h'
    cases i with
    | literal t =>
      rw [CalcItem.text] at h1
      exact absurd h1 (h2.2.2 ts)
    | group fn s =>
      cases fn
      · simp [CalcItem.text] at h1
      · simp only [CalcItem.text, ↓reduceIte, Tok.func.injEq] at h1
        exact ⟨s, h1, h2⟩
  · rintro ⟨s, rfl, h⟩
    obtain ⟨es, -, h2⟩ := sum_text value s h
    exact ⟨_, h2⟩

mutual
theorem only_mono_item {A : Type} {l l' : Tok A → Prop} {f f' : List (Bool × ℚ) → Prop} {s s' : Bool → Prop}
    (hl : ∀ t, l t → l' t) (hf : ∀ x, f x → f' x) (hs : ∀ x, s x → s' x) :
    (i : CalcItem A) → i.Only l f s → i.Only l' f' s'
  | .literal t, h => hl t h
  | .group _ e, h => only_mono hl hf hs e h

theorem only_mono {A : Type} {l l' : Tok A → Prop} {f f' : List (Bool × ℚ) → Prop} {s s' : Bool → Prop}
    (hl : ∀ t, l t → l' t) (hf : ∀ x, f x → f' x) (hs : ∀ x, s x → s' x) :
    (e : CalcSum A) → e.Only l f s → e.Only l' f' s'
  | .last i _, h => ⟨only_mono_item hl hf hs i h.1, hf _ h.2⟩
  | .more i _ _ r, h => ⟨only_mono_item hl hf hs i h.1, hf _ h.2.1, hs _ h.2.2.1, only_mono hl hf hs r h.2.2.2⟩
end

theorem parseVal_literal (t : Tok (Option Val)) (h : (parseVal t).isSome) : Literal parseVal t := by
  refine ⟨h, ?_, ?_⟩ <;> rintro ts rfl <;> simp [parseVal] at h

theorem lengthOf_parse {t : Tok (Option Val)} {u : LUnit} {q : ℚ} (h : LengthOf t u q) : parseVal t = some (.len u q) := by
  cases h <;> rfl

theorem isLength_literal (t : Tok (Option Val)) (h : IsLength t) : Literal parseVal t := by
  obtain ⟨u, q, h⟩ := h
  have h := lengthOf_parse h
  exact parseVal_literal t (by simp [h])

theorem lengthAdd (a b c : Val) (x y : LUnit → ℚ) (h : Val.tryAdd a b = some c)
    (ha : a ≠ .auto ∧ Val.length a = x) (hb : b ≠ .auto ∧ Val.length b = y) :
    c ≠ .auto ∧ Val.length c = x + y := by
  obtain ⟨ha, rfl⟩ := ha
  obtain ⟨hb, rfl⟩ := hb
  cases a with
  | auto => exact absurd rfl ha
  | len u p =>
    cases b with
    | auto => exact absurd rfl hb
    | len w q =>
      unfold Val.tryAdd at h
      split at h
      · rename_i hz
        simp only [Val.isZero, decide_eq_true_eq] at hz
        cases h
        exact ⟨hb, by funext z; simp [Val.length, hz]⟩
      · split at h
        · rename_i hz
          simp only [Val.isZero, decide_eq_true_eq] at hz
          cases h
          exact ⟨ha, by funext z; simp [Val.length, hz]⟩
        · simp only at h
          split at h
          · rename_i huw
            cases h
            subst huw
            refine ⟨by simp, ?_⟩
            funext z
            simp only [Val.length, Pi.add_apply]
            split <;> simp
          · cases h

/-- **C44** (lengths): the value of a calc() expression over lengths is the value of the arithmetic
expression, computed with the units as independent quantities. -/
theorem C44_length (s : CalcSum (Option Val)) (hs : s.Only IsLength NoZeroDiv (fun _ => True)) (v : Val)
    (h : parseCalcValue parseVal valOps (.func s.text) = .ok v) :
    v ≠ .auto ∧ Val.length v = s.value litLength false := by
  obtain ⟨es, h1, h2⟩ := sum_text parseVal s
    (only_mono (fun t => isLength_literal t) (fun _ _ => trivial) (fun _ _ => trivial) s hs)
  unfold parseCalcValue parseCalcOrValue at h
  simp only [h2, Res.bind] at h
  split at h
  · rename_i w hw
    cases h
    rw [eval] at hw
    have := evalSum_rep parseVal valOps litLength (fun v x => v ≠ .auto ∧ Val.length v = x) IsLength NoZeroDiv
      (fun _ => True) ?_ ?_ ?_ ?_ ?_ trivial s false trivial es h1 hs valOps.zero 0 ?_ v hw
    · rw [zero_add] at this
      exact this
    · rintro t v ⟨u, q, ht⟩ hv
      rw [lengthOf_parse ht] at hv
      cases hv
      exact ⟨by simp, by cases ht <;> rfl⟩
    · exact ⟨by simp [valOps, Val.zero], by funext u; simp [valOps, Val.zero, Val.length]⟩
    · exact lengthAdd
    · rintro - a b c x y hc hx ⟨hb, rfl⟩
      rw [sub_eq_add_neg]
      refine lengthAdd a b.neg c x _ hc hx ⟨?_, ?_⟩
      · cases b
        · exact absurd rfl hb
        · simp [Val.neg]
      · cases b
        · exact absurd rfl hb
        · funext u; simp [Val.neg, Val.length]; split <;> simp
    · rintro fs - a b x hb ⟨ha, rfl⟩
      simp only [valOps, Option.some.injEq] at hb
      subst hb
      cases a with
      | auto => exact absurd rfl ha
      | len u q =>
        refine ⟨by simp [Val.mul], ?_⟩
        funext w
        simp only [Val.mul, Val.length, Pi.smul_apply, smul_eq_mul]
        split
        · ring
        · simp
    · exact ⟨by simp [valOps, Val.zero], by funext u; simp [valOps, Val.zero, Val.length]⟩
  · cases h

/-- **C44** (same unit, zero is neutral): an expression all of whose lengths are of one unit or zero (in any
unit) has a value. -/
theorem C44_same_unit (u : LUnit) (s : CalcSum (Option Val)) (hs : s.Only (InUnit u) NoZeroDiv (fun _ => True)) :
    ∃ v, parseCalcValue parseVal valOps (.func s.text) = .ok v := by
  have hlit : ∀ t, InUnit u t → Literal parseVal t := by
    rintro t ⟨v, q, h, -⟩
    exact parseVal_literal t (by simp [lengthOf_parse h])
  obtain ⟨es, h1, h2⟩ := sum_text parseVal s (only_mono hlit (fun _ _ => trivial) (fun _ _ => trivial) s hs)
  have hadd : ∀ a b : Val, (∃ w q, a = .len w q ∧ (w = u ∨ q = 0)) → (∃ w q, b = .len w q ∧ (w = u ∨ q = 0)) →
      ∃ c, Val.tryAdd a b = some c ∧ ∃ w q, c = .len w q ∧ (w = u ∨ q = 0) := by
    rintro a b ⟨w, q, rfl, ha⟩ ⟨w', q', rfl, hb⟩
    unfold Val.tryAdd
    by_cases h1 : q = 0
    · simp only [Val.isZero, h1, decide_true, ↓reduceIte]
      exact ⟨_, rfl, _, _, rfl, hb⟩
    · by_cases h2 : q' = 0
      · simp only [Val.isZero, h1, h2, decide_false, decide_true, Bool.false_eq_true, ↓reduceIte]
        exact ⟨_, rfl, _, _, rfl, ha⟩
      · have e1 : w = u := ha.resolve_right h1
        have e2 : w' = u := hb.resolve_right h2
        subst e1 e2
        simp only [Val.isZero, h1, h2, decide_false, Bool.false_eq_true, ↓reduceIte]
        exact ⟨_, rfl, _, _, rfl, .inl rfl⟩
  obtain ⟨es', h3, h4⟩ := evalSum_some parseVal valOps (fun v => ∃ w q, v = .len w q ∧ (w = u ∨ q = 0)) (InUnit u)
    NoZeroDiv (fun _ => True) (by rintro t ⟨v, q, h, hq⟩; exact ⟨_, lengthOf_parse h, _, _, rfl, hq⟩)
    ⟨.px, 0, rfl, .inr rfl⟩ hadd
    (by
      rintro a b ha ⟨w, q, rfl, hb⟩
      exact hadd a _ ha ⟨w, -q, rfl, by simpa using hb⟩)
    (by
      rintro a q ⟨w, x, rfl, ha⟩
      refine ⟨_, rfl, w, x * q, rfl, ?_⟩
      rcases ha with ha | ha
      · exact .inl ha
      · right; rw [ha, zero_mul])
    s hs
  rw [h3] at h1
  cases h1
  obtain ⟨v, hv, -⟩ := h4 false valOps.zero ⟨.px, 0, rfl, .inr rfl⟩
  refine ⟨v, ?_⟩
  unfold parseCalcValue parseCalcOrValue
  simp only [h2, Res.bind, eval, hv]

/-- **C44** (mixed units): an expression whose value has two units is reported as an error. -/
theorem C44_mixed (s : CalcSum (Option Val)) (hs : s.Only IsLength NoZeroDiv (fun _ => True)) (u w : LUnit)
    (huw : u ≠ w) (hu : s.value litLength false u ≠ 0) (hw : s.value litLength false w ≠ 0) :
    parseCalcValue parseVal valOps (.func s.text) = .err := by
  cases h : parseCalcValue parseVal valOps (.func s.text) with
  | err => rfl
  | ok v =>
    obtain ⟨h1, h2⟩ := C44_length s hs v h
    rw [← h2] at hu hw
    cases v with
    | auto => exact absurd rfl h1
    | len x q =>
      simp only [Val.length, ne_eq, ite_eq_right_iff, Classical.not_imp] at hu hw
      exact absurd (hu.1.trans hw.1.symm) huw
  | panic =>
    obtain ⟨es, h1, h2⟩ := sum_text parseVal s
      (only_mono (fun t => isLength_literal t) (fun _ _ => trivial) (fun _ _ => trivial) s hs)
    unfold parseCalcValue parseCalcOrValue at h
    simp only [h2, Res.bind] at h
    split at h <;> cases h

private def px (q : ℚ) : CalcItem (Option Val) := .literal (.other (some (.len .px q)))
private def pct (q : ℚ) : CalcItem (Option Val) := .literal (.other (some (.len .percent q)))

/-- `calc(2px * 3 - (4px + 0%) / 2)` is 4px; `calc(1px + 1%)` is an error. -/
example :
    let s : CalcSum (Option Val) := .more (px 2) [(false, 3)] true
      (.last (.group false (.more (px 4) [] false (.last (pct 0) []))) [(true, 2)])
    s.Only (InUnit .px) NoZeroDiv (fun _ => True) ∧ s.Only IsLength NoZeroDiv (fun _ => True) ∧
    parseCalcValue parseVal valOps (.func s.text) = .ok (.len .px 4) := by
  refine ⟨?_, ?_, by decide +kernel⟩
  · refine ⟨⟨_, _, .other _ _, .inl rfl⟩, by simp [NoZeroDiv], trivial,
      ⟨⟨_, _, .other _ _, .inl rfl⟩, by simp [NoZeroDiv], trivial, ⟨_, _, .other _ _, .inr rfl⟩, by simp [NoZeroDiv]⟩, by simp [NoZeroDiv]⟩
  · refine ⟨⟨_, _, .other _ _⟩, by simp [NoZeroDiv], trivial,
      ⟨⟨_, _, .other _ _⟩, by simp [NoZeroDiv], trivial, ⟨_, _, .other _ _⟩, by simp [NoZeroDiv]⟩, by simp [NoZeroDiv]⟩

example :
    let s : CalcSum (Option Val) := .more (px 1) [] false (.last (pct 1) [])
    s.Only IsLength NoZeroDiv (fun _ => True) ∧ s.value litLength false .px ≠ 0 ∧
    s.value litLength false .percent ≠ 0 := by
  refine ⟨?_, ?_, ?_⟩
  · exact ⟨⟨_, _, .other _ _⟩, by simp [NoZeroDiv], trivial, ⟨_, _, .other _ _⟩, by simp [NoZeroDiv]⟩
  · simp [CalcSum.value, CalcItem.value, px, pct, litLength, Val.length, factorsValue]
  · simp [CalcSum.value, CalcItem.value, px, pct, litLength, Val.length, factorsValue]

/-- **C44** (numbers), as far as it holds: without subtraction.  Missing: subtraction, see
`C44_number_subtraction`. -/
theorem C44_number_partial (s : CalcSum (Option ℚ))
    (hs : s.Only IsNumberLit NoZeroDiv (fun minus => minus = false)) :
    parseCalcValue parseF32 f32Ops (.func s.text) = .ok (s.value litNumber false) := by
  replace hs := only_mono (l' := Literal parseF32) (fun t h => by
    cases h <;> exact ⟨rfl, by rintro ts ⟨⟩, by rintro ts ⟨⟩⟩) (fun _ h => h) (fun _ h => h) s hs
  obtain ⟨es, h1, h2⟩ := sum_text parseF32 s (only_mono (fun _ h => h) (fun _ _ => trivial) (fun _ _ => trivial) s hs)
  obtain ⟨es', h3, h4⟩ := evalSum_some parseF32 f32Ops (fun _ => True) (Literal parseF32) NoZeroDiv
    (fun minus => minus = false)
    (fun t h => by obtain ⟨v, hv⟩ := Option.isSome_iff_exists.1 h.1; exact ⟨v, hv, trivial⟩) trivial
    (fun a b _ _ => ⟨_, rfl, trivial⟩) (fun a b _ _ => ⟨_, rfl, trivial⟩) (fun a q _ => ⟨_, rfl, trivial⟩) s hs
  rw [h3] at h1
  cases h1
  obtain ⟨v, hv, -⟩ := h4 false f32Ops.zero trivial
  have hrep := evalSum_rep parseF32 f32Ops litNumber (fun v x => v = x) (Literal parseF32) NoZeroDiv
    (fun minus => minus = false)
    (by
      intro t v _ hv
      cases t with
      | number q => cases hv; rfl
      | other a =>
        cases a with
        | none => cases hv
        | some x => cases hv; rfl
      | _ => cases hv) rfl
    (by rintro a b c x y hc rfl rfl; simpa [f32Ops] using hc.symm) (by simp)
    (by rintro fs - a b x hb rfl; simp only [f32Ops, Option.some.injEq] at hb; rw [← hb, smul_eq_mul, mul_comm])
    rfl s false rfl _ (h3 false) hs f32Ops.zero 0 rfl v hv
  rw [zero_add] at hrep
  unfold parseCalcValue parseCalcOrValue
  simp only [h2, Res.bind, eval, hv, hrep]

private def num (q : ℚ) : CalcItem (Option ℚ) := .literal (.number q)

example : (CalcSum.more (num 5) [(false, 2)] false (.last (num 3) [])).Only IsNumberLit NoZeroDiv
    (fun minus => minus = false) := by
  refine ⟨IsNumberLit.number _, by simp [NoZeroDiv], rfl, IsNumberLit.number _, by simp [NoZeroDiv]⟩

/-- The full C44 does not hold for numbers: `calc(5 - 3)` is 8. -/
theorem C44_number_subtraction :
    let s : CalcSum (Option ℚ) := .more (num 5) [] true (.last (num 3) [])
    s.value litNumber false = 2 ∧ parseCalcValue parseF32 f32Ops (.func s.text) = .ok 8 := by
  refine ⟨?_, by decide +kernel⟩
  simp [CalcSum.value, CalcItem.value, num, litNumber, factorsValue]
  norm_num

theorem sameAngle_wrap (x : ℚ) : SameAngle (wrap x) x :=
  ⟨-⌈x - 1 / 2⌉, by unfold wrap; push_cast; ring⟩

theorem SameAngle.trans {a b c : ℚ} (h1 : SameAngle a b) (h2 : SameAngle b c) : SameAngle a c := by
  obtain ⟨n, rfl⟩ := h1
  obtain ⟨m, rfl⟩ := h2
  exact ⟨m + n, by push_cast; ring⟩

/-- **C44** (angles), as far as it holds: sums, differences and multiples of angles are right up to full
turns.  Missing: multiplication and division with a result that is not a whole number, see `C44_angle_half`. -/
theorem C44_angle_partial (s : CalcSum (Option ℚ))
    (hs : s.Only IsAngleLit (fun fs => NoZeroDiv fs ∧ ∃ n : ℤ, factorsValue fs = n) (fun _ => True)) :
    ∃ v, parseCalcValue parseAngle rotOps (.func s.text) = .ok v ∧ SameAngle v (s.value litAngle false) := by
  replace hs := only_mono (l' := Literal parseAngle) (fun t h => by
    cases h <;> exact ⟨rfl, by rintro ts ⟨⟩, by rintro ts ⟨⟩⟩) (fun _ h => h) (fun _ h => h) s hs
  obtain ⟨es, h1, h2⟩ := sum_text parseAngle s (only_mono (fun _ h => h) (fun _ _ => trivial) (fun _ _ => trivial) s hs)
  obtain ⟨es', h3, h4⟩ := evalSum_some parseAngle rotOps (fun _ => True) (Literal parseAngle)
    (fun fs => NoZeroDiv fs ∧ ∃ n : ℤ, factorsValue fs = n) (fun _ => True)
    (fun t h => by obtain ⟨v, hv⟩ := Option.isSome_iff_exists.1 h.1; exact ⟨v, hv, trivial⟩) trivial
    (fun a b _ _ => ⟨_, rfl, trivial⟩) (fun a b _ _ => ⟨_, rfl, trivial⟩) (fun a q _ => ⟨_, rfl, trivial⟩) s hs
  rw [h3] at h1
  cases h1
  obtain ⟨v, hv, -⟩ := h4 false rotOps.zero trivial
  refine ⟨v, ?_, ?_⟩
  · unfold parseCalcValue parseCalcOrValue
    simp only [h2, Res.bind, eval, hv]
  have hrep := evalSum_rep parseAngle rotOps litAngle SameAngle (Literal parseAngle)
    (fun fs => NoZeroDiv fs ∧ ∃ n : ℤ, factorsValue fs = n) (fun _ => True)
    (by
      intro t v _ hv
      cases t with
      | number q =>
        simp only [parseAngle] at hv
        split at hv
        · cases hv; exact ⟨0, by simp [litAngle]⟩
        · cases hv
      | other a =>
        cases a with
        | none => cases hv
        | some x => cases hv; exact sameAngle_wrap x
      | _ => cases hv)
    ⟨0, by simp [rotOps]⟩
    (by
      rintro a b c x y hc ⟨n, rfl⟩ ⟨m, rfl⟩
      cases hc
      exact SameAngle.trans (sameAngle_wrap _) ⟨n + m, by push_cast; ring⟩)
    (by
      rintro - a b c x y hc ⟨n, rfl⟩ ⟨m, rfl⟩
      cases hc
      exact SameAngle.trans (sameAngle_wrap _) ⟨n - m, by push_cast; ring⟩)
    (by
      rintro fs ⟨-, k, hk⟩ a b x hb ⟨n, rfl⟩
      cases hb
      rw [hk]
      exact SameAngle.trans (sameAngle_wrap _) ⟨n * k, by push_cast; rw [smul_eq_mul]; ring⟩)
    trivial s false trivial _ (h3 false) hs rotOps.zero 0 ⟨0, by simp [rotOps]⟩ v hv
  rw [zero_add] at hrep
  exact hrep

private def turn (q : ℚ) : CalcItem (Option ℚ) := .literal (.other (some q))

/-- `calc(3/4 turn * 2 + 1/4 turn)`. -/
example : (CalcSum.more (turn (3 / 4)) [(false, 2)] false (.last (turn (1 / 4)) [])).Only IsAngleLit
    (fun fs => NoZeroDiv fs ∧ ∃ n : ℤ, factorsValue fs = n) (fun _ => True) := by
  simp only [CalcSum.Only, CalcItem.Only, turn, NoZeroDiv, factorsValue]
  refine ⟨.other _, ⟨by simp, 2, by simp⟩, trivial, .other _, by simp, 1, by simp⟩

/-- The full C44 does not hold for angles: `calc(1turn * 0.5)` is no turn instead of half a turn. -/
theorem C44_angle_half :
    let s : CalcSum (Option ℚ) := .last (turn 1) [(false, 1 / 2)]
    s.value litAngle false = 1 / 2 ∧ parseCalcValue parseAngle rotOps (.func s.text) = .ok 0 ∧
    ¬ SameAngle 0 (1 / 2) := by
  refine ⟨?_, by decide +kernel, ?_⟩
  · simp [CalcSum.value, CalcItem.value, turn, litAngle, factorsValue]
  · rintro ⟨n, h⟩
    have h2 : (0 : ℚ) = 1 + 2 * n := by linarith
    have h3 : (0 : ℤ) = 1 + 2 * n := by exact_mod_cast h2
    omega

/-- **C44** (no crash), as far as it holds: if in every block each token after a value is an operator, the
parser does not crash.  Missing: values that follow each other, see `C44_crash`. -/
theorem C44_no_crash_partial {A T : Type} (value : Tok A → Option T) (hv : ∀ c, value (.delim c) = none)
    (o : Ops T) (t : Tok A) (ht : tokSeparated t) : parseCalcValue value o t ≠ .panic := by
  have hp : parseCalcOrValue value t ≠ .panic := by
    have hov : ∀ x : Option T, ofValue x ≠ .panic := by intro x; cases x <;> simp [ofValue]
    cases t with
    | func ts =>
      have := item_no_panic value hv (.func ts) ht
      rw [item] at this
      exact this
    | _ => exact hov _
  unfold parseCalcValue
  cases h : parseCalcOrValue value t with
  | ok e => simp only [Res.bind]; split <;> simp
  | err => simp [Res.bind]
  | panic => exact absurd h hp

/-- `calc(1px + (2px * ) - )` is separated, and reported as an error. -/
example :
    let t : Tok (Option Val) := .func [(px 1).text, .delim '+', .paren [(px 2).text, .delim '*'], .delim '-']
    tokSeparated t ∧ parseCalcValue parseVal valOps t = .err := by
  refine ⟨?_, by decide +kernel⟩
  simp [tokSeparated, separatedList, Tok.isOp, Tok.isDelim, px, CalcItem.text]

/-- The full C44 does not hold: `calc(1px 2px 3px)` crashes the parser. -/
theorem C44_crash :
    parseCalcValue parseVal valOps (.func [(px 1).text, (px 2).text, (px 3).text]) = .panic := by
  decide +kernel

end Flair.Props
