import Verif.Tactics
import Verif.Model.Layers
import Verif.Spec.Layers
/-! Helper lemmas for the layer properties. -/
namespace Flair.Layers
open Flair.Spec

theorem dotted_cons_cons (c c' : List Char) (cs : Path) :
    Path.dotted (c :: c' :: cs) = c ++ '.' :: Path.dotted (c' :: cs) := rfl

theorem parseGo_append (c : Name) (hc : '.' ∉ c) : ∀ (consumed cur rest : Name),
    parseGo consumed cur (c ++ rest) = parseGo (consumed ++ c) (cur ++ c) rest := by
  induction c with
  | nil => intro a b r; simp
  | cons x c ih =>
    intro a b r
    have hx : x ≠ '.' := fun h => hc (by simp [h])
    have hc' : '.' ∉ c := fun h => hc (by simp [h])
    simp only [List.cons_append]
    rw [parseGo, if_neg hx, ih hc']
    simp

/-- proper non-empty prefixes of `done ++ p` that are longer than `done`, outermost first. -/
def properPrefixes (done : Path) : Path → List Path
  | [] => []
  | [_] => []
  | c :: c' :: cs => (done ++ [c]) :: properPrefixes (done ++ [c]) (c' :: cs)

theorem dotted_append (p : Path) (hp : p ≠ []) (q : Path) (hq : q ≠ []) :
    Path.dotted (p ++ q) = Path.dotted p ++ '.' :: Path.dotted q := by
  induction p with
  | nil => exact absurd rfl hp
  | cons c p ih =>
    cases p with
    | nil =>
      cases q with
      | nil => exact absurd rfl hq
      | cons d q => simp [Path.dotted]
    | cons c' p =>
      have := ih (by simp)
      simp only [List.cons_append] at this ⊢
      rw [dotted_cons_cons, dotted_cons_cons, this]
      simp

/-- the text already scanned when the components `done` have been passed. -/
def consumedOf (done : Path) : Name := if done = [] then [] else Path.dotted done ++ ['.']

theorem consumedOf_step (done : Path) (c : List Char) :
    consumedOf done ++ c = Path.dotted (done ++ [c]) := by
  unfold consumedOf
  by_cases h : done = []
  · simp [h, Path.dotted]
  · rw [if_neg h, dotted_append done h [c] (by simp)]
    simp [Path.dotted]

theorem parseGo_dotted : ∀ (p : Path) (done : Path), p ≠ [] → (∀ c ∈ p, '.' ∉ c) →
    (parseGo (consumedOf done) [] (Path.dotted p)).1
      = (properPrefixes done p).map Path.dotted ∧
    some (parseGo (consumedOf done) [] (Path.dotted p)).2 = p.getLast? := by
  intro p
  induction p with
  | nil => intro d h; exact absurd rfl h
  | cons c p ih =>
    intro done _ hp
    have hc : '.' ∉ c := hp c (by simp)
    cases p with
    | nil =>
      have := parseGo_append c hc (consumedOf done) [] []
      simp only [List.append_nil, List.nil_append] at this
      simp [Path.dotted, this, parseGo, properPrefixes]
    | cons c' p =>
      rw [dotted_cons_cons, parseGo_append c hc, parseGo, if_pos rfl]
      have hcons : consumedOf done ++ c ++ ['.'] = consumedOf (done ++ [c]) := by
        rw [consumedOf_step, consumedOf, if_neg (by simp)]
      rw [hcons]
      have ih' := ih (done ++ [c]) (by simp) (fun x hx => hp x (by simp at hx ⊢; tauto))
      simp only [ih'.1, properPrefixes, List.map_cons, consumedOf_step, ih'.2, true_and]
      simp [List.getLast?_cons_cons]

theorem parse_dotted (p : Path) (h : p ≠ []) (hp : ∀ c ∈ p, '.' ∉ c) :
    (parse (Path.dotted p)).parents = (properPrefixes [] p).map Path.dotted ∧
    some (parse (Path.dotted p)).name = p.getLast? := by
  have := parseGo_dotted p [] h hp
  simpa [parse, consumedOf] using this

theorem dotted_ne_nil (p : Path) (h : p.WF) : Path.dotted p ≠ [] := by
  obtain ⟨hne, hc⟩ := h
  cases p with
  | nil => exact absurd rfl hne
  | cons c p =>
    have := (hc c (by simp)).1
    cases p with
    | nil => simpa [Path.dotted] using this
    | cons c' p => simp [dotted_cons_cons]

theorem dotted_inj : ∀ (p q : Path), p.WF → q.WF → Path.dotted p = Path.dotted q → p = q := by
  have key : ∀ (c d r s : List Char), '.' ∉ c → '.' ∉ d → c ++ '.' :: r = d ++ '.' :: s → c = d ∧ r = s := by
    intro c
    induction c with
    | nil =>
      intro d r s _ hd h
      cases d with
      | nil => simpa using h
      | cons x d =>
        simp only [List.nil_append, List.cons_append, List.cons.injEq] at h
        exact absurd (h.1 ▸ (by simp : x ∈ x :: d)) hd
    | cons x c ih =>
      intro d r s hc hd h
      cases d with
      | nil =>
        simp only [List.nil_append, List.cons_append, List.cons.injEq] at h
        exact absurd (h.1 ▸ (by simp : x ∈ x :: c)) hc
      | cons y d =>
        simp only [List.cons_append, List.cons.injEq] at h
        obtain ⟨h1, h2⟩ := h
        have := ih d r s (fun hh => hc (by simp [hh])) (fun hh => hd (by simp [hh])) h2
        exact ⟨by rw [h1, this.1], this.2⟩
  intro p
  induction p with
  | nil => intro q h; exact absurd rfl h.1
  | cons c p ih =>
    intro q hp hq heq
    cases q with
    | nil => exact absurd rfl hq.1
    | cons d q =>
      have hc := (hp.2 c (by simp)).2
      have hd := (hq.2 d (by simp)).2
      cases p with
      | nil =>
        cases q with
        | nil => simp [Path.dotted] at heq; simp [heq]
        | cons d' q =>
          rw [dotted_cons_cons] at heq
          simp only [Path.dotted] at heq
          exact absurd (heq ▸ (by simp : '.' ∈ d ++ '.' :: Path.dotted (d' :: q))) hc
      | cons c' p =>
        cases q with
        | nil =>
          rw [dotted_cons_cons] at heq
          simp only [Path.dotted] at heq
          exact absurd (heq ▸ (by simp : '.' ∈ c ++ '.' :: Path.dotted (c' :: p))) hd
        | cons d' q =>
          rw [dotted_cons_cons, dotted_cons_cons] at heq
          have := key _ _ _ _ hc hd heq
          have h2 := ih (d' :: q) ⟨by simp, fun x hx => hp.2 x (List.mem_cons_of_mem _ hx)⟩
            ⟨by simp, fun x hx => hq.2 x (List.mem_cons_of_mem _ hx)⟩ this.2
          rw [this.1, h2]

/-! ### Path level model -/

/-- insert one path whose parent is already present. -/
def def1 (L : List Path) (q : Path) : List Path :=
  if q ∈ L then L
  else if q.length = 1 then L ++ [q]
  else L.take (L.idxOf q.dropLast) ++ q :: L.drop (L.idxOf q.dropLast)

/-- all non-empty prefixes. -/
def prefixes (p : Path) : List Path := properPrefixes [] p ++ [p]

def Closed (L : List Path) : Prop := ∀ q ∈ L, ∀ r, r <+: q → r ≠ [] → r ∈ L

theorem mem_properPrefixes : ∀ (p done r : Path),
    r ∈ properPrefixes done p ↔ ∃ k, 0 < k ∧ k < p.length ∧ r = done ++ p.take k := by
  intro p
  induction p with
  | nil => intro d r; simp [properPrefixes]
  | cons c p ih =>
    intro done r
    cases p with
    | nil => simp [properPrefixes]
    | cons c' p =>
      simp only [properPrefixes, List.mem_cons, ih]
      constructor
      · rintro (h | ⟨k, hk, hk2, h⟩)
        · exact ⟨1, by simp, by simp, by simp [h]⟩
        · exact ⟨k+1, by omega, by simp at hk2 ⊢; omega, by simp [h]⟩
      · rintro ⟨k, hk, hk2, h⟩
        cases k with
        | zero => omega
        | succ k =>
          by_cases hk0 : k = 0
          · left; simp [h, hk0]
          · right; exact ⟨k, by omega, by simp at hk2 ⊢; omega, by simp [h]⟩

theorem mem_properPrefixes' (p r : Path) :
    r ∈ properPrefixes [] p ↔ r <+: p ∧ r ≠ [] ∧ r ≠ p := by
  rw [mem_properPrefixes]
  constructor
  · rintro ⟨k, hk, hk2, h⟩
    subst h
    refine ⟨by simpa using List.take_prefix k p, ?_, ?_⟩
    · intro h; simp at h; rcases h with h | h
      · omega
      · simp [h] at hk2
    · intro h
      have := congrArg List.length h
      simp at this; omega
  · rintro ⟨⟨s, hs⟩, h1, h2⟩
    refine ⟨r.length, List.length_pos_iff.mpr h1, ?_, ?_⟩
    · subst hs
      cases s with
      | nil => simp at h2
      | cons => simp
    · subst hs; simp

theorem properPrefixes_getLast? : ∀ (p done : Path), 2 ≤ p.length →
    (properPrefixes done p).getLast? = some (done ++ p.dropLast) := by
  intro p
  induction p with
  | nil => intro d h; simp at h
  | cons c p ih =>
    intro d h
    cases p with
    | nil => simp at h
    | cons c' p =>
      cases p with
      | nil => simp [properPrefixes]
      | cons c'' p =>
        have := ih (d ++ [c]) (by simp)
        rw [properPrefixes]
        rw [List.getLast?_cons, this]
        simp

theorem mem_def1 (L : List Path) (q x : Path) : x ∈ def1 L q ↔ x ∈ L ∨ x = q := by
  unfold def1
  split
  · rename_i h
    constructor
    · exact Or.inl
    · rintro (h' | h')
      · exact h'
      · exact h' ▸ h
  · split
    · simp
    · have := List.take_append_drop (L.idxOf q.dropLast) L
      conv => rhs; rw [← this]
      simp only [List.mem_append, List.mem_cons]
      tauto

theorem mem_foldl_def1 (qs : List Path) : ∀ (L : List Path) (x : Path),
    x ∈ qs.foldl def1 L ↔ x ∈ L ∨ x ∈ qs := by
  induction qs with
  | nil => simp
  | cons q qs ih =>
    intro L x
    rw [List.foldl_cons, ih, mem_def1]
    simp only [List.mem_cons]; tauto

theorem foldl_def1_of_mem (qs : List Path) (L : List Path) (h : ∀ q ∈ qs, q ∈ L) :
    qs.foldl def1 L = L := by
  induction qs with
  | nil => rfl
  | cons q qs ih =>
    rw [List.foldl_cons]
    have : def1 L q = L := by simp [def1, h q (by simp)]
    rw [this]
    exact ih (fun x hx => h x (by simp [hx]))

theorem WF_prefix {p r : Path} (hp : p.WF) (h : r <+: p) (hr : r ≠ []) : r.WF :=
  ⟨hr, fun c hc => hp.2 c (h.subset hc)⟩

theorem idxOf_map_dotted (L : List Path) (q : Path) (hL : ∀ x ∈ L, x.WF) (hq : q.WF) :
    (L.map Path.dotted).idxOf (Path.dotted q) = L.idxOf q := by
  induction L with
  | nil => simp
  | cons x L ih =>
    simp only [List.map_cons, List.idxOf_cons]
    have hx := hL x (by simp)
    by_cases h : x = q
    · subst h; simp
    · have h2 : Path.dotted x ≠ Path.dotted q := fun hh => h (dotted_inj _ _ hx hq hh)
      have ih' := ih (fun y hy => hL y (by simp [hy]))
      rw [beq_false_of_ne h, beq_false_of_ne h2, ih']

theorem mem_map_dotted (L : List Path) (q : Path) (hL : ∀ x ∈ L, x.WF) (hq : q.WF) :
    Path.dotted q ∈ L.map Path.dotted ↔ q ∈ L := by
  rw [List.mem_map]
  constructor
  · rintro ⟨x, hx, h⟩
    exact dotted_inj _ _ (hL x hx) hq h ▸ hx
  · exact fun h => ⟨q, h, rfl⟩

/-- The code on dotted names does exactly the path-level fold. -/
theorem defineLayer_dotted : ∀ (n : Nat) (p : Path) (L : List Path), p.length = n → p.WF →
    (∀ x ∈ L, x.WF) → Closed L →
    defineLayer (L.map Path.dotted) (Path.dotted p)
      = some (((prefixes p).foldl def1 L).map Path.dotted) := by
  intro n
  induction n using Nat.strongRecOn with
  | ind n ih =>
  intro p L hn hp hL hcl
  rw [defineLayer, if_neg (dotted_ne_nil p hp)]
  have hmem := mem_map_dotted L p hL hp
  by_cases hdef : p ∈ L
  · rw [if_pos (by simpa [isDefined] using hmem.mpr hdef)]
    congr 1
    rw [foldl_def1_of_mem]
    intro q hq
    simp only [prefixes, List.mem_append, List.mem_singleton] at hq
    rcases hq with hq | hq
    · have := (mem_properPrefixes' p q).mp hq
      exact hcl p hdef q this.1 this.2.1
    · exact hq ▸ hdef
  · rw [if_neg (by simpa [isDefined] using fun h => hdef (hmem.mp h))]
    have hparse := parse_dotted p hp.1 (fun c hc => (hp.2 c hc).2)
    by_cases hlen : p.length = 1
    · -- no parents
      obtain ⟨c, hc⟩ : ∃ c, p = [c] := by
        match p, hlen with
        | [c], _ => exact ⟨c, rfl⟩
      subst hc
      have hpar : (parse (Path.dotted [c])).parents = [] := by simp [hparse.1, properPrefixes]
      have hname : (parse (Path.dotted [c])).name = c := by
        have := hparse.2; simpa using this
      simp only [hpar, if_true]
      rw [hname]
      simp [prefixes, properPrefixes, def1, hdef, Path.dotted]
    · have hlen2 : 2 ≤ p.length := by
        have : p.length ≠ 0 := by simpa using hp.1
        omega
      have hlast := properPrefixes_getLast? p [] hlen2
      have hpne : (parse (Path.dotted p)).parents ≠ [] := by
        rw [hparse.1]; intro h
        simp at h; rw [h] at hlast; simp at hlast
      simp only [if_neg hpne]
      -- the fold over the parents
      have hfold : ∀ (qs : List Path) (L' : List Path), (∀ x ∈ L', x.WF) → Closed L' →
          (∀ q ∈ qs, q <+: p ∧ q ≠ [] ∧ q ≠ p) →
          (∀ pre q post, qs = pre ++ q :: post → ∀ r, r <+: q → r ≠ [] → r ≠ q → r ∈ L' ∨ r ∈ pre) →
          (qs.map Path.dotted).foldlM defineLayer (L'.map Path.dotted)
            = some ((qs.foldl def1 L').map Path.dotted) ∧ Closed (qs.foldl def1 L') := by
        intro qs
        induction qs with
        | nil => intro L' _ h2 _ _; exact ⟨rfl, h2⟩
        | cons q qs ihq =>
          intro L' h1 h2 h3 h4
          have hq := h3 q (by simp)
          have hqWF : q.WF := WF_prefix hp hq.1 hq.2.1
          have hqlt : q.length < n := by
            rw [← hn]
            have := hq.1.length_le
            rcases Nat.lt_or_eq_of_le this with h | h
            · exact h
            · exact absurd (hq.1.eq_of_length h) hq.2.2
          have hparents : ∀ r, r <+: q → r ≠ [] → r ≠ q → r ∈ L' := by
            intro r hr1 hr2 hr3
            have := h4 [] q qs rfl r hr1 hr2 hr3
            simpa using this
          have hstep : defineLayer (L'.map Path.dotted) (Path.dotted q)
              = some ((def1 L' q).map Path.dotted) := by
            rw [ih q.length hqlt q L' rfl hqWF h1 h2]
            congr 2
            rw [prefixes, List.foldl_append, foldl_def1_of_mem (properPrefixes [] q)]
            · rfl
            · intro x hx
              have := (mem_properPrefixes' q x).mp hx
              exact hparents x this.1 this.2.1 this.2.2
          have hcl' : Closed (def1 L' q) := by
            intro x hx r hr hr0
            rw [mem_def1] at hx ⊢
            rcases hx with hx | hx
            · exact Or.inl (h2 x hx r hr hr0)
            · subst hx
              by_cases h : r = x
              · exact Or.inr h
              · exact Or.inl (hparents r hr hr0 h)
          have hwf' : ∀ x ∈ def1 L' q, x.WF := by
            intro x hx
            rw [mem_def1] at hx
            rcases hx with hx | hx
            · exact h1 x hx
            · exact hx ▸ hqWF
          simp only [List.map_cons, List.foldlM_cons, hstep, List.foldl_cons]
          refine ihq (def1 L' q) hwf' hcl' (fun x hx => h3 x (by simp [hx])) ?_
          intro pre q' post heq r hr1 hr2 hr3
          have := h4 (q :: pre) q' post (by simp [heq]) r hr1 hr2 hr3
          simp only [List.mem_cons] at this
          rw [mem_def1]
          tauto
      have hord : ∀ (p done : Path) pre q post, properPrefixes done p = pre ++ q :: post →
          ∀ k, 0 < k → done ++ p.take k <+: q → done ++ p.take k ≠ q → done ++ p.take k ∈ pre := by
        intro p
        induction p with
        | nil => intro d pre q post h; simp [properPrefixes] at h
        | cons c p ihp =>
          intro d pre q post h k hk hpre hne
          cases p with
          | nil => simp [properPrefixes] at h
          | cons c' p =>
            rw [properPrefixes] at h
            cases pre with
            | nil =>
              simp only [List.nil_append, List.cons.injEq] at h
              exfalso
              rw [← h.1] at hpre hne
              have hl := hpre.length_le
              apply hne
              apply hpre.eq_of_length
              simp at hl ⊢
              omega
            | cons q0 pre =>
              simp only [List.cons_append, List.cons.injEq] at h
              by_cases hk1 : k = 1
              · subst hk1; simp [← h.1]
              · have := ihp (d ++ [c]) pre q post h.2 (k-1) (by omega)
                obtain ⟨k', rfl⟩ : ∃ k', k = k' + 1 := ⟨k - 1, by omega⟩
                simp only [Nat.add_sub_cancel, List.append_assoc, List.singleton_append] at this
                simp only [List.take_succ_cons] at hpre hne ⊢
                exact List.mem_cons_of_mem _ (this hpre hne)
      have hcond := hfold (properPrefixes [] p) L hL hcl
        (fun q hq => (mem_properPrefixes' p q).mp hq) (by
          intro pre q post heq r hr1 hr2 hr3
          right
          have hqp : q <+: p := ((mem_properPrefixes' p q).mp (by simp [heq])).1
          have hrp : r = p.take r.length := List.prefix_iff_eq_take.mp (hr1.trans hqp)
          have := hord p [] pre q post heq r.length (List.length_pos_iff.mpr hr2)
          simp only [List.nil_append] at this
          rw [← hrp] at this
          exact this hr1 hr3)
      have hattach : (parse (Path.dotted p)).parents.attach.foldlM
            (fun inner p => defineLayer inner p.1) (L.map Path.dotted)
          = ((properPrefixes [] p).map Path.dotted).foldlM defineLayer (L.map Path.dotted) := by
        rw [← hparse.1]
        have := List.foldlM_subtype (l := (parse (Path.dotted p)).parents.attach)
          (f := fun inner p => defineLayer inner p.1) (g := defineLayer) (x := L.map Path.dotted)
          (by intros; rfl)
        rw [this]; simp
      rw [hattach, hcond.1]
      simp only
      set L' := (properPrefixes [] p).foldl def1 L with hL'
      have hL'WF : ∀ x ∈ L', x.WF := by
        intro x hx
        rw [hL', mem_foldl_def1] at hx
        rcases hx with hx | hx
        · exact hL x hx
        · have := (mem_properPrefixes' p x).mp hx
          exact WF_prefix hp this.1 this.2.1
      have hparmem : p.dropLast ∈ L' := by
        rw [hL', mem_foldl_def1]; right
        exact List.mem_of_mem_getLast? (by simpa using hlast)
      have hparWF := hL'WF _ hparmem
      have hpnot : p ∉ L' := by
        rw [hL', mem_foldl_def1]
        rintro (h | h)
        · exact hdef h
        · exact ((mem_properPrefixes' p p).mp h).2.2 rfl
      have hfind : findInsertPosition (L'.map Path.dotted) (parse (Path.dotted p))
          = some (L'.idxOf p.dropLast) := by
        unfold findInsertPosition
        rw [hparse.1, List.getLast?_map, hlast]
        simp only [List.nil_append, Option.map_some]
        unfold position
        rw [if_pos, idxOf_map_dotted L' _ hL'WF hparWF]
        simpa using (mem_map_dotted L' _ hL'WF hparWF).mpr hparmem
      rw [hfind]
      simp only
      congr 1
      rw [prefixes, List.foldl_append, ← hL']
      simp only [List.foldl_cons, List.foldl_nil, def1, if_neg hpnot, if_neg hlen]
      simp [insertAt, List.map_take, List.map_drop]

end Flair.Layers

namespace Flair.Layers
open Flair.Spec

theorem SeenBefore_append {ds a b} (e : List Path) (h : SeenBefore ds a b) :
    SeenBefore (ds ++ e) a b := by
  obtain ⟨pre, h1, h2, h3⟩ := h
  exact ⟨pre, h1.trans (List.prefix_append ds e), h2, h3⟩

theorem Below_append {ds x y} (e : List Path) (h : Below ds x y) : Below (ds ++ e) x y := by
  rcases h with h | ⟨p, a, b, xs, ys, h1, h2, h3, h4⟩
  · exact Or.inl h
  · exact Or.inr ⟨p, a, b, xs, ys, h1, h2, h3, SeenBefore_append e h4⟩

/-- invariant while the prefixes of `d` are being inserted after the declarations `ds`. -/
structure Inv (ds : List Path) (d : Path) (L : List Path) : Prop where
  wf : ∀ x ∈ L, x.WF
  closed : Closed L
  nodup : L.Nodup
  sorted : L.Pairwise (Below (ds ++ [d]))
  old : ∀ x, Declared ds x → x ∈ L
  only : ∀ x ∈ L, Declared ds x ∨ x <+: d

theorem prefix_cases : ∀ (x y : Path), x <+: y ∨ y <+: x ∨
    ∃ p a b xs ys, x = p ++ a :: xs ∧ y = p ++ b :: ys ∧ a ≠ b := by
  intro x
  induction x with
  | nil => intro y; exact Or.inl (List.nil_prefix)
  | cons a x ih =>
    intro y
    cases y with
    | nil => exact Or.inr (Or.inl List.nil_prefix)
    | cons b y =>
      by_cases hab : a = b
      · subst hab
        rcases ih y with h | h | ⟨p, a', b', xs, ys, h1, h2, h3⟩
        · exact Or.inl ((List.prefix_cons_inj a).mpr h)
        · exact Or.inr (Or.inl ((List.prefix_cons_inj a).mpr h))
        · exact Or.inr (Or.inr ⟨a :: p, a', b', xs, ys, by simp [h1], by simp [h2], h3⟩)
      · exact Or.inr (Or.inr ⟨[], a, b, x, y, rfl, rfl, hab⟩)

/-- a prefix of `p ++ b :: ys` that has `p ++ a :: _` shape forces `a = b`. -/
theorem split_eq {p : Path} {a b : List Char} {xs ys : Path}
    (h : p ++ a :: xs <+: p ++ b :: ys) : a = b := by
  rw [List.prefix_append_right_inj] at h
  exact (List.cons_prefix_cons.mp h).1

/-- the sibling `p ++ [a']` of a not yet declared `p ++ [a]` was seen before it. -/
theorem seen_of_new {ds d L} (inv : Inv ds d L) {p : Path} {a a' : List Char} {xs : Path}
    (hx : p ++ a' :: xs ∈ L) (hq : p ++ [a] ∉ L) (hqd : p ++ [a] <+: d) (hne : a' ≠ a) :
    SeenBefore (ds ++ [d]) (p ++ [a']) (p ++ [a]) := by
  have hdecl : Declared ds (p ++ a' :: xs) := by
    rcases inv.only _ hx with h | h
    · exact h
    · exfalso
      obtain ⟨t, ht⟩ := hqd
      rw [← ht] at h
      rw [List.append_assoc] at h
      exact hne (split_eq h)
  obtain ⟨_, e, he, hpre⟩ := hdecl
  refine ⟨ds, List.prefix_append ds [d], ⟨e, he, ?_⟩, ?_⟩
  · refine List.IsPrefix.trans ?_ hpre
    exact ⟨xs, by simp⟩
  · intro e' he' hpre'
    exact hq (inv.old _ ⟨by simp, e', he', hpre'⟩)

theorem def1_inv {ds d L} (inv : Inv ds d L) (hd : d.WF) {q : Path} (hqd : q <+: d) (hq0 : q ≠ [])
    (hpar : q.length ≠ 1 → q.dropLast ∈ L) : Inv ds d (def1 L q) := by
  have hqWF : q.WF := WF_prefix hd hqd hq0
  by_cases hmem : q ∈ L
  · have : def1 L q = L := by simp [def1, hmem]
    rw [this]; exact inv
  have hwf : ∀ x ∈ def1 L q, x.WF := by
    intro x hx
    rw [mem_def1] at hx
    rcases hx with hx | hx
    · exact inv.wf x hx
    · exact hx ▸ hqWF
  have hparents : ∀ r, r <+: q → r ≠ [] → r ≠ q → r ∈ L := by
    intro r hr hr0 hrq
    have hlen : q.length ≠ 1 := by
      intro h1
      have h2 := hr.length_le
      have h3 := List.length_pos_iff.mpr hr0
      exact hrq (hr.eq_of_length (by omega))
    refine inv.closed _ (hpar hlen) r ?_ hr0
    obtain ⟨t, ht⟩ := hr
    rcases List.eq_nil_or_concat t with h | ⟨t', c, h⟩
    · subst h; simp at ht; exact absurd ht hrq
    · subst h
      refine ⟨t', ?_⟩
      rw [← ht, List.concat_eq_append, ← List.append_assoc, List.dropLast_concat]
  have hclosed : Closed (def1 L q) := by
    intro x hx r hr hr0
    rw [mem_def1] at hx ⊢
    rcases hx with hx | hx
    · exact Or.inl (inv.closed x hx r hr hr0)
    · subst hx
      by_cases h : r = x
      · exact Or.inr h
      · exact Or.inl (hparents r hr hr0 h)
  have hold : ∀ x, Declared ds x → x ∈ def1 L q := fun x hx => (mem_def1 L q x).mpr (Or.inl (inv.old x hx))
  have honly : ∀ x ∈ def1 L q, Declared ds x ∨ x <+: d := by
    intro x hx
    rw [mem_def1] at hx
    rcases hx with hx | hx
    · exact inv.only x hx
    · exact Or.inr (hx ▸ hqd)
  by_cases hlen : q.length = 1
  · obtain ⟨a, rfl⟩ : ∃ a, q = [a] := by
      match q, hlen with
      | [a], _ => exact ⟨a, rfl⟩
    have hdef : def1 L [a] = L ++ [[a]] := by simp [def1, hmem]
    refine ⟨hwf, hclosed, ?_, ?_, hold, honly⟩
    · rw [hdef, List.nodup_append]
      exact ⟨inv.nodup, by simp, by simp; intro x hx h; exact hmem (h ▸ hx)⟩
    · rw [hdef, List.pairwise_append]
      refine ⟨inv.sorted, by simp, ?_⟩
      intro x hx y hy
      simp only [List.mem_singleton] at hy
      subst hy
      cases x with
      | nil => exact absurd rfl (inv.wf _ hx).1
      | cons a' xs =>
        have hne : a' ≠ a := by
          intro h; subst h
          exact hmem (inv.closed _ hx [a'] ⟨xs, rfl⟩ (by simp))
        exact Or.inr ⟨[], a', a, xs, [], rfl, rfl, hne, seen_of_new (p := []) inv hx hmem hqd hne⟩
  · have hp := hpar hlen
    obtain ⟨p, a, rfl⟩ : ∃ p a, q = p ++ [a] := by
      rcases List.eq_nil_or_concat q with h | ⟨t', c, h⟩
      · exact absurd h hq0
      · exact ⟨t', c, by simpa using h⟩
    rw [List.dropLast_concat] at hp
    have hdef : def1 L (p ++ [a]) = L.take (L.idxOf p) ++ (p ++ [a]) :: L.drop (L.idxOf p) := by
      unfold def1
      rw [if_neg hmem, if_neg hlen, List.dropLast_concat]
    obtain ⟨A, B, hAB, hpA⟩ := List.append_of_mem hp |>.elim fun A h => h.elim fun B h =>
      (⟨A, B, h, by
        have := inv.nodup; rw [h, List.nodup_append] at this
        intro hh; exact this.2.2 p hh p (by simp) rfl⟩ : ∃ A B, L = A ++ p :: B ∧ p ∉ A)
    have hidx : L.idxOf p = A.length := by
      rw [hAB, List.idxOf_append, if_neg hpA]; simp
    have hdef2 : def1 L (p ++ [a]) = A ++ (p ++ [a]) :: p :: B := by
      rw [hdef, hidx, hAB]; simp
    have hs := inv.sorted
    rw [hAB, List.pairwise_append, List.pairwise_cons] at hs
    obtain ⟨hsA, ⟨hpB, hsB⟩, hcross⟩ := hs
    refine ⟨hwf, hclosed, ?_, ?_, hold, honly⟩
    · rw [hdef2]
      have hnd := inv.nodup
      rw [hAB] at hnd hmem
      have : (A ++ (p ++ [a]) :: p :: B).Perm ((p ++ [a]) :: (A ++ p :: B)) := List.perm_middle
      rw [this.nodup_iff, List.nodup_cons]
      exact ⟨hmem, hnd⟩
    · rw [hdef2, List.pairwise_append, List.pairwise_cons, List.pairwise_cons]
      have hqp : Below (ds ++ [d]) (p ++ [a]) p := Or.inl ⟨List.prefix_append p [a], by simp⟩
      refine ⟨hsA, ⟨?_, hpB, hsB⟩, ?_⟩
      · intro y hy
        rcases List.mem_cons.mp hy with hy | hy
        · exact hy ▸ hqp
        · rcases hpB y hy with ⟨h1, h2⟩ | ⟨p', a', b', xs, ys, h1, h2, h3, h4⟩
          · refine Or.inl ⟨h1.trans (List.prefix_append p [a]), ?_⟩
            intro h
            have := h1.length_le
            rw [h] at this; simp at this; omega
          · exact Or.inr ⟨p', a', b', xs ++ [a], ys, by simp [h1], h2, h3, h4⟩
      · intro x hx y hy
        have hxp := hcross x hx p (by simp)
        have hxL : x ∈ L := by rw [hAB]; simp [hx]
        have hxq : Below (ds ++ [d]) x (p ++ [a]) := by
          rcases hxp with ⟨h1, h2⟩ | ⟨p', a', b', xs, ys, h1, h2, h3, h4⟩
          · obtain ⟨t, ht⟩ := h1
            cases t with
            | nil => simp at ht; exact absurd ht h2
            | cons a' t =>
              subst ht
              have hne : a' ≠ a := by
                intro h; subst h
                exact hmem (inv.closed _ hxL (p ++ [a']) ⟨t, by simp⟩ (by simp))
              exact Or.inr ⟨p, a', a, t, [], rfl, rfl, hne, seen_of_new inv hxL hmem hqd hne⟩
          · exact Or.inr ⟨p', a', b', xs, ys ++ [a], h1, by simp [h2], h3, h4⟩
        rcases List.mem_cons.mp hy with hy | hy
        · exact hy ▸ hxq
        · exact hcross x hx y hy

/-- the path-level history. -/
def run (ds : List Path) : List Path := ds.foldl (fun L d => (prefixes d).foldl def1 L) []

theorem foldl_inv {ds d} (hd : d.WF) : ∀ (qs : List Path) (L : List Path), Inv ds d L →
    (∀ q ∈ qs, q <+: d ∧ q ≠ []) →
    (∀ pre q post, qs = pre ++ q :: post → q.length ≠ 1 → q.dropLast ∈ L ∨ q.dropLast ∈ pre) →
    Inv ds d (qs.foldl def1 L) := by
  intro qs
  induction qs with
  | nil => intro L h _ _; exact h
  | cons q qs ih =>
    intro L inv h1 h2
    rw [List.foldl_cons]
    have hq := h1 q (by simp)
    refine ih _ (def1_inv inv hd hq.1 hq.2 (fun hl => by simpa using h2 [] q qs rfl hl)) (fun x hx => h1 x (by simp [hx])) ?_
    intro pre q' post heq hl
    have := h2 (q :: pre) q' post (by simp [heq]) hl
    rw [mem_def1]
    simp only [List.mem_cons] at this
    tauto

theorem properPrefixes_order : ∀ (p done : Path) (pre : List Path) (q : Path) (post : List Path),
    properPrefixes done p ++ [done ++ p] = pre ++ q :: post → p ≠ [] →
    q.length ≠ done.length + 1 → q.dropLast ∈ pre := by
  intro p
  induction p with
  | nil => intro _ _ _ _ _ h; exact absurd rfl h
  | cons c p ih =>
    intro done pre q post h _ hl
    cases p with
    | nil =>
      simp only [properPrefixes, List.nil_append] at h
      cases pre with
      | nil => simp at h; rw [← h.1] at hl; simp at hl
      | cons x pre => simp at h
    | cons c' p =>
      rw [properPrefixes, List.cons_append] at h
      cases pre with
      | nil =>
        simp only [List.nil_append, List.cons.injEq] at h
        rw [← h.1] at hl; simp at hl
      | cons x pre =>
        simp only [List.cons_append, List.cons.injEq] at h
        have h2 : properPrefixes (done ++ [c]) (c' :: p) ++ [done ++ [c] ++ (c' :: p)] = pre ++ q :: post := by
          rw [← h.2]; simp
        by_cases hl2 : q.length = (done ++ [c]).length + 1
        · -- then q is the first of the inner list: its dropLast is x
          have : pre = [] ∨ q.dropLast ∈ pre := by
            by_cases hp : pre = []
            · exact Or.inl hp
            · right
              -- q of length done+2 can only be the head
              exfalso
              have hmem : q ∈ (pre ++ q :: post).tail := by
                cases pre with
                | nil => exact absurd rfl hp
                | cons y ys => simp
              rw [← h2] at hmem
              have htail : ∀ (p done : Path) q, q ∈ (properPrefixes done p ++ [done ++ p]).tail →
                  done.length + 1 < q.length := by
                intro p
                induction p with
                | nil => intro done q h; simp [properPrefixes] at h
                | cons c p ihp =>
                  intro done q h
                  cases p with
                  | nil => simp [properPrefixes] at h
                  | cons c' p =>
                    rw [properPrefixes] at h
                    simp only [List.cons_append, List.tail_cons] at h
                    have h3 : ∀ (p done : Path) q, p ≠ [] → q ∈ properPrefixes done p ++ [done ++ p] →
                        done.length < q.length := by
                      intro p done q hp hq
                      rcases List.mem_append.mp hq with hq | hq
                      · obtain ⟨k, hk, hk2, rfl⟩ := (mem_properPrefixes p done q).mp hq
                        simp; omega
                      · simp at hq; subst hq; simp; exact List.length_pos_iff.mpr hp
                    have := h3 (c' :: p) (done ++ [c]) q (by simp) (by simpa using h)
                    simpa using this
              have := htail _ _ _ hmem
              omega
          rcases this with hp | hp
          · subst hp
            have hq : q.dropLast = done ++ [c] := by
              cases p with
              | nil =>
                simp only [properPrefixes, List.nil_append, List.cons.injEq] at h2
                rw [← h2.1]; simp
              | cons c'' p =>
                simp only [properPrefixes, List.nil_append, List.cons_append, List.cons.injEq] at h2
                rw [← h2.1, List.dropLast_concat]
            rw [hq, h.1]; simp
          · exact List.mem_cons_of_mem _ hp
        · exact List.mem_cons_of_mem _ (ih (done ++ [c]) pre q post h2 (by simp) hl2)

theorem run_snoc (ds : List Path) (d : Path) : run (ds ++ [d]) = (prefixes d).foldl def1 (run ds) := by
  simp [run, List.foldl_append]

structure RunInv (ds : List Path) (L : List Path) : Prop where
  wf : ∀ x ∈ L, x.WF
  closed : Closed L
  nodup : L.Nodup
  sorted : L.Pairwise (Below ds)
  mem : ∀ x, x ∈ L ↔ Declared ds x

theorem step_inv {ds : List Path} {d : Path} {L : List Path} (h : RunInv ds L) (hd : d.WF) :
    RunInv (ds ++ [d]) ((prefixes d).foldl def1 L) := by
  have h0 : Inv ds d L := ⟨h.wf, h.closed, h.nodup,
    h.sorted.imp (fun hb => Below_append [d] hb), fun x hx => (h.mem x).mpr hx,
    fun x hx => Or.inl ((h.mem x).mp hx)⟩
  have hpre : ∀ q ∈ prefixes d, q <+: d ∧ q ≠ [] := by
    intro q hq
    simp only [prefixes, List.mem_append, List.mem_singleton] at hq
    rcases hq with hq | hq
    · have := (mem_properPrefixes' d q).mp hq; exact ⟨this.1, this.2.1⟩
    · subst hq; exact ⟨List.prefix_refl q, hd.1⟩
  have inv := foldl_inv hd (prefixes d) _ h0 hpre (by
    intro pre q post heq hl
    right
    exact properPrefixes_order d [] pre q post (by simpa [prefixes] using heq) hd.1 (by simpa using hl))
  refine ⟨inv.wf, inv.closed, inv.nodup, inv.sorted, ?_⟩
  intro x
  rw [mem_foldl_def1, h.mem]
  simp only [prefixes, List.mem_append, List.mem_singleton, mem_properPrefixes']
  unfold Declared
  constructor
  · rintro (⟨h1, e, he, hp⟩ | ⟨h1, h2, h3⟩ | h1)
    · exact ⟨h1, e, by simp [he], hp⟩
    · exact ⟨h2, d, by simp, h1⟩
    · subst h1; exact ⟨hd.1, x, by simp, List.prefix_refl x⟩
  · rintro ⟨h1, e, he, hp⟩
    simp only [List.mem_append, List.mem_singleton] at he
    rcases he with he | he
    · exact Or.inl ⟨h1, e, he, hp⟩
    · subst he
      by_cases hx : x = e
      · exact Or.inr (Or.inr hx)
      · exact Or.inr (Or.inl ⟨hp, h1, hx⟩)

theorem run_inv (ds : List Path) (hds : ∀ d ∈ ds, d.WF) : RunInv ds (run ds) := by
  induction ds using List.reverseRecOn with
  | nil => exact ⟨by simp [run], by simp [run, Closed], by simp [run], by simp [run],
      by simp [run, Declared]⟩
  | append_singleton ds d ih =>
    rw [run_snoc]
    exact step_inv (ih (fun x hx => hds x (by simp [hx]))) (hds d (by simp))

/-- the code's history is the path-level history. -/
theorem defineAll_eq_run (ds : List Path) (hds : ∀ d ∈ ds, d.WF) :
    defineAll (ds.map Path.dotted) = some ((run ds).map Path.dotted) := by
  induction ds using List.reverseRecOn with
  | nil => rfl
  | append_singleton ds d ih =>
    have hds' : ∀ d ∈ ds, d.WF := fun x hx => hds x (by simp [hx])
    have inv := run_inv ds hds'
    have := ih hds'
    unfold defineAll at this ⊢
    rw [List.map_append, List.foldlM_append, this, run_snoc]
    simp only [List.map_cons, List.map_nil, Option.bind_eq_bind, Option.bind_some, List.foldlM_cons,
      List.foldlM_nil]
    rw [defineLayer_dotted d.length d (run ds) rfl (hds d (by simp)) inv.wf inv.closed]
    rfl

theorem Below_irrefl (ds : List Path) (x : Path) : ¬ Below ds x x := by
  rintro (⟨_, h⟩ | ⟨p, a, b, xs, ys, h1, h2, h3, _⟩)
  · exact h rfl
  · rw [h1] at h2
    simp at h2
    exact h3 h2.1

theorem SeenBefore_asymm {ds a b} (h : SeenBefore ds a b) (h' : SeenBefore ds b a) : False := by
  obtain ⟨p1, h1, ⟨d1, hd1, ha⟩, hb⟩ := h
  obtain ⟨p2, h2, ⟨d2, hd2, hb2⟩, ha2⟩ := h'
  rcases List.prefix_or_prefix_of_prefix h1 h2 with h | h
  · exact ha2 d1 (h.subset hd1) ha
  · exact hb d2 (h.subset hd2) hb2

theorem Below_asymm {ds x y} (h : Below ds x y) (h' : Below ds y x) : False := by
  rcases h with ⟨h1, h2⟩ | ⟨p, a, b, xs, ys, h1, h2, h3, h4⟩
  · rcases h' with ⟨h3, _⟩ | ⟨p, a, b, xs, ys, h3, h4, h5, _⟩
    · exact h2 (List.IsPrefix.eq_of_length h1 (Nat.le_antisymm h1.length_le h3.length_le))
    · rw [h3, h4] at h1; exact h5 (split_eq h1)
  · rcases h' with ⟨h5, _⟩ | ⟨p', a', b', xs', ys', h5, h6, h7, h8⟩
    · rw [h1, h2] at h5; exact h3 (split_eq h5)
    · -- both split at the same point
      have key : ∀ (p p' : Path) {a b a' b' : List Char} {xs ys xs' ys' : Path}, a ≠ b → a' ≠ b' →
          p ++ a :: xs = p' ++ b' :: ys' → p ++ b :: ys = p' ++ a' :: xs' → p = p' ∧ a = b' ∧ b = a' := by
        intro p
        induction p with
        | nil =>
          intro p' a b a' b' xs ys xs' ys' h1 h2 h3 h4
          cases p' with
          | nil => simp at h3 h4; exact ⟨rfl, h3.1, h4.1⟩
          | cons c p' => simp at h3 h4; exact absurd (h3.1.trans h4.1.symm) h1
        | cons c p ih =>
          intro p' a b a' b' xs ys xs' ys' h1 h2 h3 h4
          cases p' with
          | nil => simp at h3 h4; exact absurd (h4.1.symm.trans h3.1) h2
          | cons c' p' =>
            simp only [List.cons_append, List.cons.injEq] at h3 h4
            have := ih p' h1 h2 h3.2 h4.2
            exact ⟨by rw [h3.1, this.1], this.2⟩
      have := key p p' h3 h7 (h1.symm.trans h6) (h2.symm.trans h5)
      obtain ⟨rfl, rfl, rfl⟩ := this
      exact SeenBefore_asymm h4 h8

end Flair.Layers
