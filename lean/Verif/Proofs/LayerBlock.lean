import Verif.Spec.LayerBlock
import Verif.Proofs.Layers
/-!
# Declaring a layer right before something in it changes nothing (for C57)
-/
namespace Flair.Proofs.LayerBlock
open Flair.Spec Flair.Sheet Flair.Loader Flair.Layers

variable {S M C N T V X Y : Type}

/-- The name is that of the layer, or of something in it. -/
def Under (x y : List Char) : Prop := y = x ∨ ∃ r, y = x ++ '.' :: r

/-- `cs` is `ds` with names of layers put in front of names of something in them. -/
inductive Pad : List (List Char) → List (List Char) → Prop
  | nil : Pad [] []
  | cons (d) {ds cs} : Pad ds cs → Pad (d :: ds) (d :: cs)
  | extra {p d ds cs} : p ≠ [] → Under p d → Pad (d :: ds) cs → Pad (d :: ds) (p :: cs)

theorem pad_refl (ds : List (List Char)) : Pad ds ds := by
  induction ds with
  | nil => exact .nil
  | cons d ds ih => exact .cons d ih

theorem pad_append {a b c d : List (List Char)} (h : Pad a b) (h' : Pad c d) : Pad (a ++ c) (b ++ d) := by
  induction h with
  | nil => exact h'
  | cons d _ ih => exact .cons d ih
  | extra hp hu _ ih => exact .extra hp hu ih

theorem pad_filter {a b : List (List Char)} (h : Pad a b) :
    Pad (a.filter fun t => t ≠ []) (b.filter fun t => t ≠ []) := by
  induction h with
  | nil => exact .nil
  | cons d _ ih =>
    by_cases hd : d = []
    · simpa [hd] using ih
    · simpa [hd] using Pad.cons d ih
  | @extra p d ds cs hp hu _ ih =>
    have hd : d ≠ [] := by
      rcases hu with rfl | ⟨r, rfl⟩
      · exact hp
      · simp
    simp only [ne_eq, hd, not_false_eq_true, decide_true, List.filter_cons_of_pos, hp] at ih ⊢
    exact .extra hp hu ih

theorem under_trans {x y z : List Char} (h : Under x y) (h' : Under y z) : Under x z := by
  rcases h with rfl | ⟨r, rfl⟩
  · exact h'
  · rcases h' with rfl | ⟨r', rfl⟩
    · exact .inr ⟨r, rfl⟩
    · exact .inr ⟨r ++ '.' :: r', by simp⟩

theorem under_nest {x : List Char} (hx : x ≠ []) (n : List Char) : Under x (nestName x n) := by
  unfold nestName
  rw [if_neg hx]
  split
  · exact .inl rfl
  · exact .inr ⟨n, by simp⟩

theorem nest_ne {x n : List Char} (hn : n ≠ []) : nestName x n ≠ [] := by
  unfold nestName
  split
  · exact hn
  · simp [hn]

theorem under_ne {x y : List Char} (hx : x ≠ []) (h : Under x y) : y ≠ [] := by
  rcases h with rfl | ⟨r, rfl⟩
  · exact hx
  · simp

theorem under_body (body : List (BodySrc S M C N T V X Y)) (layer : List Char) (hl : layer ≠ []) :
    ∀ y ∈ bodyLayers layer body, Under layer y := by
  fun_induction bodyLayers layer body with
  | case1 => simp
  | case2 layer _ _ _ ih1 ih2 =>
    intro y hy
    rcases List.mem_append.1 hy with hy | hy
    · exact ih1 hl y hy
    · exact ih2 hl y hy
  | case3 layer _ _ _ ih1 ih2 =>
    intro y hy
    rcases List.mem_append.1 hy with hy | hy
    · exact ih1 hl y hy
    · exact ih2 hl y hy
  | case4 layer name _ _ ih1 ih2 =>
    intro y hy
    have hn := under_nest hl name
    simp only [List.cons_append, List.mem_cons, List.mem_append] at hy
    rcases hy with rfl | hy | hy
    · exact hn
    · exact under_trans hn (ih1 (under_ne hl hn) y hy)
    · exact ih2 hl y hy
  | case5 layer _ _ _ _ _ ih => exact ih hl

theorem under_doc (src : List (Src S M C N T V X Y)) (layer : List Char) (hl : layer ≠ []) :
    ∀ y ∈ docLayers layer src, Under layer y := by
  fun_induction docLayers layer src with
  | case1 => simp
  | case2 layer ls _ ih =>
    intro y hy
    rcases List.mem_append.1 hy with hy | hy
    · obtain ⟨l, _, rfl⟩ := List.mem_map.1 hy
      exact under_nest hl l
    · exact ih hl y hy
  | case3 layer name _ _ ih1 ih2 =>
    intro y hy
    have hn := under_nest hl name
    rcases List.mem_append.1 hy with hy | hy
    · exact under_trans hn (ih1 (under_ne hl hn) y hy)
    · exact ih2 hl y hy
  | case4 layer _ _ _ ih1 ih2 =>
    intro y hy
    rcases List.mem_append.1 hy with hy | hy
    · exact ih1 hl y hy
    · exact ih2 hl y hy
  | case5 layer _ body _ ih =>
    intro y hy
    simp only [List.cons_append, List.mem_cons, List.mem_append] at hy
    rcases hy with rfl | hy | hy
    · exact .inl rfl
    · exact under_body body _ hl y hy
    · exact ih hl y hy
  | case6 layer _ _ _ _ _ _ ih => exact ih hl

theorem content_ne {src : List (Src S M C N T V X Y)} (h : HasContent src) : ∀ layer, docLayers layer src ≠ [] := by
  induction h with
  | rule => intro layer; simp [docLayers]
  | statement => intro layer; simp [docLayers]
  | inLayer name rest _ ih =>
    intro layer h
    rw [docLayers, List.append_eq_nil_iff] at h
    exact ih _ h.1
  | inMedia conds rest _ ih =>
    intro layer h
    rw [docLayers, List.append_eq_nil_iff] at h
    exact ih _ h.1
  | later i _ ih =>
    intro layer h
    unfold docLayers at h
    split at h
    · simp_all
    · rename_i heq; cases heq; rw [List.append_eq_nil_iff] at h; exact ih _ h.2
    · rename_i heq; cases heq; rw [List.append_eq_nil_iff] at h; exact ih _ h.2
    · rename_i heq; cases heq; rw [List.append_eq_nil_iff] at h; exact ih _ h.2
    · rename_i heq; cases heq; simp at h
    · rename_i heq; cases heq; exact ih _ h

theorem pad_doc (src : List (Src S M C N T V X Y)) (layer : List Char) (hp : Proper src) (hb : BlocksFilled src) :
    Pad (docLayers layer src) (cssLayers layer src) := by
  fun_induction docLayers layer src with
  | case1 => rw [cssLayers]; exact .nil
  | case2 layer ls rest ih =>
    rw [Proper] at hp
    simp only [BlocksFilled] at hb
    rw [cssLayers]
    exact pad_append (pad_refl _) (ih hp.2 hb)
  | case3 layer name inner rest ih1 ih2 =>
    rw [Proper] at hp
    rw [BlocksFilled] at hb
    rw [cssLayers]
    have hn : nestName layer name ≠ [] := nest_ne (hp.1 name (by simp))
    have h1 := ih1 hp.2.1 hb.2.1
    have h2 := ih2 hp.2.2 hb.2.2
    have hu := under_doc inner (nestName layer name) hn
    have hc := content_ne hb.1 (nestName layer name)
    refine pad_append ?_ h2
    cases hd : docLayers (nestName layer name) inner with
    | nil => exact absurd hd hc
    | cons d ds =>
      rw [hd] at h1 hu
      exact .extra hn (hu d (by simp)) h1
  | case4 layer conds inner rest ih1 ih2 =>
    rw [Proper] at hp
    rw [BlocksFilled] at hb
    rw [cssLayers]
    exact pad_append (ih1 hp.1 hb.1) (ih2 hp.2 hb.2)
  | case5 layer ss body rest ih =>
    rw [Proper] at hp
    simp only [BlocksFilled] at hb
    rw [cssLayers]
    exact pad_append (pad_refl _) (ih hp.2.2 hb)
  | case6 layer i rest h1 h2 h3 h4 ih =>
    have hr : Proper rest ∧ BlocksFilled rest := by
      unfold Proper at hp
      unfold BlocksFilled at hb
      split at hp
      · simp_all
      · cases hp
      · rename_i heq; cases heq; exact absurd rfl (h1 _)
      · rename_i names inner rest' heq
        cases heq
        refine ⟨hp.2.2, ?_⟩
        split at hb
        · simp_all
        · rename_i heq; cases heq; exact absurd rfl (h2 _ _)
        · rename_i heq; cases heq
        · rename_i heq; cases heq; exact hb
      · rename_i heq; cases heq; exact absurd rfl (h3 _ _)
      · rename_i heq; cases heq; exact ⟨hp.2.2, hb⟩
      · rename_i heq; cases heq; exact ⟨hp, hb⟩
    have : cssLayers layer (i :: rest) = cssLayers layer rest := by
      rw [cssLayers.eq_def]
      split
      · simp_all
      · rename_i heq; cases heq; exact absurd rfl (h1 _)
      · rename_i heq; cases heq; exact absurd rfl (h2 _ _)
      · rename_i heq; cases heq; exact absurd rfl (h3 _ _)
      · rename_i heq; cases heq; exact absurd rfl (h4 _ _)
      · rename_i heq; cases heq; rfl
    rw [this]
    exact ih hr.1 hr.2

/-! ## Paths -/

theorem dot_split : ∀ (c d r s : List Char), '.' ∉ c → '.' ∉ d → c ++ '.' :: r = d ++ '.' :: s → c = d ∧ r = s := by
  intro c
  induction c with
  | nil =>
    intro d r s _ hd h
    cases d with
    | nil => simpa using h
    | cons x d =>
      simp only [List.nil_append, List.cons_append, List.cons.injEq] at h
      exact absurd (h.1 ▸ (by simp : x ∈ x :: d)) hd
  | cons x c ih =>
    intro d r s hc hd h
    cases d with
    | nil =>
      simp only [List.nil_append, List.cons_append, List.cons.injEq] at h
      exact absurd (h.1 ▸ (by simp : x ∈ x :: c)) hc
    | cons y d =>
      simp only [List.cons_append, List.cons.injEq] at h
      obtain ⟨h1, h2⟩ := h
      have := ih d r s (fun hh => hc (by simp [hh])) (fun hh => hd (by simp [hh])) h2
      exact ⟨by rw [h1, this.1], this.2⟩

theorem prefix_of_dotted : ∀ (p q : Path), p.WF → q.WF → ∀ r, q.dotted = p.dotted ++ '.' :: r → p <+: q := by
  intro p
  induction p with
  | nil => intro q h; exact absurd rfl h.1
  | cons c p ih =>
    intro q hp hq r h
    cases q with
    | nil => exact absurd rfl hq.1
    | cons d q =>
      have hc := (hp.2 c (by simp)).2
      have hd := (hq.2 d (by simp)).2
      cases q with
      | nil =>
        exfalso
        apply hd
        simp only [Path.dotted] at h
        rw [h]
        simp
      | cons d' q =>
        rw [dotted_cons_cons] at h
        cases p with
        | nil =>
          simp only [Path.dotted] at h
          obtain ⟨rfl, _⟩ := dot_split _ _ _ _ hd hc h
          exact ⟨d' :: q, rfl⟩
        | cons c' p =>
          rw [dotted_cons_cons, List.append_assoc, List.cons_append] at h
          obtain ⟨rfl, h'⟩ := dot_split _ _ _ _ hd hc h
          have := ih (d' :: q) ⟨by simp, fun x hx => hp.2 x (by simp [hx])⟩ ⟨by simp, fun x hx => hq.2 x (by simp [hx])⟩ r h'
          obtain ⟨t, ht⟩ := this
          exact ⟨t, by rw [List.cons_append, ht]⟩

theorem under_prefix {p q : Path} (hp : p.WF) (hq : q.WF) (h : Under p.dotted q.dotted) : p <+: q := by
  rcases h with h | ⟨r, h⟩
  · rw [dotted_inj _ _ hq hp h]
    exact List.prefix_refl _
  · exact prefix_of_dotted p q hp hq r h

/-- `Pad` on paths. -/
inductive PadP : List Path → List Path → Prop
  | nil : PadP [] []
  | cons (d) {ds cs} : PadP ds cs → PadP (d :: ds) (d :: cs)
  | extra {p d ds cs} : p <+: d → PadP (d :: ds) cs → PadP (d :: ds) (p :: cs)

/-- The names of `ds` are the paths `ps`. -/
def Named : List (List Char) → List Path → Prop := List.Forall₂ fun t p => p.WF ∧ t = p.dotted

theorem named_unique {ts : List (List Char)} {ps qs : List Path} (h : Named ts ps) (h' : Named ts qs) : ps = qs := by
  unfold Named at h h'
  induction h generalizing qs with
  | nil => cases h'; rfl
  | cons hx _ ih =>
    cases h' with
    | cons hy h' =>
      rw [ih h', dotted_inj _ _ hx.1 hy.1 (hx.2.symm.trans hy.2)]

theorem pad_paths {ds cs : List (List Char)} (h : Pad ds cs) {qs : List Path} (hq : Named cs qs) :
    ∃ ps, Named ds ps ∧ PadP ps qs := by
  induction h generalizing qs with
  | nil => cases hq; exact ⟨[], .nil, .nil⟩
  | cons d _ ih =>
    cases hq with
    | cons hx hq =>
      obtain ⟨ps, h1, h2⟩ := ih hq
      exact ⟨_ :: ps, .cons hx h1, .cons _ h2⟩
  | extra hp hu _ ih =>
    cases hq with
    | cons hx hq =>
      obtain ⟨ps, h1, h2⟩ := ih hq
      cases h1 with
      | cons hy h1 =>
        refine ⟨_ :: _, .cons hy h1, .extra ?_ h2⟩
        rw [hx.2, hy.2] at hu
        exact under_prefix hx.1 hy.1 hu

theorem seen_nil {a b : Path} : ¬ SeenBefore [] a b := by
  rintro ⟨pre, hp, ⟨d, hd, _⟩, _⟩
  rw [List.prefix_nil.1 hp] at hd
  cases hd

theorem seen_cons {d : Path} {ds : List Path} {a b : Path} :
    SeenBefore (d :: ds) a b ↔ ¬ b <+: d ∧ (a <+: d ∨ SeenBefore ds a b) := by
  constructor
  · rintro ⟨pre, hp, ⟨x, hx, hax⟩, hb⟩
    cases pre with
    | nil => cases hx
    | cons e pre =>
      obtain ⟨rfl, hp'⟩ := List.cons_prefix_cons.1 hp
      refine ⟨hb e (by simp), ?_⟩
      rcases List.mem_cons.1 hx with rfl | hx
      · exact .inl hax
      · exact .inr ⟨pre, hp', ⟨x, hx, hax⟩, fun y hy => hb y (by simp [hy])⟩
  · rintro ⟨hb, h | ⟨pre, hp, ⟨x, hx, hax⟩, hb'⟩⟩
    · exact ⟨[d], by simp, ⟨d, by simp, h⟩, by simpa using hb⟩
    · refine ⟨d :: pre, List.cons_prefix_cons.2 ⟨rfl, hp⟩, ⟨x, by simp [hx], hax⟩, ?_⟩
      intro y hy
      rcases List.mem_cons.1 hy with rfl | hy
      · exact hb
      · exact hb' y hy

theorem seen_pad {ps qs : List Path} (h : PadP ps qs) {a b : Path} (hl : a.length = b.length) (hab : a ≠ b) :
    SeenBefore ps a b ↔ SeenBefore qs a b := by
  induction h with
  | nil => rfl
  | cons d _ ih => rw [seen_cons, seen_cons, ih]
  | @extra p d ds cs hp _ ih =>
    rw [seen_cons (d := p), ← ih]
    constructor
    · intro h
      exact ⟨fun hb => (seen_cons.1 h).1 (hb.trans hp), .inr h⟩
    · rintro ⟨hb, h | h⟩
      · have ha : a <+: d := h.trans hp
        refine seen_cons.2 ⟨fun hb => ?_, .inl ha⟩
        exact hab (List.IsPrefix.eq_of_length (List.prefix_of_prefix_length_le ha hb (by omega)) hl)
      · exact h

theorem below_pad {ps qs : List Path} (h : PadP ps qs) {x y : Path} : Below ps x y ↔ Below qs x y := by
  unfold Below
  refine or_congr Iff.rfl ?_
  constructor
  · rintro ⟨p, a, b, xs, ys, h1, h2, h3, h4⟩
    exact ⟨p, a, b, xs, ys, h1, h2, h3, (seen_pad h (by simp) (by simpa using h3)).1 h4⟩
  · rintro ⟨p, a, b, xs, ys, h1, h2, h3, h4⟩
    exact ⟨p, a, b, xs, ys, h1, h2, h3, (seen_pad h (by simp) (by simpa using h3)).2 h4⟩

theorem cascade_pad {K W : Type} {ps qs : List Path} (h : PadP ps qs) {rules : List (MRule K W)}
    {inline : List (List (K × W))} {k : K} {w : Option W} : Cascade ps rules inline k w ↔ Cascade qs rules inline k w := by
  have hw : ∀ o1 o2, Weaker ps o1 o2 ↔ Weaker qs o1 o2 := by
    rintro ⟨g1, d1, s1⟩ ⟨g2, d2, s2⟩
    cases g1 <;> cases g2 <;> simp only [Weaker, below_pad h]
  cases w with
  | none => exact Iff.rfl
  | some w =>
    unfold Cascade Winner
    simp only [hw]

end Flair.Proofs.LayerBlock
