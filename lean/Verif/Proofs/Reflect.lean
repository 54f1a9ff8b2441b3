import Verif.Spec.Reflect
import Verif.Tactics
/-!
# Lemmas on reflected values
-/
namespace Flair.Proofs.Reflect
open Flair.Reflect Flair.Spec
variable {V : Type} {D : RTypes}

theorem ofType_type {t : Nat} {t' c} {fs : List (String × RVal V)} (h : OfType D t (.node t' c fs)) : t' = t := by
  cases h; rfl

theorem field_cons_ne {n m : String} {v : RVal V} {gs} (h : m ≠ n) : field n ((m, v) :: gs) = field n gs := by
  simp [field, h]

theorem setField_cons_ne {n m : String} {v w : RVal V} {gs} (h : m ≠ n) :
    setField n w ((m, v) :: gs) = (m, v) :: setField n w gs := by simp [setField, h]

/-- A field that the applied value does not have stays. -/
theorem applyFields_skip (keep : Bool) (n : String) (g : RVal V) :
    ∀ (fs gs : List (String × RVal V)), n ∉ fs.map (·.1) →
      applyFields keep fs ((n, g) :: gs) = (applyFields keep fs gs).map ((n, g) :: ·)
  | [], gs, _ => by simp [applyFields]
  | (m, v) :: fs, gs, h => by
    simp only [List.map_cons, List.mem_cons, not_or] at h
    have ih := fun gs => applyFields_skip keep n g fs gs h.2
    simp only [applyFields, onField, field_cons_ne h.1]
    cases hf : field m gs with
    | none => simp [ih]
    | some b =>
      simp only [setField_cons_ne h.1]
      cases tryApply keep v b with
      | none => simp
      | some r => simp [ih]

theorem fieldsOfType_names {ds} {fs : List (String × RVal V)} (h : FieldsOfType D ds fs) :
    fs.map (·.1) = ds.map (·.1) := by
  induction fs generalizing ds with
  | nil => cases h; rfl
  | cons f fs ih => cases h with | cons _ h => simp [ih h]

theorem variant_unique {vs : List (String × List (String × Nat))} (hn : (vs.map (·.1)).Nodup) {c ds ds'}
    (h : (c, ds) ∈ vs) (h' : (c, ds') ∈ vs) : ds = ds' := by
  induction vs with
  | nil => simp at h
  | cons x xs ih =>
    simp only [List.map_cons, List.nodup_cons, List.mem_map] at hn
    rcases List.mem_cons.1 h with rfl | h <;> rcases List.mem_cons.1 h' with h' | h'
    · exact (Prod.mk.inj h').2.symm
    · exact absurd ⟨_, h', rfl⟩ hn.1
    · exact absurd ⟨_, h, by rw [← h']⟩ hn.1
    · exact ih hn.2 h h'

/-- Applying a value of the type of the old one succeeds; what remains is the new value, unless a list was
longer and keeps its tail. -/
theorem apply_typed (keep : Bool) (hD : GoodTypes D) {t : Nat} {b : RVal V} (hb : OfType D t b) :
    ∀ a, OfType D t a → ∃ r, tryApply keep b a = some r ∧ OfType D t r ∧
      (r = b ↔ keep = false ∨ NoShorter b a) := by
  refine OfType.rec (D := D)
    (motive_1 := fun t b _ => ∀ a, OfType D t a → ∃ r, tryApply keep b a = some r ∧ OfType D t r ∧
      (r = b ↔ keep = false ∨ NoShorter b a))
    (motive_2 := fun ds fs _ => (ds.map (·.1)).Nodup → ∀ gs, FieldsOfType D ds gs →
      ∃ hs, applyFields keep fs gs = some hs ∧ FieldsOfType D ds hs ∧
        (hs = fs ↔ keep = false ∨ NoShorterFields fs gs))
    (motive_3 := fun t xs _ => ∀ ys, ItemsOfType D t ys →
      ∃ zs, applyItems keep xs ys = some zs ∧ ItemsOfType D t zs ∧
        (zs = xs ↔ keep = false ∨ NoShorterItems xs ys))
    ?_ ?_ ?_ ?_ ?_ ?_ ?_ hb
  · intro t v ht a ha
    cases ha with
    | plain h => exact ⟨.plain t v, by simp [tryApply, onOpaque], .plain h, by simp [NoShorter.plain]⟩
    | node h => rw [ht] at h; cases h
    | list h => rw [ht] at h; cases h
  · intro t vs c ds fs ht hc hn hfs ih a ha
    cases ha with
    | plain h => rw [ht] at h; cases h
    | list h => rw [ht] at h; cases h
    | @node _ vs' c' ds' gs h hc' hn' hgs =>
      rw [ht] at h
      cases h
      by_cases hcc : c' = c
      · subst hcc
        obtain rfl := variant_unique hn hc hc'
        obtain ⟨hs, h1, h2, h3⟩ := ih (hD t vs ht _ hc) gs hgs
        refine ⟨.node t c' hs, by simp [tryApply, onNode, h1], .node ht hc hn h2, ?_⟩
        simp only [RVal.node.injEq, true_and, h3]
        constructor
        · rintro (h | h)
          · exact .inl h
          · exact .inr (.node h)
        · rintro (h | h)
          · exact .inl h
          · cases h with
            | other h => exact absurd rfl h
            | node h => exact .inr h
      · refine ⟨.node t c fs, by simp [tryApply, onNode, hcc], .node ht hc hn hfs, ?_⟩
        simp only [true_iff]
        exact .inr (.other hcc)
  · intro t u xs ht hxs ih a ha
    cases ha with
    | plain h => rw [ht] at h; cases h
    | node h => rw [ht] at h; cases h
    | @list _ u' ys h hys =>
      rw [ht] at h
      cases h
      obtain ⟨zs, h1, h2, h3⟩ := ih ys hys
      refine ⟨.list t zs, by simp [tryApply, onList, h1], .list ht h2, ?_⟩
      simp only [RVal.list.injEq, true_and, h3]
      constructor
      · rintro (h | h)
        · exact .inl h
        · exact .inr (.list h)
      · rintro (h | h)
        · exact .inl h
        · cases h with | list h => exact .inr h
  · intro _ gs hgs
    cases hgs
    exact ⟨[], by simp [applyFields], .nil, by simp [NoShorterFields.nil]⟩
  · intro n t ds v fs hv hfs ih1 ih2 hn gs hgs
    cases hgs with
    | @cons _ _ _ w gs hw hgs =>
      simp only [List.map_cons, List.nodup_cons] at hn
      obtain ⟨r, h1, h2, h3⟩ := ih1 w hw
      obtain ⟨hs, k1, k2, k3⟩ := ih2 hn.2 gs hgs
      refine ⟨(n, r) :: hs, ?_, .cons h2 k2, ?_⟩
      · have hne : n ∉ fs.map (·.1) := by rw [fieldsOfType_names hfs]; exact hn.1
        simp [applyFields, onField, field, setField, h1, applyFields_skip keep n r fs gs hne, k1]
      · simp only [List.cons.injEq, Prod.mk.injEq, true_and, h3, k3]
        constructor
        · rintro ⟨h | h, k | k⟩
          · exact .inl h
          · exact .inl h
          · exact .inl k
          · exact .inr (.cons h k)
        · rintro (h | h)
          · exact ⟨.inl h, .inl h⟩
          · cases h with | cons h k => exact ⟨.inr h, .inr k⟩
  · intro t ys hys
    cases keep with
    | false => exact ⟨[], by simp [applyItems], .nil, by simp⟩
    | true =>
      refine ⟨ys, by simp [applyItems], hys, ?_⟩
      constructor
      · rintro rfl; exact .inr .nil
      · rintro (h | h)
        · cases h
        · cases h; rfl
  · intro t v xs hv hxs ih1 ih2 ys hys
    cases hys with
    | nil => exact ⟨v :: xs, by simp [applyItems, onItem], .cons hv hxs, by simp [NoShorterItems.nil]⟩
    | @cons _ y ys hy hys =>
      obtain ⟨r, h1, h2, h3⟩ := ih1 y hy
      obtain ⟨zs, k1, k2, k3⟩ := ih2 ys hys
      refine ⟨r :: zs, by simp [applyItems, onItem, h1, k1], .cons h2 k2, ?_⟩
      simp only [List.cons.injEq, h3, k3]
      constructor
      · rintro ⟨h | h, k | k⟩
        · exact .inl h
        · exact .inl h
        · exact .inl k
        · exact .inr (.cons h k)
      · rintro (h | h)
        · exact ⟨.inl h, .inl h⟩
        · cases h with | cons h k => exact ⟨.inr h, .inr k⟩

/-! ## Paths -/

theorem field_of_mem {ds} {fs : List (String × RVal V)} (hfs : FieldsOfType D ds fs) (hn : (ds.map (·.1)).Nodup)
    {n t} (h : (n, t) ∈ ds) : ∃ v, field n fs = some v ∧ OfType D t v := by
  induction fs generalizing ds with
  | nil => cases hfs; simp at h
  | cons f fs ih =>
    cases hfs with
    | @cons m u ds v fs hv hfs =>
      simp only [List.map_cons, List.nodup_cons] at hn
      rcases List.mem_cons.1 h with h | h
      · obtain ⟨rfl, rfl⟩ := Prod.mk.inj h
        exact ⟨v, by simp [field], hv⟩
      · have : m ≠ n := by rintro rfl; exact hn.1 (List.mem_map_of_mem h)
        obtain ⟨w, h1, h2⟩ := ih hfs hn.2 h
        exact ⟨w, by rw [field_cons_ne this, h1], h2⟩

theorem setField_ofType {ds} {fs : List (String × RVal V)} (hfs : FieldsOfType D ds fs) (hn : (ds.map (·.1)).Nodup)
    {n t} (h : (n, t) ∈ ds) {v : RVal V} (hv : OfType D t v) : FieldsOfType D ds (setField n v fs) := by
  induction fs generalizing ds with
  | nil => cases hfs; simp at h
  | cons f fs ih =>
    cases hfs with
    | @cons m u ds w fs hw hfs =>
      simp only [List.map_cons, List.nodup_cons] at hn
      rcases List.mem_cons.1 h with h | h
      · obtain ⟨rfl, rfl⟩ := Prod.mk.inj h
        simp only [setField]
        exact .cons hv hfs
      · have : m ≠ n := by rintro rfl; exact hn.1 (List.mem_map_of_mem h)
        rw [setField_cons_ne this]
        exact .cons hw (ih hfs hn.2 h)

theorem field_setField_same {n : String} {v : RVal V} {fs} (h : (field n fs).isSome) :
    field n (setField n v fs) = some v := by
  induction fs with
  | nil => simp [field] at h
  | cons f fs ih =>
    by_cases hf : f.1 = n
    · simp [setField, field, hf]
    · simp only [field, hf, if_false] at h
      simp [setField, field, hf, ih h]

theorem field_setField_ne {n m : String} {v : RVal V} {fs} (h : m ≠ n) :
    field m (setField n v fs) = field m fs := by
  induction fs with
  | nil => rfl
  | cons f fs ih =>
    by_cases hf : f.1 = n
    · simp [setField, field, hf, h.symm]
    · simp [setField, field, hf, ih]

theorem setField_comm {n m : String} {v w : RVal V} {fs} (h : m ≠ n) :
    setField m w (setField n v fs) = setField n v (setField m w fs) := by
  induction fs with
  | nil => rfl
  | cons f fs ih =>
    by_cases hf : f.1 = n
    · have : f.1 ≠ m := by rw [hf]; exact h.symm
      simp [setField, hf, h.symm]
    · by_cases hm : f.1 = m
      · simp [setField, hm, h]
      · simp [setField, hf, hm, ih]

theorem setField_twice {n : String} {v w : RVal V} {fs} : setField n w (setField n v fs) = setField n w fs := by
  induction fs with
  | nil => rfl
  | cons f fs ih =>
    by_cases hf : f.1 = n
    · simp [setField, hf]
    · simp [setField, hf, ih]

theorem fieldsOf_withField {n : String} {v : RVal V} {a} :
    fieldsOf (withField n v a) = setField n v (fieldsOf a) := by
  cases a <;> simp [withField, fieldsOf, setField]

theorem withField_comm {n m : String} {v w : RVal V} {a} (h : m ≠ n) :
    withField m w (withField n v a) = withField n v (withField m w a) := by
  cases a <;> simp [withField, setField_comm h]

theorem withField_twice {n : String} {v w : RVal V} {a} : withField n w (withField n v a) = withField n w a := by
  cases a <;> simp [withField, setField_twice]

/-- Overwriting what is at a path, without the failures. -/
def putAt : Path → RVal V → RVal V → RVal V
  | [], v, _ => v
  | n :: p, v, a =>
    match field n (fieldsOf a) with
    | none => a
    | some b => withField n (putAt p v b) a

theorem applyValue_eq (keep : Bool) (v : RVal V) : ∀ (p : Path) (a b r : RVal V), element p a = some b →
    tryApply keep v b = some r → applyValue keep p v a = .ok (putAt p r a)
  | [], a, b, r, h, hr => by
    simp only [element, Option.some.injEq] at h
    subst h
    simp [applyValue, hr, putAt]
  | n :: p, a, b, r, h, hr => by
    simp only [element, Option.bind_eq_some_iff] at h
    obtain ⟨x, hx, h⟩ := h
    simp [applyValue, hx, applyValue_eq keep v p x b r h hr, putAt, Except.map]

theorem element_putAt_same : ∀ (p : Path) (r a b : RVal V), element p a = some b → element p (putAt p r a) = some r
  | [], r, a, b, _ => rfl
  | n :: p, r, a, b, h => by
    simp only [element, Option.bind_eq_some_iff] at h
    obtain ⟨x, hx, h⟩ := h
    simp only [putAt, hx, element, fieldsOf_withField]
    rw [field_setField_same (by simp [hx])]
    exact element_putAt_same p r x b h

theorem element_putAt_apart : ∀ (p q : Path) (r a : RVal V), Apart p q → element q (putAt p r a) = element q a
  | [], q, r, a, h => absurd (List.nil_prefix) h.1
  | _ :: _, [], r, a, h => absurd (List.nil_prefix) h.2
  | n :: p, m :: q, r, a, h => by
    simp only [putAt]
    cases hx : field n (fieldsOf a) with
    | none => rfl
    | some x =>
      simp only [element, fieldsOf_withField]
      by_cases hm : m = n
      · subst hm
        rw [field_setField_same (by simp [hx]), hx]
        refine element_putAt_apart p q r x ⟨fun k => h.1 ?_, fun k => h.2 ?_⟩
        · exact List.cons_prefix_cons.2 ⟨rfl, k⟩
        · exact List.cons_prefix_cons.2 ⟨rfl, k⟩
      · rw [field_setField_ne hm]

theorem putAt_comm : ∀ (p q : Path) (r s a : RVal V), Apart p q → putAt q s (putAt p r a) = putAt p r (putAt q s a)
  | [], q, r, s, a, h => absurd (List.nil_prefix) h.1
  | _ :: _, [], r, s, a, h => absurd (List.nil_prefix) h.2
  | n :: p, m :: q, r, s, a, h => by
    by_cases hm : m = n
    · subst hm
      cases hx : field m (fieldsOf a) with
      | none => simp [putAt, hx]
      | some x =>
        have hs : ∀ v : RVal V, field m (setField m v (fieldsOf a)) = some v :=
          fun v => field_setField_same (by simp [hx])
        simp only [putAt, hx, fieldsOf_withField, hs, withField_twice]
        rw [putAt_comm p q r s x ⟨fun k => h.1 (List.cons_prefix_cons.2 ⟨rfl, k⟩),
          fun k => h.2 (List.cons_prefix_cons.2 ⟨rfl, k⟩)⟩]
    · cases hx : field n (fieldsOf a) with
      | none =>
        cases hy : field m (fieldsOf a) with
        | none => simp [putAt, hx, hy]
        | some y => simp [putAt, hx, hy, fieldsOf_withField, field_setField_ne (Ne.symm hm)]
      | some x =>
        cases hy : field m (fieldsOf a) with
        | none => simp [putAt, hx, hy, fieldsOf_withField, field_setField_ne hm]
        | some y =>
          simp [putAt, hx, hy, fieldsOf_withField, field_setField_ne hm, field_setField_ne (Ne.symm hm),
            withField_comm hm]

/-! ## Declarations -/

theorem apart_symm {p q : Path} (h : Apart p q) : Apart q p := ⟨h.2, h.1⟩

/-- A path into a component of a type: it goes through structs, so it resolves whatever the value is. -/
inductive Leads (D : RTypes) : Nat → Path → Nat → Prop
  | here {t} : Leads D t [] t
  | field {t c ds n u p w} : D t = .variants [(c, ds)] → (n, u) ∈ ds → Leads D u p w → Leads D t (n :: p) w

theorem leads_element (hD : GoodTypes D) {t p u} (h : Leads D t p u) :
    ∀ a : RVal V, OfType D t a → ∃ b, element p a = some b ∧ OfType D u b := by
  induction h with
  | here => exact fun a ha => ⟨a, rfl, ha⟩
  | @field t c ds n u p w ht hn _ ih =>
    intro a ha
    cases ha with
    | plain h => rw [ht] at h; cases h
    | list h => rw [ht] at h; cases h
    | @node _ vs c' ds' fs h hc _ hfs =>
      rw [ht] at h
      cases h
      obtain ⟨rfl, rfl⟩ := Prod.mk.inj (List.mem_singleton.1 hc)
      obtain ⟨v, h1, h2⟩ := field_of_mem hfs (hD t _ ht _ (List.mem_singleton.2 rfl)) hn
      obtain ⟨b, k1, k2⟩ := ih v h2
      exact ⟨b, by simp [element, fieldsOf, h1, k1], k2⟩

theorem leads_putAt (hD : GoodTypes D) {t p u} (h : Leads D t p u) {r : RVal V} (hr : OfType D u r) :
    ∀ a : RVal V, OfType D t a → OfType D t (putAt p r a) := by
  induction h with
  | here => exact fun a _ => hr
  | @field t c ds n u p w ht hn _ ih =>
    intro a ha
    cases ha with
    | plain h => rw [ht] at h; cases h
    | list h => rw [ht] at h; cases h
    | @node _ vs c' ds' fs h hc hvs hfs =>
      rw [ht] at h
      cases h
      obtain ⟨rfl, rfl⟩ := Prod.mk.inj (List.mem_singleton.1 hc)
      have hnd := hD t _ ht _ (List.mem_singleton.2 rfl)
      obtain ⟨v, h1, h2⟩ := field_of_mem hfs hnd hn
      simp only [putAt, fieldsOf, h1, withField]
      exact .node ht hc hvs (setField_ofType hfs hnd hn (ih hr v h2))

theorem leads_append {t u w p q} (h : Leads D t p u) (k : Leads D u q w) : Leads D t (p ++ q) w := by
  induction h with
  | here => exact k
  | field ht hn _ ih => exact .field ht hn (ih k)

/-- What a declaration extracts, for a parent of the type it describes. -/
theorem extract_leads {l t} (h : Describes D l t) :
    ∀ parent, ∀ x ∈ l.extract parent, ∃ q, x.1 = parent ++ q ∧ Leads D t q x.2 := by
  refine Describes.rec (D := D)
    (motive_1 := fun l t _ => ∀ parent, ∀ x ∈ l.extract parent, ∃ q, x.1 = parent ++ q ∧ Leads D t q x.2)
    (motive_2 := fun ds fs _ => ∀ t c, D t = .variants [(c, ds)] → ∀ parent, ∀ x ∈ extractFields parent fs,
      ∃ n q, n ∈ fs.map (·.1) ∧ x.1 = parent ++ n :: q ∧ Leads D t (n :: q) x.2)
    ?_ ?_ ?_ ?_ h
  · intro t parent x hx
    simp only [Layout.extract, List.mem_singleton] at hx
    subst hx
    exact ⟨[], by simp, .here⟩
  · intro t c ds fs ht hn _ ih parent x hx
    simp only [Layout.extract] at hx
    obtain ⟨n, q, _, h1, h2⟩ := ih t c ht parent x hx
    exact ⟨n :: q, h1, h2⟩
  · intro ds t c _ parent x hx
    simp [extractFields] at hx
  · intro ds n l u fs hm hl hfs ih1 ih2 t c ht parent x hx
    simp only [extractFields, List.mem_append] at hx
    rcases hx with hx | hx
    · obtain ⟨q, h1, h2⟩ := ih1 _ x hx
      exact ⟨n, q, by simp, by simpa using h1, .field ht hm h2⟩
    · obtain ⟨m, q, h0, h1, h2⟩ := ih2 t c ht parent x hx
      exact ⟨m, q, by simp [h0], h1, h2⟩

theorem fields_leads {ds fs} (h : DescribesFields D ds fs) :
    ∀ parent, ∀ x ∈ extractFields parent fs, ∃ n q, n ∈ fs.map (·.1) ∧ x.1 = parent ++ n :: q := by
  intro parent x hx
  induction fs with
  | nil => simp [extractFields] at hx
  | cons f fs ih =>
    cases h with
    | @cons _ n l u _ hm hl hfs =>
      simp only [extractFields, List.mem_append] at hx
      rcases hx with hx | hx
      · obtain ⟨q, h1, _⟩ := extract_leads hl _ x hx
        exact ⟨n, q, by simp, by simpa using h1⟩
      · obtain ⟨m, q, h0, h1⟩ := ih hfs hx
        exact ⟨m, q, by simp [h0], h1⟩

theorem apart_append {a p q : Path} : Apart (a ++ p) (a ++ q) ↔ Apart p q := by
  simp only [Apart, List.prefix_append_right_inj]

theorem apart_heads {n m : String} {p q : Path} (h : n ≠ m) : Apart (n :: p) (m :: q) := by
  simp only [Apart, List.cons_prefix_cons]
  exact ⟨fun k => h k.1, fun k => h k.1.symm⟩

/-- The extracted paths are pairwise apart. -/
theorem extract_apart {l t} (h : Describes D l t) :
    ∀ parent, (l.extract parent).Pairwise fun x y => Apart x.1 y.1 := by
  refine Describes.rec (D := D)
    (motive_1 := fun l t _ => ∀ parent, (l.extract parent).Pairwise fun x y => Apart x.1 y.1)
    (motive_2 := fun ds fs _ => (fs.map (·.1)).Nodup → ∀ parent,
      (extractFields parent fs).Pairwise fun x y => Apart x.1 y.1)
    ?_ ?_ ?_ ?_ h
  · intro t parent; simp [Layout.extract]
  · intro t c ds fs ht hn _ ih parent
    simp only [Layout.extract]
    exact ih hn parent
  · intro ds _ parent; simp [extractFields]
  · intro ds n l u fs hm hl hfs ih1 ih2 hn parent
    simp only [List.map_cons, List.nodup_cons] at hn
    simp only [extractFields]
    refine List.pairwise_append.2 ⟨ih1 _, ih2 hn.2 _, fun x hx y hy => ?_⟩
    obtain ⟨q, h1, _⟩ := extract_leads hl _ x hx
    obtain ⟨m, q', h0, h2⟩ := fields_leads hfs _ y hy
    rw [h1, h2, List.append_assoc]
    refine apart_append.2 (apart_heads ?_)
    rintro rfl
    exact hn.1 h0

theorem properties_leads {l t} (h : DescribesComponent D l t) : ∀ x ∈ l.properties, Leads D t x.1 x.2 := by
  intro x hx
  rcases h with h | rfl
  · obtain ⟨q, h1, h2⟩ := extract_leads h [] x hx
    rw [h1]
    exact h2
  · simp only [Layout.properties, Layout.extract, List.mem_singleton] at hx
    subst hx
    exact .here

theorem properties_apart {l t} (h : DescribesComponent D l t) :
    l.properties.Pairwise fun x y => Apart x.1 y.1 := by
  rcases h with h | rfl
  · exact extract_apart h []
  · simp [Layout.properties, Layout.extract]

end Flair.Proofs.Reflect
