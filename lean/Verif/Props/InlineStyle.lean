import Verif.Spec.InlineStyle
/-!
# C48, C49, C69: inline styles
-/
namespace Flair.Proofs.InlineStyle
open Flair.InlineStyle Flair.Spec

theorem set_filter_ne (s : Style) (k v : Text) : set s k v = remove s k ++ [(k, v)] := rfl

theorem mem_survivors_key (ops : List StyleOp) : ∀ p ∈ survivors ops, ∃ o ∈ ops, o.key = p.1 := by
  induction ops with
  | nil => simp [survivors]
  | cons o ops ih =>
    intro p hp
    cases o with
    | remove k =>
      obtain ⟨o, ho, h⟩ := ih p hp
      exact ⟨o, List.mem_cons_of_mem _ ho, h⟩
    | set k v =>
      rw [survivors] at hp
      split at hp
      · obtain ⟨o, ho, h⟩ := ih p hp
        exact ⟨o, List.mem_cons_of_mem _ ho, h⟩
      · rcases List.mem_cons.1 hp with rfl | hp
        · exact ⟨_, List.mem_cons_self, rfl⟩
        · obtain ⟨o, ho, h⟩ := ih p hp
          exact ⟨o, List.mem_cons_of_mem _ ho, h⟩

theorem survivors_snoc_set (ops : List StyleOp) (k v : Text) :
    survivors (ops ++ [.set k v]) = (survivors ops).filter (fun p => !(p.1 == k)) ++ [(k, v)] := by
  induction ops with
  | nil => simp [survivors]
  | cons o ops ih =>
    cases o with
    | remove k' => simpa [survivors] using ih
    | set k' v' =>
      rw [List.cons_append, survivors, survivors]
      by_cases h : ∃ o ∈ ops, o.key = k'
      · rw [if_pos h, if_pos (by obtain ⟨o, ho, hk⟩ := h; exact ⟨o, List.mem_append_left _ ho, hk⟩), ih]
      · rw [if_neg h]
        by_cases hk : k' = k
        · subst hk
          rw [if_pos ⟨.set k' v, by simp, rfl⟩, ih]
          simp
        · rw [if_neg, ih]
          · simp [hk]
          · rintro ⟨o, ho, ho'⟩
            rcases List.mem_append.1 ho with ho | ho
            · exact h ⟨o, ho, ho'⟩
            · simp only [List.mem_singleton] at ho
              subst ho
              exact hk ho'.symm

theorem survivors_snoc_remove (ops : List StyleOp) (k : Text) :
    survivors (ops ++ [.remove k]) = (survivors ops).filter (fun p => !(p.1 == k)) := by
  induction ops with
  | nil => simp [survivors]
  | cons o ops ih =>
    cases o with
    | remove k' => simpa [survivors] using ih
    | set k' v' =>
      rw [List.cons_append, survivors, survivors]
      by_cases h : ∃ o ∈ ops, o.key = k'
      · rw [if_pos h, if_pos (by obtain ⟨o, ho, hk⟩ := h; exact ⟨o, List.mem_append_left _ ho, hk⟩), ih]
      · rw [if_neg h]
        by_cases hk : k' = k
        · subst hk
          rw [if_pos ⟨.remove k', by simp, rfl⟩, ih]
          simp
        · rw [if_neg, ih]
          · simp [hk]
          · rintro ⟨o, ho, ho'⟩
            rcases List.mem_append.1 ho with ho | ho
            · exact h ⟨o, ho, ho'⟩
            · simp only [List.mem_singleton] at ho
              subst ho
              exact hk ho'.symm

theorem run_ops (ops : List StyleOp) : ops.foldl StyleOp.apply [] = survivors ops := by
  induction ops using List.reverseRecOn with
  | nil => rfl
  | append_singleton ops o ih =>
    rw [List.foldl_append, List.foldl_cons, List.foldl_nil, ih]
    cases o with
    | set k v => rw [survivors_snoc_set]; rfl
    | remove k => rw [survivors_snoc_remove]; rfl

theorem find_filter_ne (s : Style) (k k' : Text) (h : k' ≠ k) :
    (s.filter fun p => !(p.1 == k)).find? (fun p => p.1 == k') = s.find? fun p => p.1 == k' := by
  induction s with
  | nil => rfl
  | cons p s ih =>
    rw [List.filter_cons]
    by_cases hp : p.1 = k
    · have h1 : (p.1 == k) = true := by simpa using hp
      have h2 : (p.1 == k') = false := by simpa [hp] using Ne.symm h
      simp [h1, h2, ih]
    · have h1 : (p.1 == k) = false := by simpa using hp
      simp only [h1, Bool.not_false, if_true, List.find?_cons, ih]

theorem get_set (s : Style) (k v k' : Text) : get (set s k v) k' = if k' = k then some v else get s k' := by
  unfold InlineStyle.get InlineStyle.set
  split
  · next h =>
    subst h
    rw [List.find?_append]
    have : (s.filter fun p => !(p.1 == k')).find? (fun p => p.1 == k') = none := by
      rw [List.find?_eq_none]
      intro p hp
      simpa using (List.mem_filter.1 hp).2
    rw [this]
    simp
  · next h =>
    rw [List.find?_append, find_filter_ne s k k' h]
    have : [(k, v)].find? (fun p => p.1 == k') = none := by
      simp [Ne.symm h]
    rw [this]
    simp

theorem get_remove (s : Style) (k k' : Text) : get (remove s k) k' = if k' = k then none else get s k' := by
  unfold InlineStyle.get InlineStyle.remove
  split
  · next h =>
    subst h
    have : (s.filter fun p => !(p.1 == k')).find? (fun p => p.1 == k') = none := by
      rw [List.find?_eq_none]
      intro p hp
      simpa using (List.mem_filter.1 hp).2
    rw [this]
    rfl
  · next h =>
    rw [find_filter_ne s k k' h]

theorem get_apply (s : Style) (o : StyleOp) (k : Text) :
    get (o.apply s) k = if k = o.key then o.val else get s k := by
  cases o with
  | set k' v => exact get_set s k' v k
  | remove k' => exact get_remove s k' k

/-! ### Trimming and splitting -/

theorem trimStart_ws (ws) (a t : Text) (ha : AllWs ws a) : trimStart ws (a ++ t) = trimStart ws t := by
  induction a with
  | nil => rfl
  | cons c a ih =>
    rw [List.cons_append, trimStart, if_pos (ha c List.mem_cons_self)]
    exact ih fun x hx => ha x (List.mem_cons_of_mem _ hx)

theorem trimStart_tight (ws) (t : Text) (h : ∀ c, t.head? = some c → ws c = false) : trimStart ws t = t := by
  cases t with
  | nil => rfl
  | cons c t => rw [trimStart, if_neg (by rw [h c rfl]; simp)]

theorem AllWs_reverse {ws} {a : Text} (h : AllWs ws a) : AllWs ws a.reverse :=
  fun c hc => h c (List.mem_reverse.1 hc)

theorem trimStart_all (ws) (a : Text) (ha : AllWs ws a) : trimStart ws a = [] := by
  have := trimStart_ws ws a [] ha
  simpa [trimStart] using this

theorem trim_all (ws) (a : Text) (ha : AllWs ws a) : trim ws a = [] := by
  unfold trim
  rw [trimStart_all ws a ha]
  rfl

theorem trim_pad (ws) (a t b : Text) (ha : AllWs ws a) (hb : AllWs ws b) (ht : Tight ws t) :
    trim ws (a ++ t ++ b) = t := by
  unfold trim
  rw [List.append_assoc, trimStart_ws ws a _ ha]
  cases t with
  | nil =>
    rw [List.nil_append, trimStart_all ws b hb]
    rfl
  | cons c t =>
    have h1 : trimStart ws (c :: t ++ b) = c :: t ++ b := trimStart_tight ws _ (fun x hx => by
      refine ht.1 x ?_
      simpa using hx)
    rw [h1, List.reverse_append, trimStart_ws ws _ _ (AllWs_reverse hb), trimStart_tight, List.reverse_reverse]
    intro x hx
    rw [List.head?_reverse] at hx
    exact ht.2 x hx

theorem trim_pad' (ws) (a t : Text) (ha : AllWs ws a) (ht : Tight ws t) : trim ws (a ++ t) = t := by
  have := trim_pad ws a t [] ha (by intro c hc; cases hc) ht
  simpa using this

theorem splitOnce_mem (sep : Char) (a b : Text) (h : sep ∉ a) : splitOnce sep (a ++ sep :: b) = some (a, b) := by
  induction a with
  | nil => simp [splitOnce]
  | cons c a ih =>
    rw [List.cons_append, splitOnce, if_neg (fun hc => h (by rw [← hc]; exact List.mem_cons_self)),
      ih fun hm => h (List.mem_cons_of_mem _ hm)]
    rfl

theorem splitOnce_none (sep : Char) (a : Text) (h : sep ∉ a) : splitOnce sep a = none := by
  induction a with
  | nil => rfl
  | cons c a ih =>
    rw [splitOnce, if_neg (fun hc => h (by rw [← hc]; exact List.mem_cons_self)),
      ih fun hm => h (List.mem_cons_of_mem _ hm)]
    rfl

theorem splitOn_none (sep : Char) (a : Text) (h : sep ∉ a) : splitOn sep a = [a] := by
  induction a with
  | nil => rfl
  | cons c a ih =>
    rw [splitOn, if_neg (fun hc => h (by rw [← hc]; exact List.mem_cons_self)),
      ih fun hm => h (List.mem_cons_of_mem _ hm)]

theorem splitOn_mem (sep : Char) (a b : Text) (h : sep ∉ a) : splitOn sep (a ++ [sep] ++ b) = a :: splitOn sep b := by
  induction a with
  | nil => simp [splitOn]
  | cons c a ih =>
    rw [List.cons_append, List.cons_append, splitOn,
      if_neg (fun hc => h (by rw [← hc]; exact List.mem_cons_self)),
      ih fun hm => h (List.mem_cons_of_mem _ hm)]

theorem not_mem_ws {ws : Char → Bool} {c : Char} (hc : ws c = false) {a : Text} (ha : AllWs ws a) : c ∉ a :=
  fun h => by have := ha c h; rw [hc] at this; cases this

/-- Trimming only at the ends of `name b : c value` -/
theorem trim_decl (ws) (hcol : ws ':' = false) (a b c d name value : Text) (ha : AllWs ws a) (hc : AllWs ws c)
    (hd : AllWs ws d) (hn : Tight ws name) (hb : AllWs ws b) (hv : Tight ws value) :
    ∃ b' c', AllWs ws b' ∧ AllWs ws c' ∧
      trim ws (a ++ name ++ b ++ [':'] ++ c ++ value ++ d) = b' ++ name ++ (if name = [] then [] else b) ++ [':'] ++
        (if value = [] then [] else c) ++ value ++ c' := by
  refine ⟨[], [], (by intro _ h; cases h), (by intro _ h; cases h), ?_⟩
  by_cases hn0 : name = []
  · subst hn0
    by_cases hv0 : value = []
    · subst hv0
      simp only [List.append_nil, List.nil_append, if_true]
      have h1 : AllWs ws (a ++ b) := by
        intro x hx
        rcases List.mem_append.1 hx with h | h
        · exact ha x h
        · exact hb x h
      have h2 : AllWs ws (c ++ d) := by
        intro x hx
        rcases List.mem_append.1 hx with h | h
        · exact hc x h
        · exact hd x h
      have := trim_pad ws (a ++ b) [':'] (c ++ d) h1 h2 ⟨by simp [hcol], by simp [hcol]⟩
      simpa [List.append_assoc] using this
    · simp only [List.append_nil, List.nil_append, if_true, if_neg hv0]
      have h1 : AllWs ws (a ++ b) := by
        intro x hx
        rcases List.mem_append.1 hx with h | h
        · exact ha x h
        · exact hb x h
      have := trim_pad ws (a ++ b) ([':'] ++ c ++ value) d h1 hd ⟨by simp [hcol], by
        intro x hx
        rw [List.getLast?_append] at hx
        obtain ⟨y, hy⟩ : ∃ y, value.getLast? = some y := by
          cases hg : value.getLast? with
          | none => exact absurd (List.getLast?_eq_none_iff.1 hg) hv0
          | some y => exact ⟨y, rfl⟩
        rw [hy] at hx
        simp only [Option.some_or, Option.some.injEq] at hx
        subst hx
        exact hv.2 y hy⟩
      simpa [List.append_assoc] using this
  · obtain ⟨n0, hn1⟩ : ∃ y, name.head? = some y := by
      cases hg : name.head? with
      | none => exact absurd (List.head?_eq_none_iff.1 hg) hn0
      | some y => exact ⟨y, rfl⟩
    by_cases hv0 : value = []
    · subst hv0
      simp only [List.append_nil, List.nil_append, if_true, if_neg hn0]
      have h2 : AllWs ws (c ++ d) := by
        intro x hx
        rcases List.mem_append.1 hx with h | h
        · exact hc x h
        · exact hd x h
      have := trim_pad ws a (name ++ b ++ [':']) (c ++ d) ha h2 ⟨by
        intro x hx
        rw [List.append_assoc, List.head?_append, hn1] at hx
        simp only [Option.some_or, Option.some.injEq] at hx
        subst hx
        exact hn.1 n0 hn1, by simp [hcol]⟩
      simpa [List.append_assoc] using this
    · simp only [List.append_nil, List.nil_append, if_neg hn0, if_neg hv0]
      have := trim_pad ws a (name ++ b ++ [':'] ++ c ++ value) d ha hd ⟨by
        intro x hx
        rw [List.append_assoc, List.append_assoc, List.append_assoc, List.head?_append, hn1] at hx
        simp only [Option.some_or, Option.some.injEq] at hx
        subst hx
        exact hn.1 n0 hn1, by
        intro x hx
        rw [List.getLast?_append] at hx
        obtain ⟨y, hy⟩ : ∃ y, value.getLast? = some y := by
          cases hg : value.getLast? with
          | none => exact absurd (List.getLast?_eq_none_iff.1 hg) hv0
          | some y => exact ⟨y, rfl⟩
        rw [hy] at hx
        simp only [Option.some_or, Option.some.injEq] at hx
        subst hx
        exact hv.2 y hy⟩
      simpa [List.append_assoc] using this

theorem addPiece_of (ws) (s : Style) (piece t : Text) (h : trim ws piece = t) (ht : t ≠ []) :
    addPiece ws s piece = match splitOnce ':' t with
      | none => set s t []
      | some (n, v) => set s (trim ws n) (trim ws v) := by
  cases t with
  | nil => exact absurd rfl ht
  | cons c cs => unfold addPiece; rw [h]; rfl

theorem addPiece_piece (ws) (hcol : ws ':' = false) (p : Text) (ds) (hp : Piece ws p ds) (s : Style) :
    addPiece ws s p = ds.foldl (fun s p => set s p.1 p.2) s := by
  cases hp with
  | blank _ h =>
    unfold addPiece
    rw [trim_all ws p h]
    rfl
  | bare a b name ha hb hn hn0 hc =>
    rw [addPiece_of ws s _ name (trim_pad ws a name b ha hb hn) hn0, splitOnce_none _ _ hc]
    rfl
  | decl a b c d name value ha hb hc hd hn hv hcn =>
    obtain ⟨b', c', hb', hc', h⟩ := trim_decl ws hcol a b c d name value ha hc hd hn hb hv
    have hb2 : AllWs ws (if name = [] then [] else b) := by
      split
      · intro _ h; cases h
      · exact hb
    have hc2 : AllWs ws (if value = [] then [] else c) := by
      split
      · intro _ h; cases h
      · exact hc
    rw [addPiece_of ws s _ _ h (by simp)]
    have hsp : splitOnce ':' (b' ++ name ++ (if name = [] then [] else b) ++ [':'] ++
        (if value = [] then [] else c) ++ value ++ c') = some (b' ++ name ++ (if name = [] then [] else b),
          (if value = [] then [] else c) ++ value ++ c') := by
      have := splitOnce_mem ':' (b' ++ name ++ (if name = [] then [] else b))
        ((if value = [] then [] else c) ++ value ++ c') (by
          intro hm
          rcases List.mem_append.1 hm with hm | hm
          · rcases List.mem_append.1 hm with hm | hm
            · exact not_mem_ws hcol hb' hm
            · exact hcn hm
          · exact not_mem_ws hcol hb2 hm)
      simpa [List.append_assoc] using this
    rw [hsp]
    dsimp only
    rw [trim_pad ws _ _ _ hb' hb2 hn, trim_pad ws _ _ _ hc2 hc' hv]
    rfl

theorem fromStr_spells (ws) (hcol : ws ':' = false) (t : Text) (ds) (h : Spells ws t ds) (s : Style) :
    (splitOn ';' t).foldl (addPiece ws) s = ds.foldl (fun s p => set s p.1 p.2) s := by
  induction h generalizing s with
  | last p ds hp hpc =>
    rw [splitOn_none _ _ hp, List.foldl_cons, List.foldl_nil]
    exact addPiece_piece ws hcol p ds hpc s
  | more p rest ds ds' hp hpc _ ih =>
    rw [splitOn_mem _ _ _ hp, List.foldl_cons, addPiece_piece ws hcol p ds hpc s, ih, List.foldl_append]

theorem split_trimStart (ws) (t : Text) : ∃ a, AllWs ws a ∧ t = a ++ trimStart ws t ∧
    ∀ c, (trimStart ws t).head? = some c → ws c = false := by
  induction t with
  | nil => exact ⟨[], by (intro _ h; cases h), rfl, by (intro _ h; cases h)⟩
  | cons c t ih =>
    rw [trimStart]
    by_cases hc : ws c = true
    · rw [if_pos hc]
      obtain ⟨a, ha, he, hh⟩ := ih
      refine ⟨c :: a, ?_, ?_, hh⟩
      · intro x hx
        rcases List.mem_cons.1 hx with rfl | hx
        · exact hc
        · exact ha x hx
      · rw [List.cons_append, ← he]
    · rw [if_neg hc]
      refine ⟨[], by (intro _ h; cases h), rfl, ?_⟩
      intro x hx
      simp only [List.head?_cons, Option.some.injEq] at hx
      subst hx
      simpa using hc

theorem split_trim (ws) (t : Text) : ∃ a u b, AllWs ws a ∧ AllWs ws b ∧ Tight ws u ∧ t = a ++ u ++ b := by
  obtain ⟨a, ha, he, hh⟩ := split_trimStart ws t
  obtain ⟨b, hb, he', hh'⟩ := split_trimStart ws (trimStart ws t).reverse
  set v := trimStart ws (trimStart ws t).reverse with hv
  have hr : trimStart ws t = v.reverse ++ b.reverse := by
    rw [← List.reverse_append, ← he', List.reverse_reverse]
  refine ⟨a, v.reverse, b.reverse, ha, AllWs_reverse hb, ⟨?_, ?_⟩, ?_⟩
  · intro c hc
    refine hh c ?_
    rw [hr, List.head?_append, hc]
    rfl
  · intro c hc
    rw [List.getLast?_reverse] at hc
    exact hh' c hc
  · rw [List.append_assoc, ← hr, ← he]

theorem first_mem (x : Char) (p : Text) (h : x ∈ p) : ∃ l r, p = l ++ x :: r ∧ x ∉ l := by
  induction p with
  | nil => cases h
  | cons c p ih =>
    by_cases hc : c = x
    · subst hc
      exact ⟨[], p, rfl, by simp⟩
    · rcases List.mem_cons.1 h with rfl | h
      · exact absurd rfl hc
      · obtain ⟨l, r, rfl, hl⟩ := ih h
        exact ⟨c :: l, r, rfl, by simp [hl, Ne.symm hc]⟩

theorem piece_total (ws) (p : Text) : ∃ ds, Piece ws p ds := by
  by_cases hc : ':' ∈ p
  · obtain ⟨l, r, rfl, hl⟩ := first_mem ':' p hc
    clear hc
    obtain ⟨a, n, b, ha, hb, hn, rfl⟩ := split_trim ws l
    obtain ⟨c, v, d, hc, hd, hv, rfl⟩ := split_trim ws r
    have := Piece.decl (ws := ws) a b c d n v ha hb hc hd hn hv (by
      intro h
      exact hl (List.mem_append_left _ (List.mem_append_right _ h)))
    exact ⟨_, by simpa [List.append_assoc] using this⟩
  · obtain ⟨a, n, b, ha, hb, hn, rfl⟩ := split_trim ws p
    by_cases hn0 : n = []
    · subst hn0
      refine ⟨_, .blank _ ?_⟩
      intro x hx
      rw [List.append_nil] at hx
      rcases List.mem_append.1 hx with h | h
      · exact ha x h
      · exact hb x h
    · exact ⟨_, .bare a b n ha hb hn hn0 fun h => hc (List.mem_append_left _ (List.mem_append_right _ h))⟩

theorem spells_total (ws) (t : Text) : ∃ ds, Spells ws t ds := by
  induction h : t.length using Nat.strongRecOn generalizing t with
  | _ n ih =>
    by_cases hs : ';' ∈ t
    · obtain ⟨l, r, rfl, hl⟩ := first_mem ';' t hs
      obtain ⟨ds, hds⟩ := piece_total ws l
      obtain ⟨ds', hds'⟩ := ih r.length (by subst h; simp; omega) r rfl
      have := Spells.more l r ds ds' hl hds hds'
      exact ⟨_, by simpa [List.append_assoc] using this⟩
    · obtain ⟨ds, hds⟩ := piece_total ws t
      exact ⟨ds, .last t ds hs hds⟩

theorem cssText_cons (p : Text × Text) (s : Style) :
    cssText (p :: s) = (p.1 ++ [':', ' '] ++ p.2) ++ [';'] ++ ('\n' :: cssText s) := by
  simp [cssText, List.append_assoc]

theorem spells_ws (ws) (c : Char) (hc : ws c = true) (hs : c ≠ ';') (t : Text) (ds)
    (h : Spells ws t ds) : Spells ws (c :: t) ds := by
  have key : ∀ p ds, Piece ws p ds → Piece ws (c :: p) ds := by
    intro p ds hp
    have hcons : ∀ a, AllWs ws a → AllWs ws (c :: a) := by
      intro a ha x hx
      rcases List.mem_cons.1 hx with rfl | hx
      · exact hc
      · exact ha x hx
    cases hp with
    | blank _ h => exact .blank _ (hcons _ h)
    | decl a b c' d n v ha hb hc' hd hn hv hcn =>
      exact .decl (c :: a) b c' d n v (hcons _ ha) hb hc' hd hn hv hcn
    | bare a b n ha hb hn hn0 hcn => exact .bare (c :: a) b n (hcons _ ha) hb hn hn0 hcn
  cases h with
  | last _ _ hp hpc => exact .last _ _ (by simp [hp, Ne.symm hs]) (key _ _ hpc)
  | more p rest ds ds' hp hpc h => exact .more (c :: p) rest ds ds' (by simp [hp, Ne.symm hs]) (key _ _ hpc) h

theorem spells_cssText (ws) (hsp : ws ' ' = true) (hnl : ws '\n' = true) (s : Style)
    (h : ∀ p ∈ s, Writable ws p) : Spells ws (cssText s) s := by
  induction s with
  | nil => exact .last [] [] (by simp) (.blank _ (by intro _ h; cases h))
  | cons p s ih =>
    rw [cssText_cons]
    obtain ⟨h1, h2, h3, h4, h5⟩ := h p List.mem_cons_self
    have ih := ih fun q hq => h q (List.mem_cons_of_mem _ hq)
    refine Spells.more _ _ [p] s ?_ ?_ (spells_ws ws '\n' hnl (by decide) _ _ ih)
    · intro hm
      rcases List.mem_append.1 hm with hm | hm
      · rcases List.mem_append.1 hm with hm | hm
        · exact h4 hm
        · revert hm; decide
      · exact h5 hm
    · have := Piece.decl (ws := ws) [] [] [' '] [] p.1 p.2 (by intro _ h; cases h) (by intro _ h; cases h)
        (by intro x hx; rw [List.mem_singleton.1 hx]; exact hsp) (by intro _ h; cases h) h1 h2 h3
      simpa using this

theorem fromIter_nodup (s : Style) (h : (s.map Prod.fst).Nodup) : fromIter s = s := by
  unfold fromIter
  suffices ∀ t : Style, ((t ++ s).map Prod.fst).Nodup → s.foldl (fun s p => InlineStyle.set s p.1 p.2) t = t ++ s from
    this [] (by simpa using h)
  clear h
  induction s with
  | nil => intro t _; simp
  | cons p s ih =>
    intro t ht
    rw [List.foldl_cons]
    have : InlineStyle.set t p.1 p.2 = t ++ [p] := by
      unfold InlineStyle.set
      congr 1
      rw [List.filter_eq_self]
      intro q hq
      have : q.1 ≠ p.1 := by
        intro he
        rw [List.map_append, List.nodup_append] at ht
        exact ht.2.2 q.1 (List.mem_map_of_mem hq) p.1 (by simp) he
      simpa using this
    rw [this, ih (t ++ [p]) (by simpa [List.append_assoc] using ht)]
    simp

theorem survivors_nodup (ops : List StyleOp) : ((survivors ops).map Prod.fst).Nodup := by
  induction ops with
  | nil => exact List.nodup_nil
  | cons o ops ih =>
    cases o with
    | remove k => exact ih
    | set k v =>
      rw [survivors]
      split
      · exact ih
      · next hn =>
        rw [List.map_cons, List.nodup_cons]
        refine ⟨fun hm => ?_, ih⟩
        obtain ⟨q, hq, hk⟩ := List.mem_map.1 hm
        obtain ⟨o, ho, hok⟩ := mem_survivors_key ops q hq
        exact hn ⟨o, ho, hok.trans hk⟩

/-! ### The system -/
section
variable {E I : Type} [DecidableEq E]

theorem foldl_process (l : List (Parsed I)) (acc : List I × Bool) :
    l.foldl process acc = (acc.1 ++ l.filterMap (fun
      | .item i _ => some i
      | .error => none), acc.2 || l.any fun
      | .item _ imp => imp
      | .error => true) := by
  induction l generalizing acc with
  | nil => simp
  | cons p l ih =>
    rw [List.foldl_cons, ih]
    cases p with
    | item i imp => simp [process, Bool.or_assoc]
    | error => simp [process]

theorem processAll_fst (parse : Text → List (Parsed I)) (s : Style) :
    (processAll (parse (cssText s))).1 = itemsOf parse s := by
  unfold processAll
  rw [foldl_process]
  rfl

theorem processAll_snd (parse : Text → List (Parsed I)) (s : Style) :
    (processAll (parse (cssText s))).2 = false ↔ Clean parse s := by
  unfold processAll
  rw [foldl_process, Bool.false_or, List.any_eq_false]
  constructor
  · intro h p hp
    have := h p hp
    cases p with
    | item i imp =>
      refine ⟨i, ?_⟩
      simp only [Bool.not_eq_true] at this
      rw [this]
    | error => simp at this
  · intro h p hp
    obtain ⟨i, rfl⟩ := h p hp
    simp

theorem parseLoop_inline (parse : Text → List (Parsed I)) (order : List E) (w : World E I) :
    (parseLoop parse order w).inline = w.inline := by
  induction order generalizing w with
  | nil => rfl
  | cons e es ih =>
    rw [parseLoop]
    split
    · exact ih w
    · split
      · rfl
      · rw [ih]; rfl

theorem parseLoop_notmem (parse : Text → List (Parsed I)) (order : List E) (w : World E I) (e : E) (h : e ∉ order) :
    (parseLoop parse order w).raw e = w.raw e := by
  induction order generalizing w with
  | nil => rfl
  | cons x es ih =>
    rw [parseLoop]
    have hx : e ≠ x := fun he => h (by rw [he]; exact List.mem_cons_self)
    have hes : e ∉ es := fun hm => h (List.mem_cons_of_mem _ hm)
    split
    · exact ih w hes
    · split
      · rfl
      · rw [ih _ hes]
        simp [World.insertRaw, hx]

theorem parseLoop_clean (parse : Text → List (Parsed I)) (l : List E) (e : E) (r : List E) (w : World E I) (s : Style)
    (hs : w.inline e = some s) (hnd : (l ++ e :: r).Nodup)
    (hc : ∀ x ∈ l ++ [e], ∀ t, w.inline x = some t → Clean parse t) :
    (parseLoop parse (l ++ e :: r) w).raw e = some (itemsOf parse s) := by
  induction l generalizing w with
  | nil =>
    rw [List.nil_append, parseLoop, hs]
    have hce := hc e (by simp) s hs
    dsimp only
    rw [if_neg (by rw [(processAll_snd parse s).2 hce]; simp), parseLoop_notmem _ _ _ _ (List.nodup_cons.1 hnd).1,
      processAll_fst]
    simp [World.insertRaw]
  | cons x l ih =>
    rw [List.cons_append, parseLoop]
    have hnd' := (List.nodup_cons.1 hnd).2
    split
    · exact ih w hs hnd' fun y hy => hc y (List.mem_cons_of_mem _ hy)
    · next t ht =>
      have hct := hc x (by simp) t ht
      rw [if_neg (by rw [(processAll_snd parse t).2 hct]; simp)]
      exact ih _ hs hnd' fun y hy => hc y (List.mem_cons_of_mem _ hy)

theorem parseLoop_stuck (parse : Text → List (Parsed I)) (l : List E) (b : E) (r : List E) (w : World E I) (t : Style)
    (ht : w.inline b = some t) (hb : ¬Clean parse t) (e : E) (he : e ∉ l) :
    (parseLoop parse (l ++ b :: r) w).raw e = w.raw e := by
  induction l generalizing w with
  | nil =>
    rw [List.nil_append, parseLoop, ht]
    dsimp only
    rw [if_pos]
    by_contra h
    exact hb ((processAll_snd parse t).1 (by simpa using h))
  | cons x l ih =>
    rw [List.cons_append, parseLoop]
    have hx : e ≠ x := fun h => he (by rw [h]; exact List.mem_cons_self)
    have hl : e ∉ l := fun h => he (List.mem_cons_of_mem _ h)
    split
    · exact ih w ht hl
    · split
      · rfl
      · rw [ih (w.insertRaw x _) ht hl]
        simp [World.insertRaw, hx]

end
end Flair.Proofs.InlineStyle

namespace Flair.Props
open Flair.InlineStyle Flair.Spec Flair.Proofs.InlineStyle

/-! ## C48 -/

/-- C48.  After any sequence of `set` and `remove` on a new inline style, its entries are what the `set`s wrote that no
later operation was about, in the order of those `set`s. -/
theorem C48_ops (ops : List StyleOp) : ops.foldl StyleOp.apply [] = survivors ops := run_ops ops

/-- C48.  `get` returns what the last operation about the property left, and is unaffected by the others; this from any
inline style. -/
theorem C48_get (s : Style) (before after : List StyleOp) (o : StyleOp) (h : ∀ x ∈ after, x.key ≠ o.key) :
    get ((before ++ o :: after).foldl StyleOp.apply s) o.key = o.val := by
  rw [List.foldl_append, List.foldl_cons]
  set s' := before.foldl StyleOp.apply s
  have : ∀ (l : List StyleOp) (t : Style), (∀ x ∈ l, x.key ≠ o.key) →
      get (l.foldl StyleOp.apply t) o.key = get t o.key := by
    intro l
    induction l with
    | nil => intro t _; rfl
    | cons x l ih =>
      intro t hl
      rw [List.foldl_cons, ih _ fun y hy => hl y (List.mem_cons_of_mem _ hy), get_apply,
        if_neg (Ne.symm (hl x List.mem_cons_self))]
  rw [this after _ h, get_apply, if_pos rfl]

/-- C48.  A property no operation was about keeps its value. -/
theorem C48_get_untouched (s : Style) (ops : List StyleOp) (k : Text) (h : ∀ x ∈ ops, x.key ≠ k) :
    get (ops.foldl StyleOp.apply s) k = get s k := by
  induction ops generalizing s with
  | nil => rfl
  | cons x ops ih =>
    rw [List.foldl_cons, ih _ fun y hy => h y (List.mem_cons_of_mem _ hy), get_apply,
      if_neg (Ne.symm (h x List.mem_cons_self))]

private def txt (s : String) : Text := s.toList
private def isWs (c : Char) : Bool := c == ' ' || c == '\n'

/-- setting again moves the entry to the end -/
example : survivors [.set (txt "left") (txt "1px"), .set (txt "top") (txt "2px"), .set (txt "left") (txt "3px")]
    = [(txt "top", txt "2px"), (txt "left", txt "3px")] := by decide

/-- C48.  Reading a text is setting its declarations in order. -/
theorem C48_parse (ws : Char → Bool) (hcol : ws ':' = false) (t : Text) (ds : List (Text × Text))
    (h : Spells ws t ds) :
    fromStr ws t = (ds.map fun d => StyleOp.set d.1 d.2).foldl StyleOp.apply [] := by
  rw [List.foldl_map]
  exact fromStr_spells ws hcol t ds h []

/-- C48.  Every text stands for some declarations. -/
theorem C48_parse_total (ws : Char → Bool) (t : Text) : ∃ ds, Spells ws t ds := spells_total ws t

/-- a text with two declarations, white space and an empty piece -/
example : Spells isWs (txt " left : 1px;; x") [(txt "left", txt "1px"), (txt "x", [])] :=
  Spells.more (txt " left : 1px") (txt "; x") [(txt "left", txt "1px")] [(txt "x", [])] (by decide)
    (Piece.decl (txt " ") (txt " ") (txt " ") [] (txt "left") (txt "1px") (by unfold AllWs; decide)
      (by unfold AllWs; decide) (by unfold AllWs; decide) (by unfold AllWs; decide) (by unfold Tight; decide)
      (by unfold Tight; decide) (by decide))
    (Spells.more [] (txt " x") [] [(txt "x", [])] (by decide) (.blank _ (by unfold AllWs; decide))
      (.last _ _ (by decide) (Piece.bare (txt " ") [] (txt "x") (by unfold AllWs; decide) (by unfold AllWs; decide)
        (by unfold Tight; decide) (by decide) (by decide))))

/-- C48.  The text an inline style is turned into for the CSS parser stands for exactly its entries, in their order: read
back, it is the same inline style, whatever operations built it. -/
theorem C48_text_round_trip (ws : Char → Bool) (hcol : ws ':' = false) (hsp : ws ' ' = true) (hnl : ws '\n' = true)
    (ops : List StyleOp) (h : ∀ k v, StyleOp.set k v ∈ ops → Writable ws (k, v)) :
    Spells ws (cssText (ops.foldl StyleOp.apply [])) (survivors ops) ∧
    fromStr ws (cssText (ops.foldl StyleOp.apply [])) = ops.foldl StyleOp.apply [] := by
  rw [run_ops]
  have hw : ∀ p ∈ survivors ops, Writable ws p := by
    induction ops with
    | nil => intro p hp; cases hp
    | cons o ops ih =>
      have ih := ih fun k v hm => h k v (List.mem_cons_of_mem _ hm)
      cases o with
      | remove k => exact ih
      | set k v =>
        intro p hp
        rw [survivors] at hp
        split at hp
        · exact ih p hp
        · rcases List.mem_cons.1 hp with rfl | hp
          · exact h k v List.mem_cons_self
          · exact ih p hp
  have hsp := spells_cssText ws hsp hnl (survivors ops) hw
  refine ⟨hsp, ?_⟩
  rw [show fromStr ws (cssText (survivors ops)) = fromIter (survivors ops) from fromStr_spells ws hcol _ _ hsp []]
  exact fromIter_nodup _ (survivors_nodup ops)

example : Writable isWs (txt "left", txt "calc(1px + 2px)") := by
  unfold Writable Tight; decide

/-- C48, a limit.  The split at semicolons knows no quotes: a semicolon inside a string ends the declaration. -/
theorem C48_semicolon_in_string :
    fromStr isWs (txt "--t: 'a;b'") = [(txt "--t", txt "'a"), (txt "b'", [])] := by decide +kernel

/-! ## C49 -/
section
variable {E I : Type} [DecidableEq E]

/-- C49, the part that holds.  In any history in which no written style has a parse problem, after each run of the system
every entity with an inline style has the ruleset made from that style's declarations. -/
theorem C49_independent_partial (parse : Text → List (Parsed I)) (evs : List (Event E)) (w : World E I)
    (h : Reach parse (freshWorld E I) evs w) (hclean : ∀ e s, Event.write e s ∈ evs → Clean parse s)
    (hrun : ∃ order, evs.getLast? = some (.run order)) (e : E) (s : Style) (hs : w.inline e = some s) :
    w.raw e = some (itemsOf parse s) := by
  have key : ∀ (w0 w : World E I) (evs : List (Event E)), Reach parse w0 evs w →
      (∀ e s, Event.write e s ∈ evs → Clean parse s) →
      (∀ e s, w0.inline e = some s → Clean parse s ∧ (w0.changed e = true ∨ w0.raw e = some (itemsOf parse s))) →
      ((∃ order, evs.getLast? = some (.run order)) ∨ (evs = [] ∧ ∀ e, w0.changed e = false)) →
      ∀ e s, w.inline e = some s → w.raw e = some (itemsOf parse s) := by
    intro w0 w evs h
    induction h with
    | done w0 =>
      intro _ hinv hl e s hs
      rcases hl with ⟨o, ho⟩ | ⟨_, hl⟩
      · cases ho
      · rcases (hinv e s hs).2 with hc | hr
        · rw [hl e] at hc; cases hc
        · exact hr
    | write w0 x t evs w' _ ih =>
      intro hcl hinv hl
      refine ih (fun e s hm => hcl e s (List.mem_cons_of_mem _ hm)) ?_ ?_
      · intro e s hs
        simp only [World.event] at hs ⊢
        by_cases hx : e = x
        · simp only [hx, if_true, Option.some.injEq] at hs
          subst hs
          exact ⟨hcl x t List.mem_cons_self, Or.inl (by simp [hx])⟩
        · simp only [hx, if_false] at hs ⊢
          exact hinv e s hs
      · rcases hl with ⟨o, ho⟩ | ⟨hl, _⟩
        · cases evs with
          | nil => simp at ho
          | cons a b => exact Or.inl ⟨o, by simpa using ho⟩
        · cases hl
    | remove w0 x evs w' _ ih =>
      intro hcl hinv hl
      refine ih (fun e s hm => hcl e s (List.mem_cons_of_mem _ hm)) ?_ ?_
      · intro e s hs
        simp only [World.event] at hs ⊢
        by_cases hx : e = x
        · simp only [hx, if_true] at hs
          cases hs
        · simp only [hx, if_false] at hs ⊢
          exact hinv e s hs
      · rcases hl with ⟨o, ho⟩ | ⟨hl, _⟩
        · cases evs with
          | nil => simp at ho
          | cons a b => exact Or.inl ⟨o, by simpa using ho⟩
        · cases hl
    | run w0 order evs w' hq _ ih =>
      intro hcl hinv hl
      refine ih (fun e s hm => hcl e s (List.mem_cons_of_mem _ hm)) ?_ ?_
      · intro e s hs
        simp only [World.event, parseInline] at hs ⊢
        rw [parseLoop_inline] at hs
        refine ⟨(hinv e s hs).1, Or.inr ?_⟩
        by_cases he : e ∈ order
        · obtain ⟨l, r, rfl⟩ := List.append_of_mem he
          exact parseLoop_clean parse l e r w0 s hs hq.1 fun x _ t ht => (hinv x t ht).1
        · rw [parseLoop_notmem _ _ _ _ he]
          rcases (hinv e s hs).2 with hc | hr
          · exact absurd ((hq.2 e).2 ⟨by rw [hs]; rfl, hc⟩) he
          · exact hr
      · rcases hl with ⟨o, ho⟩ | ⟨hl, _⟩
        · cases evs with
          | nil => exact Or.inr ⟨rfl, fun _ => rfl⟩
          | cons a b => exact Or.inl ⟨o, by simpa using ho⟩
        · cases hl
  exact key _ _ _ h hclean (by intro e s hs; cases hs) (Or.inl hrun) e s hs

/-- C49, exactly what a run of the system does: an entity it visits is updated if no entity visited before it, and not it
itself, has a parse problem; otherwise its ruleset is left as it was.  Entities it does not visit are left alone. -/
theorem C49_run (parse : Text → List (Parsed I)) (w : World E I) (l r : List E) (e : E) (s : Style)
    (hq : w.Query (l ++ e :: r)) (hs : w.inline e = some s) :
    ((∀ x ∈ l ++ [e], ∀ t, w.inline x = some t → Clean parse t) →
      (w.event parse (.run (l ++ e :: r))).raw e = some (itemsOf parse s)) ∧
    ((∃ x ∈ l ++ [e], ∃ t, w.inline x = some t ∧ ¬Clean parse t) →
      (w.event parse (.run (l ++ e :: r))).raw e = w.raw e) ∧
    ∀ x ∉ l ++ e :: r, (w.event parse (.run (l ++ e :: r))).raw x = w.raw x := by
  refine ⟨fun hc => parseLoop_clean parse l e r w s hs hq.1 hc, ?_, fun x hx => parseLoop_notmem _ _ _ _ hx⟩
  rintro ⟨x, hx, t, ht, hb⟩
  have hel : e ∉ l := by
    have := hq.1
    rw [List.nodup_append] at this
    exact fun hm => this.2.2 e hm e List.mem_cons_self rfl
  rcases List.mem_append.1 hx with hx | hx
  · obtain ⟨a, b, rfl⟩ := List.append_of_mem hx
    have : a ++ x :: b ++ e :: r = a ++ x :: (b ++ e :: r) := by simp
    show (parseLoop parse (a ++ x :: b ++ e :: r) w).raw e = w.raw e
    rw [this]
    exact parseLoop_stuck parse a x _ w t ht hb e fun hm => hel (List.mem_append_left _ hm)
  · rw [List.mem_singleton] at hx
    subst hx
    exact parseLoop_stuck parse l x r w t ht hb x hel

/-- C49 fails: whenever one entity's new style has a parse problem (an error, or merely an `!important`), an entity that
the query yields after it keeps its old ruleset, although nothing is wrong with its style; and it keeps it in all later
frames, until its own style is written or removed again. -/
theorem C49_others_lost (parse : Text → List (Parsed I)) (w w' : World E I) (l m r : List E) (bad e : E) (t : Style)
    (hq : w.Query (l ++ bad :: m ++ e :: r)) (ht : w.inline bad = some t) (hb : ¬Clean parse t)
    (later : List (Event E)) (h : Reach parse w (.run (l ++ bad :: m ++ e :: r) :: later) w')
    (hl : ∀ ev ∈ later, ¬Touches e ev) : w'.raw e = w.raw e ∧ w'.inline e = w.inline e := by
  have he : e ∈ l ++ bad :: m ++ e :: r := by simp
  obtain ⟨s, hs⟩ := Option.isSome_iff_exists.1 ((hq.2 e).1 he).1
  have key : ∀ (w0 w : World E I) (evs : List (Event E)), Reach parse w0 evs w → (∀ ev ∈ evs, ¬Touches e ev) →
      w0.changed e = false → w.raw e = w0.raw e ∧ w.inline e = w0.inline e := by
    intro w0 w evs h
    induction h with
    | done => intro _ _; exact ⟨rfl, rfl⟩
    | write w0 x s evs w' _ ih =>
      intro hl hc
      have hx : e ≠ x := fun hx => hl _ List.mem_cons_self hx.symm
      have := ih (fun ev hm => hl ev (List.mem_cons_of_mem _ hm)) (by simpa [World.event, hx] using hc)
      simpa [World.event, hx] using this
    | remove w0 x evs w' _ ih =>
      intro hl hc
      have hx : e ≠ x := fun hx => hl _ List.mem_cons_self hx.symm
      have := ih (fun ev hm => hl ev (List.mem_cons_of_mem _ hm)) (by simpa [World.event, hx] using hc)
      simpa [World.event, hx] using this
    | run w0 order evs w' hq _ ih =>
      intro hl hc
      have := ih (fun ev hm => hl ev (List.mem_cons_of_mem _ hm)) rfl
      have hne : e ∉ order := fun hm => by
        have := ((hq.2 e).1 hm).2
        rw [hc] at this
        cases this
      rw [this.1, this.2]
      exact ⟨parseLoop_notmem _ _ _ _ hne, by simp only [World.event, parseInline]; rw [parseLoop_inline]⟩
  cases h with
  | run _ _ _ _ _ h =>
    obtain ⟨h1, h2⟩ := key _ _ _ h hl rfl
    rw [h1, h2]
    refine ⟨?_, by simp only [World.event, parseInline]; rw [parseLoop_inline]⟩
    have := (C49_run parse w (l ++ bad :: m) r e s hq hs).2.1 ⟨bad, by simp, t, ht, hb⟩
    exact this

/-! ## C69 -/

/-- C69 fails: taking the inline style away from an entity leaves its ruleset, in all later frames, until an inline style
is given to it again. -/
theorem C69_removal_ignored (parse : Text → List (Parsed I)) (w w' : World E I) (e : E) (later : List (Event E))
    (h : Reach parse w (.remove e :: later) w') (hl : ∀ s, Event.write e s ∉ later) : w'.raw e = w.raw e := by
  have key : ∀ (w0 w : World E I) (evs : List (Event E)), Reach parse w0 evs w → (∀ s, Event.write e s ∉ evs) →
      w0.inline e = none → w.raw e = w0.raw e := by
    intro w0 w evs h
    induction h with
    | done => intro _ _; rfl
    | write w0 x s evs w' _ ih =>
      intro hl hc
      have hx : e ≠ x := fun hx => hl s (by rw [hx]; exact List.mem_cons_self)
      exact ih (fun s hm => hl s (List.mem_cons_of_mem _ hm)) (by simpa [World.event, hx] using hc)
    | remove w0 x evs w' _ ih =>
      intro hl hc
      exact ih (fun s hm => hl s (List.mem_cons_of_mem _ hm)) (by
        simp only [World.event]
        split
        · rfl
        · exact hc)
    | run w0 order evs w' hq _ ih =>
      intro hl hc
      have hne : e ∉ order := fun hm => by
        have := ((hq.2 e).1 hm).1
        rw [hc] at this
        cases this
      rw [ih (fun s hm => hl s (List.mem_cons_of_mem _ hm)) (by
        simp only [World.event, parseInline]; rw [parseLoop_inline]; exact hc)]
      exact parseLoop_notmem _ _ _ _ hne
  cases h with
  | remove _ _ _ _ h => exact (key _ _ _ h hl (by simp [World.event])).trans rfl

/-- C69, the part that holds.  Writing an inline style without declarations clears the ruleset with the next run (when no
entity visited before has a parse problem). -/
theorem C69_clear_partial (parse : Text → List (Parsed I)) (hp : parse [] = []) (w : World E I) (l r : List E) (e : E)
    (hq : (w.event parse (.write e [])).Query (l ++ e :: r))
    (hc : ∀ x ∈ l, ∀ t, w.inline x = some t → Clean parse t) :
    ((w.event parse (.write e [])).event parse (.run (l ++ e :: r))).raw e = some [] := by
  have hi : (w.event parse (.write e [])).inline e = some [] := by simp [World.event]
  have h0 : Clean parse [] := by intro p hm; simp [cssText, hp] at hm
  have := (C49_run parse _ l r e [] hq hi).1 (by
    intro x hx t ht
    by_cases hxe : x = e
    · subst hxe
      rw [hi] at ht
      cases ht
      exact h0
    · rcases List.mem_append.1 hx with hx | hx
      · refine hc x hx t ?_
        simpa [World.event, hxe] using ht
      · exact absurd (List.mem_singleton.1 hx) hxe)
  rw [this]
  simp [itemsOf, cssText, hp]

end

/-- a parser for the examples: one item per line, an error for a text containing `?` -/
private def toyParse (t : Text) : List (Parsed Nat) :=
  if '?' ∈ t then [.error] else if t = [] then [] else [.item t.length false]

private def toyWorld (w : World Nat Nat) : World Nat Nat :=
  ((w.event toyParse (.write 0 [(txt "left", txt "?")])).event toyParse (.write 1 [(txt "top", txt "3px")]))

/-- a frame in which entity 0 has a problem and entity 1 has none, visited in this order -/
example : (toyWorld (freshWorld Nat Nat)).Query [0, 1] ∧ ¬Clean toyParse [(txt "left", txt "?")] ∧
    Clean toyParse [(txt "top", txt "3px")] ∧
    ((toyWorld (freshWorld Nat Nat)).event toyParse (.run [0, 1])).raw 1 = none ∧
    ((toyWorld (freshWorld Nat Nat)).event toyParse (.run [1, 0])).raw 1 = some [10] := by
  refine ⟨⟨by decide, ?_⟩, ?_, ?_, by decide +kernel, by decide +kernel⟩
  · intro e
    simp only [toyWorld, World.event, freshWorld, List.mem_cons, List.not_mem_nil, or_false]
    by_cases h0 : e = 0 <;> by_cases h1 : e = 1 <;> simp [h0, h1]
  · intro h
    obtain ⟨i, hi⟩ := h .error (by decide +kernel)
    cases hi
  · intro p hp
    rw [show toyParse (cssText [(txt "top", txt "3px")]) = [.item 10 false] by decide +kernel] at hp
    exact ⟨10, List.mem_singleton.1 hp⟩

/-- a history for the theorems about later frames -/
example : Reach toyParse (freshWorld Nat Nat) [.write 1 [(txt "top", txt "3px")], .run [1]]
    (((freshWorld Nat Nat).event toyParse (.write 1 [(txt "top", txt "3px")])).event toyParse (.run [1])) := by
  refine .write _ _ _ _ _ (.run _ _ _ _ ⟨by decide, ?_⟩ (.done _))
  intro e
  simp only [World.event, freshWorld, List.mem_singleton]
  by_cases h1 : e = 1 <;> simp [h1]

end Flair.Props
