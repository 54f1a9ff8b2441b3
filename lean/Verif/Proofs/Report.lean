import Verif.Spec.Report
import Verif.Proofs.File
import Verif.Tactics
/-!
# Lemmas for C97
-/
namespace Flair.Proofs.Report
open Flair.Report Flair.Spec
open Flair.File (Text byteLen slice)
open Flair.Proofs.File (slice_ok slice_some)

/-- The UTF-16 units of a text -/
def units (t : Text) : Nat := (t.map utf16Len).sum

theorem utf16_pos (c : Char) : 0 < utf16Len c := by unfold utf16Len; split <;> omega

theorem byteLen_nil : byteLen [] = 0 := rfl
theorem byteLen_cons (c : Char) (t : Text) : byteLen (c :: t) = c.utf8Size + byteLen t := by simp [byteLen]
theorem byteLen_append (a b : Text) : byteLen (a ++ b) = byteLen a + byteLen b := by simp [byteLen]
theorem byteLen_pos {t : Text} (h : t ≠ []) : 0 < byteLen t := by
  cases t with
  | nil => exact absurd rfl h
  | cons c t => rw [byteLen_cons]; have := Char.utf8Size_pos c; omega

theorem advance_plain {t : Text} (h : ∀ c ∈ t, ¬ LineBreak c) (rest : Text) (l : Loc) :
    advance (t ++ rest) l = advance rest ⟨l.line, l.column + units t⟩ := by
  induction t generalizing l with
  | nil => rfl
  | cons c t ih =>
    have hc := h c (by simp)
    have ht := ih (fun x hx => h x (by simp [hx]))
    rw [List.cons_append]
    rw [advance.eq_def]
    split
    · rename_i e; cases e
    · rename_i e; exact absurd (.inr (.inl (List.cons.inj e).1)) hc
    · rename_i e
      cases e
      rw [if_neg (by exact hc), ht]
      simp [units, Nat.add_assoc]

theorem advance_end {e : Text} (he : e = ['\n'] ∨ e = ['\r', '\n']) (rest : Text) (l : Loc) :
    advance (e ++ rest) l = advance rest ⟨l.line + 1, 1⟩ := by
  rcases he with rfl | rfl
  · show advance ('\n' :: rest) l = _
    rw [advance.eq_def]; simp
  · show advance ('\r' :: '\n' :: rest) l = _
    simp only [advance]

theorem stripCr_plain {t : Text} (h : ∀ c ∈ t, ¬ LineBreak c) : stripCr t = t := by
  induction t with
  | nil => rfl
  | cons c t ih =>
    have hc := h c (by simp)
    rw [stripCr.eq_def]
    split
    · rename_i e; cases e
    · rename_i e; cases e; exact absurd (.inr (.inl rfl)) hc
    · rename_i e; cases e; rw [ih (fun x hx => h x (by simp [hx]))]

theorem stripCr_cr {t : Text} (h : ∀ c ∈ t, ¬ LineBreak c) : stripCr (t ++ ['\r']) = t := by
  induction t with
  | nil => rfl
  | cons c t ih =>
    rw [List.cons_append, stripCr.eq_def]
    split
    · rename_i e; cases e
    · rename_i e
      have : t ++ ['\r'] = [] := (List.cons.inj e).2
      simp at this
    · rename_i e; cases e; rw [ih (fun x hx => h x (by simp [hx]))]

theorem linesFrom_plain {t : Text} (h : ∀ c ∈ t, ¬ LineBreak c) (off : Nat) (acc rest : Text) :
    linesFrom off acc (t ++ rest) = linesFrom off (acc ++ t) rest := by
  induction t generalizing acc with
  | nil => simp
  | cons c t ih =>
    have hc : c ≠ '\n' := fun e => h c (by simp) (.inl e)
    rw [List.cons_append, linesFrom, if_neg hc, ih (fun x hx => h x (by simp [hx]))]
    simp

theorem linesFrom_end {t e : Text} (h : ∀ c ∈ t, ¬ LineBreak c) (he : e = ['\n'] ∨ e = ['\r', '\n']) (off : Nat)
    (rest : Text) : linesFrom off [] (t ++ e ++ rest) = (off, t) :: linesFrom (off + byteLen (t ++ e)) [] rest := by
  rw [List.append_assoc, linesFrom_plain h]
  rcases he with rfl | rfl
  · simp only [List.nil_append, List.cons_append]
    rw [linesFrom, if_pos rfl, stripCr_plain h, byteLen_append]
    rfl
  · simp only [List.nil_append, List.cons_append]
    rw [linesFrom, if_neg (by decide), linesFrom, if_pos rfl, stripCr_cr h]
    simp only [byteLen_append]
    rfl

/-- Whole lines before a place -/
theorem whole {before : Text} (h : WholeLines before) : ∃ n, (∀ rest k,
    advance (before ++ rest) ⟨k, 1⟩ = advance rest ⟨k + n, 1⟩) ∧ ∀ off rest, ∃ L : List (Nat × Text), L.length = n ∧
      linesFrom off [] (before ++ rest) = L ++ linesFrom (off + byteLen before) [] rest := by
  induction h with
  | nil => exact ⟨0, fun _ _ => rfl, fun _ _ => ⟨[], rfl, rfl⟩⟩
  | @cons l e r hl he _ ih =>
    obtain ⟨n, h1, h2⟩ := ih
    refine ⟨n + 1, ?_, ?_⟩
    · intro rest k
      rw [List.append_assoc, List.append_assoc, advance_plain hl, advance_end he, h1]
      congr 2; simp only []; omega
    · intro off rest
      obtain ⟨L, hL, e2⟩ := h2 (off + byteLen (l ++ e)) rest
      refine ⟨(off, l) :: L, by simp [hL], ?_⟩
      rw [List.append_assoc, linesFrom_end hl he, e2]
      simp only [byteLen_append, Nat.add_assoc, List.cons_append]

theorem linesFrom_last {t after : Text} (h : ∀ c ∈ t, ¬ LineBreak c)
    (ha : after = [] ∨ ∃ r, after = '\n' :: r ∨ after = '\r' :: '\n' :: r) (off : Nat) :
    (linesFrom off [] (t ++ after))[0]? = if t = [] ∧ after = [] then none else some (off, t) := by
  rcases ha with rfl | ⟨r, rfl | rfl⟩
  · rw [linesFrom_plain h]
    by_cases ht : t = [] <;> simp [ht, linesFrom]
  · have := linesFrom_end h (.inl rfl) off r
    simp only [List.append_assoc, List.cons_append, List.nil_append] at this
    simp [this]
  · have := linesFrom_end h (.inr rfl) off r
    simp only [List.append_assoc, List.cons_append, List.nil_append] at this
    simp [this]

theorem columnOffset_ok (a b : Text) : columnOffset (a ++ b) (units a) = some (byteLen a) := by
  induction a with
  | nil => cases b <;> rfl
  | cons c a ih =>
    have hpos := utf16_pos c
    have hu : units (c :: a) = (utf16Len c - 1 + units a) + 1 := by
      simp only [units, List.map_cons, List.sum_cons]; omega
    rw [List.cons_append, hu]
    unfold columnOffset
    rw [if_pos (by omega)]
    have : utf16Len c - 1 + units a + 1 - utf16Len c = units a := by omega
    rw [this, ih]
    simp [byteLen_cons]

theorem slice_isSome (t : Text) (n : Nat) : (slice t n).isSome ↔ ∃ q, q <+: t ∧ byteLen q = n := by
  rw [Option.isSome_iff_exists]
  constructor
  · rintro ⟨q, h⟩
    obtain ⟨b, rfl, hb⟩ := slice_some h
    exact ⟨q, ⟨b, rfl⟩, hb⟩
  · rintro ⟨q, ⟨b, rfl⟩, rfl⟩
    exact ⟨q, slice_ok q b⟩

/-- A prefix is known by its length -/
theorem prefix_len {a b t : Text} (ha : a <+: t) (hb : b <+: t) (h : byteLen a ≤ byteLen b) : a <+: b := by
  rcases List.prefix_or_prefix_of_prefix ha hb with h1 | ⟨c, rfl⟩
  · exact h1
  · rw [byteLen_append] at h
    have : c = [] := by
      by_contra hc
      have := byteLen_pos hc
      omega
    subst this
    simp

theorem size_one_iff (l : Text) (hl : l ≠ []) :
    (slice l (byteLen l - 1)).isSome ↔ ∃ c, l.getLast? = some c ∧ c.utf8Size = 1 := by
  rcases List.eq_nil_or_concat l with rfl | ⟨a, c, rfl⟩
  · exact absurd rfl hl
  rw [slice_isSome, List.concat_eq_append, byteLen_append, byteLen_cons, byteLen_nil]
  have hp := Char.utf8Size_pos c
  constructor
  · rintro ⟨q, h1, h2⟩
    refine ⟨c, by simp, ?_⟩
    rcases List.prefix_concat_iff.1 h1 with rfl | h1
    · rw [byteLen_append, byteLen_cons, byteLen_nil] at h2; omega
    · obtain ⟨r, rfl⟩ := h1
      rw [byteLen_append] at h2; omega
  · rintro ⟨d, h, hd⟩
    simp at h
    subst h
    exact ⟨a, ⟨[c], rfl⟩, by omega⟩

/-- The line of the error is found -/
theorem line_found {before left right after : Text} (h : InLine before left right after) :
    ∃ n, locationAt (before ++ left) = ⟨n, 1 + units left⟩ ∧
      (lines (before ++ left ++ right ++ after))[n]? =
        if left ++ right = [] ∧ after = [] then none else some (byteLen before, left ++ right) := by
  obtain ⟨n, h1, h2⟩ := whole h.lines
  refine ⟨n, ?_, ?_⟩
  · have := h1 left 0
    rw [locationAt, this]
    have := advance_plain h.left [] ⟨0 + n, 1⟩
    rw [List.append_nil] at this
    rw [this]
    simp [advance]
  · obtain ⟨L, hL, e⟩ := h2 0 (left ++ right ++ after)
    have hx : ∀ c ∈ left ++ right, ¬ LineBreak c := by
      intro c hc
      rcases List.mem_append.1 hc with hc | hc
      · exact h.left c hc
      · exact h.right c hc
    have := linesFrom_last hx h.stop (0 + byteLen before)
    rw [lines]
    have e' : before ++ left ++ right ++ after = before ++ (left ++ right ++ after) := by simp
    rw [e', e, List.getElem?_append_right (by omega), hL, Nat.sub_self, this]
    simp

theorem lineRange_iff (start len : Nat) (left right : Text) (r : Nat × Nat) :
    lineRange start (left ++ right) (1 + units left) len = some r ↔
      (right = [] ∧ (∃ c, left.getLast? = some c ∧ c.utf8Size = 1) ∧
          r = (start + byteLen left - 1, start + byteLen left)) ∨
        right ≠ [] ∧ (∃ q, q <+: right ∧ byteLen q = len) ∧ r = (start + byteLen left, start + byteLen left + len) := by
  rw [lineRange, Nat.add_sub_cancel_left, columnOffset_ok, Option.bind_some]
  by_cases hr : right = []
  · subst hr
    rw [List.append_nil, if_pos (Nat.le_refl _)]
    by_cases hl : left = []
    · subst hl; simp
    · rw [if_neg hl, subRange]
      have hp := byteLen_pos hl
      have h2 : (slice left (byteLen left)).isSome := (slice_isSome _ _).2 ⟨left, List.prefix_refl _, rfl⟩
      have h3 := size_one_iff left hl
      by_cases hs : (slice left (byteLen left - 1)).isSome
      · rw [if_pos ⟨by omega, hs, h2⟩]
        have := h3.1 hs
        simp only [Option.some.injEq, true_and, this, ne_eq, not_true_eq_false, false_and, or_false]
        rw [show start + (byteLen left - 1) = start + byteLen left - 1 by omega]
        exact eq_comm
      · rw [if_neg (fun h => hs h.2.1)]
        have : ¬ _ := fun h => hs (h3.2 h)
        simp only [reduceCtorEq, this, false_and, and_false, ne_eq, not_true_eq_false, or_false]
  · have hp := byteLen_pos hr
    rw [if_neg (by rw [byteLen_append]; omega), subRange]
    have h1 : (slice (left ++ right) (byteLen left)).isSome := by rw [slice_ok]; rfl
    have h2 : (slice (left ++ right) (byteLen left + len)).isSome ↔ ∃ q, q <+: right ∧ byteLen q = len := by
      rw [slice_isSome]
      constructor
      · rintro ⟨q, hq, e⟩
        obtain ⟨s, rfl⟩ := prefix_len (List.prefix_append left right) hq (by omega)
        refine ⟨s, (List.prefix_append_right_inj _).1 hq, ?_⟩
        rw [byteLen_append] at e; omega
      · rintro ⟨q, hq, e⟩
        exact ⟨left ++ q, (List.prefix_append_right_inj _).2 hq, by rw [byteLen_append, e]⟩
    simp only [hr, false_and, false_or, ne_eq, not_false_eq_true, true_and]
    by_cases hs : (slice (left ++ right) (byteLen left + len)).isSome
    · rw [if_pos ⟨by omega, h1, hs⟩]
      simp only [h2.1 hs, true_and, Option.some.injEq, ← Nat.add_assoc]
      exact eq_comm
    · rw [if_neg (fun h => hs h.2.2)]
      have : ¬ _ := fun h => hs (h2.2 h)
      simp [this]

end Flair.Proofs.Report
namespace Flair.Proofs.Report
open Flair.Report Flair.Spec
open Flair.File (Text byteLen slice)

theorem stripCr_prefix (t : Text) : stripCr t <+: t := by
  fun_induction stripCr t with
  | case1 => exact List.prefix_refl _
  | case2 => exact List.nil_prefix
  | case3 c cs _ ih => exact (List.prefix_cons_inj c).2 ih

/-- The lines are parts of the text -/
theorem linesFrom_mem {off : Nat} {acc rest : Text} {x : Nat × Text} (h : x ∈ linesFrom off acc rest) (pre : Text)
    (hp : byteLen pre = off) : ∃ u v, pre ++ acc ++ rest = u ++ x.2 ++ v ∧ byteLen u = x.1 := by
  fun_induction linesFrom off acc rest generalizing pre with
  | case1 => simp at h
  | case2 off acc ha =>
    simp only [List.mem_singleton] at h
    subst h
    exact ⟨pre, [], by simp, hp⟩
  | case3 off acc cs ih =>
    rcases List.mem_cons.1 h with rfl | h
    · obtain ⟨w, hw⟩ := stripCr_prefix acc
      refine ⟨pre, w ++ '\n' :: cs, ?_, hp⟩
      conv => lhs; rw [← hw]
      simp
    · obtain ⟨u, v, e, hu⟩ := ih h (pre ++ acc ++ ['\n']) (by
        rw [byteLen_append, byteLen_append, hp]; rfl)
      exact ⟨u, v, by rw [← e]; simp, hu⟩
  | case4 off acc c cs hc ih =>
    obtain ⟨u, v, e, hu⟩ := ih h pre hp
    exact ⟨u, v, by rw [← e]; simp, hu⟩

theorem subRange_covers {start : Nat} {line contents u v : Text} {a b : Nat} {r : Nat × Nat}
    (h : subRange start line a b = some r) (e : contents = u ++ line ++ v) (hu : byteLen u = start) :
    ∃ part, Covers contents r.1 r.2 part := by
  rw [subRange] at h
  split at h
  · rename_i hh
    obtain ⟨hab, ha, hb⟩ := hh
    cases h
    obtain ⟨qa, pa, la⟩ := (slice_isSome _ _).1 ha
    obtain ⟨qb, pb, lb⟩ := (slice_isSome _ _).1 hb
    obtain ⟨part, rfl⟩ := prefix_len pa pb (by omega)
    obtain ⟨w, rfl⟩ := pb
    refine ⟨part, u ++ qa, w ++ v, by rw [e]; simp, by rw [byteLen_append]; omega, ?_⟩
    rw [byteLen_append] at lb
    simp only []
    omega
  · cases h

theorem lines_none {t : Text} (h : '\n' ∉ t) (off : Nat) (acc : Text) : (linesFrom off acc t).length ≤ 1 := by
  induction t generalizing acc with
  | nil => rw [linesFrom]; split <;> simp
  | cons c t ih =>
    rw [linesFrom, if_neg (fun e => h (by simp [e]))]
    exact ih (fun hx => h (by simp [hx])) _

theorem advance_le (t : Text) (l : Loc) : l.line ≤ (advance t l).line := by
  fun_induction advance t l with
  | case1 => exact Nat.le_refl _
  | case2 _ _ ih => exact Nat.le_trans (Nat.le_succ _) ih
  | case3 _ _ _ _ _ ih => exact Nat.le_trans (Nat.le_succ _) ih
  | case4 _ _ _ _ _ ih => exact ih

theorem advance_break {t : Text} (h : ∃ c ∈ t, LineBreak c) (l : Loc) : l.line < (advance t l).line := by
  fun_induction advance t l with
  | case1 => simp at h
  | case2 cs l ih => exact advance_le cs ⟨l.line + 1, 1⟩
  | case3 _ cs l _ _ ih => exact advance_le cs ⟨l.line + 1, 1⟩
  | case4 c cs l _ hc ih =>
    apply ih
    obtain ⟨d, hd, hb⟩ := h
    rcases List.mem_cons.1 hd with rfl | hd
    · exact absurd hb hc
    · exact ⟨d, hd, hb⟩

end Flair.Proofs.Report
