import Verif.Proofs.Structure
/-! # Selectors with structural pseudo classes, as programs -/
namespace Flair.Proofs.Structure
set_option linter.unusedSectionVars false
open Flair.Tree Flair.Spec Flair.Structure
open Flair.Invalidation (Flags Dir FlagMap Comb WalkTo walkTo_none reached_iff step_prev_iff)
variable {E D A : Type} [DecidableEq E]

/-- The outcome of a piece of matching: it goes on with `kt` or `kf`, with more handles. -/
def Ends (w : EWorld E D) (p : SProg D A) (T : Prop) (kt kf : Nat → SProg D A) (hs : List E) (fl : FlagMap E)
    (c : CssMap E) : Prop :=
  ∃ ext fl' c', (T ∧ run w p hs fl c = run w (kt (hs ++ ext).length) (hs ++ ext) fl' c') ∨
    (¬ T ∧ run w p hs fl c = run w (kf (hs ++ ext).length) (hs ++ ext) fl' c')

theorem step_next_iff (w : EWorld E D) (e x : E) : w.step .next e = some x ↔ NextOf w e x := by
  rw [step_eq_some]; rfl

theorem compound_ends (w : EWorld E D) (cs : List (Simple D)) : ∀ (h len : Nat) (kt kf : Nat → SProg D A) (hs : List E)
    (fl : FlagMap E) (c : CssMap E) (x : E), hs.length = len → hs[h]? = some x →
      Ends w (compound cs h len kt kf) (∀ s ∈ cs, SimpleMatches w x s) kt kf hs fl c := by
  induction cs with
  | nil =>
    intro h len kt kf hs fl c x hlen hx
    exact ⟨[], fl, c, .inl ⟨by simp, by simp [compound, hlen]⟩⟩
  | cons s cs ih =>
    intro h len kt kf hs fl c x hlen hx
    have hcons : (∀ t ∈ s :: cs, SimpleMatches w x t) ↔ SimpleMatches w x s ∧ ∀ t ∈ cs, SimpleMatches w x t := by simp
    -- either the simple selector fails, or the rest decides
    have key : (¬ SimpleMatches w x s ∧ ∃ ext fl' c', run w (compound (s :: cs) h len kt kf) hs fl c =
          run w (kf (hs ++ ext).length) (hs ++ ext) fl' c') ∨
        (SimpleMatches w x s ∧ ∃ c', run w (compound (s :: cs) h len kt kf) hs fl c =
          run w (compound cs h len kt kf) hs fl c') := by
      cases s with
      | test t =>
        simp only [compound, run, hx, Option.map_some, Option.getD_some]
        cases hc : t (w.data x) with
        | false => exact .inl ⟨by simp [SimpleMatches, hc], [], fl, c, by simp [hlen]⟩
        | true => exact .inr ⟨hc, c, by simp⟩
      | empty =>
        simp only [compound, run, hx, Option.map_some, Option.getD_some]
        cases hc : (w.forest.children x).isEmpty with
        | false => exact .inl ⟨by simpa [SimpleMatches] using hc, [], fl, applyFlags c { empty := true } (some x), by simp [hlen]⟩
        | true => exact .inr ⟨by simpa [SimpleMatches] using hc, applyFlags c { empty := true } (some x), by simp⟩
      | first =>
        simp only [compound, run, hx, Option.bind_some]
        cases hc : w.step .prev x with
        | none =>
          refine .inr ⟨fun y hy => ?_, applyFlags c { edge := true } (some x), by simp⟩
          rw [← step_prev_iff, hc] at hy; cases hy
        | some y =>
          refine .inl ⟨fun hf => hf y ((step_prev_iff _ _ _).mp hc), [y], fl.insert y Dir.prev.flag, applyFlags c { edge := true } (some x), ?_⟩
          simp [hlen]
      | last =>
        simp only [compound, run, hx, Option.bind_some]
        cases hc : w.step .next x with
        | none =>
          refine .inr ⟨fun y hy => ?_, applyFlags c { edge := true } (some x), by simp⟩
          rw [← step_next_iff, hc] at hy; cases hy
        | some y =>
          refine .inl ⟨fun hf => hf y ((step_next_iff _ _ _).mp hc), [y], fl.insert y Dir.next.flag, applyFlags c { edge := true } (some x), ?_⟩
          simp [hlen]
    unfold Ends
    rw [hcons]
    rcases key with ⟨hn, ext, fl', c', hr⟩ | ⟨hy, c', hr⟩
    · exact ⟨ext, fl', c', .inr ⟨fun h => hn h.1, hr⟩⟩
    · obtain ⟨ext, fl', c'', hc⟩ := ih h len kt kf hs fl c' x hlen hx
      refine ⟨ext, fl', c'', ?_⟩
      rw [hr]
      rcases hc with ⟨h1, h2⟩ | ⟨h1, h2⟩
      · exact .inl ⟨⟨hy, h1⟩, h2⟩
      · exact .inr ⟨fun h => h1 h.2, h2⟩

theorem walk_ends (w : EWorld E D) (d : Dir) (loops : Bool)
    (test : Nat → Nat → (Nat → SProg D A) → SProg D A) (kt kf : Nat → SProg D A) (T : E → Prop)
    (htest : ∀ h len kf' hs fl c y, hs.length = len → hs[h]? = some y → Ends w (test h len kf') (T y) kt kf' hs fl c)
    (n : Nat) : ∀ (h len : Nat) (hs : List E) (fl : FlagMap E) (c : CssMap E) (x : E), hs.length = len → hs[h]? = some x →
      (∀ l, List.IsChain (fun a b => w.step d a = some b) (x :: l) → l.length < n) →
      Ends w (walk d loops test kf n h len) (∃ y, WalkTo w d loops x y ∧ T y) kt kf hs fl c := by
  induction n with
  | zero =>
    intro h len hs fl c x _ _ hb
    exact absurd (hb [] (by simp)) (by simp)
  | succ n ih =>
    intro h len hs fl c x hlen hx hb
    unfold walk
    cases hst : w.step d x with
    | none =>
      refine ⟨[], fl, c, .inr ⟨?_, ?_⟩⟩
      · rintro ⟨y, hy, _⟩
        exact walkTo_none hst loops y hy
      · rw [run, hx]
        simp [hst, hlen]
    | some y =>
      have hrun : run w (SProg.move d h fun found => if found = true then test len (len + 1) fun len' =>
            if loops = true then walk d loops test kf n len len' else kf len' else kf len) hs fl c =
          run w (test len (len + 1) fun len' => if loops = true then walk d loops test kf n len len' else kf len')
            (hs ++ [y]) (fl.insert y d.flag) c := by
        rw [run, hx]
        simp [hst]
      obtain ⟨ext, fl', c', hcase⟩ := htest len (len + 1)
        (fun len' => if loops = true then walk d loops test kf n len len' else kf len') (hs ++ [y])
        (fl.insert y d.flag) c y (by simp [hlen]) (by simp [← hlen])
      rw [← hrun] at hcase
      rcases hcase with ⟨ht, hr⟩ | ⟨ht, hr⟩
      · refine ⟨y :: ext, fl', c', .inl ⟨⟨y, ?_, ht⟩, ?_⟩⟩
        · cases loops
          · exact hst
          · exact .one hst
        · rw [hr]; simp
      · cases loops with
        | false =>
          refine ⟨y :: ext, fl', c', .inr ⟨?_, ?_⟩⟩
          · rintro ⟨z, hz, hz'⟩
            change w.step d x = some z at hz
            rw [hst] at hz; cases hz
            exact ht hz'
          · rw [hr]; simp
        | true =>
          dsimp only at hr
          rw [if_pos (c := true = true) rfl (t := walk d true test kf n len (hs ++ [y] ++ ext).length)] at hr
          have hb' : ∀ l, List.IsChain (fun a b => w.step d a = some b) (y :: l) → l.length < n := by
            intro l hl
            have := hb (y :: l) (List.IsChain.cons_cons hst hl)
            simpa using this
          obtain ⟨ext2, fl2, c2, hc2⟩ := ih len (hs ++ [y] ++ ext).length (hs ++ [y] ++ ext) fl' c' y rfl
            (by simp [← hlen]) hb'
          have hiff : (∃ z, WalkTo w d true x z ∧ T z) ↔ ∃ z, WalkTo w d true y z ∧ T z := by
            constructor
            · rintro ⟨z, hz, hz'⟩
              cases hz with
              | one k => rw [hst] at k; cases k; exact absurd hz' ht
              | more k k' => rw [hst] at k; cases k; exact ⟨z, k', hz'⟩
            · rintro ⟨z, hz, hz'⟩
              exact ⟨z, .more hst hz, hz'⟩
          rw [hiff]
          refine ⟨y :: (ext ++ ext2), fl2, c2, ?_⟩
          rw [hr]
          simpa using hc2

theorem prog_ends {w : EWorld E D} {n : Nat} (hb : Bounded w n) (s : SSel D) :
    ∀ (h len : Nat) (kt kf : Nat → SProg D A) (hs : List E) (fl : FlagMap E) (c : CssMap E) (x : E), hs.length = len →
      hs[h]? = some x → Ends w (s.prog n h len kt kf) (SelMatches w s x) kt kf hs fl c := by
  induction s with
  | subject cs =>
    intro h len kt kf hs fl c x hlen hx
    exact compound_ends w cs h len kt kf hs fl c x hlen hx
  | comb l cb cs ih =>
    intro h len kt kf hs fl c x hlen hx
    have hiff : SelMatches w (.comb l cb cs) x ↔ (∀ s ∈ cs, SimpleMatches w x s) ∧
        ∃ y, WalkTo w cb.dir cb.loops x y ∧ SelMatches w l y := by
      conv => lhs; unfold SelMatches
      simp only [reached_iff]
    obtain ⟨ext, fl', c', h1⟩ := compound_ends w cs h len
      (fun len1 => combFlag cb h (walk cb.dir cb.loops (fun h' len' kf' => l.prog n h' len' kt kf') kf n h len1)) kf hs fl c x hlen hx
    unfold Ends
    rw [hiff]
    unfold SSel.prog
    rcases h1 with ⟨hT, hr⟩ | ⟨hF, hr⟩
    · have hx' : (hs ++ ext)[h]? = some x := by
        rw [List.getElem?_append_left (List.getElem?_eq_some_iff.mp hx).1]; exact hx
      have hcf : ∃ c2, run w (combFlag cb h (walk cb.dir cb.loops (fun h' len' kf' => l.prog n h' len' kt kf') kf n h (hs ++ ext).length))
          (hs ++ ext) fl' c' =
          run w (walk cb.dir cb.loops (fun h' len' kf' => l.prog n h' len' kt kf') kf n h (hs ++ ext).length) (hs ++ ext) fl' c2 := by
        unfold combFlag
        split
        · exact ⟨_, rfl⟩
        · exact ⟨_, rfl⟩
      obtain ⟨c2, hcf⟩ := hcf
      obtain ⟨ext2, fl2, c3, h3⟩ := walk_ends w cb.dir cb.loops (fun h' len' kf' => l.prog n h' len' kt kf') kt kf (SelMatches w l)
        (fun h len kf' hs fl c y h1 h2 => ih h len kt kf' hs fl c y h1 h2) n h (hs ++ ext).length (hs ++ ext) fl' c2 x rfl hx'
        (fun l' hl' => hb cb.dir x l' (by cases cb <;> simp [Comb.dir]) hl')
      refine ⟨ext ++ ext2, fl2, c3, ?_⟩
      rw [hr, hcf]
      rcases h3 with ⟨h4, h5⟩ | ⟨h4, h5⟩
      · exact .inl ⟨⟨hT, h4⟩, by simpa using h5⟩
      · exact .inr ⟨fun h => h4 h.2, by simpa using h5⟩
    · exact ⟨ext, fl', c', .inr ⟨fun h => hF h.1, hr⟩⟩

open Classical in
theorem sheetProg_result {w : EWorld E D} {n : Nat} (hb : Bounded w n) (sels : List (SSel D × Nat)) :
    ∀ (acc : List Nat) (len : Nat) (hs : List E) (fl : FlagMap E) (c : CssMap E) (e : E), hs.length = len → hs[0]? = some e →
      (run w (sheetProg n sels acc len) hs fl c).1 =
        acc ++ (sels.filter fun s => decide (SelMatches w s.1 e)).map Prod.snd := by
  induction sels with
  | nil => intro acc len hs fl c e _ _; simp [sheetProg, run]
  | cons s rest ih =>
    obtain ⟨s, id⟩ := s
    intro acc len hs fl c e hlen he
    unfold sheetProg
    obtain ⟨ext, fl', c', hc⟩ := prog_ends hb s 0 len (fun len' => sheetProg n rest (acc ++ [id]) len')
      (fun len' => sheetProg n rest acc len') hs fl c e hlen he
    have he' : (hs ++ ext)[0]? = some e := by
      rw [List.getElem?_append_left (List.getElem?_eq_some_iff.mp he).1]; exact he
    rcases hc with ⟨hm, hr⟩ | ⟨hm, hr⟩
    · rw [hr, ih _ _ _ _ _ e rfl he', List.filter_cons_of_pos (by simpa using hm)]
      simp
    · rw [hr, ih _ _ _ _ _ e rfl he', List.filter_cons_of_neg (by simpa using hm)]

/-! ## which of them look only where changes are noticed -/

/-- a simple selector that may be used -/
def SimpleOk (sib : Bool) (s : Simple D) : Prop := sib = true ∨ (s ≠ .first ∧ s ≠ .last)

theorem compound_snd (sib : Bool) (cs : List (Simple D)) (hcs : ∀ s ∈ cs, SimpleOk sib s) : ∀ (ks : List Place) (fs : List Nat)
    (h : Nat) (kd : Place) (kt kf : Nat → SProg D A), ks[h]? = some kd → kd ≠ .dark →
    (∀ ext fs, Snd sib (ks ++ ext) fs (kt (ks ++ ext).length)) → (∀ ext fs, Snd sib (ks ++ ext) fs (kf (ks ++ ext).length)) →
    Snd sib ks fs (compound cs h ks.length kt kf) := by
  induction cs with
  | nil =>
    intro ks fs h kd kt kf _ _ ht _
    simpa [compound] using ht [] fs
  | cons s cs ih =>
    intro ks fs h kd kt kf hk hd ht hf
    have ih := ih (fun s hs => hcs s (by simp [hs]))
    have hf0 : ∀ fs, Snd sib ks fs (kf ks.length) := fun fs => by simpa using hf [] fs
    have hs := hcs s (by simp)
    cases s with
    | test t =>
      unfold compound Snd
      refine ⟨by rw [hk]; simpa using hd, fun d => ?_⟩
      dsimp only
      split
      · exact ih ks fs h kd kt kf hk hd ht hf
      · exact hf0 fs
    | empty =>
      unfold compound Snd
      rw [if_pos ⟨rfl, (List.getElem?_eq_some_iff.mp hk).1⟩]
      unfold Snd
      refine ⟨by rw [hk]; simpa using hd, by simp, fun d => ?_⟩
      dsimp only
      split
      · exact ih ks _ h kd kt kf hk hd ht hf
      · exact hf0 _
    | first =>
      have hsib : sib = true := by rcases hs with h | h; exact h; exact absurd rfl h.1
      unfold compound Snd
      rw [if_neg (by simp)]
      unfold Snd
      refine ⟨by simpa using ih ks fs h kd kt kf hk hd ht hf, fun _ => hsib, ?_⟩
      intro kd0 hk0
      rw [hk] at hk0; cases hk0
      have : ∃ kd', kd.go .prev = some kd' := by cases kd <;> simp_all [Place.go]
      obtain ⟨kd', hg⟩ := this
      exact ⟨kd', hg, by simpa using hf [kd'] fs⟩
    | last =>
      have hsib : sib = true := by rcases hs with h | h; exact h; exact absurd rfl h.2
      unfold compound Snd
      rw [if_neg (by simp)]
      unfold Snd
      refine ⟨by simpa using ih ks fs h kd kt kf hk hd ht hf, fun _ => hsib, ?_⟩
      intro kd0 hk0
      rw [hk] at hk0; cases hk0
      have : ∃ kd', kd.go .next = some kd' := by cases kd <;> simp_all [Place.go]
      obtain ⟨kd', hg⟩ := this
      exact ⟨kd', hg, by simpa using hf [kd'] fs⟩

theorem walk_snd (sib : Bool) (d : Dir) (loops : Bool) (test : Nat → Nat → (Nat → SProg D A) → SProg D A) (kf : Nat → SProg D A)
    (ks0 : List Place) (kd kd' : Place) (hsib : d ≠ .parent → sib = true)
    (hgo : kd.go d = some kd') (hgo' : loops = true → kd'.go d = some kd')
    (hkf : ∀ ext fs, Snd sib (ks0 ++ ext) fs (kf (ks0 ++ ext).length))
    (htest : ∀ ext fs h kf', (ks0 ++ ext)[h]? = some kd' →
      (∀ ext' fs, Snd sib (ks0 ++ ext ++ ext') fs (kf' (ks0 ++ ext ++ ext').length)) →
      Snd sib (ks0 ++ ext) fs (test h (ks0 ++ ext).length kf'))
    (n : Nat) : ∀ (ext : List Place) (fs : List Nat) (h : Nat),
      ((ks0 ++ ext)[h]? = some kd ∨ (loops = true ∧ (ks0 ++ ext)[h]? = some kd')) →
      Snd sib (ks0 ++ ext) fs (walk d loops test kf n h (ks0 ++ ext).length) := by
  induction n with
  | zero => intro ext fs h _; exact hkf ext fs
  | succ n ih =>
    intro ext fs h hh
    unfold walk Snd
    refine ⟨by simpa using hkf ext fs, hsib, ?_⟩
    intro k hk
    have hk' : k.go d = some kd' := by
      rcases hh with hh | ⟨hl, hh⟩
      · rw [hh] at hk; cases hk; exact hgo
      · rw [hh] at hk; cases hk; exact hgo' hl
    refine ⟨kd', hk', ?_⟩
    simp only [if_true]
    have := htest (ext ++ [kd']) fs (ks0 ++ ext).length
      (fun len' => if loops = true then walk d loops test kf n (ks0 ++ ext).length len' else kf len') (by simp) (by
        intro ext' fs
        cases loops with
        | false =>
          simp only [Bool.false_eq_true, if_false]
          have := hkf (ext ++ [kd'] ++ ext') fs
          simpa [List.append_assoc] using this
        | true =>
          simp only [if_true]
          have := ih (ext ++ [kd'] ++ ext') fs (ks0 ++ ext).length (.inr ⟨rfl, by
            rw [← List.append_assoc, ← List.append_assoc, List.getElem?_append_left (by simp)]
            simp⟩)
          simpa [List.append_assoc] using this)
    simpa [List.append_assoc, Nat.add_assoc] using this

/-- the selectors that may be used -/
def SelOk (sib : Bool) (s : SSel D) : Prop := if sib = true then SidewaysLast s else Upwards s ∧ NoEdge s

theorem upwards_sideways {s : SSel D} (h : Upwards s) : SidewaysLast s := by
  cases s with
  | subject c => trivial
  | comb l cb c =>
    unfold SidewaysLast
    rcases h.1 with rfl | rfl <;> simpa using h.2

/-- every compound of the selector -/
def AllSimple (P : Simple D → Prop) : SSel D → Prop
  | .subject c => ∀ s ∈ c, P s
  | .comb l _ c => (∀ s ∈ c, P s) ∧ AllSimple P l

theorem selOk_iff {sib : Bool} {s : SSel D} (h : SelOk sib s) : SidewaysLast s ∧ (sib = false → Upwards s) ∧ AllSimple (SimpleOk sib) s := by
  unfold SelOk at h
  cases sib with
  | true =>
    refine ⟨by simpa using h, by simp, ?_⟩
    clear h
    induction s with
    | subject c => intro s _; exact .inl rfl
    | comb l cb c ih => exact ⟨fun s _ => .inl rfl, ih⟩
  | false =>
    simp only [Bool.false_eq_true, if_false] at h
    refine ⟨upwards_sideways h.1, fun _ => h.1, ?_⟩
    have h2 := h.2
    clear h
    induction s with
    | subject c => intro s hs; exact .inr (h2 s hs)
    | comb l cb c ih => exact ⟨fun s hs => .inr (h2.1 s hs), ih h2.2⟩

theorem prog_snd (sib : Bool) (n : Nat) (s : SSel D) : ∀ (ks : List Place) (fs : List Nat) (h : Nat) (kd : Place)
    (kt kf : Nat → SProg D A), AllSimple (SimpleOk sib) s → (sib = false → Upwards s) →
    ks[h]? = some kd → ((kd = .self ∨ kd = .side) ∧ SidewaysLast s ∨ kd = .above ∧ Upwards s) →
    (∀ ext fs, Snd sib (ks ++ ext) fs (kt (ks ++ ext).length)) → (∀ ext fs, Snd sib (ks ++ ext) fs (kf (ks ++ ext).length)) →
    Snd sib ks fs (s.prog n h ks.length kt kf) := by
  induction s with
  | subject c =>
    intro ks fs h kd kt kf ha _ hh hk ht hf
    exact compound_snd sib c ha ks fs h kd kt kf hh (by rcases hk with ⟨h | h, _⟩ | ⟨h, _⟩ <;> simp [h]) ht hf
  | comb l cb c ih =>
    intro ks fs h kd kt kf ha hup hh hk ht hf
    have hd : kd ≠ .dark := by rcases hk with ⟨h | h, _⟩ | ⟨h, _⟩ <;> simp [h]
    refine compound_snd sib c ha.1 ks fs h kd _ kf hh hd ?_ hf
    intro ext fs
    have key : ∃ kd', kd.go cb.dir = some kd' ∧ (cb.loops = true → kd'.go cb.dir = some kd') ∧
          ((kd' = .self ∨ kd' = .side) ∧ SidewaysLast l ∨ kd' = .above ∧ Upwards l) := by
      rcases hk with ⟨hk, hs⟩ | ⟨hk, hs⟩
      · cases cb <;> simp only [SidewaysLast, reduceCtorEq, or_self, if_false, or_true, true_or, if_true] at hs <;>
          rcases hk with rfl | rfl <;> simp_all [Place.go, Comb.dir]
      · obtain ⟨hcb, hs⟩ := hs
        subst hk
        rcases hcb with rfl | rfl <;> simp_all [Place.go, Comb.dir]
    obtain ⟨kd', g1, g2, g3⟩ := key
    have hsib : cb.dir ≠ .parent → sib = true := by
      intro hne
      cases hsb : sib with
      | true => rfl
      | false =>
        rcases (hup hsb).1 with rfl | rfl <;> exact absurd rfl hne
    have hw : ∀ fs, Snd sib (ks ++ ext) fs
        (walk cb.dir cb.loops (fun h' len' kf' => l.prog n h' len' kt kf') kf n h (ks ++ ext).length) := by
      intro fs
      refine walk_snd sib cb.dir cb.loops (fun h' len' kf' => l.prog n h' len' kt kf') kf ks kd kd' hsib g1 g2 hf
        (by
          intro ext fs h kf' he hkf'
          refine ih (ks ++ ext) fs h kd' kt kf' ha.2 (fun hs => (hup hs).2) he g3 ?_ hkf'
          intro ext' fs
          have := ht (ext ++ ext') fs
          simpa [List.append_assoc] using this) n ext fs h (.inl ?_)
      rw [List.getElem?_append_left (List.getElem?_eq_some_iff.mp hh).1]; exact hh
    unfold combFlag
    split
    · unfold Snd
      exact hw _
    · exact hw _

theorem sheetProg_snd (sib : Bool) (n : Nat) (sels : List (SSel D × Nat)) (ht : ∀ s ∈ sels, SelOk sib s.1) :
    ∀ (acc : List Nat) (ks : List Place) (fs : List Nat), ks[0]? = some .self → Snd sib ks fs (sheetProg n sels acc ks.length) := by
  induction sels with
  | nil => intro acc ks fs _; trivial
  | cons s rest ih =>
    obtain ⟨s, id⟩ := s
    intro acc ks fs hk
    unfold sheetProg
    have h0 : ∀ ext : List Place, (ks ++ ext)[0]? = some .self := by
      intro ext
      rw [List.getElem?_append_left (List.getElem?_eq_some_iff.mp hk).1]; exact hk
    obtain ⟨o1, o2, o3⟩ := selOk_iff (ht (s, id) (by simp))
    refine prog_snd sib n s ks fs 0 .self _ _ o3 o2 hk (.inl ⟨.inl rfl, o1⟩) ?_ ?_
    · intro ext fs
      exact ih (fun s hs => ht s (by simp [hs])) _ _ _ (h0 ext)
    · intro ext fs
      exact ih (fun s hs => ht s (by simp [hs])) _ _ _ (h0 ext)

theorem sheetProg_flags (n : Nat) (sels : List (SSel D × Nat)) (h : EdgeFirst sels) (acc : List Nat) :
    FlagsFirst (sheetProg n sels acc 1) := by
  cases sels with
  | nil => cases h
  | cons s rest =>
    obtain ⟨s, id⟩ := s
    cases s with
    | subject c =>
      cases c with
      | nil => cases h
      | cons a c => cases a <;> simp_all [EdgeFirst, sheetProg, SSel.prog, compound, FlagsFirst, CssFlags.below]
    | comb l cb c =>
      cases c with
      | nil => cases h
      | cons a c => cases a <;> simp_all [EdgeFirst, sheetProg, SSel.prog, compound, FlagsFirst, CssFlags.below]

end Flair.Proofs.Structure
